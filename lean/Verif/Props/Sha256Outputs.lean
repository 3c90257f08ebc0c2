import Verif.Proofs.Sha256Outputs
import Verif.Props.CompilerOutputs
import Verif.Props.Merkle

/-!
# The output layer of the SHA-256 benchmark

The program of `write64` names many outputs, and a block is accepted when all of them are zero. The circuit that the compiler makes of it
has only the deepest variables in its output layer (`C70_outputs`), and these are the tests of one of the eight working variables. The tests
of the claimed hash value are not among them.
-/

namespace Libra.Props
open Libra Compiler Sha256Gen Reader MerkleGen Zk
open Libra.Spec.Sha256 (Word compress merkleRoot)
open Libra.Spec hiding Holds

/-! ### The deepest variables -/

/-- the inputs that the bits and the tests of the rounds read -/
def SameRounds (inp inp' : ℕ → Fp) : Prop := ∀ i, i < 7226 → ¬(2282 ≤ i ∧ i < 2290) → inp i = inp' i

theorem rep_congr {inp inp' : ℕ → Fp} (h : SameRounds inp inp') {x : Wit} (hx : Rep inp x) : Rep inp' x := by
  have hr : ∀ {a n : ℕ}, a + n ≤ 7226 → (a + n ≤ 2282 ∨ 2290 ≤ a) → (List.range' a n).map inp' = (List.range' a n).map inp :=
    fun h1 h2 => List.map_congr_left fun i hi => (h i (by rw [List.mem_range'_1] at hi; omega) (by rw [List.mem_range'_1] at hi; omega)).symm
  obtain ⟨hM, hS, hHo, ha, hb, hc, he, hf, hg, hA, hE⟩ := hx
  refine ⟨fun i a b => ?_, fun i a b => ?_, fun i a => ?_, ?_, ?_, ?_, ?_, ?_, ?_, fun i a => ?_, fun i a => ?_⟩
  · rw [← hM i a b, Wbits_early a b, hr (by omega) (by omega)]
  · rw [← hS i a b, Wbits_late a b, hr (by omega) (by omega)]
  · rw [← hHo i a, show theInputs.HoutBits.getD i [] = _ from getD_vecs a, hr (by omega) (by omega)]
  · rw [← ha]; exact hr (by decide) (by decide)
  · rw [← hb]; exact hr (by decide) (by decide)
  · rw [← hc]; exact hr (by decide) (by decide)
  · rw [← he]; exact hr (by decide) (by decide)
  · rw [← hf]; exact hr (by decide) (by decide)
  · rw [← hg]; exact hr (by decide) (by decide)
  · rw [← hA i a, show theInputs.aout.getD i [] = _ from getD_vecs a, hr (by omega) (by omega)]
  · rw [← hE i a, show theInputs.eout.getD i [] = _ from getD_vecs a, hr (by omega) (by omega)]

theorem trace_congr {inp inp' : ℕ → Fp} (h : SameRounds inp inp') (x : Wit) (n : ℕ) : trace inp' x n = trace inp x n := by
  induction n with
  | zero => simp only [trace]; rw [h _ (by decide) (by decide), h _ (by decide) (by decide)]
  | succ n ih => simp only [trace]; rw [ih]

theorem gapA_congr {inp inp' : ℕ → Fp} (h : SameRounds inp inp') (x : Wit) {i : ℕ} (hi : i < 64) : gapA inp' x i = gapA inp x i := by
  unfold gapA
  rw [trace_congr h, h (2210 + i) (by omega) (by omega), h (34 + i) (by omega) (by omega)]

theorem gapA_zero {inp : ℕ → Fp} {x : Wit} (h : Eqs inp x) {i : ℕ} (hi : i < 64) : gapA inp x i = 0 := by
  unfold gapA
  rw [h.A i hi, sub_self]

theorem write64_deepest {P : List Stmt} (hP : write64 = .ok P) :
    ∃ lv outs, (∀ s ∈ P, LevelOk lv s) ∧ Deepest P lv outs ∧ outs.length = 64 ∧ (∀ t ∈ outs, ∃ o, .output o t ∈ P) ∧
      ∀ inp w : ℕ → Fp, (∀ s ∈ P, Spec.Holds inp w s) → ∀ x, Rep inp x → ∀ j (hj : j < outs.length), w outs[j] = gapA inp x j := by
  obtain ⟨lv, hlv⟩ := (write64_acceptable hP).levels
  obtain ⟨L, h1, h2, h3, h4⟩ := write64_eq
  rw [h4] at hP
  obtain rfl := Outcome.ok.inj hP
  have hbase : Base lv := fun i hi => hlv (.input i i) (List.mem_append_left _ (List.mem_append_left _
    (List.mem_map.2 ⟨i, List.mem_range.2 hi, rfl⟩)))
  have hlines : ∀ s ∈ L.lines, LevelOk lv s := fun s hs => hlv s (List.mem_append_left _ (List.mem_append_right _ hs))
  have hrun : ∀ inp w : ℕ → Fp, (∀ i < 7226, w i = inp i) → Sat w L.lines → ∀ x, Rep inp x →
      (∀ t ∈ L.lines.filterMap target, lv t ≤ 9) ∧ (tops lv L.lines).map w = (List.range 64).map (gapA inp x) ∧
        tops lv L.lines ⊆ L.roundTests := by
    intro inp w hin hs x hx
    have hsame : SameRounds inp w := fun i hi _ => (hin i hi).symm
    obtain ⟨a, b, c⟩ := writeBody_deep hbase (rep_congr hsame hx) _ _ _ _ h1 hlines hs
    refine ⟨a, b.trans (List.map_congr_left fun i hi => gapA_congr hsame x (List.mem_range.1 hi)), c⟩
  obtain ⟨w1, hin1, hs1⟩ := exists_values h2 (assign (fun _ => (0 : Fp)) (fun _ => 0) (fun _ => 0) (fun _ => 0) (witness 0 (fun _ => 0) (fun _ => 0) (fun _ => 0)))
  obtain ⟨q1, q2, q3⟩ := hrun _ w1 hin1 hs1 _ (assign_rep fun n _ _ => rfl)
  have hlen : (tops lv L.lines).length = 64 := by
    have := congrArg List.length q2
    simpa using this
  have hmem : ∀ t, t ∈ tops lv L.lines ↔ (∃ s ∈ L.lines, target s = some t) ∧ lv t = 9 := by
    intro t
    unfold tops
    rw [List.mem_filter, List.mem_filterMap, decide_eq_true_iff]
  obtain ⟨t0, ht0⟩ : ∃ t, t ∈ tops lv L.lines := List.exists_mem_of_length_pos (by omega)
  refine ⟨lv, tops lv L.lines, hlv, ⟨?_, fun t => ?_⟩, hlen, fun t ht => ?_, ?_⟩
  · rw [List.sortedLT_iff_pairwise]
    refine List.Pairwise.filter _ ?_
    rw [straight_targets h2]
    exact List.pairwise_lt_range'
  · have hle : ∀ s ∈ (List.range 7226).map (fun i => Stmt.input i i) ++ L.lines ++
        ((L.roundTests ++ L.bitTests).zipIdx (7226 + L.lines.length)).map (fun p => Stmt.output p.2 p.1),
        ∀ t', target s = some t' → lv t' ≤ 9 ∧ (lv t' = 9 → s ∈ L.lines) := by
      intro s hs t' ht'
      rcases List.mem_append.1 hs with hs | hs
      · rcases List.mem_append.1 hs with hs | hs
        · obtain ⟨i, hi, rfl⟩ := List.mem_map.1 hs
          obtain rfl := Option.some.inj ht'
          have := hbase i (List.mem_range.1 hi)
          omega
        · exact ⟨q1 t' (List.mem_filterMap.2 ⟨s, hs, ht'⟩), fun _ => hs⟩
      · obtain ⟨p, -, rfl⟩ := List.mem_map.1 hs
        cases ht'
    constructor
    · intro ht
      obtain ⟨⟨s, hs, e⟩, h9⟩ := (hmem t).1 ht
      refine ⟨⟨s, List.mem_append_left _ (List.mem_append_right _ hs), e⟩, fun s' hs' t' e' => ?_⟩
      rw [h9]
      exact (hle s' hs' t' e').1
    · rintro ⟨⟨s, hs, e⟩, hmax⟩
      obtain ⟨⟨s0, hs0, e0⟩, h9⟩ := (hmem t0).1 ht0
      have h := hmax s0 (List.mem_append_left _ (List.mem_append_right _ hs0)) t0 e0
      obtain ⟨h', h''⟩ := hle s hs t e
      have h9' : lv t = 9 := by omega
      exact (hmem t).2 ⟨⟨s, h'' h9', e⟩, h9'⟩
  · have ht := List.mem_append_left L.bitTests (q3 ht)
    obtain ⟨i, hi, rfl⟩ := List.mem_iff_getElem.1 ht
    refine ⟨7226 + L.lines.length + i, List.mem_append_right _ (List.mem_map.2 ⟨(_, 7226 + L.lines.length + i), ?_, rfl⟩)⟩
    refine List.mem_iff_getElem?.2 ⟨i, ?_⟩
    rw [List.getElem?_zipIdx, List.getElem?_eq_getElem hi]
    rfl
  · intro inp w hw x hx j hj
    obtain ⟨hin, hs⟩ := (holds_program h2).1 hw
    obtain ⟨-, b, -⟩ := hrun inp w hin hs x hx
    have := congrArg (fun l => l[j]?) b
    simp only [List.getElem?_map, List.getElem?_eq_getElem hj, List.getElem?_range (show j < 64 by omega), Option.map_some, Option.some.injEq] at this
    exact this

/-! ### The output layer -/

/-- C74, as far as it holds: of the outputs of the program, the same 64 are in the output layer of every compiled circuit, 128 gates per block of
which the second half is zero. Missing: that the layer contains the other tests, so that it is zero only for accepted blocks; see `C74_false`. -/
theorem C74_partial (var : Compiler.Variant) {P : List Stmt} (hP : write64 = .ok P) :
    ∃ outs : List ℕ, outs.length = 64 ∧ (∀ t ∈ outs, ∃ o, .output o t ∈ P) ∧
      ∀ (W : List RStmt) (file metaFile : List ℤ) (base e : ℕ), compile var P W = .ok (file, metaFile) → WiringOk W →
        IsLeast {o | ∃ a, .output o a ∈ W} base → base ≤ 0x3f3f3f3f → outputCount W = 7226 * 2 ^ e → FitsReader file →
        ∃ C, readZk file metaFile = .ok C ∧ C.bl (C.depth - 1) = 7 + e ∧
          ∀ out v : ℕ → Fp, (∀ l ∈ W, RHolds out v l.asRead) → ∀ r < 2 ^ e, ∀ w : ℕ → Fp,
            (∀ s ∈ P, Spec.Holds (fun i => out (base + (r * 7226 + i))) w s) →
            ∀ j < 128, value C (C.depth - 1) (r * 128 + j) = if h : j < outs.length then w outs[j] else (0 : Fp) := by
  obtain ⟨hok, hss, hcount⟩ := C61_program hP
  obtain ⟨lv, outs, h1, h2, h3, h4, -⟩ := write64_deepest hP
  refine ⟨outs, h3, h4, fun W file metaFile base e hc hW hb hbase hout hfit => ?_⟩
  obtain ⟨C, b, c1, c2, c3, c4, c5⟩ := C70_outputs var P hok (write64_acceptable hP) hss lv h1 outs h2 W hW base e hb hbase
    (by rw [hcount]; exact hout) file metaFile hc hfit
  have hb7 : b = 7 := by
    rw [h3] at c3 c4
    have h6 : 6 < b := (Nat.pow_lt_pow_iff_right (by decide : 1 < 2)).1 (by simpa using c3)
    have h7 : b ≤ 7 := (Nat.pow_le_pow_iff_right (by decide : 1 < 2)).1 (by simpa using c4)
    omega
  subst hb7
  rw [hcount] at c5
  refine ⟨C, c1, c2, fun out v hv r hr w hw j hj => ?_⟩
  obtain ⟨d1, d2⟩ := c5 Fp out v hv r hr w hw
  split
  · rename_i h
    exact d1 j h
  · rename_i h
    exact d2 j (by omega) hj

/-- The claimed hash value is not checked: take an accepted block and put anything into the eight inputs with the hash value; the gates of
the block in the output layer are still zero. -/
theorem C74_unchecked (var : Compiler.Variant) {P : List Stmt} (hP : write64 = .ok P) (W : List RStmt) (file metaFile : List ℤ)
    (base e : ℕ) (hc : compile var P W = .ok (file, metaFile)) (hW : WiringOk W) (hb : IsLeast {o | ∃ a, .output o a ∈ W} base)
    (hbase : base ≤ 0x3f3f3f3f) (hout : outputCount W = 7226 * 2 ^ e) (hfit : FitsReader file) :
    ∃ C, readZk file metaFile = .ok C ∧ C.bl (C.depth - 1) = 7 + e ∧
      ∀ out v : ℕ → Fp, (∀ l ∈ W, RHolds out v l.asRead) → ∀ r < 2 ^ e, ∀ inp : ℕ → Fp, Accepts P inp → inp 0 = 0 →
        (∀ i < 7226, ¬(2282 ≤ i ∧ i < 2290) → inp i = out (base + (r * 7226 + i))) →
        ∀ j < 128, value C (C.depth - 1) (r * 128 + j) = (0 : Fp) := by
  obtain ⟨hok, hss, hcount⟩ := C61_program hP
  obtain ⟨lv, outs, h1, h2, h3, h4, h5⟩ := write64_deepest hP
  obtain ⟨C, b, c1, c2, c3, c4, c5⟩ := C70_outputs var P hok (write64_acceptable hP) hss lv h1 outs h2 W hW base e hb hbase
    (by rw [hcount]; exact hout) file metaFile hc hfit
  have hb7 : b = 7 := by
    rw [h3] at c3 c4
    have h6 : 6 < b := (Nat.pow_lt_pow_iff_right (by decide : 1 < 2)).1 (by simpa using c3)
    have h7 : b ≤ 7 := (Nat.pow_le_pow_iff_right (by decide : 1 < 2)).1 (by simpa using c4)
    omega
  subst hb7
  rw [hcount] at c5
  refine ⟨C, c1, c2, fun out v hv r hr inp hacc h0 hsame j hj => ?_⟩
  obtain ⟨w', hw', hz⟩ := hacc
  obtain ⟨x, hx, hE⟩ := program_sound hP hw' h0 hz
  have hsr : SameRounds inp (fun i => out (base + (r * 7226 + i))) := hsame
  obtain ⟨w, hw⟩ : ∃ w : ℕ → Fp, ∀ s ∈ P, Spec.Holds (fun i => out (base + (r * 7226 + i))) w s := by
    obtain ⟨L, g1, g2, g3, g4⟩ := write64_eq
    rw [g4] at hP
    obtain rfl := Outcome.ok.inj hP
    obtain ⟨w, a, b⟩ := exists_values g2 (fun i => out (base + (r * 7226 + i)))
    exact ⟨w, (holds_program g2).2 ⟨a, b⟩⟩
  obtain ⟨d1, d2⟩ := c5 Fp out v hv r hr w hw
  rcases Nat.lt_or_ge j outs.length with h | h
  · rw [show r * 128 + j = r * 2 ^ 7 + j from rfl, d1 j h, h5 _ w hw x (rep_congr hsr hx) j h, gapA_congr hsr x (by omega), gapA_zero hE (by omega)]
  · exact d2 j h hj

/-! ### Forged roots -/

/-- only the claimed root reads the inputs 298 to 305 -/
theorem root_only_hash {lgn b : ℕ} (hb : b < 2 ^ (lgn + 1) - 1) {i : ℕ} (hi : i < 7226) (hne : ¬(2282 ≤ i ∧ i < 2290)) :
    ¬(298 ≤ (blockVars lgn b).getD i 0 ∧ (blockVars lgn b).getD i 0 < 306) := by
  have hf := fun c => fresh_large (lgn := lgn) (b := c)
  have hh := fun c => fresh_le_bits (lgn := lgn) (b := c)
  rcases Nat.lt_or_ge i 34 with h | h
  · rw [at_const h]; omega
  rcases Nat.lt_or_ge i 578 with h' | h'
  · obtain ⟨k, rfl⟩ := Nat.exists_eq_add_of_le h
    rw [at_message hb (by omega)]
    rcases Nat.lt_or_ge b (2 ^ lgn) with hl | hl
    · rw [message_leaf hl (by omega)]
      have := hf b
      omega
    · have hc := child_lt hl hb
      have hhash : ∀ c < 2 ^ (lgn + 1) - 2, ∀ k < 8, (hashVars lgn c).getD k 0 = hashOf lgn c + k := by
        intro c hc k hk
        unfold hashVars
        rw [if_neg (by rw [isRoot_iff]; omega), getD_range' hk]
      rcases Nat.lt_or_ge k 8 with h8 | h8
      · rw [message_left hl hb h8, hhash _ (by omega) _ h8]
        have := hf (2 * (b - 2 ^ lgn))
        have := (hh (2 * (b - 2 ^ lgn))).1
        omega
      rcases Nat.lt_or_ge k 16 with h16 | h16
      · obtain ⟨k, rfl⟩ := Nat.exists_eq_add_of_le h8
        rw [message_right hl hb (by omega), hhash _ (by omega) _ (by omega)]
        have := hf (2 * (b - 2 ^ lgn) + 1)
        have := (hh (2 * (b - 2 ^ lgn) + 1)).1
        omega
      rcases Nat.lt_or_ge k 64 with h64 | h64
      · obtain ⟨k, rfl⟩ := Nat.exists_eq_add_of_le h16
        rw [message_words hl hb (by omega)]
        have := hf b
        omega
      · have := message_bits hl hb (m := (k - 64) / 32) (t := (k - 64) % 32) (by omega) (by omega)
        rw [show 64 + (32 * ((k - 64) / 32) + (k - 64) % 32) = k by omega] at this
        rw [this]
        have a1 := hf (2 * (b - 2 ^ lgn))
        have a2 := (hh (2 * (b - 2 ^ lgn)))
        have a3 := hf (2 * (b - 2 ^ lgn) + 1)
        have a4 := (hh (2 * (b - 2 ^ lgn) + 1))
        split <;> omega
  have a1 := hf b
  obtain ⟨a2, a3⟩ := hh b
  rcases Nat.lt_or_ge i 2210 with h'' | h''
  · obtain ⟨k, rfl⟩ := Nat.exists_eq_add_of_le h'
    rw [at_schedule hb (by omega)]
    omega
  rcases Nat.lt_or_ge i 2274 with h3 | h3
  · obtain ⟨k, rfl⟩ := Nat.exists_eq_add_of_le h''
    rw [at_K hb (by omega)]
    omega
  rcases Nat.lt_or_ge i 2282 with h4 | h4
  · obtain ⟨k, rfl⟩ := Nat.exists_eq_add_of_le h3
    rw [at_H hb (by omega)]
    omega
  rcases Nat.lt_or_ge i 2554 with h5 | h5
  · have := at_hbits hb (i := (i - 2290) / 33) (t := (i - 2290) % 33) (by omega) (by omega)
    rw [show 2290 + (33 * ((i - 2290) / 33) + (i - 2290) % 33) = i by omega] at this
    rw [this]
    omega
  rcases Nat.lt_or_ge i 2746 with h6 | h6
  · obtain ⟨k, rfl⟩ := Nat.exists_eq_add_of_le h5
    rw [at_init hb (by omega)]
    omega
  · obtain ⟨k, rfl⟩ := Nat.exists_eq_add_of_le h6
    rw [at_out hb (by omega)]
    omega

/-- the inputs with another root -/
def withRoot (x : ℕ → ℤ) (R : ℕ → Word) (i : ℕ) : ℤ := if 298 ≤ i ∧ i < 306 then (R (i - 298)).toNat else x i

/-- the values with another root -/
def rootValues (lgn : ℕ) (padding : Bool) (x : ℕ → ℤ) (v : ℕ → Fp) (n : ℕ) : Fp :=
  if 298 ≤ n ∧ n < 306 then readNumber (x n)
  else if baseOf lgn padding ≤ n ∧ 298 ≤ (copied lgn).getD (n - baseOf lgn padding) 0 ∧ (copied lgn).getD (n - baseOf lgn padding) 0 < 306 then
    readNumber (x ((copied lgn).getD (n - baseOf lgn padding) 0))
  else v n

theorem rootValues_holds {lgn : ℕ} {padding : Bool} {x : ℕ → ℤ} {R : ℕ → Word} {out v : ℕ → Fp}
    (h : ∀ l ∈ rdlLines lgn padding x, RHolds out v l.asRead) :
    ∀ l ∈ rdlLines lgn padding (withRoot x R), RHolds (rootValues lgn padding (withRoot x R) v) (rootValues lgn padding (withRoot x R) v) l.asRead := by
  have hend := end_large (lgn := lgn)
  have hb : baseOf lgn padding = endOf lgn + padOf lgn padding := rfl
  have keep : ∀ n, n < baseOf lgn padding → ¬(298 ≤ n ∧ n < 306) → rootValues lgn padding (withRoot x R) v n = v n := by
    intro n h1 h2
    unfold rootValues
    rw [if_neg h2, if_neg (by omega)]
  intro l hl
  rcases mem_rdl.1 hl with ⟨t, ht, rfl⟩ | ⟨i, hi, rfl⟩ | ⟨i, hi, rfl⟩ | ⟨i, hi, rfl⟩ | ⟨n, hn, rfl⟩ | ⟨n, hn, rfl⟩
  · exact (keep t (by omega) (by omega)).trans (h _ (mem_rdl.2 (.inl ⟨t, ht, rfl⟩)))
  · show rootValues _ _ _ _ (34 + i) = _
    by_cases hr : 298 ≤ 34 + i ∧ 34 + i < 306
    · unfold rootValues
      rw [if_pos hr]
    · rw [keep _ (by omega) hr, withRoot, if_neg hr]
      exact h _ (mem_rdl.2 (.inr (.inl ⟨i, hi, rfl⟩)))
  · show rootValues _ _ _ _ (endOf lgn + i) = _
    rw [keep _ (by omega) (by omega), withRoot, if_neg (by omega)]
    exact h _ (mem_rdl.2 (.inr (.inr (.inl ⟨i, hi, rfl⟩))))
  · show rootValues _ _ _ _ (306 + i) = _
    rw [keep _ (by omega) (by omega), withRoot, if_neg (by omega)]
    exact h _ (mem_rdl.2 (.inr (.inr (.inr (.inl ⟨i, hi, rfl⟩)))))
  · show rootValues _ _ _ _ (baseOf lgn padding + n) = rootValues _ _ _ _ ((copied lgn)[n])
    have hc := copied_lt lgn _ (List.getElem_mem hn)
    have e : (copied lgn).getD (baseOf lgn padding + n - baseOf lgn padding) 0 = (copied lgn)[n] := by
      rw [Nat.add_sub_cancel_left, List.getD_eq_getElem?_getD, List.getElem?_eq_getElem hn, Option.getD_some]
    by_cases hr : 298 ≤ (copied lgn)[n] ∧ (copied lgn)[n] < 306
    · unfold rootValues
      rw [if_neg (by omega), if_pos (by rw [e]; exact ⟨by omega, hr⟩), if_pos hr, e]
    · rw [keep _ (by omega) hr]
      unfold rootValues
      rw [if_neg (by omega), if_neg (by rw [e]; exact fun h => hr h.2)]
      exact h _ (mem_rdl.2 (.inr (.inr (.inr (.inr (.inl ⟨n, hn, rfl⟩))))))
  · rfl

variable {G1 G2 GT : Type} [AddCommGroup G1] [AddCommGroup G2] [AddCommGroup GT]
  [Module (ZMod p) G1] [Module (ZMod p) G2] [Module (ZMod p) GT] [DecidableEq GT]

/-- Forged roots: take a tree of up to `2^10` leaves, all of whose words are below `2^31`, and claim any root `R`. The files are written and
compiled, every gate of the output layer is zero, and the verifier accepts the honest prover. -/
theorem C74_forged (E : Pairing G1 G2 GT) {lgn : ℕ} (hl : 1 ≤ lgn) (hl' : lgn ≤ 10) (padding : Bool) (K H : ℕ → Word)
    (leaves : ℕ → ℕ → Word) (hx : TreeBound (2 ^ 31) lgn K H leaves) (R : ℕ → Word) :
    ∃ P x W file metaFile C base, write64 = .ok P ∧ merkleRdl lgn padding x = .ok W ∧ compile .sha256 P W = .ok (file, metaFile) ∧
      readZk file metaFile = .ok C ∧ (∀ i < 64, x (34 + i) = (K i).toNat) ∧ (∀ i < 8, x (98 + i) = (H i).toNat) ∧
      (∀ i < 8, x (298 + i) = (R i).toNat) ∧
      (∃ out v : ℕ → Fp, (∀ l ∈ W, RHolds out v l.asRead) ∧
        ∀ j < 2 ^ lgn, ∀ t < 16, out (base + (j * 7226 + (34 + t))) = ((leaves j t).toNat : Fp)) ∧
      (∀ g < 2 ^ C.bl (C.depth - 1), value C (C.depth - 1) g = (0 : Fp)) ∧
      ∀ coins : Coins Fp, Zk.CoinsOk C coins → ∀ (junk : Zk.Prover Fp G1 G2) (tables : Zk.VTables Fp) (ch : Zk.Challenges Fp),
        Zk.verify E C (Zk.honest E C coins junk) tables ch = .ok () := by
  obtain ⟨P, hP⟩ := C58_generates
  obtain ⟨x, h1, h2, h3, -, W0, base, h5, h6, out, v, h7, h8, h9⟩ := C67_read_partial hP hl padding K H leaves hx
  rw [merkleRdl_eq (by omega)] at h5
  obtain rfl := Outcome.ok.inj h5
  obtain rfl := h6.unique rdl_least
  have hx' : ∀ i, -2 ^ 63 ≤ withRoot x R i ∧ withRoot x R i < 2 ^ 63 := by
    intro i
    unfold withRoot
    split
    · have := (R (i - 298)).isLt
      omega
    · have := h1 i
      omega
  obtain ⟨W, base', w1, w2, w3, w4, w5, w6⟩ := C65_wiring lgn hl padding (withRoot x R) hx'
  have hW := w1
  rw [merkleRdl_eq (by omega)] at w1
  obtain rfl := Outcome.ok.inj w1
  obtain ⟨file, metaFile, C, h10, h11, h12⟩ := C63_sha256 E hP w2 w3 (w5 (by omega)) w4 (by omega) (w6 hl')
  have hleast : IsLeast {o | ∃ a, .output o a ∈ rdlLines lgn padding (withRoot x R)} base' := by
    refine ⟨(w3.numbers base').2 ⟨Nat.le_refl _, ?_⟩, fun o ho => ((w3.numbers o).1 ho).1⟩
    have := Nat.two_pow_pos (lgn + 1)
    omega
  obtain rfl := hleast.unique rdl_least
  have hv' := rootValues_holds (R := R) h7
  set v' := rootValues lgn padding (withRoot x R) v with hv'def
  have hsame : ∀ b < 2 ^ (lgn + 1), ∀ i < 7226, ¬(2282 ≤ i ∧ i < 2290) →
      out (baseOf lgn padding + (b * 7226 + i)) = v' (baseOf lgn padding + (b * 7226 + i)) := by
    intro b hb i hi hne
    have hpos : 2 ≤ 2 ^ (lgn + 1) := by
      have := Nat.two_pow_pos lgn
      rw [pow_succ]
      omega
    rw [rdl_block h7 hb hi, rdl_block hv' hb hi, hv'def]
    have hr := root_only_hash (lgn := lgn) (b := min b (2 ^ (lgn + 1) - 2)) (by omega) hi hne
    have hlt : (blockVars lgn (min b (2 ^ (lgn + 1) - 2))).getD i 0 < baseOf lgn padding := by
      have hn : 7226 * b + i < (copied lgn).length := by
        rw [copied_length]
        have : 7226 * (b + 1) ≤ 7226 * 2 ^ (lgn + 1) := Nat.mul_le_mul_left _ hb
        omega
      have hc := copied_lt lgn _ (List.getElem_mem hn)
      have := copied_at (lgn := lgn) hb hi
      rw [List.getD_eq_getElem?_getD, List.getElem?_eq_getElem hn, Option.getD_some] at this
      rw [this] at hc
      have hbe : baseOf lgn padding = endOf lgn + padOf lgn padding := rfl
      omega
    unfold rootValues
    rw [if_neg hr, if_neg (by omega)]
  have hfit := (C69_sha256 .sha256 hP).2 _ file metaFile h10 (lgn + 1) (by omega) w4 (w6 hl')
  obtain ⟨C', c1, c2, c3⟩ := C74_unchecked .sha256 hP _ file metaFile _ (lgn + 1) h10 w2 hleast (w5 (by omega)) w4 hfit
  obtain rfl := Outcome.ok.inj (h11.symm.trans c1)
  refine ⟨P, withRoot x R, _, file, metaFile, C, baseOf lgn padding, hP, hW, h10, h11, fun i hi => ?_, fun i hi => ?_, fun i hi => ?_,
    ⟨v', v', hv', fun j hj t ht => ?_⟩, fun g hg => ?_, h12⟩
  · rw [withRoot, if_neg (by omega), h2 i hi]
  · rw [withRoot, if_neg (by omega), h3 i hi]
  · rw [withRoot, if_pos (by omega), Nat.add_sub_cancel_left]
  · have hj' : j < 2 ^ (lgn + 1) := by
      rw [pow_succ]
      omega
    rw [← hsame j hj' (34 + t) (by omega) (by omega), h9 j hj t ht]
  · rw [c2, pow_add] at hg
    have hr : g / 128 < 2 ^ (lgn + 1) := by omega
    have := c3 v' v' hv' (g / 128) hr (fun i => out (baseOf lgn padding + (g / 128 * 7226 + i))) (h8 _ hr) ?_ (hsame _ hr) (g % 128) (Nat.mod_lt _ (by decide))
    · rwa [show g / 128 * 128 + g % 128 = g by omega] at this
    · show out (baseOf lgn padding + (g / 128 * 7226 + 0)) = 0
      rw [rdl_block h7 hr (by decide), at_const (by decide)]
      have := h7 _ (mem_rdl.2 (.inl ⟨0, by decide, rfl⟩))
      simp only [RStmt.asRead, RHolds, constOf, if_pos, readNumber_zero, Int.cast_zero] at this
      exact this

/-- So the zero output layer says nothing about the root: for the tree of two leaves of zeros there are roots, not its own, for which the output layer is
zero and the verifier accepts. -/
theorem C74_false (E : Pairing G1 G2 GT) :
    ∃ (R : ℕ → Word) (P : List Stmt) (x : ℕ → ℤ) (W : List RStmt) (file metaFile : List ℤ) (C : Circuit) (base : ℕ),
      R 0 ≠ merkleRoot (fun _ => 0) (fun _ => 0) (fun _ _ => 0) 1 0 ∧
      write64 = .ok P ∧ merkleRdl 1 false x = .ok W ∧ compile .sha256 P W = .ok (file, metaFile) ∧
      readZk file metaFile = .ok C ∧ (∀ i < 64, x (34 + i) = 0) ∧ (∀ i < 8, x (98 + i) = 0) ∧ (∀ i < 8, x (298 + i) = (R i).toNat) ∧
      (∃ out v : ℕ → Fp, (∀ l ∈ W, RHolds out v l.asRead) ∧ ∀ j < 2, ∀ t < 16, out (base + (j * 7226 + (34 + t))) = 0) ∧
      (∀ g < 2 ^ C.bl (C.depth - 1), value C (C.depth - 1) g = (0 : Fp)) ∧
      ∀ coins : Coins Fp, Zk.CoinsOk C coins → ∀ (junk : Zk.Prover Fp G1 G2) (tables : Zk.VTables Fp) (ch : Zk.Challenges Fp),
        Zk.verify E C (Zk.honest E C coins junk) tables ch = .ok () := by
  obtain ⟨P, x, W, file, metaFile, C, base, h1, h2, h3, h4, h5, h6, h7, ⟨out, v, h8, h9⟩, h10⟩ :=
    C74_forged E (lgn := 1) (by decide) (by decide) false (fun _ => 0) (fun _ => 0) (fun _ _ => 0) (zero_bound 1) (fun _ => 1)
  refine ⟨fun _ => 1, P, x, W, file, metaFile, C, base, ?_, h1, h2, h3, h4, h5, h6, h7, ⟨out, v, h8, fun j hj t ht => ?_⟩, h10⟩
  · rw [merkleRoot, node_zero]
    decide
  · rw [h9 j hj t ht]
    simp

end Libra.Props
