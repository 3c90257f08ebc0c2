import Verif.Proofs.Sha256Arith

/-!
# The SHA-256 program: its lines, and inputs for every message
-/

namespace Libra.Sha256Gen
open Compiler Spec

theorem input_lines (m n : ℕ) : (List.range m).map (fun i => Stmt.input i i) ++
    ((List.range' m n).zipIdx m).map (fun p => Stmt.input p.1 p.2) = (List.range (m + n)).map (fun i => .input i i) := by
  have e : List.range (m + n) = List.range m ++ List.range' m n := by
    rw [List.range_eq_range', List.range_eq_range', range'_join (Nat.zero_add m).symm]
  rw [e, List.map_append]
  refine congrArg (List.map (fun i => Stmt.input i i) (List.range m) ++ ·) ?_
  refine List.ext_getElem? fun i => ?_
  rw [List.getElem?_map, List.getElem?_zipIdx, List.getElem?_map]
  by_cases hi : i < n
  · rw [List.getElem?_range' hi]; simp
  · rw [List.getElem?_eq_none (by simpa using hi)]; rfl

theorem bind_ok {α β : Type} {g : Gen α} {f : α → Gen β} {v v' v'' : ℕ} {a : α} {b : β} {L L' : Log}
    (h : g v = .ok (a, v', L)) (h' : f a v' = .ok (b, v'', L')) : Gen.bind g f v = .ok (b, v'', L.append L') := by
  rw [Gen.bind, h]
  show ((f a v').bind fun s => .ok (s.1, s.2.1, L.append s.2.2)) = _
  rw [h']
  rfl

/-- the program: input lines for variables 0 to 7225, the lines of `writeBody`, and the outputs -/
theorem write64_eq : ∃ L : Log, writeBody theInputs 7226 = .ok ((), 7226 + L.lines.length, L) ∧
    Straight 7226 L.lines ∧ (∀ t ∈ L.roundTests ++ L.bitTests, t < 7226 + L.lines.length) ∧
    write64 = .ok ((List.range 7226).map (fun i => .input i i) ++ L.lines ++
      ((L.roundTests ++ L.bitTests).zipIdx (7226 + L.lines.length)).map (fun p => .output p.2 p.1)) := by
  obtain ⟨a, L, h1, h2, h3, h4, -⟩ := writeBody_emits
  refine ⟨L, h1, h3, h4, ?_⟩
  unfold write64
  rw [bind_ok allocInputs_eq h1]
  refine congrArg Outcome.ok ?_
  simp only [program, Log.append, h2, List.append_nil, List.nil_append]
  rw [input_lines 34 7192]

section
variable {F : Type} [CommRing F]

/-- What it means to satisfy the program. -/
theorem holds_program {L : Log} (hL : Straight 7226 L.lines) {o : ℕ} {inp w : ℕ → F} :
    (∀ s ∈ (List.range 7226).map (fun i => Stmt.input i i) ++ L.lines ++
      ((L.roundTests ++ L.bitTests).zipIdx o).map (fun p => .output p.2 p.1), Spec.Holds inp w s) ↔
    (∀ i < 7226, w i = inp i) ∧ Sat w L.lines := by
  have hc : ∀ {v : ℕ} {l : List Stmt}, Straight v l → ((∀ s ∈ l, Spec.Holds inp w s) ↔ Sat w l) := by
    intro v l h
    induction l generalizing v with
    | nil => simp [Sat]
    | cons s l ih =>
      rw [Sat, List.forall_mem_cons, List.forall_mem_cons, ih h.2]
      exact and_congr (holds_congr h.1 fun _ _ => rfl) Iff.rfl
  simp only [List.forall_mem_append, List.forall_mem_map, List.mem_range, hc hL]
  constructor
  · rintro ⟨⟨h1, h2⟩, -⟩; exact ⟨h1, h2⟩
  · rintro ⟨h1, h2⟩; exact ⟨⟨h1, h2⟩, fun _ _ => True.intro⟩

theorem outputs_program {L : Log} (hL : Straight 7226 L.lines) {n : ℕ} {w : ℕ → F} :
    (∀ o t, .output o t ∈ (List.range 7226).map (fun i => Stmt.input i i) ++ L.lines ++
      ((L.roundTests ++ L.bitTests).zipIdx n).map (fun p => .output p.2 p.1) → w t = 0) ↔ Zero w L := by
  have hno : ∀ {v : ℕ} {l : List Stmt}, Straight v l → ∀ o t, Stmt.output o t ∉ l := by
    intro v l h o t ht
    induction l generalizing v with
    | nil => simp at ht
    | cons s l ih =>
      rcases List.mem_cons.1 ht with rfl | ht
      · exact h.1
      · exact ih h.2 ht
  have hm : ∀ {m : ℕ} {l : List ℕ} {t : ℕ}, (∃ o, Stmt.output o t ∈ (l.zipIdx m).map (fun p => Stmt.output p.2 p.1)) ↔ t ∈ l := by
    intro m l t
    constructor
    · rintro ⟨o, ho⟩
      obtain ⟨p, hp, e⟩ := List.mem_map.1 ho
      obtain ⟨-, rfl⟩ := Stmt.output.inj e
      exact List.fst_mem_of_mem_zipIdx hp
    · intro ht
      obtain ⟨i, hi, rfl⟩ := List.mem_iff_getElem.1 ht
      refine ⟨m + i, List.mem_map.2 ⟨(l[i], m + i), ?_, rfl⟩⟩
      refine List.mem_iff_getElem?.2 ⟨i, ?_⟩
      rw [List.getElem?_zipIdx, List.getElem?_eq_getElem hi]; rfl
  simp only [List.mem_append, List.mem_map, hno hL, or_false, reduceCtorEq, and_false, exists_false, false_or]
  simp only [← List.mem_map]
  unfold Zero
  constructor
  · intro h
    refine ⟨fun t ht => ?_, fun t ht => ?_⟩
    · obtain ⟨o, ho⟩ := (hm (m := n) (l := L.roundTests ++ L.bitTests)).2 (List.mem_append_right _ ht)
      exact h o t ho
    · obtain ⟨o, ho⟩ := (hm (m := n) (l := L.roundTests ++ L.bitTests)).2 (List.mem_append_left _ ht)
      exact h o t ho
  · intro h o t ht
    rcases List.mem_append.1 (hm.1 ⟨o, ht⟩) with ht | ht
    · exact h.2 t ht
    · exact h.1 t ht

end

/-! ### Inputs -/

section
variable {F : Type} [Field F]

/-- a bit as a field element -/
def bitF (F : Type) [Field F] {n : ℕ} (X : BitVec n) (j : ℕ) : F := ((X.getLsbD j).toNat : F)

/-- the inputs for the values of the schedule, the constants, the hash values and the witness -/
def assign (Wv : ℕ → F) (K H O : ℕ → Sha256.Word) (x : Wit) (n : ℕ) : F :=
  if n < 34 then 0
  else if n < 98 then Wv (n - 34)
  else if n < 578 then bitF F (x.M (1 + (n - 98) / 32)) ((n - 98) % 32)
  else if n < 2210 then bitF F (x.S (16 + (n - 578) / 34)) ((n - 578) % 34)
  else if n < 2274 then ((K (n - 2210)).toNat : F)
  else if n < 2282 then ((H (n - 2274)).toNat : F)
  else if n < 2290 then ((O (n - 2282)).toNat : F)
  else if n < 2554 then bitF F (x.Ho ((n - 2290) / 33)) ((n - 2290) % 33)
  else if n < 2586 then bitF F x.a (n - 2554)
  else if n < 2618 then bitF F x.b (n - 2586)
  else if n < 2650 then bitF F x.c (n - 2618)
  else if n < 2682 then bitF F x.e (n - 2650)
  else if n < 2714 then bitF F x.f (n - 2682)
  else if n < 2746 then bitF F x.g (n - 2714)
  else if n < 4986 then bitF F (x.A ((n - 2746) / 35)) ((n - 2746) % 35)
  else bitF F (x.E ((n - 4986) / 35)) ((n - 4986) % 35)

theorem map_range'_wb {w : ℕ → F} {a n : ℕ} {X : BitVec n} (h : ∀ j < n, w (a + j) = bitF F X j) :
    (List.range' a n).map w = wb F X := by
  rw [wb, List.range'_eq_map_range, List.map_map]
  exact List.map_congr_left fun j hj => h j (List.mem_range.1 hj)

variable {Wv : ℕ → F} {K H O : ℕ → Sha256.Word} {x : Wit}

theorem assign_W {t : ℕ} (h : t < 64) : assign Wv K H O x (34 + t) = Wv t := by
  unfold assign
  rw [if_neg (by omega), if_pos (by omega), Nat.add_sub_cancel_left]

theorem assign_K {t : ℕ} (h : t < 64) : assign Wv K H O x (2210 + t) = ((K t).toNat : F) := by
  unfold assign
  iterate 4 rw [if_neg (by omega)]
  rw [if_pos (by omega), Nat.add_sub_cancel_left]

theorem assign_H {t : ℕ} (h : t < 8) : assign Wv K H O x (2274 + t) = ((H t).toNat : F) := by
  unfold assign
  iterate 5 rw [if_neg (by omega)]
  rw [if_pos (by omega), Nat.add_sub_cancel_left]

theorem assign_O {t : ℕ} (h : t < 8) : assign Wv K H O x (2282 + t) = ((O t).toNat : F) := by
  unfold assign
  iterate 6 rw [if_neg (by omega)]
  rw [if_pos (by omega), Nat.add_sub_cancel_left]

theorem assign_rep {w : ℕ → F} (hw : ∀ n, 34 ≤ n → n < 7226 → w n = assign Wv K H O x n) : Rep w x := by
  refine ⟨?_, ?_, ?_, ?_, ?_, ?_, ?_, ?_, ?_, ?_, ?_⟩
  · intro i h1 h2
    rw [Wbits_early h1 h2]
    refine map_range'_wb fun j hj => ?_
    rw [hw _ (by omega) (by omega)]
    unfold assign
    iterate 2 rw [if_neg (by omega)]
    rw [if_pos (by omega)]
    rw [show 1 + (98 + 32 * (i - 1) + j - 98) / 32 = i by omega, show (98 + 32 * (i - 1) + j - 98) % 32 = j by omega]
  · intro i h1 h2
    rw [Wbits_late h1 h2]
    refine map_range'_wb fun j hj => ?_
    rw [hw _ (by omega) (by omega)]
    unfold assign
    iterate 3 rw [if_neg (by omega)]
    rw [if_pos (by omega)]
    rw [show 16 + (578 + 34 * (i - 16) + j - 578) / 34 = i by omega, show (578 + 34 * (i - 16) + j - 578) % 34 = j by omega]
  · intro i hi
    rw [show theInputs.HoutBits.getD i [] = _ from getD_vecs hi]
    refine map_range'_wb fun j hj => ?_
    rw [hw _ (by omega) (by omega)]
    unfold assign
    iterate 7 rw [if_neg (by omega)]
    rw [if_pos (by omega)]
    rw [show (2290 + 33 * i + j - 2290) / 33 = i by omega, show (2290 + 33 * i + j - 2290) % 33 = j by omega]
  · refine map_range'_wb fun j hj => ?_
    rw [hw _ (by omega) (by omega)]
    unfold assign
    iterate 8 rw [if_neg (by omega)]
    rw [if_pos (by omega), Nat.add_sub_cancel_left]
  · refine map_range'_wb fun j hj => ?_
    rw [hw _ (by omega) (by omega)]
    unfold assign
    iterate 9 rw [if_neg (by omega)]
    rw [if_pos (by omega), Nat.add_sub_cancel_left]
  · refine map_range'_wb fun j hj => ?_
    rw [hw _ (by omega) (by omega)]
    unfold assign
    iterate 10 rw [if_neg (by omega)]
    rw [if_pos (by omega), Nat.add_sub_cancel_left]
  · refine map_range'_wb fun j hj => ?_
    rw [hw _ (by omega) (by omega)]
    unfold assign
    iterate 11 rw [if_neg (by omega)]
    rw [if_pos (by omega), Nat.add_sub_cancel_left]
  · refine map_range'_wb fun j hj => ?_
    rw [hw _ (by omega) (by omega)]
    unfold assign
    iterate 12 rw [if_neg (by omega)]
    rw [if_pos (by omega), Nat.add_sub_cancel_left]
  · refine map_range'_wb fun j hj => ?_
    rw [hw _ (by omega) (by omega)]
    unfold assign
    iterate 13 rw [if_neg (by omega)]
    rw [if_pos (by omega), Nat.add_sub_cancel_left]
  · intro i hi
    rw [show theInputs.aout.getD i [] = _ from getD_vecs hi]
    refine map_range'_wb fun j hj => ?_
    rw [hw _ (by omega) (by omega)]
    unfold assign
    iterate 14 rw [if_neg (by omega)]
    rw [if_pos (by omega)]
    rw [show (2746 + 35 * i + j - 2746) / 35 = i by omega, show (2746 + 35 * i + j - 2746) % 35 = j by omega]
  · intro i hi
    rw [show theInputs.eout.getD i [] = _ from getD_vecs hi]
    refine map_range'_wb fun j hj => ?_
    rw [hw _ (by omega) (by omega)]
    unfold assign
    iterate 15 rw [if_neg (by omega)]
    rw [show (4986 + 35 * i + j - 4986) / 35 = i by omega, show (4986 + 35 * i + j - 4986) % 35 = j by omega]

end

/-! ### The meaning of the program -/

section
variable {F : Type} [Field F]

/-- accepted inputs -/
theorem program_sound {P : List Stmt} (hP : write64 = .ok P) {inp w : ℕ → F}
    (hw : ∀ s ∈ P, Spec.Holds inp w s) (h0 : inp 0 = 0) (hout : ∀ o t, .output o t ∈ P → w t = 0) :
    ∃ x, Rep inp x ∧ Eqs inp x := by
  obtain ⟨L, h1, h2, h3, h4⟩ := write64_eq
  rw [h4] at hP
  obtain rfl := Outcome.ok.inj hP
  obtain ⟨hin, hs⟩ := (holds_program h2).1 hw
  have hz := (outputs_program h2).1 hout
  obtain ⟨x, hx⟩ := writeBody_bits _ _ _ _ h1 hs hz
  have he := (writeBody_run (by rw [hin 0 (by decide), h0]) hx _ _ _ _ h1 hs).1 hz
  have hmap : ∀ l : List ℕ, (∀ i ∈ l, i < 7226) → l.map w = l.map inp := fun l hl =>
    List.map_congr_left fun i hi => hin i (hl i hi)
  have hr : ∀ {a n : ℕ}, a + n ≤ 7226 → (List.range' a n).map w = (List.range' a n).map inp := fun h =>
    hmap _ fun i hi => by rw [List.mem_range'_1] at hi; omega
  have ht : ∀ n, trace w x n = trace inp x n := by
    intro n
    induction n with
    | zero => simp only [trace]; rw [hin _ (by decide), hin _ (by decide)]
    | succ n ih => simp only [trace]; rw [ih]
  refine ⟨x, ?_, ?_⟩
  · obtain ⟨hM, hS, hHo, ha, hb, hc, he', hf, hg, hA, hE⟩ := hx
    refine ⟨fun i a b => ?_, fun i a b => ?_, fun i a => ?_, ?_, ?_, ?_, ?_, ?_, ?_, fun i a => ?_, fun i a => ?_⟩
    · rw [← hM i a b, Wbits_early a b, hr (by omega)]
    · rw [← hS i a b, Wbits_late a b, hr (by omega)]
    · rw [← hHo i a, show theInputs.HoutBits.getD i [] = _ from getD_vecs a, hr (by omega)]
    · rw [← ha]; exact (hr (by decide)).symm
    · rw [← hb]; exact (hr (by decide)).symm
    · rw [← hc]; exact (hr (by decide)).symm
    · rw [← he']; exact (hr (by decide)).symm
    · rw [← hf]; exact (hr (by decide)).symm
    · rw [← hg]; exact (hr (by decide)).symm
    · rw [← hA i a, show theInputs.aout.getD i [] = _ from getD_vecs a, hr (by omega)]
    · rw [← hE i a, show theInputs.eout.getD i [] = _ from getD_vecs a, hr (by omega)]
  · obtain ⟨hW, i0, i1, i2, i4, i5, i6, hHo, hS, hA, hE, o0, o1, o2, o3, o4, o5, o6, o7⟩ := he
    rw [hin _ (by decide)] at i0 i1 i2 i4 i5 i6
    rw [hin _ (by decide), ht] at o0 o1 o2 o3 o4 o5 o6 o7
    refine ⟨fun i a b => ?_, i0, i1, i2, i4, i5, i6, fun i a => ?_, fun t a b => ?_, fun i a => ?_, fun i a => ?_,
      o0, o1, o2, o3, o4, o5, o6, o7⟩
    · rw [← hin _ (by omega)]; exact hW i a b
    · rw [← hin _ (by omega)]; exact hHo i a
    · rw [← hin _ (by omega), ← hin _ (by omega)]; exact hS t a b
    · rw [← hin _ (by omega), ← hin _ (by omega), ← ht]; exact hA i a
    · rw [← hin _ (by omega), ← hin _ (by omega), ← ht]; exact hE i a

/-- inputs that are accepted -/
theorem program_accepts {P : List Stmt} (hP : write64 = .ok P) (n0 : ℕ) (K M H : ℕ → Sha256.Word) (hn : Admissible n0 M)
    {inp : ℕ → F} (h0 : inp 0 = 0) (hinp : ∀ n, 34 ≤ n → n < 7226 →
      inp n = assign (fun t => (schedVal n0 M t : F)) K H (Sha256.compress K M H) (witness n0 K M H) n) :
    ∃ w : ℕ → F, (∀ s ∈ P, Spec.Holds inp w s) ∧ ∀ o t, .output o t ∈ P → w t = 0 := by
  obtain ⟨L, h1, h2, h3, h4⟩ := write64_eq
  rw [h4] at hP
  obtain rfl := Outcome.ok.inj hP
  obtain ⟨w, hw', hs⟩ := exists_values h2 inp
  have hw := fun n (h : 34 ≤ n) (h' : n < 7226) => (hw' n h').trans (hinp n h h')
  have hrep : Rep w (witness n0 K M H) := assign_rep hw
  have heq : Eqs w (witness n0 K M H) := witness_eqs hn
    (fun t ht => by rw [hw _ (by omega) (by omega)]; exact assign_W ht) (fun t ht => by rw [hw _ (by omega) (by omega)]; exact assign_K ht)
    (fun t ht => by rw [hw _ (by omega) (by omega)]; exact assign_H ht) (fun t ht => by rw [hw _ (by omega) (by omega)]; exact assign_O ht)
  refine ⟨w, (holds_program h2).2 ⟨hw', hs⟩, (outputs_program h2).2 ?_⟩
  exact (writeBody_run (by rw [hw' 0 (by decide), h0]) hrep _ _ _ _ h1 hs).2 heq

/-- there are such inputs for all messages -/
theorem program_complete {P : List Stmt} (hP : write64 = .ok P) (n0 : ℕ) (K M H : ℕ → Sha256.Word)
    (hn : Admissible n0 M) :
    ∃ inp w : ℕ → F, (∀ s ∈ P, Spec.Holds inp w s) ∧ inp 0 = 0 ∧ (∀ o t, .output o t ∈ P → w t = 0) ∧
      inp 34 = (n0 : F) ∧ (∀ t, 1 ≤ t → t < 16 → inp (34 + t) = ((M t).toNat : F)) ∧
      (∀ i < 64, inp (2210 + i) = ((K i).toNat : F)) ∧ (∀ i < 8, inp (2274 + i) = ((H i).toNat : F)) ∧
      ∀ i < 8, inp (2282 + i) = ((Sha256.compress K M H i).toNat : F) := by
  let inp : ℕ → F := assign (fun t => (schedVal n0 M t : F)) K H (Sha256.compress K M H) (witness n0 K M H)
  have h0 : inp 0 = 0 := by show assign _ _ _ _ _ 0 = 0; unfold assign; rw [if_pos (by decide)]
  obtain ⟨w, hw, hz⟩ := program_accepts hP n0 K M H hn h0 fun n _ _ => rfl
  refine ⟨inp, w, hw, h0, hz, assign_W (t := 0) (by decide),
    fun t a b => ?_, fun i hi => assign_K hi, fun i hi => assign_H hi, fun i hi => assign_O hi⟩
  refine (assign_W (by omega)).trans ?_
  rw [schedVal_pos (by omega), schedule_early M b]

end
end Libra.Sha256Gen
