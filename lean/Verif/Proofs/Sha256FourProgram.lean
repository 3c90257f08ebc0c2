import Verif.Proofs.Sha256Wires
import Verif.Proofs.Sha256Arith
import Verif.Proofs.Sha256Program

/-!
# The meaning of the program for four rounds
-/

namespace Libra.Sha256Gen
open Compiler Spec

section
variable {F : Type} [CommRing F]

/-- What it means to satisfy a program of input lines, straight lines and output lines. -/
theorem holds_lines {n : ℕ} {l : List Stmt} (hL : Straight n l) {o : ℕ} {ts : List ℕ} {inp w : ℕ → F} :
    (∀ s ∈ (List.range n).map (fun i => Stmt.input i i) ++ l ++ (ts.zipIdx o).map (fun p => .output p.2 p.1), Spec.Holds inp w s) ↔
    (∀ i < n, w i = inp i) ∧ Sat w l := by
  have hc : ∀ {v : ℕ} {l : List Stmt}, Straight v l → ((∀ s ∈ l, Spec.Holds inp w s) ↔ Sat w l) := by
    intro v l h
    induction l generalizing v with
    | nil => simp [Sat]
    | cons s l ih =>
      rw [Sat, List.forall_mem_cons, List.forall_mem_cons, ih h.2]
      exact and_congr (holds_congr h.1 fun _ _ => rfl) Iff.rfl
  simp only [List.forall_mem_append, List.forall_mem_map, List.mem_range, hc hL]
  constructor
  · rintro ⟨⟨h1, h2⟩, -⟩; exact ⟨h1, h2⟩
  · rintro ⟨h1, h2⟩; exact ⟨⟨h1, h2⟩, fun _ _ => True.intro⟩

/-- Its outputs. -/
theorem mem_output_straight {n : ℕ} {l : List Stmt} (hL : Straight n l) {m t : ℕ} {ts : List ℕ} :
    (∃ o, .output o t ∈ (List.range n).map (fun i => Stmt.input i i) ++ l ++ (ts.zipIdx m).map (fun p => .output p.2 p.1)) ↔ t ∈ ts := by
  have hno : ∀ {v : ℕ} {l : List Stmt}, Straight v l → ∀ o t, Stmt.output o t ∉ l := by
    intro v l h o t ht
    induction l generalizing v with
    | nil => simp at ht
    | cons s l ih =>
      rcases List.mem_cons.1 ht with rfl | ht
      · exact h.1
      · exact ih h.2 ht
  constructor
  · rintro ⟨o, ho⟩
    rcases List.mem_append.1 ho with ho | ho
    · rcases List.mem_append.1 ho with ho | ho
      · obtain ⟨i, -, e⟩ := List.mem_map.1 ho
        cases e
      · exact absurd ho (hno hL o t)
    · obtain ⟨p, hp, e⟩ := List.mem_map.1 ho
      obtain ⟨-, rfl⟩ := Stmt.output.inj e
      exact List.fst_mem_of_mem_zipIdx hp
  · intro ht
    obtain ⟨i, hi, rfl⟩ := List.mem_iff_getElem.1 ht
    refine ⟨m + i, List.mem_append_right _ (List.mem_map.2 ⟨(ts[i], m + i), ?_, rfl⟩)⟩
    refine List.mem_iff_getElem?.2 ⟨i, ?_⟩
    rw [List.getElem?_zipIdx, List.getElem?_eq_getElem hi]; rfl

theorem outputs_lines {n m : ℕ} {L : Log} (hL : Straight n L.lines) {w : ℕ → F} :
    (∀ o t, .output o t ∈ (List.range n).map (fun i => Stmt.input i i) ++ L.lines ++
      ((L.roundTests ++ L.bitTests).zipIdx m).map (fun p => .output p.2 p.1) → w t = 0) ↔ Zero w L := by
  unfold Zero
  constructor
  · intro h
    refine ⟨fun t ht => ?_, fun t ht => ?_⟩
    · obtain ⟨o, ho⟩ := (mem_output_straight hL (m := m)).2 (List.mem_append_right L.roundTests ht)
      exact h o t ho
    · obtain ⟨o, ho⟩ := (mem_output_straight hL (m := m)).2 (List.mem_append_left L.bitTests ht)
      exact h o t ho
  · intro h o t ht
    rcases List.mem_append.1 ((mem_output_straight hL).1 ⟨o, ht⟩) with ht | ht
    · exact h.2 t ht
    · exact h.1 t ht

end

section
variable {F : Type} [Field F] {w w' : ℕ → F}

theorem Rep4.congr {x : Wit4} (h : ∀ i < 1137, w i = w' i) (hx : Rep4 w x) : Rep4 w' x := by
  have hr : ∀ {a n : ℕ}, a + n ≤ 1137 → (List.range' a n).map w' = (List.range' a n).map w := fun ha =>
    List.map_congr_left fun i hi => by rw [List.mem_range'_1] at hi; exact (h i (by omega)).symm
  refine ⟨fun i a => ?_, fun i a => ?_, fun i a => ?_, fun i a => ?_, ?_, ?_, ?_, ?_, ?_, ?_, fun i a => ?_, fun i a => ?_⟩
  · rw [← hx.B15 i a, show theInputs4.Bm15.getD i [] = _ from getD_vecs a, hr (by omega)]
  · rw [← hx.B2 i a, show theInputs4.Bm2.getD i [] = _ from getD_vecs a, hr (by omega)]
  · rw [← hx.B i a, show theInputs4.Wbits.getD i [] = _ from getD_vecs a, hr (by omega)]
  · rw [← hx.Ho i a, show theInputs4.HoutBits.getD i [] = _ from getD_vecs a, hr (by omega)]
  · rw [← hx.a]; exact hr (by decide)
  · rw [← hx.b]; exact hr (by decide)
  · rw [← hx.c]; exact hr (by decide)
  · rw [← hx.e]; exact hr (by decide)
  · rw [← hx.f]; exact hr (by decide)
  · rw [← hx.g]; exact hr (by decide)
  · rw [← hx.A i a, show theInputs4.aout.getD i [] = _ from getD_vecs a, hr (by omega)]
  · rw [← hx.E i a, show theInputs4.eout.getD i [] = _ from getD_vecs a, hr (by omega)]

theorem Eqs4.congr {x : Wit4} (h : ∀ i < 1137, w i = w' i) (hx : Eqs4 w x) : Eqs4 w' x := by
  have ht : ∀ n, trace4 w' x n = trace4 w x n := by
    intro n
    induction n with
    | zero => simp only [trace4]; rw [h _ (by decide), h _ (by decide)]
    | succ n ih => simp only [trace4]; rw [ih]
  refine ⟨?_, ?_, fun i a => ?_, fun i a => ?_, ?_, fun i a b => ?_, fun i a => ?_, fun i a => ?_, fun i a => ?_, fun i a => ?_⟩
  · rw [← h _ (by decide)]; exact hx.dOut
  · rw [← h _ (by decide)]; exact hx.hOut
  · rw [← h _ (by omega), ← h _ (by omega), ht]; exact hx.H i a
  · rw [← h _ (by omega), ← h _ (by omega)]; exact hx.Hout i a
  · rw [← h _ (by omega), ← h _ (by omega)]; exact hx.W0
  · rw [← h _ (by omega)]; exact hx.W i a b
  · rw [← h _ (by omega), ← h _ (by omega), ← h _ (by omega)]; exact hx.S i a
  · rw [← h _ (by omega), ← h _ (by omega), ht]; exact hx.A i a
  · rw [← h _ (by omega), ← h _ (by omega), ht]; exact hx.E i a
  · rw [← h _ (by omega), ← h _ (by omega), ht]; exact hx.O i a

theorem allVecs_lt : ∀ l ∈ allVecs, ∀ i ∈ l, i < 1137 := by decide +kernel

variable {G : ℕ → F}

/-- accepted blocks -/
theorem blocks_sound {P : List Stmt} (hP : write4 false = .ok P) (h0 : G 0 = 0) (h1 : G 1 = 1)
    (h : ∀ b < 16, ∃ w : ℕ → F, (∀ s ∈ P, Spec.Holds (blk G b) w s) ∧ ∀ o t, .output o t ∈ P → w t = 0) :
    ∃ x, GRep G x ∧ Eqs (inp64 G) x ∧ Passed G x := by
  obtain ⟨L, l1, l2, -, -, l3⟩ := write4_eq
  rw [l3] at hP
  obtain rfl := Outcome.ok.inj hP
  have hb : ∀ b < 16, ∃ w : ℕ → F, (∀ i < 1137, w i = blk G b i) ∧ Sat w L.lines ∧ Zero w L := fun b hb => by
    obtain ⟨w, hw, hz⟩ := h b hb
    obtain ⟨a, c⟩ := (holds_lines l2).1 hw
    exact ⟨w, a, c, (outputs_lines l2).1 hz⟩
  obtain ⟨x, hx⟩ := exists_GRep (G := G) fun b hb' l hl i hi => by
    obtain ⟨w, w1, w2, w3⟩ := hb b hb'
    rw [← w1 i (allVecs_lt l hl i hi)]
    exact writeBody4_bits _ _ _ _ l1 w2 w3 l hl i hi
  refine ⟨x, hx, blocks_eqs h0 h1 fun b hb' => ?_⟩
  obtain ⟨w, w1, w2, w3⟩ := hb b hb'
  have hrep := (hx.block h0 hb').congr fun i hi => (w1 i hi).symm
  have hz : w 0 = 0 := by rw [w1 0 (by decide), blk, bo_zero b hb', h0]
  exact ((writeBody4_run hz hrep _ _ _ _ l1 w2).1 w3).congr w1

/-- blocks that are accepted -/
theorem blocks_accepted {P : List Stmt} (hP : write4 false = .ok P) (h0 : G 0 = 0) (h1 : G 1 = 1) {x : Wit} (hx : GRep G x)
    (he : Eqs (inp64 G) x) (hd : Passed G x) {b : ℕ} (hb : b < 16) :
    ∃ w : ℕ → F, (∀ s ∈ P, Spec.Holds (blk G b) w s) ∧ ∀ o t, .output o t ∈ P → w t = 0 := by
  obtain ⟨L, l1, l2, -, -, l3⟩ := write4_eq
  rw [l3] at hP
  obtain rfl := Outcome.ok.inj hP
  obtain ⟨w, w1, w2⟩ := exists_values l2 (blk G b)
  refine ⟨w, (holds_lines l2).2 ⟨w1, w2⟩, (outputs_lines l2).2 ?_⟩
  have hrep := (hx.block h0 hb).congr fun i hi => (w1 i hi).symm
  have hz : w 0 = 0 := by rw [w1 0 (by decide), blk, bo_zero b hb, h0]
  exact (writeBody4_run hz hrep _ _ _ _ l1 w2).2 ((eqs_blocks h0 h1 he hd hb).congr fun i hi => (w1 i hi).symm)

/-! ### Inputs for all messages -/

/-- the constants and inputs of the wiring for message `M`, with `n0` for word 0 -/
def numbers4 (n0 : ℕ) (K M H : ℕ → Sha256.Word) (n : ℕ) : ℕ :=
  let x := witness n0 K M H
  if n = 0 then 0
  else if n = 1 then 1
  else if n < 35 then 4 * 2 ^ (n - 2)
  else if n < 515 then ((x.M (1 + (n - 35) / 32)).getLsbD ((n - 35) % 32)).toNat
  else if n < 2147 then ((x.S (16 + (n - 515) / 34)).getLsbD ((n - 515) % 34)).toNat
  else if n < 2211 then schedVal n0 M (n - 2147)
  else if n < 2275 then (K (n - 2211)).toNat
  else if n < 2283 then (H (n - 2275)).toNat
  else if n < 2291 then (Sha256.compress K M H (n - 2283)).toNat
  else if n < 2555 then ((x.Ho ((n - 2291) / 33)).getLsbD ((n - 2291) % 33)).toNat
  else if n < 2572 then (state K M H (4 * (n - 2555))).d.toNat
  else if n < 2589 then (state K M H (4 * (n - 2572))).h.toNat
  else if n < 2621 then (x.a.getLsbD (n - 2589)).toNat
  else if n < 2653 then (x.b.getLsbD (n - 2621)).toNat
  else if n < 2685 then (x.c.getLsbD (n - 2653)).toNat
  else if n < 2717 then (x.e.getLsbD (n - 2685)).toNat
  else if n < 2749 then (x.f.getLsbD (n - 2717)).toNat
  else if n < 2781 then (x.g.getLsbD (n - 2749)).toNat
  else if n < 5021 then ((x.A ((n - 2781) / 35)).getLsbD ((n - 2781) % 35)).toNat
  else ((x.E ((n - 5021) / 35)).getLsbD ((n - 5021) % 35)).toNat

variable {n0 : ℕ} {K M H : ℕ → Sha256.Word}

theorem numbers4_lt (h : Admissible n0 M) {n : ℕ} (hn : 35 ≤ n) : numbers4 n0 K M H n < 2 ^ 33 := by
  have hb : ∀ b : Bool, b.toNat < 2 ^ 33 := fun b => by cases b <;> decide
  have hw : ∀ X : Sha256.Word, X.toNat < 2 ^ 33 := fun X => by have := X.isLt; omega
  unfold numbers4
  rw [if_neg (by omega), if_neg (by omega), if_neg (by omega)]
  have hi : ∀ (c : Prop) [Decidable c] (a b : ℕ), a < 2 ^ 33 → b < 2 ^ 33 → (if c then a else b) < 2 ^ 33 := fun c _ a b ha hb => by
    by_cases hc : c
    · rwa [if_pos hc]
    · rwa [if_neg hc]
  refine hi _ _ _ (hb _) ?_
  refine hi _ _ _ (hb _) ?_
  refine hi _ _ _ (schedVal_lt h _) ?_
  refine hi _ _ _ (hw _) ?_
  refine hi _ _ _ (hw _) ?_
  refine hi _ _ _ (hw _) ?_
  refine hi _ _ _ (hb _) ?_
  refine hi _ _ _ (hw _) ?_
  refine hi _ _ _ (hw _) ?_
  refine hi _ _ _ (hb _) ?_
  refine hi _ _ _ (hb _) ?_
  refine hi _ _ _ (hb _) ?_
  refine hi _ _ _ (hb _) ?_
  refine hi _ _ _ (hb _) ?_
  refine hi _ _ _ (hb _) ?_
  refine hi _ _ _ (hb _) ?_
  exact hb _

theorem numbers4_W {t : ℕ} (h : t < 64) : numbers4 n0 K M H (2147 + t) = schedVal n0 M t := by
  unfold numbers4
  iterate 5 rw [if_neg (by omega)]
  rw [if_pos (by omega), Nat.add_sub_cancel_left]

theorem numbers4_K {t : ℕ} (h : t < 64) : numbers4 n0 K M H (2211 + t) = (K t).toNat := by
  unfold numbers4
  iterate 6 rw [if_neg (by omega)]
  rw [if_pos (by omega), Nat.add_sub_cancel_left]

theorem numbers4_H {t : ℕ} (h : t < 8) : numbers4 n0 K M H (2275 + t) = (H t).toNat := by
  unfold numbers4
  iterate 7 rw [if_neg (by omega)]
  rw [if_pos (by omega), Nat.add_sub_cancel_left]

theorem numbers4_O {t : ℕ} (h : t < 8) : numbers4 n0 K M H (2283 + t) = (Sha256.compress K M H t).toNat := by
  unfold numbers4
  iterate 8 rw [if_neg (by omega)]
  rw [if_pos (by omega), Nat.add_sub_cancel_left]

theorem numbers4_d {t : ℕ} (h : t ≤ 16) : numbers4 n0 K M H (2555 + t) = (state K M H (4 * t)).d.toNat := by
  unfold numbers4
  iterate 10 rw [if_neg (by omega)]
  rw [if_pos (by omega), Nat.add_sub_cancel_left]

theorem numbers4_h {t : ℕ} (h : t ≤ 16) : numbers4 n0 K M H (2572 + t) = (state K M H (4 * t)).h.toNat := by
  unfold numbers4
  iterate 11 rw [if_neg (by omega)]
  rw [if_pos (by omega), Nat.add_sub_cancel_left]

theorem numbers4_rep (hG : ∀ n < 7261, n < 2 ∨ 35 ≤ n → G n = (numbers4 n0 K M H n : F)) : GRep G (witness n0 K M H) := by
  refine ⟨?_, ?_, ?_, ?_, ?_, ?_, ?_, ?_, ?_, ?_, ?_⟩
  · intro i h1 h2
    rw [wordVars, if_pos h2]
    refine map_range'_wb fun j hj => ?_
    rw [hG _ (by omega) (by omega)]
    unfold numbers4
    iterate 3 rw [if_neg (by omega)]
    rw [if_pos (by omega), show 1 + (35 + 32 * (i - 1) + j - 35) / 32 = i by omega, show (35 + 32 * (i - 1) + j - 35) % 32 = j by omega]
    rfl
  · intro i h1 h2
    rw [wordVars, if_neg (by omega)]
    refine map_range'_wb fun j hj => ?_
    rw [hG _ (by omega) (by omega)]
    unfold numbers4
    iterate 4 rw [if_neg (by omega)]
    rw [if_pos (by omega), show 16 + (515 + 34 * (i - 16) + j - 515) / 34 = i by omega, show (515 + 34 * (i - 16) + j - 515) % 34 = j by omega]
    rfl
  · intro i hi
    refine map_range'_wb fun j hj => ?_
    rw [hG _ (by omega) (by omega)]
    unfold numbers4
    iterate 9 rw [if_neg (by omega)]
    rw [if_pos (by omega), show (2291 + 33 * i + j - 2291) / 33 = i by omega, show (2291 + 33 * i + j - 2291) % 33 = j by omega]
    rfl
  · refine map_range'_wb fun j hj => ?_
    rw [hG _ (by omega) (by omega)]
    unfold numbers4
    iterate 12 rw [if_neg (by omega)]
    rw [if_pos (by omega), Nat.add_sub_cancel_left]
    rfl
  · refine map_range'_wb fun j hj => ?_
    rw [hG _ (by omega) (by omega)]
    unfold numbers4
    iterate 13 rw [if_neg (by omega)]
    rw [if_pos (by omega), Nat.add_sub_cancel_left]
    rfl
  · refine map_range'_wb fun j hj => ?_
    rw [hG _ (by omega) (by omega)]
    unfold numbers4
    iterate 14 rw [if_neg (by omega)]
    rw [if_pos (by omega), Nat.add_sub_cancel_left]
    rfl
  · refine map_range'_wb fun j hj => ?_
    rw [hG _ (by omega) (by omega)]
    unfold numbers4
    iterate 15 rw [if_neg (by omega)]
    rw [if_pos (by omega), Nat.add_sub_cancel_left]
    rfl
  · refine map_range'_wb fun j hj => ?_
    rw [hG _ (by omega) (by omega)]
    unfold numbers4
    iterate 16 rw [if_neg (by omega)]
    rw [if_pos (by omega), Nat.add_sub_cancel_left]
    rfl
  · refine map_range'_wb fun j hj => ?_
    rw [hG _ (by omega) (by omega)]
    unfold numbers4
    iterate 17 rw [if_neg (by omega)]
    rw [if_pos (by omega), Nat.add_sub_cancel_left]
    rfl
  · intro i hi
    refine map_range'_wb fun j hj => ?_
    rw [hG _ (by omega) (by omega)]
    unfold numbers4
    iterate 18 rw [if_neg (by omega)]
    rw [if_pos (by omega), show (2781 + 35 * i + j - 2781) / 35 = i by omega, show (2781 + 35 * i + j - 2781) % 35 = j by omega]
    rfl
  · intro i hi
    refine map_range'_wb fun j hj => ?_
    rw [hG _ (by omega) (by omega)]
    unfold numbers4
    iterate 19 rw [if_neg (by omega)]
    rw [show (5021 + 35 * i + j - 5021) / 35 = i by omega, show (5021 + 35 * i + j - 5021) % 35 = j by omega]
    rfl

/-- these inputs are accepted in all blocks -/
theorem numbers4_accepted {P : List Stmt} (hP : write4 false = .ok P) (hn : Admissible n0 M)
    (hG : ∀ n < 7261, n < 2 ∨ 35 ≤ n → G n = (numbers4 n0 K M H n : F)) {b : ℕ} (hb : b < 16) :
    ∃ w : ℕ → F, (∀ s ∈ P, Spec.Holds (blk G b) w s) ∧ ∀ o t, .output o t ∈ P → w t = 0 := by
  have hH : ∀ i < 8, inp64 G (2274 + i) = ((H i).toNat : F) := fun i hi => by rw [inp64_H hi, hG _ (by omega) (by omega), numbers4_H hi]
  refine blocks_accepted hP ((hG 0 (by decide) (by decide)).trans Nat.cast_zero) ((hG 1 (by decide) (by decide)).trans Nat.cast_one) (numbers4_rep hG)
    (witness_eqs hn (fun t ht => by rw [inp64_W ht, hG _ (by omega) (by omega), numbers4_W ht])
      (fun t ht => by rw [inp64_K ht, hG _ (by omega) (by omega), numbers4_K ht]) hH
      (fun i hi => by rw [inp64_Hout, hG _ (by omega) (by omega), numbers4_O hi])) (fun c hc => ?_) hb
  rw [witness_trace hn (hH 3 (by decide)) (hH 7 (by decide)), hG _ (by omega) (by omega), hG _ (by omega) (by omega), numbers4_d hc, numbers4_h hc]
  exact ⟨rfl, rfl⟩

end

/-! ### The wiring file -/

/-- the variables that are passed to the blocks -/
def vals4 : List ℕ := ((List.range 16).map bo).flatten

theorem flatten_lengths {f : ℕ → List ℕ} {N m : ℕ} (hf : ∀ b < N, (f b).length = m) :
    ((List.range N).map f).map List.length = List.replicate N m := by
  rw [List.map_map]
  refine (List.map_congr_left (g := fun _ => m) fun b hb => hf b (List.mem_range.1 hb)).trans ?_
  rw [List.map_const', List.length_range]

theorem flatten_at {f : ℕ → List ℕ} {N m : ℕ} (hf : ∀ b < N, (f b).length = m) {b i : ℕ} (hb : b < N) (hi : i < m) :
    ((List.range N).map f).flatten.getD (b * m + i) 0 = (f b).getD i 0 := by
  have hs : ((((List.range N).map f).map List.length).take b).sum = b * m := by
    rw [flatten_lengths hf, List.take_replicate, List.sum_replicate, Nat.min_eq_left hb.le, smul_eq_mul]
  have hd : ((List.range N).map f).flatten.drop (b * m) = f b ++ (((List.range N).map f).drop (b + 1)).flatten := by
    have hlt : b < ((List.range N).map f).length := by simpa using hb
    rw [← hs, List.drop_sum_flatten, List.drop_eq_getElem_cons hlt, List.flatten_cons]
    simp
  rw [List.getD_eq_getElem?_getD, ← List.getElem?_drop, hd, List.getElem?_append_left (by rw [hf b hb]; exact hi),
    List.getD_eq_getElem?_getD]

theorem vals4_length : vals4.length = 18192 := by
  rw [vals4, List.length_flatten, flatten_lengths bo_length, List.sum_replicate, smul_eq_mul]

theorem vals4_at {b i : ℕ} (hb : b < 16) (hi : i < 1137) : vals4.getD (b * 1137 + i) 0 = (bo b).getD i 0 := flatten_at bo_length hb hi

/-- the numbers of the variables passed to the blocks are small -/
def valsOk : Bool := (List.range 16).all fun b => (bo b).all fun a => a < 7261

theorem valsOk_true : valsOk = true := by decide +kernel

theorem vals4_lt : ∀ a ∈ vals4, a < 7261 := by
  intro a ha
  obtain ⟨l, hl, hal⟩ := List.mem_flatten.1 ha
  obtain ⟨b, hb, e⟩ := List.mem_map.1 hl
  have := (List.all_eq_true.1 ((List.all_eq_true.1 valsOk_true) b hb)) a (e ▸ hal)
  exact of_decide_eq_true this

/-- the lines `write4Rdl` returns -/
def rdl4 (x : ℕ → ℤ) : List RStmt :=
  (RStmt.const 0 0 :: .const 1 1 :: (List.range' 2 33).map (fun i => .const i (4 * 2 ^ (i - 2)))) ++
  ((List.range' 35 7226).zipIdx 35).map (fun p => RStmt.input p.1 p.2 (x p.2)) ++
  (vals4.zipIdx 7261).map (fun p => RStmt.pass p.2 p.1 p.1) ++
  ((List.range' 7261 vals4.length).zipIdx 7261).map (fun p => RStmt.output p.2 p.1)

theorem write4Rdl_eq (x : ℕ → ℤ) : write4Rdl false x = .ok (rdl4 x) := by
  unfold write4Rdl
  rw [allocWires_eq]
  simp only [Outcome.bind]
  rw [if_pos]
  · simp only [Bool.false_eq_true, if_false, Nat.add_zero, List.length_range']
    rfl
  · rw [List.all_eq_true]
    intro l hl
    obtain ⟨b, hb, rfl⟩ := List.mem_map.1 hl
    rw [decide_eq_true_iff]
    exact bo_length b (List.mem_range.1 hb)

theorem mem_zipIdx_map {α : Type} {f : ℕ × ℕ → α} {l : List ℕ} {k : ℕ} {s : α} :
    s ∈ (l.zipIdx k).map f ↔ ∃ n, ∃ h : n < l.length, s = f (l[n], k + n) := by
  simp only [List.mem_map, Prod.exists, List.mem_zipIdx_iff_le_and_getElem?_sub]
  constructor
  · rintro ⟨a, i, ⟨h1, h2⟩, rfl⟩
    obtain ⟨h3, h4⟩ := List.getElem?_eq_some_iff.1 h2
    exact ⟨i - k, h3, by rw [h4, Nat.add_sub_cancel' h1]⟩
  · rintro ⟨n, h, rfl⟩
    exact ⟨_, _, ⟨by omega, by rw [Nat.add_sub_cancel_left, List.getElem?_eq_getElem h]⟩, rfl⟩

theorem mem_rdl4 {x : ℕ → ℤ} {l : RStmt} : l ∈ rdl4 x ↔
    l = .const 0 0 ∨ (∃ i < 34, l = .const (1 + i) (2 ^ (i + if i = 0 then 0 else 1))) ∨
    (∃ i < 7226, l = .input (35 + i) (35 + i) (x (35 + i))) ∨
    (∃ n < 18192, l = .pass (7261 + n) (vals4.getD n 0) (vals4.getD n 0)) ∨
    (∃ n < 18192, l = .output (7261 + n) (7261 + n)) := by
  unfold rdl4
  rw [List.mem_append, List.mem_append, List.mem_append, mem_zipIdx_map, mem_zipIdx_map, mem_zipIdx_map, or_assoc, or_assoc]
  simp only [List.length_range', List.getElem_range', vals4_length, one_mul, exists_prop]
  have hc : l ∈ RStmt.const 0 0 :: .const 1 1 :: (List.range' 2 33).map (fun i => RStmt.const i (4 * 2 ^ (i - 2))) ↔
      l = .const 0 0 ∨ ∃ i < 34, l = .const (1 + i) (2 ^ (i + if i = 0 then 0 else 1)) := by
    rw [List.mem_cons, List.mem_cons]
    refine or_congr_right ?_
    simp only [List.mem_map, List.mem_range'_1]
    have e : ∀ j, (2 : ℤ) ^ (j + 1 + 1) = 4 * 2 ^ j := fun j => by rw [pow_succ, pow_succ]; omega
    constructor
    · rintro (rfl | ⟨i, hi, rfl⟩)
      · exact ⟨0, by decide, rfl⟩
      · obtain ⟨j, rfl⟩ := Nat.exists_eq_add_of_le hi.1
        refine ⟨1 + j, by omega, ?_⟩
        rw [if_neg (by omega), Nat.add_sub_cancel_left, Nat.add_comm 1 j, e, show 1 + (j + 1) = 2 + j by omega]
    · rintro ⟨i, hi, rfl⟩
      rcases Nat.eq_zero_or_pos i with rfl | h
      · exact .inl rfl
      · obtain ⟨j, rfl⟩ := Nat.exists_eq_add_of_le' h
        refine .inr ⟨2 + j, by omega, ?_⟩
        rw [if_neg (by omega), Nat.add_sub_cancel_left, e, show 1 + (j + 1) = 2 + j by omega]
  rw [hc, or_assoc]
  refine or_congr_right (or_congr_right (or_congr_right (or_congr_left ?_)))
  constructor
  · rintro ⟨n, h, e⟩
    exact ⟨n, h, by rw [e, List.getD_eq_getElem]⟩
  · rintro ⟨n, h, e⟩
    exact ⟨n, h, by rw [e, List.getD_eq_getElem]⟩

theorem rdl4_least (x : ℕ → ℤ) : IsLeast {o | ∃ a, .output o a ∈ rdl4 x} 7261 := by
  refine ⟨⟨_, mem_rdl4.2 (.inr (.inr (.inr (.inr ⟨0, by decide, rfl⟩))))⟩, ?_⟩
  rintro o ⟨a, ha⟩
  rcases mem_rdl4.1 ha with e | ⟨_, _, e⟩ | ⟨_, _, e⟩ | ⟨_, _, e⟩ | ⟨n, -, e⟩
  · cases e
  · cases e
  · cases e
  · cases e
  · obtain ⟨rfl, -⟩ := RStmt.output.inj e
    omega

end Libra.Sha256Gen
