import Verif.Proofs.Sha256WireFacts

/-!
# Sixteen blocks of four rounds are one block of 64 rounds
-/

namespace Libra.Sha256Gen
open Compiler Spec

section
variable {F : Type} [Field F]

/-- the inputs of block `b` -/
def blk (G : ℕ → F) (b i : ℕ) : F := G ((bo b).getD i 0)

variable {G : ℕ → F}

theorem map_blk {b a n : ℕ} (hb : b < 16) (h : a + n ≤ 1137) : (List.range' a n).map (blk G b) = (boSlice b a n).map G := by
  have hl := bo_length b hb
  refine List.ext_getElem (by simp [boSlice, hl]; omega) fun i h1 h2 => ?_
  have hi : i < n := by simpa using h1
  simp only [List.getElem_map, List.getElem_range', boSlice, List.getElem_take, List.getElem_drop, blk, one_mul]
  rw [List.getD_eq_getElem _ _ (by omega)]

/-- `G` has the bits `x` in the inputs of the wiring -/
structure GRep (G : ℕ → F) (x : Wit) : Prop where
  M : ∀ i, 1 ≤ i → i < 16 → (wordVars i).map G = wb F (x.M i)
  S : ∀ i, 16 ≤ i → i < 64 → (wordVars i).map G = wb F (x.S i)
  Ho : ∀ i < 8, (List.range' (2291 + 33 * i) 33).map G = wb F (x.Ho i)
  a : (List.range' 2589 32).map G = wb F x.a
  b : (List.range' 2621 32).map G = wb F x.b
  c : (List.range' 2653 32).map G = wb F x.c
  e : (List.range' 2685 32).map G = wb F x.e
  f : (List.range' 2717 32).map G = wb F x.f
  g : (List.range' 2749 32).map G = wb F x.g
  A : ∀ i < 64, (List.range' (2781 + 35 * i) 35).map G = wb F (x.A i)
  E : ∀ i < 64, (List.range' (5021 + 35 * i) 35).map G = wb F (x.E i)

/-- the bits of block `b` -/
def blkWit (x : Wit) (b : ℕ) : Wit4 where
  B15 i := if b < 4 then 0 else x.word (4 * b + i - 15)
  B2 i := if b < 4 then 0 else x.word (4 * b + i - 2)
  B i := if 4 * b + i = 0 then 0 else if 4 * b + i < 16 then (x.M (4 * b + i)).setWidth 34 else x.S (4 * b + i)
  Ho := x.Ho
  a := if b = 0 then x.a else (x.A (4 * b - 1)).setWidth 32
  b := if b = 0 then x.b else (x.A (4 * b - 2)).setWidth 32
  c := if b = 0 then x.c else (x.A (4 * b - 3)).setWidth 32
  e := if b = 0 then x.e else (x.E (4 * b - 1)).setWidth 32
  f := if b = 0 then x.f else (x.E (4 * b - 2)).setWidth 32
  g := if b = 0 then x.g else (x.E (4 * b - 3)).setWidth 32
  A i := x.A (4 * b + i)
  E i := x.E (4 * b + i)

theorem wb_zero (n : ℕ) : wb F (0 : BitVec n) = List.replicate n 0 := by
  rw [wb]
  refine List.ext_getElem (by simp) fun i h1 h2 => ?_
  simp

theorem wb_pad (X : BitVec 32) : wb F (X.setWidth 34) = wb F X ++ [0, 0] := by
  unfold wb
  rw [show (34 : ℕ) = 32 + 1 + 1 from rfl, List.range_succ, List.range_succ]
  simp only [List.map_append, List.map_cons, List.map_nil, List.append_assoc, List.cons_append, List.nil_append]
  refine congrArg₂ _ (List.map_congr_left fun i hi => ?_) (by simp)
  rw [List.mem_range] at hi
  rw [BitVec.getLsbD_setWidth, decide_eq_true (show i < 32 + 1 + 1 by omega), Bool.true_and]

theorem wordVars_rep {x : Wit} (h : GRep G x) {i : ℕ} (h1 : 1 ≤ i) (h2 : i < 64) : ((wordVars i).take 32).map G = wb F (x.word i) := by
  unfold Wit.word
  split_ifs with hi
  · rw [take_self (h.M i h1 hi)]; exact h.M i h1 hi
  · exact map_take_wb (h.S i (by omega) h2) (by decide)

theorem GRep.block {x : Wit} (h : GRep G x) (h0 : G 0 = 0) {b : ℕ} (hb : b < 16) : Rep4 (blk G b) (blkWit x b) := by
  have z : ∀ n, (List.replicate n 0).map G = wb F (0 : BitVec n) := fun n => by rw [List.map_replicate, h0, wb_zero]
  refine ⟨fun i hi => ?_, fun i hi => ?_, fun i hi => ?_, fun i hi => ?_, ?_, ?_, ?_, ?_, ?_, ?_, fun i hi => ?_, fun i hi => ?_⟩
  · rw [show theInputs4.Bm15.getD i [] = _ from getD_vecs hi, map_blk hb (by omega), bo_B15 b hb i hi]
    simp only [blkWit, oldVars]
    split_ifs with h4
    · exact z 32
    · exact wordVars_rep h (by omega) (by omega)
  · rw [show theInputs4.Bm2.getD i [] = _ from getD_vecs hi, map_blk hb (by omega), bo_B2 b hb i hi]
    simp only [blkWit, oldVars]
    split_ifs with h4
    · exact z 32
    · exact wordVars_rep h (by omega) (by omega)
  · rw [show theInputs4.Wbits.getD i [] = _ from getD_vecs hi, map_blk hb (by omega), bo_B b hb i hi]
    simp only [blkWit, padVars]
    split_ifs with h4 h5
    · exact z 34
    · rw [List.map_append, h.M _ (by omega) h5, wb_pad]
      simp [h0]
    · exact h.S _ (by omega) (by omega)
  · rw [show theInputs4.HoutBits.getD i [] = _ from getD_vecs hi, map_blk hb (by omega), bo_Ho b hb i hi]
    exact h.Ho i hi
  · rw [show theInputs4.a = List.range' 663 32 from rfl, map_blk hb (by omega), bo_a b hb]
    simp only [blkWit]
    split_ifs
    · exact h.a
    · exact map_take_wb (h.A _ (by omega)) (by decide)
  · rw [show theInputs4.b = List.range' 695 32 from rfl, map_blk hb (by omega), bo_b b hb]
    simp only [blkWit]
    split_ifs
    · exact h.b
    · exact map_take_wb (h.A _ (by omega)) (by decide)
  · rw [show theInputs4.c = List.range' 727 32 from rfl, map_blk hb (by omega), bo_c b hb]
    simp only [blkWit]
    split_ifs
    · exact h.c
    · exact map_take_wb (h.A _ (by omega)) (by decide)
  · rw [show theInputs4.e = List.range' 759 32 from rfl, map_blk hb (by omega), bo_e b hb]
    simp only [blkWit]
    split_ifs
    · exact h.e
    · exact map_take_wb (h.E _ (by omega)) (by decide)
  · rw [show theInputs4.f = List.range' 791 32 from rfl, map_blk hb (by omega), bo_f b hb]
    simp only [blkWit]
    split_ifs
    · exact h.f
    · exact map_take_wb (h.E _ (by omega)) (by decide)
  · rw [show theInputs4.g = List.range' 823 32 from rfl, map_blk hb (by omega), bo_g b hb]
    simp only [blkWit]
    split_ifs
    · exact h.g
    · exact map_take_wb (h.E _ (by omega)) (by decide)
  · rw [show theInputs4.aout.getD i [] = _ from getD_vecs hi, map_blk hb (by omega), bo_A b hb i hi]
    exact h.A _ (by omega)
  · rw [show theInputs4.eout.getD i [] = _ from getD_vecs hi, map_blk hb (by omega), bo_E b hb i hi]
    exact h.E _ (by omega)

/-- If all purported bits of all blocks are bits, the inputs of the wiring have bits. -/
theorem exists_GRep (h : ∀ b < 16, ∀ l ∈ allVecs, ∀ i ∈ l, blk G b i = 0 ∨ blk G b i = 1) : ∃ x, GRep G x := by
  have key : ∀ b < 16, ∀ a n, a + n ≤ 1137 → List.range' a n ∈ allVecs → ∀ j ∈ boSlice b a n, G j = 0 ∨ G j = 1 := by
    intro b hb a n han hl j hj
    have : G j ∈ (boSlice b a n).map G := List.mem_map_of_mem hj
    rw [← map_blk hb han] at this
    obtain ⟨i, hi, e⟩ := List.mem_map.1 this
    rw [← e]
    exact h b hb _ hl i hi
  have mv : ∀ {v n k i : ℕ}, i < n → List.range' (v + k * i) k ∈ vecs v n k := fun hi =>
    List.mem_map.2 ⟨_, List.mem_range.2 hi, rfl⟩
  have hB : ∀ i, 1 ≤ i → i < 64 → ∀ j ∈ wordVars i, G j = 0 ∨ G j = 1 := by
    intro i h1 h2 j hj
    have hk := key (i / 4) (by omega) (241 + 34 * (i % 4)) 34 (by omega)
      (by simp only [allVecs, List.mem_append]; exact Or.inl (Or.inl (Or.inl (mv (by omega))))) j
    rw [bo_B _ (by omega) _ (by omega), show 4 * (i / 4) + i % 4 = i by omega, padVars, if_neg (by omega)] at hk
    refine hk ?_
    split_ifs
    · exact List.mem_append_left _ hj
    · exact hj
  have hM : ∀ i, ∃ X : BitVec 32, 1 ≤ i → i < 16 → (wordVars i).map G = wb F X := fun i => by
    by_cases hi : 1 ≤ i ∧ i < 16
    · obtain ⟨X, hX⟩ := exists_wb' (n := 32) (hB i hi.1 (by omega)) (by rw [wordVars, if_pos hi.2, List.length_range'])
      exact ⟨X, fun _ _ => hX⟩
    · exact ⟨0, fun a b => absurd ⟨a, b⟩ hi⟩
  have hS : ∀ i, ∃ X : BitVec 34, 16 ≤ i → i < 64 → (wordVars i).map G = wb F X := fun i => by
    by_cases hi : 16 ≤ i ∧ i < 64
    · obtain ⟨X, hX⟩ := exists_wb' (n := 34) (hB i (by omega) hi.2) (by rw [wordVars, if_neg (by omega), List.length_range'])
      exact ⟨X, fun _ _ => hX⟩
    · exact ⟨0, fun a b => absurd ⟨a, b⟩ hi⟩
  have hHo : ∀ i, ∃ X : BitVec 33, i < 8 → (List.range' (2291 + 33 * i) 33).map G = wb F X := fun i => by
    by_cases hi : i < 8
    · have hk := key 0 (by decide) (397 + 33 * i) 33 (by omega)
        (by simp only [allVecs, List.mem_append]; exact Or.inr (Or.inl (mv hi)))
      rw [bo_Ho 0 (by decide) i hi] at hk
      obtain ⟨X, hX⟩ := exists_wb' (n := 33) hk List.length_range'
      exact ⟨X, fun _ => hX⟩
    · exact ⟨0, fun a => absurd a hi⟩
  have hA : ∀ i, ∃ X : BitVec 35, i < 64 → (List.range' (2781 + 35 * i) 35).map G = wb F X := fun i => by
    by_cases hi : i < 64
    · have hk := key (i / 4) (by omega) (857 + 35 * (i % 4)) 35 (by omega)
        (by simp only [allVecs, List.mem_append]; exact Or.inr (Or.inr (Or.inr (Or.inl (mv (by omega))))))
      rw [bo_A _ (by omega) _ (by omega), show 4 * (i / 4) + i % 4 = i by omega] at hk
      obtain ⟨X, hX⟩ := exists_wb' (n := 35) hk List.length_range'
      exact ⟨X, fun _ => hX⟩
    · exact ⟨0, fun a => absurd a hi⟩
  have hE : ∀ i, ∃ X : BitVec 35, i < 64 → (List.range' (5021 + 35 * i) 35).map G = wb F X := fun i => by
    by_cases hi : i < 64
    · have hk := key (i / 4) (by omega) (997 + 35 * (i % 4)) 35 (by omega)
        (by simp only [allVecs, List.mem_append]; exact Or.inr (Or.inr (Or.inr (Or.inr (mv (by omega))))))
      rw [bo_E _ (by omega) _ (by omega), show 4 * (i / 4) + i % 4 = i by omega] at hk
      obtain ⟨X, hX⟩ := exists_wb' (n := 35) hk List.length_range'
      exact ⟨X, fun _ => hX⟩
    · exact ⟨0, fun a => absurd a hi⟩
  have reg : ∀ a c, a + 32 ≤ 1137 → List.range' a 32 ∈ allVecs → boSlice 0 a 32 = List.range' c 32 →
      ∃ X : BitVec 32, (List.range' c 32).map G = wb F X := fun a c h1 h2 h3 => by
    have hk := key 0 (by decide) a 32 h1 h2
    rw [h3] at hk
    exact exists_wb' hk List.length_range'
  have mr : ∀ l ∈ [theInputs4.a, theInputs4.b, theInputs4.c, theInputs4.e, theInputs4.f, theInputs4.g], l ∈ allVecs := fun l hl => by
    simp only [allVecs, List.mem_append]; exact Or.inr (Or.inr (Or.inl hl))
  choose M hM using hM
  choose S hS using hS
  choose Ho hHo using hHo
  choose A hA using hA
  choose E hE using hE
  obtain ⟨a, ha⟩ := reg 663 2589 (by decide) (mr theInputs4.a (by simp)) (bo_a 0 (by decide))
  obtain ⟨b, hb⟩ := reg 695 2621 (by decide) (mr theInputs4.b (by simp)) (bo_b 0 (by decide))
  obtain ⟨c, hc⟩ := reg 727 2653 (by decide) (mr theInputs4.c (by simp)) (bo_c 0 (by decide))
  obtain ⟨e, he⟩ := reg 759 2685 (by decide) (mr theInputs4.e (by simp)) (bo_e 0 (by decide))
  obtain ⟨f, hf⟩ := reg 791 2717 (by decide) (mr theInputs4.f (by simp)) (bo_f 0 (by decide))
  obtain ⟨g, hg⟩ := reg 823 2749 (by decide) (mr theInputs4.g (by simp)) (bo_g 0 (by decide))
  exact ⟨⟨M, S, Ho, a, b, c, e, f, g, A, E⟩, hM, hS, hHo, ha, hb, hc, he, hf, hg, hA, hE⟩

/-- the inputs of the program for 64 rounds that correspond to the inputs of the wiring -/
def inp64 (G : ℕ → F) (n : ℕ) : F :=
  if n < 98 then G (2147 + (n - 34)) else if n < 2274 then G (2211 + (n - 2210)) else if n < 2282 then G (2275 + (n - 2274))
  else G (2283 + (n - 2282))

omit [Field F] in
theorem inp64_W {i : ℕ} (h : i < 64) : inp64 G (34 + i) = G (2147 + i) := by
  rw [inp64, if_pos (by omega), Nat.add_sub_cancel_left]

omit [Field F] in
theorem inp64_K {i : ℕ} (h : i < 64) : inp64 G (2210 + i) = G (2211 + i) := by
  rw [inp64, if_neg (by omega), if_pos (by omega), Nat.add_sub_cancel_left]

omit [Field F] in
theorem inp64_H {i : ℕ} (h : i < 8) : inp64 G (2274 + i) = G (2275 + i) := by
  rw [inp64, if_neg (by omega), if_neg (by omega), if_pos (by omega), Nat.add_sub_cancel_left]

omit [Field F] in
theorem inp64_Hout {i : ℕ} : inp64 G (2282 + i) = G (2283 + i) := by
  rw [inp64, if_neg (by omega), if_neg (by omega), if_neg (by omega), Nat.add_sub_cancel_left]

/-- the working variables that are passed between blocks as field elements -/
def Passed (G : ℕ → F) (x : Wit) : Prop :=
  ∀ b ≤ 16, G (2555 + b) = (trace (inp64 G) x (4 * b)).d ∧ G (2572 + b) = (trace (inp64 G) x (4 * b)).h

variable {x : Wit}

theorem trace_block (hd : Passed G x) {b : ℕ} (hb : b < 16) (k : ℕ) :
    trace4 (blk G b) (blkWit x b) k = trace (inp64 G) x (4 * b + k) := by
  induction k with
  | zero =>
    obtain ⟨h1, h2⟩ := hd b (by omega)
    simp only [trace4, blk, bo_d b hb, bo_h b hb, h1, h2, blkWit]
    rcases b with _ | b
    · rfl
    · simp only [Nat.add_eq_zero_iff, one_ne_zero, and_false, if_false]
      rfl
  | succ k ih =>
    rw [trace4, ih]
    rfl

theorem blkWit_low {b i : ℕ} (h : 4 * b + i ≠ 0) : ((blkWit x b).B i).setWidth 32 = x.word (4 * b + i) := by
  simp only [blkWit, if_neg h, Wit.word]
  split_ifs
  · rw [BitVec.setWidth_setWidth_of_le _ (by decide), BitVec.setWidth_eq]
  · rfl

theorem blkWit_prev {b i : ℕ} (h : 4 ≤ b) (hi : i < 4) : (blkWit x b).prev i = x.word (4 * b + i - 2) := by
  unfold Wit4.prev
  split_ifs with h2
  · simp only [blkWit, if_neg (show ¬ b < 4 by omega)]
  · rw [blkWit_low (by omega)]
    congr 1
    omega

/-- the equations of all blocks together are those of the program for 64 rounds -/
theorem blocks_eqs (h0 : G 0 = 0) (h1 : G 1 = 1) (h : ∀ b < 16, Eqs4 (blk G b) (blkWit x b)) : Eqs (inp64 G) x ∧ Passed G x := by
  have first : ∀ i < 8, (trace4 (blk G 0) (blkWit x 0) 0).field i = G (2275 + i) := by
    intro i hi
    have := (h 0 (by decide)).H i hi
    simp only [blk, bo_H 0 (by decide) i hi, bo_first 0 (by decide), if_true, h1, mul_one, sub_eq_zero] at this
    exact this
  have t0 : trace4 (blk G 0) (blkWit x 0) 0 = ⟨x.a, x.b, x.c, G 2555, x.e, x.f, x.g, G 2572⟩ := by
    simp only [trace4, blk, bo_d 0 (by decide), bo_h 0 (by decide)]
    rfl
  rw [t0] at first
  have hd : Passed G x := by
    intro b hb
    rcases b with _ | b
    · have e3 := first 3 (by decide)
      have e7 := first 7 (by decide)
      have g3 : inp64 G (2274 + 3) = G (2275 + 3) := inp64_H (by decide)
      have g7 : inp64 G (2274 + 7) = G (2275 + 7) := inp64_H (by decide)
      exact ⟨e3.trans g3.symm, e7.trans g7.symm⟩
    · have hd := (h b (by omega)).dOut
      have hh := (h b (by omega)).hOut
      simp only [blk, bo_dOut b (by omega), bo_hOut b (by omega)] at hd hh
      exact ⟨hd.symm, hh.symm⟩
  have tr := fun b (hb : b < 16) k => trace_block hd hb k
  have div : ∀ i < 64, ∃ b < 16, ∃ k < 4, i = 4 * b + k := fun i hi => ⟨i / 4, by omega, i % 4, by omega, by omega⟩
  have hO : ∀ i < 8, ((x.Ho i).toNat : F) = (trace (inp64 G) x 64).field i + inp64 G (2274 + i) := by
    intro i hi
    have := (h 15 (by decide)).O i hi
    simp only [blk, bo_H 15 (by decide) i hi, bo_final 15 (by decide), if_true, h1, mul_one, sub_eq_zero] at this
    rw [inp64_H hi, ← show trace4 (blk G 15) (blkWit x 15) 4 = trace (inp64 G) x 64 from tr 15 (by decide) 4]
    exact this
  refine ⟨⟨?_, ?_, ?_, ?_, ?_, ?_, ?_, ?_, ?_, ?_, ?_, hO 0 (by decide), hO 1 (by decide), hO 2 (by decide), hO 3 (by decide),
    hO 4 (by decide), hO 5 (by decide), hO 6 (by decide), hO 7 (by decide)⟩, hd⟩
  · intro i i1 i2
    obtain ⟨b, hb, k, hk, rfl⟩ := div i i2
    rw [inp64_W i2, ← blkWit_low (by omega)]
    rcases Nat.eq_zero_or_pos k with rfl | hk0
    · have := (h b hb).W0
      simp only [blk, show (bo b).getD 45 0 = 2147 + (4 * b + 0) from bo_W b hb 0 (by decide), bo_first b hb,
        if_neg (show b ≠ 0 by omega), h0, sub_zero, mul_one, sub_eq_zero] at this
      exact this
    · have := (h b hb).W k hk0 hk
      simp only [blk, bo_W b hb k hk] at this
      exact this
  · rw [inp64_H (by decide)]; exact first 0 (by decide)
  · rw [inp64_H (by decide)]; exact first 1 (by decide)
  · rw [inp64_H (by decide)]; exact first 2 (by decide)
  · rw [inp64_H (by decide)]; exact first 4 (by decide)
  · rw [inp64_H (by decide)]; exact first 5 (by decide)
  · rw [inp64_H (by decide)]; exact first 6 (by decide)
  · intro i hi
    have := (h 15 (by decide)).Hout i hi
    simp only [blk, bo_Hout 15 (by decide) i hi, bo_final 15 (by decide), if_true, h1, mul_one, sub_eq_zero] at this
    rw [inp64_Hout]
    exact this
  · intro t t1 t2
    obtain ⟨b, hb, k, hk, rfl⟩ := div t t2
    have := (h b hb).S k hk
    simp only [blk, bo_early b hb, if_neg (show ¬ b < 4 by omega), h1, mul_one, sub_eq_zero, bo_Wm16 b hb (by omega) k hk,
      bo_Wm7 b hb (by omega) k hk] at this
    rw [blkWit_prev (by omega) hk] at this
    rw [inp64_W (by omega), inp64_W (by omega)]
    simp only [blkWit, if_neg (show ¬ b < 4 by omega), if_neg (show 4 * b + k ≠ 0 by omega),
      if_neg (show ¬ 4 * b + k < 16 by omega)] at this
    exact this
  · intro i hi
    obtain ⟨b, hb, k, hk, rfl⟩ := div i hi
    have := (h b hb).A k hk
    simp only [blk, bo_K b hb k hk, bo_W b hb k hk] at this
    rw [inp64_W hi, inp64_K hi, ← tr b hb k]
    exact this
  · intro i hi
    obtain ⟨b, hb, k, hk, rfl⟩ := div i hi
    have := (h b hb).E k hk
    simp only [blk, bo_K b hb k hk, bo_W b hb k hk] at this
    rw [inp64_W hi, inp64_K hi, ← tr b hb k]
    exact this

theorem eqs_blocks (h0 : G 0 = 0) (h1 : G 1 = 1) (h : Eqs (inp64 G) x) (hd : Passed G x) {b : ℕ} (hb : b < 16) :
    Eqs4 (blk G b) (blkWit x b) := by
  have tr := fun b (hb : b < 16) k => trace_block hd hb k
  refine ⟨?_, ?_, fun i hi => ?_, fun i hi => ?_, ?_, fun i i1 i2 => ?_, fun i hi => ?_, fun i hi => ?_, fun i hi => ?_, fun i hi => ?_⟩
  · simp only [blk, bo_dOut b hb]
    exact ((hd (b + 1) (by omega)).1).symm
  · simp only [blk, bo_hOut b hb]
    exact ((hd (b + 1) (by omega)).2).symm
  · rw [tr b hb 0]
    simp only [blk, bo_first b hb, bo_H b hb i hi]
    split_ifs with hb0
    · subst hb0
      rw [h1, mul_one, sub_eq_zero, ← inp64_H (G := G) hi]
      interval_cases i
      exacts [h.H0, h.H1, h.H2, rfl, h.H4, h.H5, h.H6, rfl]
    · rw [h0, mul_zero]
  · simp only [blk, bo_final b hb, bo_Hout b hb i hi]
    split_ifs
    · rw [h1, mul_one, sub_eq_zero, ← inp64_Hout (G := G)]
      exact h.Hout i hi
    · rw [h0, mul_zero]
  · simp only [blk, bo_first b hb, show (bo b).getD 45 0 = 2147 + (4 * b + 0) from bo_W b hb 0 (by decide)]
    split_ifs with hb0
    · rw [h1, sub_self, mul_zero]
    · rw [h0, sub_zero, mul_one, sub_eq_zero, blkWit_low (by omega), h.W _ (by omega) (by omega), inp64_W (by omega)]
  · simp only [blk, bo_W b hb i i2]
    rw [blkWit_low (by omega), h.W _ (by omega) (by omega), inp64_W (by omega)]
  · simp only [blk, bo_early b hb]
    split_ifs with h4
    · rw [h0, mul_zero]
    · have := h.S (4 * b + i) (by omega) (by omega)
      rw [inp64_W (by omega), inp64_W (by omega)] at this
      rw [h1, mul_one, sub_eq_zero, bo_Wm16 b hb (by omega) i hi, bo_Wm7 b hb (by omega) i hi, blkWit_prev (by omega) hi]
      simp only [blkWit, if_neg h4, if_neg (show 4 * b + i ≠ 0 by omega), if_neg (show ¬ 4 * b + i < 16 by omega)]
      exact this
  · have := h.A (4 * b + i) (by omega)
    rw [inp64_W (by omega), inp64_K (by omega), ← tr b hb i] at this
    simp only [blk, bo_K b hb i hi, bo_W b hb i hi]
    exact this
  · have := h.E (4 * b + i) (by omega)
    rw [inp64_W (by omega), inp64_K (by omega), ← tr b hb i] at this
    simp only [blk, bo_K b hb i hi, bo_W b hb i hi]
    exact this
  · simp only [blk, bo_final b hb, bo_H b hb i hi]
    split_ifs with hb15
    · subst hb15
      rw [h1, mul_one, sub_eq_zero, ← inp64_H (G := G) hi]
      have e : trace4 (blk G 15) (blkWit x 15) 4 = trace (inp64 G) x 64 := tr 15 (by decide) 4
      rw [e]
      interval_cases i
      exacts [h.O0, h.O1, h.O2, h.O3, h.O4, h.O5, h.O6, h.O7]
    · rw [h0, mul_zero]

end
end Libra.Sha256Gen
