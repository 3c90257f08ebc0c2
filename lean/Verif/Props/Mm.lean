import Verif.Proofs.MmRounds

/-!
# C89, C90, C91: the program for matrix multiplication
-/

namespace Libra.Props
open Libra Spec Finset Mm

/-! ## C89: the circuit -/

/-- For matrices of `2^d` rows, `d ≤ 10`, the circuit evaluates without error, has `d + 2` levels, and its
output at `i * 2^d + j` is entry `(i, j)` of the first matrix times the transpose of the second, modulo
`p`. -/
theorem C89_product (d : ℕ) (hd : d ≤ 10) (inputs : List ℤ) (hi : inputs.length = 2 * (2 ^ d * 2 ^ d)) :
    ∃ levels out, evaluate d inputs = .ok levels ∧ levels.length = d + 2 ∧ levels[0]? = some out ∧
      levels[d + 1]? = some inputs ∧ out.length = 2 ^ d * 2 ^ d ∧
      ∀ i < 2 ^ d, ∀ j < 2 ^ d, Same (out.getD (i * 2 ^ d + j) 0)
        ((∑ k ∈ range (2 ^ d), entryA d inputs i k * entryB d inputs j k : ℤ) : ZMod p) := by
  refine ⟨levelsOf d inputs (d + 1), lvl d inputs d, evaluate_ok d (by omega) inputs hi, ?_, ?_,
    levels_last d inputs, ?_, fun i h j h' => output_eq d inputs i j h h'⟩
  · simp [levelsOf]
  · simpa using levels_get d inputs 0 (by omega)
  · rw [lvl_length, show 3 * d - d = d + d by omega, pow_add]

/-- If the inputs are the digits that the program draws, the outputs are the entries of the product
themselves. -/
theorem C89_digits (d : ℕ) (hd : d ≤ 10) (inputs : List ℤ) (hi : inputs.length = 2 * (2 ^ d * 2 ^ d))
    (hdig : ∀ x ∈ inputs, 0 ≤ x ∧ x < 10) :
    ∃ levels out, evaluate d inputs = .ok levels ∧ levels[0]? = some out ∧
      ∀ i < 2 ^ d, ∀ j < 2 ^ d, out.getD (i * 2 ^ d + j) 0 =
        ∑ k ∈ range (2 ^ d), entryA d inputs i k * entryB d inputs j k := by
  refine ⟨levelsOf d inputs (d + 1), lvl d inputs d, evaluate_ok d (by omega) inputs hi,
    by simpa using levels_get d inputs 0 (by omega), fun i h j h' => ?_⟩
  have hin : ∀ t, 0 ≤ inputs.getD t 0 ∧ inputs.getD t 0 < 10 := by
    intro t
    by_cases ht : t < inputs.length
    · rw [List.getD_eq_getElem _ _ ht]; exact hdig _ (List.getElem_mem ht)
    · rw [List.getD_eq_default _ _ (by omega)]; omega
  have e := output_eq d inputs i j h h'
  have b := lvl_range d inputs (fun x hx => (hdig x hx).1) d (i * 2 ^ d + j)
  have h0 : 0 ≤ ∑ k ∈ range (2 ^ d), entryA d inputs i k * entryB d inputs j k :=
    sum_nonneg (fun k _ => mul_nonneg (hin _).1 (hin _).1)
  have h1 : ∑ k ∈ range (2 ^ d), entryA d inputs i k * entryB d inputs j k ≤ 100 * 1024 := by
    have : ∑ k ∈ range (2 ^ d), entryA d inputs i k * entryB d inputs j k ≤ ∑ _k ∈ range (2 ^ d), (100 : ℤ) := by
      refine sum_le_sum (fun k _ => ?_)
      have a := hin (i * 2 ^ d + k)
      have c := hin (2 ^ d * 2 ^ d + (j * 2 ^ d + k))
      have := mul_le_mul a.2.le c.2.le c.1 (by norm_num)
      simpa [entryA, entryB] using this
    refine this.trans ?_
    rw [sum_const, card_range, nsmul_eq_mul, mul_comm]
    have : (2 : ℕ) ^ d ≤ 2 ^ 10 := Nat.pow_le_pow_right (by norm_num) hd
    have : ((2 ^ d : ℕ) : ℤ) ≤ 1024 := by exact_mod_cast this
    omega
  have hp : (100 * 1024 : ℤ) < p := by rw [Spec.p]; norm_num
  have := (ZMod.intCast_eq_intCast_iff' _ _ _).1 e
  rwa [Int.emod_eq_of_lt b.1 b.2, Int.emod_eq_of_lt h0 (by omega)] at this

/-- From `d = 11` on the number of products does not fit an `int`. -/
theorem C89_large (d : ℕ) (hd : 11 ≤ d) (inputs : List ℤ) : evaluate d inputs = .undefined := by
  unfold evaluate
  rw [if_pos (by omega)]

/-- two matrices of two rows: `(1 2; 3 4)` and `(5 6; 7 8)` -/
example : ∃ levels, evaluate 1 [1, 2, 3, 4, 5, 6, 7, 8] = .ok levels ∧
    levels[0]? = some [17, 23, 39, 53] := ⟨_, rfl, by decide +kernel⟩

/-! ## C90: the layers of additions -/

/-- Interpolation: from the values of a polynomial of degree below `n` at `0, …, n - 1`, `extrap` computes
its value at every other point. -/
theorem C90_extrap (f : Polynomial (ZMod p)) (n : ℕ) (hn : n ≤ p) (hf : f.degree < n) (vec : ℕ → ℤ)
    (hv : ∀ i < n, Same (vec i) (f.eval (i : ZMod p))) (r : ℤ) :
    Same (extrap vec n r) (f.eval (r : ZMod p)) := extrap_spec f n hn hf vec hv r

/-- The direct evaluation is the multilinear extension. -/
theorem C90_direct (m : ℕ) (V r : List ℤ) (hr : r.length = m) (hV : V.length = 2 ^ m) :
    ∃ x, randomVL V r = .ok x ∧ Same x (listMle m V r) := by
  obtain ⟨x, e, h, _⟩ := randomVL_ok m V r hr hV
  exact ⟨x, e, h⟩

/-- One layer: its check passes exactly if the claim is the multilinear extension of the sums of
neighbours, and whether it passes or not, the new claim is that of the next level at the longer point. -/
theorem C90_layer (next : List ℤ) (m : ℕ) (z : List ℤ) (hz : z.length = m)
    (hn : next.length = 2 ^ (m + 1)) (ri rnd : ℤ) (h1 : -p < ri) (h2 : ri < p) :
    ∃ r3 ok, addTree next m z ri rnd = .ok (r3, z ++ [rnd], ok) ∧
      Same r3 (listMle (m + 1) next (z ++ [rnd])) ∧
      (ok = true ↔ Same ri
        (listMle m ((List.range (2 ^ m)).map fun i => next.getD (2 * i) 0 + next.getD (2 * i + 1) 0) z)) := by
  obtain ⟨r3, ok, e, h, _, _, h'⟩ := addTree_ok next m z hz hn ri rnd h1 h2
  refine ⟨r3, ok, e, h, h'.trans ?_⟩
  rw [Same, listMle]
  have : ∀ i < 2 ^ m, ((((List.range (2 ^ m)).map fun i => next.getD (2 * i) 0 + next.getD (2 * i + 1) 0).getD i 0 :
      ℤ) : ZMod p) = ((next.getD (2 * i) 0 : ℤ) : ZMod p) + ((next.getD (2 * i + 1) 0 : ℤ) : ZMod p) := by
    intro i hi
    rw [getD_map_range _ _ _ hi, Int.cast_add]
  rw [mle_congr this (fun _ _ => rfl)]

/-- All of them, after an evaluation: no check fails, and what is left is a true claim on the level of
the products at the point that all coordinates form. -/
theorem C90_layers (d : ℕ) (hd : d ≤ 10) (inputs : List ℤ) (hi : inputs.length = 2 * (2 ^ d * 2 ^ d))
    (z0 rnd : ℕ → ℤ) :
    ∃ levels out ri c, evaluate d inputs = .ok levels ∧ levels[0]? = some out ∧
      randomVL out ((List.range (2 * d)).map z0) = .ok ri ∧
      addLayers d levels rnd ⟨ri, (List.range (2 * d)).map z0, true⟩ = .ok c ∧ c.passed = true ∧
      c.z = (List.range (2 * d)).map z0 ++ (List.range d).map rnd ∧
      Same c.ri (listMle (3 * d) ((List.range (2 ^ (3 * d))).map fun q =>
        entryA d inputs (q / 2 ^ (2 * d)) (q % 2 ^ d) * entryB d inputs (q / 2 ^ d % 2 ^ d) (q % 2 ^ d)) c.z) := by
  obtain ⟨ri, e, h, h1, h2⟩ := randomVL_ok (2 * d) (lvl d inputs d) ((List.range (2 * d)).map z0) (by simp)
    (by rw [lvl_length]; congr 1; omega)
  obtain ⟨c, e', a1, a2, a3, _⟩ := addLayers_ok d inputs rnd ((List.range (2 * d)).map z0) (by simp) ri h h1 h2
  refine ⟨_, _, ri, c, evaluate_ok d (by omega) inputs hi, by simpa using levels_get d inputs 0 (by omega),
    e, e', a1, a2, ?_⟩
  rw [Same, a3, listMle, listMle]
  refine mle_congr (fun q hq => ?_) (fun _ _ => rfl)
  rw [lvl_zero _ _ _ hq, getD_map_range _ _ _ hq]
  rfl

/-- a layer of two additions at `z = 3`: the check passes on the value `3 * (1 - 3) + 7 * 3` and fails on
`16` -/
example : (∃ r3, addTree [1, 2, 3, 4] 1 [3] 15 5 = .ok (r3, [3, 5], true)) ∧
    (∃ r3, addTree [1, 2, 3, 4] 1 [3] 16 5 = .ok (r3, [3, 5], false)) := by
  have hp : (16 : ℤ) < p := by rw [Spec.p]; norm_num
  constructor
  · exact ⟨_, (by decide +kernel : addTree [1, 2, 3, 4] 1 [3] 15 5 =
      .ok (extrap (fun i => if i = 0 then 7 else 8) 2 5, [3, 5], true))⟩
  · exact ⟨_, (by decide +kernel : addTree [1, 2, 3, 4] 1 [3] 16 5 =
      .ok (extrap (fun i => if i = 0 then 7 else 8) 2 5, [3, 5], false))⟩

/-! ## C91: the layer of products

Wanted: after an evaluation the program ends and no check prints a message. What is true: the first check
of the layer of products is exact. What is not: the second check fails on the messages of the program's own
prover, and no run of the program is defined. -/

/-- The first check of the layer of products passes exactly if the claim is true. -/
theorem C91_first_partial (d : ℕ) (hd : 0 < d) (inputs : List ℤ) (z r : ℕ → ℤ) (ri : ℤ) (h1 : -p < ri)
    (h2 : ri < p) :
    ∃ ok, mmFirst d (mmRounds d (fun i => inputs.getD i 0) z r).poly ri = .ok ok ∧
      (ok = true ↔ Same ri (listMle (3 * d) ((List.range (2 ^ (3 * d))).map fun q =>
        entryA d inputs (q / 2 ^ (2 * d)) (q % 2 ^ d) * entryB d inputs (q / 2 ^ d % 2 ^ d) (q % 2 ^ d))
          ((List.range (3 * d)).map z))) := by
  rw [mmFirst, if_neg (by omega)]
  refine ⟨_, rfl, ?_⟩
  rw [agrees_iff h1 h2, first_sum d hd, Same, eq_comm, listMle]
  refine Eq.congr_right (mle_congr (fun q hq => ?_) (fun j hj => ?_))
  · rw [getD_map_range _ _ _ hq]
    rfl
  · rw [getD_map_range _ _ _ (by omega)]

/-- The program has no defined run: whatever the number of bits, the inputs and the random values, it
overflows an `int`, reads the first element of an empty vector, or reads in front of the first challenge. -/
theorem C91_undefined (d : ℕ) (inputs : List ℤ) (hi : inputs.length = 2 * (2 ^ d * 2 ^ d)) (z0 rnd r : ℕ → ℤ) :
    program d inputs z0 rnd r = .undefined := by
  unfold program
  by_cases hd : d ≤ 10
  · rw [evaluate_ok d (by omega) inputs hi, Outcome.ok_bind]
    dsimp only
    have h0 : (levelsOf d inputs (d + 1))[0]? = some (lvl d inputs d) := by
      simpa using levels_get d inputs 0 (by omega)
    rw [h0, Outcome.read, Outcome.ok_bind]
    obtain ⟨ri, e, h, h1, h2⟩ := randomVL_ok (2 * d) (lvl d inputs d) ((List.range (2 * d)).map z0) (by simp)
      (by rw [lvl_length]; congr 1; omega)
    obtain ⟨c, e', a1, a2, a3, _⟩ := addLayers_ok d inputs rnd ((List.range (2 * d)).map z0) (by simp) ri h h1 h2
    rw [e, Outcome.ok_bind, e', Outcome.ok_bind, levels_last, Outcome.read, Outcome.ok_bind,
      sumCheckMm_undefined]
    rfl
  · rw [C89_large d (by omega)]
    rfl

/-- A run in which the claim on the level of products is true, the first check passes, and the second check,
of the second message against the first, fails: the matrices are `(1 2; 3 4)` and `(5 6; 7 8)`, the point is
`(2, 3, 5)` and the challenges are `7, 8, 9, 10`. -/
theorem C91_rejects : ∃ (d : ℕ) (inputs : List ℤ) (z r : ℕ → ℤ) (ri : ℤ),
    inputs.length = 2 * (2 ^ d * 2 ^ d) ∧ (∀ i, 0 ≤ r i ∧ r i < p) ∧ (∀ i, 0 ≤ z i ∧ z i < p) ∧
      mmFirst d (mmRounds d (fun i => inputs.getD i 0) z r).poly ri = .ok true ∧
      mmCheck d r (mmRounds d (fun i => inputs.getD i 0) z r).poly 3 1 = .ok false := by
  have hp : (16 : ℤ) < p := by rw [Spec.p]; norm_num
  refine ⟨1, [1, 2, 3, 4, 5, 6, 7, 8], fun i => [2, 3, 5].getD i 0, fun i => [7, 8, 9, 10].getD i 0,
    (mmRounds 1 (fun i => [1, 2, 3, 4, 5, 6, 7, 8].getD i 0) (fun i => [2, 3, 5].getD i 0)
      (fun i => [7, 8, 9, 10].getD i 0)).poly 0 0 + (mmRounds 1 (fun i => [1, 2, 3, 4, 5, 6, 7, 8].getD i 0)
      (fun i => [2, 3, 5].getD i 0) (fun i => [7, 8, 9, 10].getD i 0)).poly 0 1, rfl, ?_, ?_, ?_, ?_⟩
  · intro i
    rcases i with _ | _ | _ | _ | i <;> simp <;> omega
  · intro i
    rcases i with _ | _ | _ | i <;> simp <;> omega
  · decide +kernel
  · decide +kernel

/-- What the rounds leave behind are the multilinear extensions of the two matrices at the challenges,
whatever the point `z` is. -/
theorem C91_final (d : ℕ) (inputs : List ℤ) (z r : ℕ → ℤ) :
    Same ((mmRounds d (fun i => inputs.getD i 0) z r).V0 0) (matA d inputs (fun b => (r b : ZMod p))) ∧
    Same ((mmRounds d (fun i => inputs.getD i 0) z r).V1 0) (matB d inputs (fun b => (r b : ZMod p))) :=
  rounds_final z r

/-- The messages of the prover are those of the sum-check if the point reads the same from both ends and none
of its coordinates is 0 or 1 (the rounds go through the variables in one order and through the coordinates of
the point in the other). -/
theorem C91_messages_partial (d : ℕ) (inputs : List ℤ) (z r : ℕ → ℤ)
    (hz : ∀ j < 3 * d, Same (z (3 * d - 1 - j)) (z j)) (h0 : ∀ j < 3 * d, ¬ Same (z j) 0)
    (h1 : ∀ j < 3 * d, ¬ Same (z j) 1) (k : ℕ) (hk : k < 3 * d) (t : ℕ) (ht : t ≤ if k < 2 * d then 2 else 3) :
    Same ((mmRounds d (fun i => inputs.getD i 0) z r).poly k t)
      (mmMessage d inputs (fun b => (z (3 * d - 1 - b) : ZMod p)) (fun b => (r b : ZMod p)) (3 * d - 1 - k) t) := by
  refine (rounds_msg z r (fun _ => rfl) (fun b hb => (hz b hb).symm) (fun b hb => ?_) (fun b hb => ?_)).1 k hk t ht
  · rw [show ((z (3 * d - 1 - b) : ℤ) : ZMod p) = (z b : ZMod p) from hz b hb]
    exact h0 b hb
  · rw [show ((z (3 * d - 1 - b) : ℤ) : ZMod p) = (z b : ZMod p) from hz b hb, sub_ne_zero]
    exact fun e => h1 b hb e.symm

/-- If moreover the challenge that a check reads is the one that the prover has used, which is two places
further, the check passes; this is about all checks but the last, which reads in front of the first
challenge, and the one of the first message on the columns. -/
theorem C91_checks_partial (d : ℕ) (inputs : List ℤ) (z r : ℕ → ℤ)
    (hz : ∀ j < 3 * d, Same (z (3 * d - 1 - j)) (z j)) (h0 : ∀ j < 3 * d, ¬ Same (z j) 0)
    (h1 : ∀ j < 3 * d, ¬ Same (z j) 1) (j : ℕ) (hj : 0 < j) (hj2 : j + 2 ≤ 3 * d) (hj3 : j ≠ 2 * d)
    (hr : Same (r (3 * d - 2 - j)) (r (3 * d - j))) :
    mmCheck d r (mmRounds d (fun i => inputs.getD i 0) z r).poly (if j < 2 * d then 3 else 4) j = .ok true := by
  have msg := fun k hk t ht => C91_messages_partial d inputs z r hz h0 h1 k hk t ht
  refine check_ok (inputs := inputs) (zb := fun b => (z (3 * d - 1 - b) : ZMod p)) r _ j hj hj2 ?_ (fun t ht => ?_) (fun t ht => ?_) hr
  · by_cases h : j < 2 * d
    · rw [if_pos h, if_neg (by omega)]
    · rw [if_neg h, if_pos (by omega)]
  · have := msg (j - 1) (by omega) t (by split_ifs at ht ⊢ <;> omega)
    rw [show 3 * d - 1 - (j - 1) = 3 * d - j by omega] at this
    exact this
  · exact msg j (by omega) t (by split_ifs <;> omega)

/-- The check of the first message on the columns reads four values of a message that has three; the fourth
is 0. Even if everything else is right, it passes only if the message happens to vanish at 3, or the challenge
is 0, 1 or 2. -/
theorem C91_columns (d : ℕ) (hd : 2 ≤ d) (inputs : List ℤ) (z r : ℕ → ℤ)
    (hz : ∀ j < 3 * d, Same (z (3 * d - 1 - j)) (z j)) (h0 : ∀ j < 3 * d, ¬ Same (z j) 0)
    (h1 : ∀ j < 3 * d, ¬ Same (z j) 1) (hr : Same (r (d - 2)) (r d)) :
    ∃ ok, mmCheck d r (mmRounds d (fun i => inputs.getD i 0) z r).poly 4 (2 * d) = .ok ok ∧
      (ok = true ↔ mmMessage d inputs (fun b => (z (3 * d - 1 - b) : ZMod p)) (fun b => (r b : ZMod p)) d 3 *
        ((r d : ZMod p) * ((r d : ZMod p) - 1) * ((r d : ZMod p) - 2)) = 0) := by
  have msg := fun k hk t ht => C91_messages_partial d inputs z r hz h0 h1 k hk t ht
  refine check_columns r hd (fun t ht => ?_) (rounds_three z r _ (by omega)) (fun t ht => ?_) hr
  · have := msg (2 * d - 1) (by omega) t (by rw [if_pos (by omega)]; exact ht)
    rw [show 3 * d - 1 - (2 * d - 1) = d by omega] at this
    exact this
  · have := msg (2 * d) (by omega) t (by rw [if_neg (by omega)]; omega)
    rw [show 3 * d - 1 - 2 * d = d - 1 by omega] at this
    exact this

/-- the hypotheses hold for the point `(2, 3, 2)` and challenges `5, 6, 5`; all coordinates of `(2, …, 2)` do -/
example : (∀ j < 3 * 1, Same ([2, 3, 2].getD (3 * 1 - 1 - j) 0) ((([2, 3, 2] : List ℤ).getD j 0 : ℤ) : ZMod p)) ∧
    (∀ j < 3 * 1, ¬ Same ([2, 3, 2].getD j 0) 0) ∧ (∀ j < 3 * 1, ¬ Same ([2, 3, 2].getD j 0) 1) ∧
    Same ([5, 6, 5].getD (3 * 1 - 2 - 1) 0) ((([5, 6, 5] : List ℤ).getD (3 * 1 - 1) 0 : ℤ) : ZMod p) := by
  have hp : (3 : ℤ) < p := by rw [Spec.p]; norm_num
  have nz : ∀ a b : ℤ, 0 < a - b → a - b < p → ¬ Same a (b : ZMod p) := by
    intro a b ha hb h
    have := (ZMod.intCast_eq_intCast_iff_dvd_sub b a p).1 h.symm
    have := Int.le_of_dvd ha this
    omega
  refine ⟨fun j hj => ?_, fun j hj => ?_, fun j hj => ?_, rfl⟩
  · have : j = 0 ∨ j = 1 ∨ j = 2 := by omega
    rcases this with rfl | rfl | rfl <;> rfl
  · have : j = 0 ∨ j = 1 ∨ j = 2 := by omega
    rcases this with rfl | rfl | rfl
    · simpa using nz 2 0 (by norm_num) (by omega)
    · simpa using nz 3 0 (by norm_num) (by omega)
    · simpa using nz 2 0 (by norm_num) (by omega)
  · have : j = 0 ∨ j = 1 ∨ j = 2 := by omega
    rcases this with rfl | rfl | rfl
    · simpa using nz 2 1 (by norm_num) (by omega)
    · simpa using nz 3 1 (by norm_num) (by omega)
    · simpa using nz 2 1 (by norm_num) (by omega)

/-- and the check passes there -/
example : mmCheck 1 (fun i => [5, 6, 5, 7].getD i 0)
    (mmRounds 1 (fun i => [1, 2, 3, 4, 5, 6, 7, 8].getD i 0) (fun i => [2, 3, 2].getD i 0)
      (fun i => [5, 6, 5, 7].getD i 0)).poly 3 1 = .ok true := by decide +kernel

end Libra.Props
