import Verif.Proofs.Mm

/-!
# The rounds on the level of products
-/

namespace Libra.Mm
open Libra.Spec Finset

variable {d : ℕ} {inputs : List ℤ}

/-- a point whose coordinates below `m` are the bits of `q`, coordinate `m` is `t` and the others are `r` -/
def pnt (r : ℕ → ZMod p) (m q : ℕ) (t : ZMod p) : ℕ → ZMod p := fun b =>
  if b < m then corner q b else if b = m then t else r b

/-- the same with `m` free coordinates -/
def pntAll (r : ℕ → ZMod p) (m q : ℕ) : ℕ → ZMod p := fun b => if b < m then corner q b else r b

theorem pnt_r (r : ℕ → ZMod p) (m q : ℕ) : pnt r m q (r m) = pntAll r m q := by
  funext b
  unfold pnt pntAll
  split_ifs with h1 h2
  · rfl
  · rw [h2]
  · rfl

theorem pnt_zero (r : ℕ → ZMod p) (m q : ℕ) (hq : q < 2 ^ m) : pnt r m q 0 = pntAll r (m + 1) q := by
  funext b
  unfold pnt pntAll
  by_cases h : b < m
  · rw [if_pos h, if_pos (by omega)]
  · rw [if_neg h]
    by_cases h2 : b = m
    · subst h2
      rw [if_pos rfl, if_pos (by omega), corner, Nat.testBit_lt_two_pow hq]
      rfl
    · rw [if_neg h2, if_neg (by omega)]

theorem pnt_one (r : ℕ → ZMod p) (m q : ℕ) (hq : q < 2 ^ m) : pnt r m q 1 = pntAll r (m + 1) (q + 2 ^ m) := by
  funext b
  unfold pnt pntAll
  by_cases h : b < m
  · rw [if_pos h, if_pos (by omega), corner, corner, add_comm, Nat.testBit_two_pow_add_gt h]
  · rw [if_neg h]
    by_cases h2 : b = m
    · subst h2
      rw [if_pos rfl, if_pos (by omega), corner, add_comm, Nat.testBit_two_pow_add_eq,
        Nat.testBit_lt_two_pow hq]
      rfl
    · rw [if_neg h2, if_neg (by omega)]

theorem pnt_update (r : ℕ → ZMod p) (m q : ℕ) (t : ZMod p) :
    pnt r m q t = Function.update (pnt r m q 0) m t := by
  funext b
  by_cases h : b = m
  · subst h; rw [Function.update_self]; simp [pnt]
  · rw [Function.update_of_ne h]; simp [pnt, h]

theorem matA_pnt (r : ℕ → ZMod p) (m q : ℕ) (t : ZMod p) :
    matA d inputs (pnt r m q t) =
      (1 - t) * matA d inputs (pnt r m q 0) + t * matA d inputs (pnt r m q 1) := by
  have key : ∀ c, c < 2 * d → ∀ t, (∀ b < 2 * d, (if b < d then b else b + d) = m ↔ b = c) →
      matA d inputs (pnt r m q t) = mle (2 * d) (fun q => ((entryA d inputs (q / 2 ^ d) (q % 2 ^ d) : ℤ) : ZMod p))
        (Function.update (fun b => if b < d then pnt r m q 0 b else pnt r m q 0 (b + d)) c t) := by
    intro c hc t h
    unfold matA
    refine mle_congr (fun _ _ => rfl) (fun b hb => ?_)
    have := h b hb
    by_cases e : b = c
    · subst e
      rw [Function.update_self]
      have := this.2 rfl
      split_ifs at this ⊢ <;> (rw [this]; simp [pnt])
    · rw [Function.update_of_ne e]
      have hne : ¬ _ := fun h => e (this.1 h)
      rw [pnt_update r m q t]
      split_ifs at hne ⊢ <;> rw [Function.update_of_ne hne]
  have indep : ∀ t, (∀ b < 2 * d, (if b < d then b else b + d) ≠ m) →
      matA d inputs (pnt r m q t) = matA d inputs (pnt r m q 0) := by
    intro t h
    unfold matA
    refine mle_congr (fun _ _ => rfl) (fun b hb => ?_)
    have hne := h b hb
    rw [pnt_update r m q t]
    split_ifs at hne ⊢ <;> rw [Function.update_of_ne hne]
  by_cases h1 : m < d
  · have hh : ∀ b < 2 * d, (if b < d then b else b + d) = m ↔ b = m := by
      intro b _; split_ifs <;> omega
    rw [key m (by omega) t hh, key m (by omega) 0 hh, key m (by omega) 1 hh]
    exact (mle_multilinear _ _).affine _ m (by omega) t
  · by_cases h2 : 2 * d ≤ m ∧ m < 3 * d
    · have hh : ∀ b < 2 * d, (if b < d then b else b + d) = m ↔ b = m - d := by
        intro b _; split_ifs <;> omega
      rw [key (m - d) (by omega) t hh, key (m - d) (by omega) 0 hh, key (m - d) (by omega) 1 hh]
      exact (mle_multilinear _ _).affine _ (m - d) (by omega) t
    · have hh : ∀ b < 2 * d, (if b < d then b else b + d) ≠ m := by
        intro b _; split_ifs <;> omega
      rw [indep t hh, indep 1 hh]; ring

theorem matA_indep (r : ℕ → ZMod p) (m q : ℕ) (t : ZMod p) (h1 : d ≤ m) (h2 : m < 2 * d) :
    matA d inputs (pnt r m q t) = matA d inputs (pnt r m q 0) := by
  unfold matA
  refine mle_congr (fun _ _ => rfl) (fun b hb => ?_)
  rw [pnt_update r m q t]
  split_ifs <;> rw [Function.update_of_ne (by omega)]

theorem matB_pnt (r : ℕ → ZMod p) (m q : ℕ) (t : ZMod p) (h : m < 2 * d) :
    matB d inputs (pnt r m q t) =
      (1 - t) * matB d inputs (pnt r m q 0) + t * matB d inputs (pnt r m q 1) := by
  rw [pnt_update r m q t, pnt_update r m q 1, matB, (mle_multilinear _ _).affine _ m h t]
  congr 2
  rw [matB]
  congr 1
  rw [← pnt_update]

theorem matB_indep (r : ℕ → ZMod p) (m q : ℕ) (t : ZMod p) (h : 2 * d ≤ m) :
    matB d inputs (pnt r m q t) = matB d inputs (pnt r m q 0) := by
  unfold matB
  refine mle_congr (fun _ _ => rfl) (fun b hb => ?_)
  rw [pnt_update r m q t, Function.update_of_ne (by omega)]

/-- the factors of `eq` without the one of coordinate `m` -/
theorem eqOf_pnt (n : ℕ) (z r : ℕ → ZMod p) (m q : ℕ) (hm : m < n) : ∃ E, ∀ t,
    eqOf n z (pnt r m q t) = E * (z m * t + (1 - z m) * (1 - t)) := by
  refine ⟨∏ j ∈ (range n).erase m, (z j * pnt r m q 0 j + (1 - z j) * (1 - pnt r m q 0 j)), fun t => ?_⟩
  rw [eqOf, ← mul_prod_erase _ _ (mem_range.2 hm), mul_comm]
  congr 1
  · refine prod_congr rfl (fun j hj => ?_)
    rw [pnt_update r m q t, Function.update_of_ne (mem_erase.1 hj).1]
  · simp [pnt]

/-! ## the updates -/

theorem updateV_ok (V : ℕ → ℤ) (numNew : ℕ) (ri : ℤ) (i : ℕ) (hi : i < numNew) :
    ((updateV V numNew ri i : ℤ) : ZMod p) = (V i : ZMod p) * (1 - ri) + (V (i + numNew) : ZMod p) * ri := by
  have key : ∀ n ≤ numNew, ∀ i,
      (if i < n then ((loop n (fun i V =>
        let V := if V i ≠ 0 then Function.update V i (V i * (1 - ri)) else V
        let V := if V (i + numNew) ≠ 0 then Function.update V i (V i + V (i + numNew) * ri) else V
        if V i ≠ 0 then Function.update V i (modp (V i)) else V) V i : ℤ) : ZMod p) =
          (V i : ZMod p) * (1 - ri) + (V (i + numNew) : ZMod p) * ri
      else loop n (fun i V =>
        let V := if V i ≠ 0 then Function.update V i (V i * (1 - ri)) else V
        let V := if V (i + numNew) ≠ 0 then Function.update V i (V i + V (i + numNew) * ri) else V
        if V i ≠ 0 then Function.update V i (modp (V i)) else V) V i = V i) := by
    intro n
    induction n with
    | zero => intro _ i; rw [if_neg (by omega)]; rfl
    | succ n ih =>
      intro hn i
      have ih := ih (by omega)
      rw [loop]
      generalize loop n _ V = W at *
      have e1 := ih n
      have e2 := ih (n + numNew)
      rw [if_neg (by omega)] at e1 e2
      have step : ∀ a b : ℤ, W n = a → W (n + numNew) = b → ∃ c : ℤ, (c : ZMod p) = a * (1 - ri) + b * ri ∧
          (let V := if W n ≠ 0 then Function.update W n (W n * (1 - ri)) else W
           let V := if V (n + numNew) ≠ 0 then Function.update V n (V n + V (n + numNew) * ri) else V
           if V n ≠ 0 then Function.update V n (modp (V n)) else V) = Function.update W n c := by
        intro a b ha hb
        have hne : n + numNew ≠ n := by omega
        by_cases h1 : W n = 0
        · have ha0 : a = 0 := by rw [← ha, h1]
          by_cases h2 : W (n + numNew) = 0
          · have hb0 : b = 0 := by rw [← hb, h2]
            refine ⟨0, by simp [ha0, hb0], ?_⟩
            simp only [h1, h2, ne_eq, not_true, if_false]
            rw [← h1, Function.update_eq_self]
          · simp only [h1, h2, ne_eq, not_true, not_false_eq_true, if_false, if_true, Function.update_self, zero_add,
              Function.update_idem]
            by_cases h3 : W (n + numNew) * ri = 0
            · refine ⟨W (n + numNew) * ri, ?_, by rw [if_neg (fun h => h h3)]⟩
              rw [← hb, ha0]; push_cast; ring
            · refine ⟨modp (W (n + numNew) * ri), ?_, by rw [if_pos (by simpa using h3)]⟩
              rw [modp_cast, ← hb, ha0]; push_cast; ring
        · simp only [h1, ne_eq, not_false_eq_true, if_true, Function.update_self, Function.update_of_ne hne]
          by_cases h2 : W (n + numNew) = 0
          · have hb0 : b = 0 := by rw [← hb, h2]
            simp only [h2, not_true, if_false, Function.update_self, Function.update_idem]
            by_cases h3 : W n * (1 - ri) = 0
            · refine ⟨W n * (1 - ri), ?_, by rw [if_neg (fun h => h h3)]⟩
              rw [← ha, hb0]; push_cast; ring
            · refine ⟨modp (W n * (1 - ri)), ?_, by rw [if_pos h3]⟩
              rw [modp_cast, ← ha, hb0]; push_cast; ring
          · simp only [h2, not_false_eq_true, if_true, Function.update_self, Function.update_idem]
            by_cases h3 : W n * (1 - ri) + W (n + numNew) * ri = 0
            · refine ⟨_, ?_, by rw [if_neg (fun h => h h3)]⟩
              rw [← ha, ← hb]; push_cast; ring
            · refine ⟨modp _, ?_, by rw [if_pos h3]⟩
              rw [modp_cast, ← ha, ← hb]; push_cast; ring
      obtain ⟨c, hc, e⟩ := step _ _ e1 e2
      dsimp only at e ⊢
      rw [e]
      by_cases h : i = n
      · subst h
        rw [if_pos (by omega), Function.update_self, hc]
      · rw [Function.update_of_ne h]
        have := ih i
        by_cases h' : i < n
        · rw [if_pos h'] at this; rw [if_pos (by omega)]; exact this
        · rw [if_neg h'] at this; rw [if_neg (by omega)]; exact this
  have := key numNew le_rfl i
  rw [if_pos hi] at this
  exact this

theorem updateBeta_ok (T : ℕ → ℤ) (numNew : ℕ) (zval rval : ℤ) (hz : (1 - zval : ZMod p) ≠ 0) (i : ℕ)
    (hi : i < numNew) :
    ((updateBeta T numNew zval rval i : ℤ) : ZMod p) =
      (T i : ZMod p) * (1 - zval : ZMod p)⁻¹ * (zval * rval + (1 - zval) * (1 - rval)) := by
  unfold updateBeta
  dsimp only
  have hinv : ((invert (modp (1 - zval)) 0 : ℤ) : ZMod p) = (1 - zval : ZMod p)⁻¹ := by
    rw [invert_cast]
    · rw [modp_cast]; push_cast; rfl
    · rw [modp_cast]; push_cast; exact hz
  generalize invert (modp (1 - zval)) 0 = w at *
  have key : ∀ n, ∀ i, loop n (fun i T =>
      Function.update (Function.update T i (modp (T i * w))) i
        (modp (Function.update T i (modp (T i * w)) i * (zval * rval + (1 - zval) * (1 - rval))))) T i =
      if i < n then modp (modp (T i * w) * (zval * rval + (1 - zval) * (1 - rval))) else T i := by
    intro n
    induction n with
    | zero => intro i; rw [if_neg (by omega)]; rfl
    | succ n ih =>
      intro i
      rw [loop]
      simp only [Function.update_self]
      by_cases h : i = n
      · subst h
        rw [Function.update_self, if_pos (by omega)]
        have := ih i
        rw [if_neg (by omega)] at this
        simp only [Function.update_self] at this
        rw [this]
      · rw [Function.update_of_ne h, Function.update_of_ne h]
        have := ih i
        simp only [Function.update_self] at this
        rw [this]
        by_cases h' : i < n
        · rw [if_pos h', if_pos (by omega)]
        · rw [if_neg h', if_neg (by omega)]
  have := key numNew i
  rw [if_pos hi] at this
  rw [this, modp_cast, Int.cast_mul, modp_cast]
  push_cast
  rw [hinv]

/-! ## the state after the rounds -/

/-- the tables of the matrices alone, for which the point `z` does not matter -/
structure InvV (d : ℕ) (inputs : List ℤ) (r : ℕ → ZMod p) (m : ℕ) (s : MmState) : Prop where
  V0 : ∀ q < 2 ^ m, (s.V0 (q / 2 ^ (2 * d) * 2 ^ d + q % 2 ^ d) : ZMod p) = matA d inputs (pntAll r m q)
  V1 : ∀ q < 2 ^ m, (s.V1 (q % 2 ^ (2 * d)) : ZMod p) = matB d inputs (pntAll r m q)

theorem and_high (a i : ℕ) (hi : i < 2 ^ (a + 1)) : (i &&& 2 ^ a) ≠ 0 ↔ 2 ^ a ≤ i := by
  rw [Nat.and_two_pow]
  have h : i.testBit a = decide (2 ^ a ≤ i) := by
    by_cases hh : 2 ^ a ≤ i
    · obtain ⟨j, rfl⟩ := Nat.exists_eq_add_of_le hh
      rw [Nat.testBit_two_pow_add_eq, Nat.testBit_lt_two_pow (by rw [pow_succ] at hi; omega)]
      simp
    · rw [Nat.testBit_lt_two_pow (by omega)]; simp [hh]
  rw [h]
  by_cases hh : 2 ^ a ≤ i <;> simp [hh]

theorem sum_halves {M : Type} [AddCommMonoid M] (a : ℕ) (f : ℕ → M) :
    ∑ i ∈ range (2 ^ (a + 1)), f i = ∑ i ∈ range (2 ^ a), (f i + f (i + 2 ^ a)) := by
  rw [show 2 ^ (a + 1) = 2 ^ a + 2 ^ a by rw [pow_succ]; omega, sum_range_add, sum_add_distrib]
  congr 1
  exact sum_congr rfl (fun i _ => by rw [add_comm])

theorem half_pow (d k : ℕ) (hk : k < d) : 2 ^ d >>> k = 2 ^ (d - k - 1 + 1) ∧
    (2 ^ d >>> k) >>> 1 = 2 ^ (d - k - 1) := by
  have e : 2 ^ d >>> k = 2 ^ (d - k - 1 + 1) := by
    rw [Nat.shiftRight_eq_div_pow, Nat.pow_div (by omega) (by norm_num)]
    congr 1; omega
  refine ⟨e, ?_⟩
  rw [e, Nat.shiftRight_eq_div_pow, Nat.pow_div (by omega) (by norm_num)]
  rfl

/-- the three parts of an index -/
theorem idx (d i j k : ℕ) (hj : j < 2 ^ d) (hk : k < 2 ^ d) :
    i <<< (2 * d) + (j <<< d + k) = k + 2 ^ d * (j + 2 ^ d * i) ∧
    i <<< d + k = (k + 2 ^ d * (j + 2 ^ d * i)) / 2 ^ (2 * d) * 2 ^ d + (k + 2 ^ d * (j + 2 ^ d * i)) % 2 ^ d ∧
    j <<< d + k = (k + 2 ^ d * (j + 2 ^ d * i)) % 2 ^ (2 * d) := by
  have q1 : (k + 2 ^ d * (j + 2 ^ d * i)) % 2 ^ d = k := by
    rw [Nat.add_mul_mod_self_left, Nat.mod_eq_of_lt hk]
  have h2d : 2 ^ (2 * d) = 2 ^ d * 2 ^ d := by rw [two_mul, pow_add]
  have hlt : k + 2 ^ d * j < 2 ^ d * 2 ^ d := by
    have := Nat.mul_le_mul_left (2 ^ d) hj
    rw [Nat.mul_succ] at this
    omega
  have e : k + 2 ^ d * (j + 2 ^ d * i) = (k + 2 ^ d * j) + 2 ^ d * 2 ^ d * i := by ring
  refine ⟨?_, ?_, ?_⟩
  · rw [Nat.shiftLeft_eq, Nat.shiftLeft_eq, h2d]; ring
  · rw [q1, e, h2d, Nat.add_mul_div_left _ _ (by positivity), Nat.div_eq_of_lt hlt, zero_add, Nat.shiftLeft_eq]
  · rw [e, h2d, Nat.add_mul_mod_self_left, Nat.mod_eq_of_lt hlt, Nat.shiftLeft_eq]; ring

/-- what `multStep` adds to the sum for `t` -/
def share (t : ℕ) (high : Bool) (beta bu inv1 inv2 : ℤ) : ℤ :=
  if high then (if t = 1 then beta else if t = 2 then 2 * (beta * inv1 * bu) else 0)
  else (if t = 0 then beta else if t = 2 then -(beta * inv2 * bu) else 0)

/-- the components of the sums -/
def Mults.at (m : Mults) (t : ℕ) : ℤ := if t = 0 then m.m0 else if t = 1 then m.m1 else if t = 2 then m.m2 else 0

theorem mults_loop (n : ℕ) (high : ℕ → Bool) (beta v : ℕ → ℤ) (bu inv1 inv2 : ℤ) (t : ℕ) :
    (loop n (fun j m => multStep (high j) (beta j) (v j) bu inv1 inv2 m) ⟨0, 0, 0⟩).at t =
      ∑ j ∈ range n, share t (high j) (beta j) bu inv1 inv2 * v j := by
  rw [loop_map (fun m : Mults => m.at t)
    (b' := fun j x => x + share t (high j) (beta j) bu inv1 inv2 * v j), loop_add_sum]
  · have : (⟨0, 0, 0⟩ : Mults).at t = 0 := by unfold Mults.at; split_ifs <;> rfl
    rw [this, zero_add]
  · intro j _ m
    unfold multStep share Mults.at
    rcases t with _ | _ | _ | t <;> cases high j <;> simp

theorem polyAdd_at (q : ℕ → ℤ) (v : ℤ) (m : Mults) (t : ℕ) : polyAdd q v m t = q t + v * m.at t := by
  unfold polyAdd Mults.at
  split_ifs with h1 h2 h3
  · rw [h1]
  · rw [h2]
  · rw [h3]
  · ring

theorem polyMod_cast' (q : ℕ → ℤ) (t : ℕ) : ((polyMod q t : ℤ) : ZMod p) = (q t : ZMod p) := by
  unfold polyMod
  split_ifs
  · rw [modp_cast]
  · rfl

/-- what the two halves contribute to the value at `t` of one term, from the share of `eq` -/
theorem shares (E z : ZMod p) (zr b0 b1 : ℤ) (hzr : (zr : ZMod p) = z) (h0 : z ≠ 0) (h1 : 1 - z ≠ 0)
    (e0 : (b0 : ZMod p) = E * (z * 0 + (1 - z) * (1 - 0))) (e1 : (b1 : ZMod p) = E * (z * 1 + (1 - z) * (1 - 1)))
    (A0 A1 : ZMod p) (t : ℕ) (ht : t ≤ 2) :
    A0 * ((share t false b0 (zr * 2 - (1 - zr)) (invert zr 0) (invert (modp (1 - zr)) 0) : ℤ) : ZMod p) +
      A1 * ((share t true b1 (zr * 2 - (1 - zr)) (invert zr 0) (invert (modp (1 - zr)) 0) : ℤ) : ZMod p) =
    E * (z * t + (1 - z) * (1 - t)) * ((1 - t) * A0 + t * A1) := by
  have i1 : ((invert zr 0 : ℤ) : ZMod p) = z⁻¹ := by rw [invert_cast (by rwa [hzr]), hzr]
  have i2 : ((invert (modp (1 - zr)) 0 : ℤ) : ZMod p) = (1 - z)⁻¹ := by
    have : ((modp (1 - zr) : ℤ) : ZMod p) = 1 - z := by rw [modp_cast]; push_cast; rw [hzr]
    rw [invert_cast (by rwa [this]), this]
  unfold share
  have : t = 0 ∨ t = 1 ∨ t = 2 := by omega
  rcases this with rfl | rfl | rfl
  · simp; rw [e0]; ring
  · simp; rw [e1]; ring
  · simp
    rw [i1, i2, e0, e1, hzr]
    field_simp
    ring

theorem fold_V (V : ℕ → ℤ) (f : ℕ → ℕ) (g : (ℕ → ZMod p) → ZMod p) (r : ℕ → ZMod p) (rv : ℤ) (m numNew : ℕ)
    (hr : (rv : ZMod p) = r m)
    (hg : ∀ q, g (pnt r m q (r m)) = (1 - r m) * g (pnt r m q 0) + r m * g (pnt r m q 1))
    (h : ∀ q < 2 ^ (m + 1), (V (f q) : ZMod p) = g (pntAll r (m + 1) q))
    (hf : ∀ q < 2 ^ m, f q < numNew ∧ f (q + 2 ^ m) = f q + numNew) :
    ∀ q < 2 ^ m, ((updateV V numNew rv (f q) : ℤ) : ZMod p) = g (pntAll r m q) := by
  intro q hq
  have h2 : 2 ^ (m + 1) = 2 ^ m + 2 ^ m := by rw [pow_succ]; omega
  rw [updateV_ok _ _ _ _ (hf q hq).1, ← (hf q hq).2, h q (by omega), h (q + 2 ^ m) (by omega),
    ← pnt_zero r m q hq, ← pnt_one r m q hq, hr, ← pnt_r, hg]
  ring

theorem keep_V (V : ℕ → ℤ) (f : ℕ → ℕ) (g : (ℕ → ZMod p) → ZMod p) (r : ℕ → ZMod p) (m : ℕ)
    (hg : ∀ q, g (pnt r m q (r m)) = g (pnt r m q 0))
    (h : ∀ q < 2 ^ (m + 1), (V (f q) : ZMod p) = g (pntAll r (m + 1) q)) :
    ∀ q < 2 ^ m, (V (f q) : ZMod p) = g (pntAll r m q) := by
  intro q hq
  have h2 : 2 ^ (m + 1) = 2 ^ m + 2 ^ m := by rw [pow_succ]; omega
  rw [h q (by omega), ← pnt_zero r m q hq, ← pnt_r, hg]

/-- the table of `eq` while `m` variables are free -/
def InvB (d : ℕ) (z r : ℕ → ZMod p) (m : ℕ) (s : MmState) : Prop :=
  ∀ q < 2 ^ m, (s.beta q : ZMod p) = eqOf (3 * d) z (pntAll r m q)

theorem fold_beta (T : ℕ → ℤ) (z r : ℕ → ZMod p) (zv rv : ℤ) (m numNew : ℕ) (hm : m < 3 * d)
    (hr : (rv : ZMod p) = r m) (hz : (zv : ZMod p) = z m) (h1 : 1 - z m ≠ 0) (hn : numNew = 2 ^ m)
    (h : ∀ q < 2 ^ (m + 1), (T q : ZMod p) = eqOf (3 * d) z (pntAll r (m + 1) q)) :
    ∀ q < 2 ^ m, ((updateBeta T numNew zv rv q : ℤ) : ZMod p) = eqOf (3 * d) z (pntAll r m q) := by
  intro q hq
  have h2 : 2 ^ (m + 1) = 2 ^ m + 2 ^ m := by rw [pow_succ]; omega
  obtain ⟨E, hE⟩ := eqOf_pnt (3 * d) z r m q hm
  rw [updateBeta_ok _ _ _ _ (by rwa [hz]) _ (by omega), h q (by omega), ← pnt_zero r m q hq, ← pnt_r, hE, hE, hr, hz]
  field_simp
  ring

theorem roundI_V (z r : ℕ → ℤ) (a : ℕ) (ha : a < d) (s : MmState)
    (h : InvV d inputs (fun b => (r b : ZMod p)) (2 * d + a + 1) s) :
    InvV d inputs (fun b => (r b : ZMod p)) (2 * d + a) (roundI d z r (d - 1 - a) s) := by
  have h2d : 2 ^ (2 * d) = 2 ^ d * 2 ^ d := by rw [two_mul, pow_add]
  have hh : (2 ^ d >>> (d - 1 - a)) >>> 1 = 2 ^ a := by
    rw [(half_pow d _ (by omega)).2]; congr 1; omega
  constructor
  · unfold roundI
    dsimp only
    rw [hh, show 3 * d - 1 - (d - 1 - a) = 2 * d + a by omega]
    refine fold_V _ (fun q => q / 2 ^ (2 * d) * 2 ^ d + q % 2 ^ d) (matA d inputs) _ _ (2 * d + a) _ rfl
      (fun q => matA_pnt _ _ _ _) h.V0 (fun q hq => ?_)
    rw [pow_add] at hq ⊢
    have hi : q / 2 ^ (2 * d) < 2 ^ a := Nat.div_lt_of_lt_mul hq
    have hk : q % 2 ^ d < 2 ^ d := Nat.mod_lt _ (by positivity)
    refine ⟨?_, ?_⟩
    · have := Nat.mul_le_mul_right (2 ^ d) hi
      rw [Nat.succ_mul] at this
      omega
    · rw [Nat.add_mul_div_left _ _ (by positivity)]
      have : (q + 2 ^ (2 * d) * 2 ^ a) % 2 ^ d = q % 2 ^ d := by
        rw [h2d, mul_assoc, Nat.add_mul_mod_self_left]
      rw [this]; ring
  · exact keep_V s.V1 (fun q => q % 2 ^ (2 * d)) (matB d inputs) _ _ (fun q => matB_indep _ _ _ _ (by omega)) h.V1

theorem roundJ_V (z r : ℕ → ℤ) (a : ℕ) (ha : a < d) (s : MmState)
    (h : InvV d inputs (fun b => (r b : ZMod p)) (d + a + 1) s) :
    InvV d inputs (fun b => (r b : ZMod p)) (d + a) (roundJ d z r (2 * d - 1 - a) s) := by
  have hh : (2 ^ d >>> (2 * d - 1 - a - d)) >>> 1 = 2 ^ a := by
    rw [(half_pow d _ (by omega)).2]; congr 1; omega
  constructor
  · exact keep_V s.V0 (fun q => q / 2 ^ (2 * d) * 2 ^ d + q % 2 ^ d) (matA d inputs) _ _
      (fun q => matA_indep _ _ _ _ (by omega) (by omega)) h.V0
  · unfold roundJ
    dsimp only
    rw [hh, show 3 * d - 1 - (2 * d - 1 - a) = d + a by omega]
    refine fold_V _ (fun q => q % 2 ^ (2 * d)) (matB d inputs) _ _ (d + a) _ rfl
      (fun q => matB_pnt _ _ _ _ (by omega)) h.V1 (fun q hq => ?_)
    have : 2 ^ (d + a + 1) ≤ 2 ^ (2 * d) := Nat.pow_le_pow_right (by norm_num) (by omega)
    rw [pow_succ] at this
    rw [Nat.mod_eq_of_lt (by omega), Nat.mod_eq_of_lt (by omega), mul_comm (2 ^ a), ← pow_add]
    exact ⟨hq, rfl⟩

theorem roundK_V (z r : ℕ → ℤ) (a : ℕ) (ha : a < d) (s : MmState)
    (h : InvV d inputs (fun b => (r b : ZMod p)) (a + 1) s) :
    InvV d inputs (fun b => (r b : ZMod p)) a (roundK d z r (3 * d - 1 - a) s) := by
  have hh : (2 ^ d >>> (3 * d - 1 - a - 2 * d)) >>> 1 = 2 ^ a := by
    rw [(half_pow d _ (by omega)).2]; congr 1; omega
  have h1 : 2 ^ (a + 1) ≤ 2 ^ d := Nat.pow_le_pow_right (by norm_num) (by omega)
  have h2 : 2 ^ d ≤ 2 ^ (2 * d) := Nat.pow_le_pow_right (by norm_num) (by omega)
  rw [pow_succ] at h1
  constructor
  · unfold roundK
    dsimp only
    rw [hh, show 3 * d - 1 - (3 * d - 1 - a) = a by omega]
    refine fold_V _ (fun q => q / 2 ^ (2 * d) * 2 ^ d + q % 2 ^ d) (matA d inputs) _ _ a _ rfl
      (fun q => matA_pnt _ _ _ _) h.V0 (fun q hq => ?_)
    rw [Nat.div_eq_of_lt (by omega), Nat.div_eq_of_lt (by omega), Nat.mod_eq_of_lt (by omega),
      Nat.mod_eq_of_lt (by omega)]
    omega
  · unfold roundK
    dsimp only
    rw [hh, show 3 * d - 1 - (3 * d - 1 - a) = a by omega]
    refine fold_V _ (fun q => q % 2 ^ (2 * d)) (matB d inputs) _ _ a _ rfl
      (fun q => matB_pnt _ _ _ _ (by omega)) h.V1 (fun q hq => ?_)
    rw [Nat.mod_eq_of_lt (by omega), Nat.mod_eq_of_lt (by omega)]
    omega

theorem roundI_B {zb : ℕ → ZMod p} (z r : ℕ → ℤ) (a : ℕ) (ha : a < d) (s : MmState)
    (hz : (z (2 * d + a) : ZMod p) = zb (2 * d + a)) (h1 : 1 - zb (2 * d + a) ≠ 0)
    (h : InvB d zb (fun b => (r b : ZMod p)) (2 * d + a + 1) s) :
    InvB d zb (fun b => (r b : ZMod p)) (2 * d + a) (roundI d z r (d - 1 - a) s) := by
  have hh : (2 ^ d >>> (d - 1 - a)) >>> 1 = 2 ^ a := by
    rw [(half_pow d _ (by omega)).2]; congr 1; omega
  unfold InvB roundI
  dsimp only
  rw [hh, show 3 * d - 1 - (d - 1 - a) = 2 * d + a by omega]
  exact fold_beta _ _ _ _ _ _ _ (by omega) rfl hz h1 (by rw [pow_add, two_mul, pow_add]; ring) h

theorem roundJ_B {zb : ℕ → ZMod p} (z r : ℕ → ℤ) (a : ℕ) (ha : a < d) (s : MmState)
    (hz : (z (d + a) : ZMod p) = zb (d + a)) (h1 : 1 - zb (d + a) ≠ 0)
    (h : InvB d zb (fun b => (r b : ZMod p)) (d + a + 1) s) :
    InvB d zb (fun b => (r b : ZMod p)) (d + a) (roundJ d z r (2 * d - 1 - a) s) := by
  have hh : (2 ^ d >>> (2 * d - 1 - a - d)) >>> 1 = 2 ^ a := by
    rw [(half_pow d _ (by omega)).2]; congr 1; omega
  unfold InvB roundJ
  dsimp only
  rw [hh, show 3 * d - 1 - (2 * d - 1 - a) = d + a by omega]
  exact fold_beta _ _ _ _ _ _ _ (by omega) rfl hz h1 (by rw [pow_add]; ring) h

theorem roundK_B {zb : ℕ → ZMod p} (z r : ℕ → ℤ) (a : ℕ) (ha : a < d) (s : MmState)
    (hz : (z a : ZMod p) = zb a) (h1 : 1 - zb a ≠ 0)
    (h : InvB d zb (fun b => (r b : ZMod p)) (a + 1) s) :
    InvB d zb (fun b => (r b : ZMod p)) a (roundK d z r (3 * d - 1 - a) s) := by
  have hh : (2 ^ d >>> (3 * d - 1 - a - 2 * d)) >>> 1 = 2 ^ a := by
    rw [(half_pow d _ (by omega)).2]; congr 1; omega
  unfold InvB roundK
  dsimp only
  rw [hh, show 3 * d - 1 - (3 * d - 1 - a) = a by omega]
  exact fold_beta _ _ _ _ _ _ _ (by omega) rfl hz h1 rfl h

/-! ## the messages -/

theorem roundI_msg {zb : ℕ → ZMod p} (z r : ℕ → ℤ) (a : ℕ) (ha : a < d) (s : MmState)
    (hz : (z (2 * d + a) : ZMod p) = zb (2 * d + a)) (h0 : zb (2 * d + a) ≠ 0) (h1 : 1 - zb (2 * d + a) ≠ 0)
    (hv : InvV d inputs (fun b => (r b : ZMod p)) (2 * d + a + 1) s)
    (hb : InvB d zb (fun b => (r b : ZMod p)) (2 * d + a + 1) s)
    (hp : s.poly (d - 1 - a) = fun _ => 0) (t : ℕ) (ht : t ≤ 2) :
    (((roundI d z r (d - 1 - a) s).poly (d - 1 - a) t : ℤ) : ZMod p) =
      mmMessage d inputs zb (fun b => (r b : ZMod p)) (2 * d + a) t := by
  have e1 : 2 ^ d >>> (d - 1 - a) = 2 ^ (a + 1) := by
    rw [(half_pow d _ (by omega)).1]; congr 1; omega
  have hh : (2 ^ d >>> (d - 1 - a)) >>> 1 = 2 ^ a := by
    rw [(half_pow d _ (by omega)).2]; congr 1; omega
  have h2a : 2 ^ (a + 1) = 2 ^ a + 2 ^ a := by rw [pow_succ]; omega
  unfold roundI
  dsimp only
  rw [hh, e1, show 3 * d - 1 - (d - 1 - a) = 2 * d + a by omega, Function.update_self, polyMod_cast', hp]
  set bu := z (2 * d + a) * 2 - (1 - z (2 * d + a)) with hbu
  set i1 := invert (z (2 * d + a)) 0 with hi1
  set i2 := invert (modp (1 - z (2 * d + a))) 0 with hi2
  rw [loop_map (fun q : ℕ → ℤ => q t) (b' := fun i x => x + ∑ k ∈ range (2 ^ d), s.V0 (i <<< d + k) *
    ∑ j ∈ range (2 ^ d), share t (decide ((i &&& 2 ^ a) ≠ 0)) (s.beta (i <<< (2 * d) + (j <<< d + k))) bu i1 i2 *
      s.V1 (j <<< d + k)), loop_add_sum]
  · have e3 : 2 ^ (2 * d + a) = 2 ^ d * (2 ^ d * 2 ^ a) := by rw [pow_add, two_mul, pow_add]; ring
    rw [zero_add, sum_halves, mmMessage, e3, sum_range_mul_pow, sum_range_mul_pow, Int.cast_sum]
    refine sum_congr rfl (fun i hi => ?_)
    have hi := mem_range.1 hi
    rw [← sum_add_distrib, Int.cast_sum, sum_comm]
    refine sum_congr rfl (fun k hk => ?_)
    rw [mul_sum, mul_sum, ← sum_add_distrib, Int.cast_sum]
    refine sum_congr rfl (fun j hj => ?_)
    have hj := mem_range.1 hj
    have hk := mem_range.1 hk
    have hl : (i &&& 2 ^ a) ≠ 0 ↔ False := by rw [and_high a i (by omega)]; simp; omega
    have hu : (i + 2 ^ a &&& 2 ^ a) ≠ 0 ↔ True := by rw [and_high a _ (by omega)]; simp
    simp only [hl, hu, decide_true, decide_false]
    obtain ⟨x1, x2, x3⟩ := idx d i j k hj hk
    obtain ⟨y1, y2, y3⟩ := idx d (i + 2 ^ a) j k hj hk
    have hlt : k + 2 ^ d * (j + 2 ^ d * i) < 2 ^ (2 * d + a) := by
      rw [pow_add, two_mul, pow_add]
      have c1 := Nat.mul_le_mul_left (2 ^ d) hi
      have c2 : 2 ^ d * (j + 2 ^ d * i) + 2 ^ d ≤ 2 ^ d * (2 ^ d * 2 ^ a) := by
        rw [← Nat.mul_succ]; exact Nat.mul_le_mul_left _ (by rw [Nat.mul_succ] at c1; omega)
      rw [mul_assoc]; omega
    have ey : k + 2 ^ d * (j + 2 ^ d * (i + 2 ^ a)) = k + 2 ^ d * (j + 2 ^ d * i) + 2 ^ (2 * d + a) := by
      rw [pow_add, two_mul, pow_add]; ring
    rw [ey] at y1 y2 y3
    have hw : 2 ^ (2 * d + a + 1) = 2 ^ (2 * d + a) + 2 ^ (2 * d + a) := by rw [pow_succ]; omega
    generalize hq : k + 2 ^ d * (j + 2 ^ d * i) = q at *
    obtain ⟨E, hE⟩ := eqOf_pnt (3 * d) zb (fun b => (r b : ZMod p)) (2 * d + a) q (by omega)
    have b0 := hb q (by omega)
    have b1 := hb (q + 2 ^ (2 * d + a)) (by omega)
    have v0 := hv.V0 q (by omega)
    have v1 := hv.V0 (q + 2 ^ (2 * d + a)) (by omega)
    have w0 := hv.V1 q (by omega)
    rw [← pnt_zero _ _ q hlt] at b0 v0 w0
    rw [← pnt_one _ _ q hlt] at b1 v1
    rw [hE] at b0 b1
    have key := shares E (zb (2 * d + a)) (z (2 * d + a)) _ _ hz h0 h1 b0 b1
      (matA d inputs (pnt (fun b => (r b : ZMod p)) (2 * d + a) q 0))
      (matA d inputs (pnt (fun b => (r b : ZMod p)) (2 * d + a) q 1)) t ht
    rw [x1, y1, x2, y2, x3]
    push_cast
    rw [v0, v1, w0]
    change _ = mmPoly d inputs zb (pnt (fun b => (r b : ZMod p)) (2 * d + a) q t)
    rw [mmPoly, hE, matB_indep _ _ _ (t : ZMod p) (by omega), matA_pnt _ _ _ (t : ZMod p), ← key]
    ring
  · intro i _ q
    rw [loop_map (fun q : ℕ → ℤ => q t) (b' := fun k x => x + s.V0 (i <<< d + k) *
      ∑ j ∈ range (2 ^ d), share t (decide ((i &&& 2 ^ a) ≠ 0)) (s.beta (i <<< (2 * d) + (j <<< d + k))) bu i1 i2 *
        s.V1 (j <<< d + k)), loop_add_sum]
    intro k _ q
    rw [polyAdd_at, mults_loop]

theorem roundJ_msg {zb : ℕ → ZMod p} (z r : ℕ → ℤ) (a : ℕ) (ha : a < d) (s : MmState)
    (hz : (z (d + a) : ZMod p) = zb (d + a)) (h0 : zb (d + a) ≠ 0) (h1 : 1 - zb (d + a) ≠ 0)
    (hv : InvV d inputs (fun b => (r b : ZMod p)) (d + a + 1) s)
    (hb : InvB d zb (fun b => (r b : ZMod p)) (d + a + 1) s)
    (hp : s.poly (2 * d - 1 - a) = fun _ => 0) (t : ℕ) (ht : t ≤ 2) :
    (((roundJ d z r (2 * d - 1 - a) s).poly (2 * d - 1 - a) t : ℤ) : ZMod p) =
      mmMessage d inputs zb (fun b => (r b : ZMod p)) (d + a) t := by
  have e1 : 2 ^ d >>> (2 * d - 1 - a - d) = 2 ^ (a + 1) := by
    rw [(half_pow d _ (by omega)).1]; congr 1; omega
  have hh : (2 ^ d >>> (2 * d - 1 - a - d)) >>> 1 = 2 ^ a := by
    rw [(half_pow d _ (by omega)).2]; congr 1; omega
  have h2a : 2 ^ (a + 1) = 2 ^ a + 2 ^ a := by rw [pow_succ]; omega
  unfold roundJ
  dsimp only
  rw [hh, e1, show 3 * d - 1 - (2 * d - 1 - a) = d + a by omega, Function.update_self, polyMod_cast', hp]
  set bu := z (d + a) * 2 - (1 - z (d + a)) with hbu
  set i1 := invert (z (d + a)) 0 with hi1
  set i2 := invert (modp (1 - z (d + a))) 0 with hi2
  rw [loop_map (fun q : ℕ → ℤ => q t) (b' := fun k x => x + s.V0 k *
    ∑ j ∈ range (2 ^ (a + 1)), share t (decide ((j &&& 2 ^ a) ≠ 0)) (s.beta (j <<< d + k)) bu i1 i2 *
      s.V1 (j <<< d + k)), loop_add_sum]
  · have e3 : 2 ^ (d + a) = 2 ^ d * 2 ^ a := pow_add _ _ _
    rw [zero_add, mmMessage, e3, sum_range_mul_pow, sum_comm, Int.cast_sum]
    refine sum_congr rfl (fun k hk => ?_)
    rw [sum_halves, mul_sum, Int.cast_sum]
    refine sum_congr rfl (fun j hj => ?_)
    have hj := mem_range.1 hj
    have hk := mem_range.1 hk
    have hl : (j &&& 2 ^ a) ≠ 0 ↔ False := by rw [and_high a j (by omega)]; simp; omega
    have hu : (j + 2 ^ a &&& 2 ^ a) ≠ 0 ↔ True := by rw [and_high a _ (by omega)]; simp
    simp only [hl, hu, decide_true, decide_false]
    have hlt : k + 2 ^ d * j < 2 ^ (d + a) := by
      rw [pow_add]
      have c1 := Nat.mul_le_mul_left (2 ^ d) hj
      rw [Nat.mul_succ] at c1
      omega
    have x1 : j <<< d + k = k + 2 ^ d * j := by rw [Nat.shiftLeft_eq]; ring
    have y1 : (j + 2 ^ a) <<< d + k = k + 2 ^ d * j + 2 ^ (d + a) := by rw [Nat.shiftLeft_eq, pow_add]; ring
    have hk2 : k = (k + 2 ^ d * j) % 2 ^ d := by rw [Nat.add_mul_mod_self_left, Nat.mod_eq_of_lt hk]
    have hw : 2 ^ (d + a + 1) = 2 ^ (d + a) + 2 ^ (d + a) := by rw [pow_succ]; omega
    have hw2 : 2 ^ (d + a + 1) ≤ 2 ^ (2 * d) := Nat.pow_le_pow_right (by norm_num) (by omega)
    generalize hq : k + 2 ^ d * j = q at *
    obtain ⟨E, hE⟩ := eqOf_pnt (3 * d) zb (fun b => (r b : ZMod p)) (d + a) q (by omega)
    have b0 := hb q (by omega)
    have b1 := hb (q + 2 ^ (d + a)) (by omega)
    have v0 := hv.V0 q (by omega)
    have w0 := hv.V1 q (by omega)
    have w1 := hv.V1 (q + 2 ^ (d + a)) (by omega)
    rw [← pnt_zero _ _ q hlt] at b0 v0 w0
    rw [← pnt_one _ _ q hlt] at b1 w1
    rw [hE] at b0 b1
    rw [Nat.mod_eq_of_lt (by omega)] at w0 w1
    rw [Nat.div_eq_of_lt (by omega), zero_mul, zero_add, ← hk2] at v0
    have key := shares E (zb (d + a)) (z (d + a)) _ _ hz h0 h1 b0 b1
      (matB d inputs (pnt (fun b => (r b : ZMod p)) (d + a) q 0))
      (matB d inputs (pnt (fun b => (r b : ZMod p)) (d + a) q 1)) t ht
    rw [x1, y1]
    push_cast
    rw [v0, w0, w1]
    change _ = mmPoly d inputs zb (pnt (fun b => (r b : ZMod p)) (d + a) q t)
    rw [mmPoly, hE, matB_pnt _ _ _ (t : ZMod p) (by omega), matA_indep _ _ _ (t : ZMod p) (by omega) (by omega),
      mul_right_comm, ← key]
    ring
  · intro k _ q
    rw [polyAdd_at, mults_loop]

theorem roundK_msg {zb : ℕ → ZMod p} (z r : ℕ → ℤ) (a : ℕ) (ha : a < d) (s : MmState)
    (hz : (z a : ZMod p) = zb a) (h0 : zb a ≠ 0) (h1 : 1 - zb a ≠ 0)
    (hv : InvV d inputs (fun b => (r b : ZMod p)) (a + 1) s)
    (hb : InvB d zb (fun b => (r b : ZMod p)) (a + 1) s)
    (hp : s.poly (3 * d - 1 - a) = fun _ => 0) (t : ℕ) (ht : t ≤ 3) :
    (((roundK d z r (3 * d - 1 - a) s).poly (3 * d - 1 - a) t : ℤ) : ZMod p) =
      mmMessage d inputs zb (fun b => (r b : ZMod p)) a t := by
  have e1 : 2 ^ d >>> (3 * d - 1 - a - 2 * d) = 2 ^ (a + 1) := by
    rw [(half_pow d _ (by omega)).1]; congr 1; omega
  have hh : (2 ^ d >>> (3 * d - 1 - a - 2 * d)) >>> 1 = 2 ^ a := by
    rw [(half_pow d _ (by omega)).2]; congr 1; omega
  have h2a : 2 ^ (a + 1) = 2 ^ a + 2 ^ a := by rw [pow_succ]; omega
  unfold roundK
  dsimp only
  rw [hh, e1, show 3 * d - 1 - (3 * d - 1 - a) = a by omega, Function.update_self, polyMod_cast', hp]
  set i1 := invert (z a) 0 with hi1
  set i2 := invert (modp (1 - z a)) 0 with hi2
  have c1 : ((i1 : ℤ) : ZMod p) = (zb a)⁻¹ := by rw [hi1, invert_cast (by rwa [hz]), hz]
  have c2 : ((i2 : ℤ) : ZMod p) = (1 - zb a)⁻¹ := by
    have : ((modp (1 - z a) : ℤ) : ZMod p) = 1 - zb a := by rw [modp_cast]; push_cast; rw [hz]
    rw [hi2, invert_cast (by rwa [this]), this]
  rw [loop_map (fun q : ℕ → ℤ => q t) (b' := fun k x => x +
    if (k &&& 2 ^ a) ≠ 0 then
      if t = 1 then s.beta k * s.V0 k * s.V1 k
      else if t = 2 then s.beta k * i1 * ((z a - 1) + 2 * z a) * 2 * s.V0 k * (2 * s.V1 k - s.V1 (k - 2 ^ a))
      else if t = 3 then s.beta k * i1 * modp (2 * (z a - 1) + 3 * z a) * 3 * s.V0 k * (3 * s.V1 k - 2 * s.V1 (k - 2 ^ a))
      else 0
    else
      if t = 0 then s.beta k * s.V0 k * s.V1 k
      else if t = 2 then s.beta k * i2 * ((z a - 1) + 2 * z a) * (-s.V0 k) * (2 * s.V1 (k + 2 ^ a) - s.V1 k)
      else if t = 3 then s.beta k * i2 * modp (2 * (z a - 1) + 3 * z a) * (-2 * s.V0 k) * (-2 * s.V1 k + 3 * s.V1 (k + 2 ^ a))
      else 0), loop_add_sum]
  · rw [zero_add, sum_halves, mmMessage, Int.cast_sum]
    refine sum_congr rfl (fun q hq => ?_)
    have hlt := mem_range.1 hq
    have hl : (q &&& 2 ^ a) ≠ 0 ↔ False := by rw [and_high a q (by omega)]; simp; omega
    have hu : (q + 2 ^ a &&& 2 ^ a) ≠ 0 ↔ True := by rw [and_high a _ (by omega)]; simp
    rw [if_neg (by rw [hl]; exact id), if_pos (hu.2 trivial), Nat.add_sub_cancel]
    obtain ⟨E, hE⟩ := eqOf_pnt (3 * d) zb (fun b => (r b : ZMod p)) a q (by omega)
    have f1 : 2 ^ (a + 1) ≤ 2 ^ d := Nat.pow_le_pow_right (by norm_num) (by omega)
    have f2 : 2 ^ d ≤ 2 ^ (2 * d) := Nat.pow_le_pow_right (by norm_num) (by omega)
    have b0 := hb q (by omega)
    have b1 := hb (q + 2 ^ a) (by omega)
    have v0 := hv.V0 q (by omega)
    have v1 := hv.V0 (q + 2 ^ a) (by omega)
    have w0 := hv.V1 q (by omega)
    have w1 := hv.V1 (q + 2 ^ a) (by omega)
    rw [← pnt_zero _ _ q hlt] at b0 v0 w0
    rw [← pnt_one _ _ q hlt] at b1 v1 w1
    rw [hE] at b0 b1
    rw [Nat.mod_eq_of_lt (by omega)] at w0 w1
    rw [Nat.div_eq_of_lt (by omega), zero_mul, zero_add, Nat.mod_eq_of_lt (by omega)] at v0 v1
    change _ = mmPoly d inputs zb (pnt (fun b => (r b : ZMod p)) a q t)
    rw [mmPoly, hE, matB_pnt _ _ _ _ (by omega), matA_pnt, ← v0, ← v1, ← w0, ← w1]
    have : t = 0 ∨ t = 1 ∨ t = 2 ∨ t = 3 := by omega
    rcases this with rfl | rfl | rfl | rfl
    · simp [-mul_eq_mul_right_iff, -mul_eq_mul_left_iff]; rw [b0]; ring
    · simp [-mul_eq_mul_right_iff, -mul_eq_mul_left_iff]; rw [b1]; ring
    · simp; rw [b0, b1, c1, c2, hz]; field_simp; ring
    · simp; rw [modp_cast]; push_cast; rw [b0, b1, c1, c2, hz]; field_simp; ring
  · intro k _ q
    have : t = 0 ∨ t = 1 ∨ t = 2 ∨ t = 3 := by omega
    rcases this with rfl | rfl | rfl | rfl <;> split_ifs <;> simp_all

/-! ## all rounds -/

theorem roundI_otherV (z r : ℕ → ℤ) (round : ℕ) (s : MmState) (k : ℕ) (hk : k ≠ round) :
    (roundI d z r round s).poly k = s.poly k := roundI_poly d z r round s k hk

theorem matA_corner (q : ℕ) (hq : q < 2 ^ (3 * d)) (r : ℕ → ZMod p) : matA d inputs (pntAll r (3 * d) q) =
    ((entryA d inputs (q / 2 ^ (2 * d)) (q % 2 ^ d) : ℤ) : ZMod p) := by
  have h2d : 2 ^ (2 * d) = 2 ^ d * 2 ^ d := by rw [two_mul, pow_add]
  have hi : q / 2 ^ (2 * d) < 2 ^ d := by
    refine Nat.div_lt_of_lt_mul ?_
    rw [← pow_add]; convert hq using 2; omega
  have hk : q % 2 ^ d < 2 ^ d := Nat.mod_lt _ (by positivity)
  have hlt : q / 2 ^ (2 * d) * 2 ^ d + q % 2 ^ d < 2 ^ (2 * d) := by
    have := Nat.mul_le_mul_right (2 ^ d) hi
    rw [Nat.succ_mul, ← h2d] at this
    omega
  have : matA d inputs (pntAll r (3 * d) q) =
      mle (2 * d) (fun q => ((entryA d inputs (q / 2 ^ d) (q % 2 ^ d) : ℤ) : ZMod p))
        (corner (q / 2 ^ (2 * d) * 2 ^ d + q % 2 ^ d)) := by
    unfold matA
    refine mle_congr (fun _ _ => rfl) (fun b hb => ?_)
    unfold pntAll corner
    rw [mul_comm _ (2 ^ d), Nat.testBit_two_pow_mul_add _ hk]
    by_cases h : b < d
    · rw [if_pos h, if_pos h, if_pos (by omega), Nat.testBit_mod_two_pow]
      simp [h]
    · rw [if_neg h, if_neg h, if_pos (by omega), Nat.testBit_div_two_pow]
      congr 2
      congr 1
      omega
  rw [this, mle_corner _ _ _ hlt]
  congr 2
  · rw [mul_comm, Nat.mul_add_div (by positivity), Nat.div_eq_of_lt hk, add_zero]
  · rw [mul_comm, Nat.mul_add_mod, Nat.mod_mod]

theorem matB_corner (q : ℕ) (r : ℕ → ZMod p) : matB d inputs (pntAll r (3 * d) q) =
    ((entryB d inputs (q / 2 ^ d % 2 ^ d) (q % 2 ^ d) : ℤ) : ZMod p) := by
  have h2d : 2 ^ (2 * d) = 2 ^ d * 2 ^ d := by rw [two_mul, pow_add]
  have : matB d inputs (pntAll r (3 * d) q) =
      mle (2 * d) (fun q => ((entryB d inputs (q / 2 ^ d) (q % 2 ^ d) : ℤ) : ZMod p)) (corner (q % 2 ^ (2 * d))) := by
    unfold matB
    refine mle_congr (fun _ _ => rfl) (fun b hb => ?_)
    unfold pntAll corner
    rw [if_pos (by omega), Nat.testBit_mod_two_pow]
    simp [hb]
  rw [this, mle_corner _ _ _ (Nat.mod_lt _ (by positivity))]
  congr 2
  · rw [h2d, Nat.mod_mul_right_div_self]
  · rw [h2d, Nat.mod_mul_right_mod]

/-- the state before the rounds -/
def start (d : ℕ) (inputs : List ℤ) (z : ℕ → ℤ) : MmState :=
  { beta := betaTable (3 * d) z, V0 := fun i => inputs.getD i 0,
    V1 := fun i => inputs.getD (i + 2 ^ d * 2 ^ d) 0, poly := fun _ _ => 0 }

theorem start_V (z : ℕ → ℤ) (r : ℕ → ZMod p) : InvV d inputs r (3 * d) (start d inputs z) := by
  have h2d : 2 ^ (2 * d) = 2 ^ d * 2 ^ d := by rw [two_mul, pow_add]
  constructor
  · intro q hq
    rw [matA_corner q hq]
    rfl
  · intro q hq
    rw [matB_corner q]
    unfold start entryB
    dsimp only
    rw [add_comm, h2d, Nat.mod_mul, mul_comm (2 ^ d) (q / 2 ^ d % 2 ^ d), add_comm (q % 2 ^ d)]

theorem start_B (z : ℕ → ℤ) (r : ℕ → ZMod p) :
    InvB d (fun b => ((z (3 * d - 1 - b) : ℤ) : ZMod p)) r (3 * d) (start d inputs z) := by
  intro q hq
  unfold start
  dsimp only
  rw [betaTable_spec _ _ _ hq, eqOf, eqPoly]
  refine prod_congr rfl (fun j hj => ?_)
  unfold pntAll corner
  rw [if_pos (mem_range.1 hj)]
  cases q.testBit j <;> simp

theorem mmRounds_eq (z r : ℕ → ℤ) : mmRounds d (fun i => inputs.getD i 0) z r =
    loop d (fun i => roundK d z r (2 * d + i)) (loop d (fun i => roundJ d z r (d + i))
      (loop d (fun i => roundI d z r i) (start d inputs z))) := by
  unfold mmRounds loopFrom
  dsimp only
  rw [show 2 * d - d = d by omega, show 3 * d - 2 * d = d by omega]
  rfl

theorem rounds_V (z r : ℕ → ℤ) :
    InvV d inputs (fun b => (r b : ZMod p)) 0 (mmRounds d (fun i => inputs.getD i 0) z r) := by
  rw [mmRounds_eq]
  have i1 := loop_inv (n := d) (b := fun i => roundI d z r i) (s := start d inputs z)
    (fun i s => InvV d inputs (fun b => (r b : ZMod p)) (3 * d - i) s) (start_V z _) (fun i hi s hs => by
      obtain ⟨a, rfl, ha⟩ : ∃ a, i = d - 1 - a ∧ a < d := ⟨d - 1 - i, by omega, by omega⟩
      rw [show 3 * d - (d - 1 - a) = 2 * d + a + 1 by omega] at hs
      rw [show 3 * d - (d - 1 - a + 1) = 2 * d + a by omega]
      exact roundI_V z r a ha s hs)
  have i2 := loop_inv (n := d) (b := fun i => roundJ d z r (d + i))
    (fun i s => InvV d inputs (fun b => (r b : ZMod p)) (2 * d - i) s)
    (by convert i1 using 1; omega) (fun i hi s hs => by
      obtain ⟨a, rfl, ha⟩ : ∃ a, i = d - 1 - a ∧ a < d := ⟨d - 1 - i, by omega, by omega⟩
      rw [show 2 * d - (d - 1 - a) = d + a + 1 by omega] at hs
      rw [show 2 * d - (d - 1 - a + 1) = d + a by omega, show d + (d - 1 - a) = 2 * d - 1 - a by omega]
      exact roundJ_V z r a ha s hs)
  have i3 := loop_inv (n := d) (b := fun i => roundK d z r (2 * d + i))
    (fun i s => InvV d inputs (fun b => (r b : ZMod p)) (d - i) s)
    (by convert i2 using 1; omega) (fun i hi s hs => by
      obtain ⟨a, rfl, ha⟩ : ∃ a, i = d - 1 - a ∧ a < d := ⟨d - 1 - i, by omega, by omega⟩
      rw [show d - (d - 1 - a) = a + 1 by omega] at hs
      rw [show d - (d - 1 - a + 1) = a by omega, show 2 * d + (d - 1 - a) = 3 * d - 1 - a by omega]
      exact roundK_V z r a ha s hs)
  convert i3 using 1
  omega

/-- the claims that the rounds leave behind -/
theorem rounds_final (z r : ℕ → ℤ) :
    (((mmRounds d (fun i => inputs.getD i 0) z r).V0 0 : ℤ) : ZMod p) = matA d inputs (fun b => (r b : ZMod p)) ∧
    (((mmRounds d (fun i => inputs.getD i 0) z r).V1 0 : ℤ) : ZMod p) = matB d inputs (fun b => (r b : ZMod p)) := by
  have h := rounds_V (d := d) (inputs := inputs) z r
  have e : pntAll (fun b => (r b : ZMod p)) 0 0 = fun b => (r b : ZMod p) := by
    funext b; unfold pntAll; rw [if_neg (by omega)]
  have h0 := h.V0 0 (by norm_num)
  have h1 := h.V1 0 (by norm_num)
  rw [e] at h0 h1
  rw [Nat.zero_div, zero_mul, Nat.zero_mod, zero_add] at h0
  rw [Nat.zero_mod] at h1
  exact ⟨h0, h1⟩

/-- the messages written so far are right, the others are zero -/
def InvP (d : ℕ) (inputs : List ℤ) (zb r : ℕ → ZMod p) (k : ℕ) (s : MmState) : Prop :=
  (∀ i < k, ∀ t ≤ (if i < 2 * d then 2 else 3), (s.poly i t : ZMod p) = mmMessage d inputs zb r (3 * d - 1 - i) t) ∧
  (∀ i, k ≤ i → s.poly i = fun _ => 0)

theorem rounds_msg (z r : ℕ → ℤ) {zb : ℕ → ZMod p} (hzb : ∀ b, zb b = ((z (3 * d - 1 - b) : ℤ) : ZMod p))
    (hz : ∀ b < 3 * d, (z b : ZMod p) = zb b) (h0 : ∀ b < 3 * d, zb b ≠ 0) (h1 : ∀ b < 3 * d, 1 - zb b ≠ 0) :
    InvP d inputs zb (fun b => (r b : ZMod p)) (3 * d) (mmRounds d (fun i => inputs.getD i 0) z r) := by
  obtain rfl : zb = fun b => ((z (3 * d - 1 - b) : ℤ) : ZMod p) := funext hzb
  rw [mmRounds_eq]
  set zb : ℕ → ZMod p := fun b => ((z (3 * d - 1 - b) : ℤ) : ZMod p)
  have pstep : ∀ (k : ℕ) (s s' : MmState), InvP d inputs zb (fun b => (r b : ZMod p)) k s →
      (∀ i, i ≠ k → s'.poly i = s.poly i) →
      (∀ t ≤ (if k < 2 * d then 2 else 3), (s'.poly k t : ZMod p) =
        mmMessage d inputs zb (fun b => (r b : ZMod p)) (3 * d - 1 - k) t) →
      InvP d inputs zb (fun b => (r b : ZMod p)) (k + 1) s' := by
    intro k s s' h ho hn
    refine ⟨fun i hi t ht => ?_, fun i hi => by rw [ho i (by omega)]; exact h.2 i (by omega)⟩
    by_cases e : i = k
    · subst e; exact hn t ht
    · rw [ho i e]; exact h.1 i (by omega) t ht
  have i1 := loop_inv (n := d) (b := fun i => roundI d z r i) (s := start d inputs z)
    (fun i s => InvV d inputs (fun b => (r b : ZMod p)) (3 * d - i) s ∧
      InvB d zb (fun b => (r b : ZMod p)) (3 * d - i) s ∧ InvP d inputs zb (fun b => (r b : ZMod p)) i s)
    ⟨start_V z _, start_B z _, fun i hi => absurd hi (by omega), fun _ _ => rfl⟩ (fun i hi s hs => by
      obtain ⟨hv, hb, hp⟩ := hs
      obtain ⟨a, rfl, ha⟩ : ∃ a, i = d - 1 - a ∧ a < d := ⟨d - 1 - i, by omega, by omega⟩
      rw [show 3 * d - (d - 1 - a) = 2 * d + a + 1 by omega] at hv hb
      rw [show 3 * d - (d - 1 - a + 1) = 2 * d + a by omega]
      refine ⟨roundI_V z r a ha s hv, roundI_B z r a ha s (hz _ (by omega)) (h1 _ (by omega)) hb,
        pstep _ s _ hp (fun i hi => roundI_poly _ _ _ _ _ _ hi) (fun t ht => ?_)⟩
      rw [if_pos (by omega)] at ht
      rw [show 3 * d - 1 - (d - 1 - a) = 2 * d + a by omega]
      exact roundI_msg z r a ha s (hz _ (by omega)) (h0 _ (by omega)) (h1 _ (by omega)) hv hb
        (hp.2 _ le_rfl) t ht)
  have i2 := loop_inv (n := d) (b := fun i => roundJ d z r (d + i))
    (fun i s => InvV d inputs (fun b => (r b : ZMod p)) (2 * d - i) s ∧
      InvB d zb (fun b => (r b : ZMod p)) (2 * d - i) s ∧ InvP d inputs zb (fun b => (r b : ZMod p)) (d + i) s)
    (by rw [show 3 * d - d = 2 * d - 0 by omega] at i1; exact i1) (fun i hi s hs => by
      obtain ⟨hv, hb, hp⟩ := hs
      obtain ⟨a, rfl, ha⟩ : ∃ a, i = d - 1 - a ∧ a < d := ⟨d - 1 - i, by omega, by omega⟩
      rw [show 2 * d - (d - 1 - a) = d + a + 1 by omega] at hv hb
      rw [show d + (d - 1 - a) = 2 * d - 1 - a by omega] at hp
      rw [show 2 * d - (d - 1 - a + 1) = d + a by omega, show d + (d - 1 - a) = 2 * d - 1 - a by omega,
        show d + (d - 1 - a + 1) = 2 * d - 1 - a + 1 by omega]
      refine ⟨roundJ_V z r a ha s hv, roundJ_B z r a ha s (hz _ (by omega)) (h1 _ (by omega)) hb,
        pstep _ s _ hp (fun i hi => roundJ_poly _ _ _ _ _ _ hi) (fun t ht => ?_)⟩
      rw [if_pos (by omega)] at ht
      rw [show 3 * d - 1 - (2 * d - 1 - a) = d + a by omega]
      exact roundJ_msg z r a ha s (hz _ (by omega)) (h0 _ (by omega)) (h1 _ (by omega)) hv hb
        (hp.2 _ le_rfl) t ht)
  have i3 := loop_inv (n := d) (b := fun i => roundK d z r (2 * d + i))
    (fun i s => InvV d inputs (fun b => (r b : ZMod p)) (d - i) s ∧
      InvB d zb (fun b => (r b : ZMod p)) (d - i) s ∧ InvP d inputs zb (fun b => (r b : ZMod p)) (2 * d + i) s)
    (by rw [show 2 * d - d = d - 0 by omega, show d + d = 2 * d + 0 by omega] at i2; exact i2) (fun i hi s hs => by
      obtain ⟨hv, hb, hp⟩ := hs
      obtain ⟨a, rfl, ha⟩ : ∃ a, i = d - 1 - a ∧ a < d := ⟨d - 1 - i, by omega, by omega⟩
      rw [show d - (d - 1 - a) = a + 1 by omega] at hv hb
      rw [show 2 * d + (d - 1 - a) = 3 * d - 1 - a by omega] at hp
      rw [show d - (d - 1 - a + 1) = a by omega, show 2 * d + (d - 1 - a) = 3 * d - 1 - a by omega,
        show 2 * d + (d - 1 - a + 1) = 3 * d - 1 - a + 1 by omega]
      refine ⟨roundK_V z r a ha s hv, roundK_B z r a ha s (hz _ (by omega)) (h1 _ (by omega)) hb,
        pstep _ s _ hp (fun i hi => roundK_poly _ _ _ _ _ _ hi) (fun t ht => ?_)⟩
      rw [if_neg (by omega)] at ht
      rw [show 3 * d - 1 - (3 * d - 1 - a) = a by omega]
      exact roundK_msg z r a ha s (hz _ (by omega)) (h0 _ (by omega)) (h1 _ (by omega)) hv hb
        (hp.2 _ le_rfl) t ht)
  rw [show 2 * d + d = 3 * d by omega] at i3
  exact i3.2.2

/-- consecutive messages fit -/
theorem message_sum (zb r : ℕ → ZMod p) (m : ℕ) :
    mmMessage d inputs zb r m 0 + mmMessage d inputs zb r m 1 = mmMessage d inputs zb r (m + 1) (r (m + 1)) := by
  unfold mmMessage
  rw [sum_halves, ← sum_add_distrib]
  refine sum_congr rfl (fun q hq => ?_)
  have hq := mem_range.1 hq
  congr 2
  · change pnt r m q 0 = pnt r (m + 1) q (r (m + 1))
    rw [pnt_zero r m q hq, pnt_r]
  · change pnt r m q 1 = pnt r (m + 1) (q + 2 ^ m) (r (m + 1))
    rw [pnt_one r m q hq, pnt_r]

/-- a message is a polynomial of degree 2, or 3 on the columns -/
theorem message_poly (zb r : ℕ → ZMod p) (m : ℕ) (hm : m < 3 * d) : ∃ f : Polynomial (ZMod p),
    f.degree < (if m < d then 4 else 3 : ℕ) ∧ ∀ t, f.eval t = mmMessage d inputs zb r m t := by
  have one : ∀ q, ∃ f : Polynomial (ZMod p), f.degree < (if m < d then 4 else 3 : ℕ) ∧
      ∀ t, f.eval t = mmPoly d inputs zb (pnt r m q t) := by
    intro q
    obtain ⟨E, hE⟩ := eqOf_pnt (3 * d) zb r m q hm
    have lin : ∀ a b : ZMod p, (Polynomial.C a * Polynomial.X + Polynomial.C b).degree ≤ 1 :=
      fun a b => Polynomial.degree_linear_le
    have ev : ∀ a b t : ZMod p, (Polynomial.C a * Polynomial.X + Polynomial.C b).eval t = a * t + b := by
      intro a b t; simp
    by_cases h : m < d
    · refine ⟨(Polynomial.C (E * (2 * zb m - 1)) * Polynomial.X + Polynomial.C (E * (1 - zb m))) *
        (Polynomial.C (matA d inputs (pnt r m q 1) - matA d inputs (pnt r m q 0)) * Polynomial.X +
          Polynomial.C (matA d inputs (pnt r m q 0))) *
        (Polynomial.C (matB d inputs (pnt r m q 1) - matB d inputs (pnt r m q 0)) * Polynomial.X +
          Polynomial.C (matB d inputs (pnt r m q 0))), ?_, fun t => ?_⟩
      · rw [if_pos h]
        refine lt_of_le_of_lt (Polynomial.degree_mul_le _ _) ?_
        refine lt_of_le_of_lt (add_le_add ((Polynomial.degree_mul_le _ _).trans (add_le_add (lin _ _) (lin _ _)))
          (lin _ _)) ?_
        norm_cast
      · rw [Polynomial.eval_mul, Polynomial.eval_mul, ev, ev, ev, mmPoly, hE, matA_pnt _ _ _ t,
          matB_pnt _ _ _ t (by omega)]
        ring
    · by_cases h' : m < 2 * d
      · refine ⟨(Polynomial.C (E * (2 * zb m - 1)) * Polynomial.X + Polynomial.C (E * (1 - zb m))) *
          (Polynomial.C (matA d inputs (pnt r m q 0) * (matB d inputs (pnt r m q 1) - matB d inputs (pnt r m q 0))) *
            Polynomial.X + Polynomial.C (matA d inputs (pnt r m q 0) * matB d inputs (pnt r m q 0))), ?_, fun t => ?_⟩
        · rw [if_neg h]
          refine lt_of_le_of_lt ((Polynomial.degree_mul_le _ _).trans (add_le_add (lin _ _) (lin _ _))) ?_
          norm_cast
        · rw [Polynomial.eval_mul, ev, ev, mmPoly, hE, matA_indep _ _ _ t (by omega) (by omega),
            matB_pnt _ _ _ t (by omega)]
          ring
      · refine ⟨(Polynomial.C (E * (2 * zb m - 1)) * Polynomial.X + Polynomial.C (E * (1 - zb m))) *
          (Polynomial.C (matB d inputs (pnt r m q 0) * (matA d inputs (pnt r m q 1) - matA d inputs (pnt r m q 0))) *
            Polynomial.X + Polynomial.C (matB d inputs (pnt r m q 0) * matA d inputs (pnt r m q 0))), ?_, fun t => ?_⟩
        · rw [if_neg h]
          refine lt_of_le_of_lt ((Polynomial.degree_mul_le _ _).trans (add_le_add (lin _ _) (lin _ _))) ?_
          norm_cast
        · rw [Polynomial.eval_mul, ev, ev, mmPoly, hE, matB_indep _ _ _ t (by omega), matA_pnt _ _ _ t]
          ring
  choose f hf hf' using one
  refine ⟨∑ q ∈ range (2 ^ m), f q, ?_, fun t => ?_⟩
  · refine lt_of_le_of_lt (Polynomial.degree_sum_le _ _) ?_
    rw [Finset.sup_lt_iff (by exact WithBot.bot_lt_coe _)]
    exact fun q _ => hf q
  · rw [Polynomial.eval_finsetSum, mmMessage]
    exact sum_congr rfl (fun q _ => hf' q t)

/-- a check of a message against the one before, at a challenge equal to the one of the prover -/
theorem check_ok (r : ℕ → ℤ) {zb : ℕ → ZMod p} {poly : ℕ → ℕ → ℤ} (n j : ℕ) (hj : 0 < j) (hj2 : j + 2 ≤ 3 * d)
    (hn : n = if 3 * d - j < d then 4 else 3)
    (h1 : ∀ t < n, (poly (j - 1) t : ZMod p) = mmMessage d inputs zb (fun b => (r b : ZMod p)) (3 * d - j) t)
    (h2 : ∀ t ≤ 1, (poly j t : ZMod p) = mmMessage d inputs zb (fun b => (r b : ZMod p)) (3 * d - 1 - j) t)
    (hr : (r (3 * d - 2 - j) : ZMod p) = r (3 * d - j)) :
    mmCheck d r poly n j = .ok true := by
  unfold mmCheck
  rw [if_pos hj2, Outcome.ok_bind]
  obtain ⟨f, hf, hf'⟩ := message_poly (d := d) (inputs := inputs) zb (fun b => (r b : ZMod p)) (3 * d - j) (by omega)
  rw [← hn] at hf
  have hnp : n ≤ p := by
    have : (4 : ℕ) ≤ p := by rw [Spec.p]; norm_num
    rw [hn]; split_ifs <;> omega
  have ex := extrap_spec f n hnp hf (poly (j - 1)) (fun t ht => by rw [h1 t ht, hf'])
    (r (3 * d - 1 - j - 1))
  have b := extrap_lt (poly (j - 1)) n (r (3 * d - 1 - j - 1))
  change Outcome.ok _ = _
  congr 1
  rw [agrees_iff b.1 b.2]
  rw [ex, hf', show 3 * d - 1 - j - 1 = 3 * d - 2 - j by omega, hr, Int.cast_add, h2 0 (by omega), h2 1 le_rfl]
  have := message_sum (d := d) (inputs := inputs) zb (fun b => (r b : ZMod p)) (3 * d - 1 - j)
  rw [show 3 * d - 1 - j + 1 = 3 * d - j by omega] at this
  simpa using this

theorem roundI_three (z r : ℕ → ℤ) (round : ℕ) (s : MmState) :
    (roundI d z r round s).poly round 3 = s.poly round 3 := by
  unfold roundI
  dsimp only
  rw [Function.update_self, polyMod, if_neg (by norm_num)]
  refine loop_inv (fun _ (q : ℕ → ℤ) => q 3 = s.poly round 3) rfl (fun i _ q hq => ?_)
  exact loop_inv (fun _ (q : ℕ → ℤ) => q 3 = s.poly round 3) hq (fun k _ q hq => by
    unfold polyAdd; rw [if_neg (by norm_num), if_neg (by norm_num), if_neg (by norm_num)]; exact hq)

theorem roundJ_three (z r : ℕ → ℤ) (round : ℕ) (s : MmState) :
    (roundJ d z r round s).poly round 3 = s.poly round 3 := by
  unfold roundJ
  dsimp only
  rw [Function.update_self, polyMod, if_neg (by norm_num)]
  exact loop_inv (fun _ (q : ℕ → ℤ) => q 3 = s.poly round 3) rfl (fun k _ q hq => by
    unfold polyAdd; rw [if_neg (by norm_num), if_neg (by norm_num), if_neg (by norm_num)]; exact hq)

/-- the fourth value of the messages on the rows is never written -/
theorem rounds_three (z r : ℕ → ℤ) (k : ℕ) (hk : k < 2 * d) :
    (mmRounds d (fun i => inputs.getD i 0) z r).poly k 3 = 0 := by
  rw [mmRounds_eq]
  refine loop_inv (fun _ (s : MmState) => s.poly k 3 = 0) ?_ (fun i _ s hs => by
    rw [roundK_poly _ _ _ _ _ _ (by omega)]; exact hs)
  refine loop_inv (fun _ (s : MmState) => s.poly k 3 = 0) ?_ (fun i _ s hs => by
    by_cases e : k = d + i
    · subst e; rw [roundJ_three]; exact hs
    · rw [roundJ_poly _ _ _ _ _ _ e]; exact hs)
  exact loop_inv (fun _ (s : MmState) => s.poly k 3 = 0) rfl (fun i _ s hs => by
    by_cases e : k = i
    · subst e; rw [roundI_three]; exact hs
    · rw [roundI_poly _ _ _ _ _ _ e]; exact hs)

/-- the check of the first message on the columns, against four values of a message that has three -/
theorem check_columns (r : ℕ → ℤ) {zb : ℕ → ZMod p} {poly : ℕ → ℕ → ℤ} (hd : 2 ≤ d)
    (h1 : ∀ t ≤ 2, (poly (2 * d - 1) t : ZMod p) = mmMessage d inputs zb (fun b => (r b : ZMod p)) d t)
    (h3 : poly (2 * d - 1) 3 = 0)
    (h2 : ∀ t ≤ 1, (poly (2 * d) t : ZMod p) = mmMessage d inputs zb (fun b => (r b : ZMod p)) (d - 1) t)
    (hr : (r (d - 2) : ZMod p) = r d) :
    ∃ ok, mmCheck d r poly 4 (2 * d) = .ok ok ∧
      (ok = true ↔ mmMessage d inputs zb (fun b => (r b : ZMod p)) d 3 *
        ((r d : ZMod p) * ((r d : ZMod p) - 1) * ((r d : ZMod p) - 2)) = 0) := by
  unfold mmCheck
  rw [if_pos (by omega), Outcome.ok_bind]
  refine ⟨_, rfl, ?_⟩
  obtain ⟨f, hf, hf'⟩ := message_poly (d := d) (inputs := inputs) zb (fun b => (r b : ZMod p)) d (by omega)
  rw [if_neg (by omega)] at hf
  have h6 : (6 : ZMod p) ≠ 0 := by
    have : ((6 : ℕ) : ZMod p) ≠ 0 := by
      rw [Ne, ZMod.natCast_eq_zero_iff]
      intro h
      have := Nat.le_of_dvd (by norm_num) h
      rw [Spec.p] at this
      norm_num at this
    exact_mod_cast this
  set c := f.eval 3 / 6 with hc
  have hc6 : c * 6 = f.eval 3 := by rw [hc]; field_simp
  let g : Polynomial (ZMod p) := f - Polynomial.C c * (Polynomial.X * (Polynomial.X - Polynomial.C 1) *
    (Polynomial.X - Polynomial.C 2))
  have ge : ∀ x, g.eval x = f.eval x - c * (x * (x - 1) * (x - 2)) := by intro x; simp [g]
  have hg : g.degree < (4 : ℕ) := by
    refine lt_of_le_of_lt (Polynomial.degree_sub_le _ _) (max_lt (hf.trans (by norm_cast)) ?_)
    have l1 : ∀ a : ZMod p, (Polynomial.X - Polynomial.C a).degree ≤ 1 := fun a => Polynomial.degree_X_sub_C_le a
    refine lt_of_le_of_lt (Polynomial.degree_mul_le _ _) ?_
    refine lt_of_le_of_lt (add_le_add Polynomial.degree_C_le ((Polynomial.degree_mul_le _ _).trans (add_le_add
      ((Polynomial.degree_mul_le _ _).trans (add_le_add Polynomial.degree_X_le (l1 _))) (l1 _)))) ?_
    norm_cast
  have ex := extrap_spec g 4 (by rw [Spec.p]; norm_num) hg (poly (2 * d - 1)) (fun t ht => by
    rw [ge]
    have : t = 0 ∨ t = 1 ∨ t = 2 ∨ t = 3 := by omega
    rcases this with rfl | rfl | rfl | rfl
    · rw [h1 0 (by omega), ← hf']; push_cast; ring
    · rw [h1 1 (by omega), ← hf']; push_cast; ring
    · rw [h1 2 (by omega), ← hf']; push_cast; ring
    · rw [h3]
      push_cast
      rw [← hc6]; ring) (r (3 * d - 1 - 2 * d - 1))
  have b := extrap_lt (poly (2 * d - 1)) 4 (r (3 * d - 1 - 2 * d - 1))
  rw [agrees_iff b.1 b.2, ex, ge, show 3 * d - 1 - 2 * d - 1 = d - 2 by omega, hr, Int.cast_add, h2 0 (by omega),
    h2 1 le_rfl, hf']
  have ms := message_sum (d := d) (inputs := inputs) zb (fun b => (r b : ZMod p)) (d - 1)
  rw [show d - 1 + 1 = d by omega] at ms
  rw [Nat.cast_zero, Nat.cast_one, ms, ← hf' 3, ← hc6]
  constructor
  · intro h
    have : c * ((r d : ZMod p) * ((r d : ZMod p) - 1) * ((r d : ZMod p) - 2)) = 0 := by linear_combination h
    linear_combination 6 * this
  · intro h
    have : c * ((r d : ZMod p) * ((r d : ZMod p) - 1) * ((r d : ZMod p) - 2)) = 0 := by
      have : 6 * (c * ((r d : ZMod p) * ((r d : ZMod p) - 1) * ((r d : ZMod p) - 2))) = 0 := by linear_combination h
      exact (mul_eq_zero.1 this).resolve_left h6
    linear_combination this

end Libra.Mm
