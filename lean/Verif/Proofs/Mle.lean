import Verif.Spec.Mle
import Verif.Model.Loop
import Mathlib.Algebra.BigOperators.Ring.Finset
import Mathlib.Algebra.BigOperators.Intervals
import Mathlib.Tactic.Ring
import Mathlib.Tactic.LinearCombination
import Mathlib.Tactic.Linarith

namespace Libra

/-! ## loops -/
section loop
variable {σ : Type _}

@[simp] theorem loop_zero (b : ℕ → σ → σ) (s : σ) : loop 0 b s = s := rfl
@[simp] theorem loop_succ (n : ℕ) (b : ℕ → σ → σ) (s : σ) :
    loop (n + 1) b s = b n (loop n b s) := rfl

theorem loop_inv {n : ℕ} {b : ℕ → σ → σ} {s : σ} (P : ℕ → σ → Prop) (h0 : P 0 s)
    (hs : ∀ i < n, ∀ s, P i s → P (i + 1) (b i s)) : P n (loop n b s) := by
  induction n with
  | zero => exact h0
  | succ n ih =>
    exact hs n (Nat.lt_succ_self n) _ (ih (fun i hi => hs i (Nat.lt_succ_of_lt hi)))

/-- loops whose bodies agree -/
theorem loop_congr {n : ℕ} {b b' : ℕ → σ → σ} {s : σ} (h : ∀ i < n, ∀ s, b i s = b' i s) :
    loop n b s = loop n b' s := by
  induction n with
  | zero => rfl
  | succ n ih =>
    rw [loop_succ, loop_succ, ih (fun i hi => h i (Nat.lt_succ_of_lt hi)), h n (Nat.lt_succ_self n)]

/-- loops whose bodies agree on reachable states -/
theorem loop_congr_inv {n : ℕ} {b b' : ℕ → σ → σ} {s : σ} (P : ℕ → σ → Prop) (h0 : P 0 s)
    (hs : ∀ i < n, ∀ s, P i s → P (i + 1) (b i s))
    (h : ∀ i < n, ∀ s, P i s → b i s = b' i s) :
    loop n b s = loop n b' s := by
  induction n with
  | zero => rfl
  | succ n ih =>
    have e := ih (fun i hi => hs i (Nat.lt_succ_of_lt hi)) (fun i hi => h i (Nat.lt_succ_of_lt hi))
    rw [loop_succ, loop_succ, ← e]
    exact h n (Nat.lt_succ_self n) _
      (loop_inv P h0 (fun i hi => hs i (Nat.lt_succ_of_lt hi)))

/-- an observation of the state that evolves on its own -/
theorem loop_map {τ : Type _} (f : σ → τ) {n : ℕ} {b : ℕ → σ → σ} {b' : ℕ → τ → τ} {s : σ}
    (h : ∀ i < n, ∀ s, f (b i s) = b' i (f s)) : f (loop n b s) = loop n b' (f s) := by
  induction n with
  | zero => rfl
  | succ n ih =>
    rw [loop_succ, loop_succ, h n (Nat.lt_succ_self n),
      ih (fun i hi => h i (Nat.lt_succ_of_lt hi))]

theorem loop_add_sum {F : Type _} [AddCommMonoid F] (n : ℕ) (f : ℕ → F) (a : F) :
    loop n (fun i s => s + f i) a = a + ∑ i ∈ Finset.range n, f i := by
  induction n with
  | zero => simp
  | succ n ih => rw [loop_succ, ih, Finset.sum_range_succ, add_assoc]

theorem loopFrom_add_sum {F : Type _} [AddCommMonoid F] (u v : ℕ) (f : ℕ → F) (a : F) :
    loopFrom u v (fun i s => s + f i) a = a + ∑ i ∈ Finset.Ico u v, f i := by
  rw [loopFrom, loop_add_sum, Finset.sum_Ico_eq_sum_range]

theorem loop_mul_prod {F : Type _} [CommMonoid F] (n : ℕ) (f : ℕ → F) (a : F) :
    loop n (fun i s => s * f i) a = a * ∏ i ∈ Finset.range n, f i := by
  induction n with
  | zero => simp
  | succ n ih => rw [loop_succ, ih, Finset.prod_range_succ, mul_assoc]

end loop

namespace Spec
variable {F : Type} [CommRing F]
open Finset

theorem sum_range_two_mul (m : ℕ) (f : ℕ → F) :
    ∑ i ∈ range (2 * m), f i = ∑ i ∈ range m, (f (2 * i) + f (2 * i + 1)) := by
  induction m with
  | zero => simp
  | succ m ih =>
    rw [show 2 * (m + 1) = 2 * m + 1 + 1 by ring, sum_range_succ, sum_range_succ, ih,
      sum_range_succ, add_assoc]

theorem sum_range_mul_pow (a m : ℕ) (f : ℕ → F) :
    ∑ i ∈ range (a * m), f i = ∑ i ∈ range m, ∑ x ∈ range a, f (x + a * i) := by
  induction m with
  | zero => simp
  | succ m ih =>
    rw [Nat.mul_succ, sum_range_add, ih, sum_range_succ]
    congr 1
    exact sum_congr rfl (fun x _ => by rw [Nat.add_comm])

theorem eqPoly_zero (r : ℕ → F) (i : ℕ) : eqPoly 0 r i = 1 := rfl

theorem eqPoly_succ (n : ℕ) (r : ℕ → F) (i : ℕ) :
    eqPoly (n + 1) r i = eqPoly n r i * (if i.testBit n then r n else 1 - r n) := by
  rw [eqPoly, prod_range_succ]; rfl

theorem eqPoly_congr {n : ℕ} {r s : ℕ → F} {i k : ℕ} (h : ∀ j < n, r j = s j)
    (hi : ∀ j < n, i.testBit j = k.testBit j) : eqPoly n r i = eqPoly n s k := by
  refine prod_congr rfl (fun j hj => ?_)
  rw [mem_range] at hj
  rw [h j hj, hi j hj]

theorem eqPoly_congr_r {n : ℕ} {r s : ℕ → F} (i : ℕ) (h : ∀ j < n, r j = s j) :
    eqPoly n r i = eqPoly n s i := eqPoly_congr h (fun _ _ => rfl)

theorem eqPoly_add_mul (n : ℕ) (r : ℕ → F) (i k : ℕ) :
    eqPoly n r (i + 2 ^ n * k) = eqPoly n r i := by
  refine eqPoly_congr (fun _ _ => rfl) (fun j hj => ?_)
  rw [Nat.testBit_eq_decide_div_mod_eq, Nat.testBit_eq_decide_div_mod_eq]
  obtain ⟨d, rfl⟩ : ∃ d, n = j + (d + 1) := ⟨n - j - 1, by omega⟩
  rw [show 2 ^ (j + (d + 1)) * k = 2 ^ j * (2 * (2 ^ d * k)) by rw [pow_add, pow_succ]; ring,
    Nat.add_mul_div_left _ _ (by positivity), Nat.add_mul_mod_self_left]

theorem eqPoly_mod (n : ℕ) (r : ℕ → F) (i : ℕ) : eqPoly n r (i % 2 ^ n) = eqPoly n r i := by
  conv_rhs => rw [← Nat.mod_add_div i (2 ^ n)]
  rw [eqPoly_add_mul]

/-- splitting the variables into the first `a` and the rest -/
theorem eqPoly_split (a b : ℕ) (r : ℕ → F) (i : ℕ) :
    eqPoly (a + b) r i = eqPoly a r (i % 2 ^ a) * eqPoly b (fun j => r (a + j)) (i / 2 ^ a) := by
  rw [eqPoly_mod, eqPoly, prod_range_add]
  congr 1
  refine prod_congr rfl (fun j _ => ?_)
  rw [Nat.testBit_div_two_pow, Nat.add_comm a j]
  simp only [Nat.add_comm a]

theorem eqPoly_low (n : ℕ) (r : ℕ → F) (i : ℕ) :
    eqPoly (n + 1) r i =
      (if i % 2 = 1 then r 0 else 1 - r 0) * eqPoly n (fun j => r (j + 1)) (i / 2) := by
  rw [Nat.add_comm n 1, eqPoly_split]
  congr 1
  · rw [eqPoly_mod, eqPoly, prod_range_one, Nat.testBit_zero]
    simp
  · simp only [Nat.add_comm, pow_one]

theorem eqPoly_even (n : ℕ) (r : ℕ → F) (i : ℕ) :
    eqPoly (n + 1) r (2 * i) = (1 - r 0) * eqPoly n (fun j => r (j + 1)) i := by
  rw [eqPoly_low, if_neg (by omega), Nat.mul_div_cancel_left _ (by norm_num)]

theorem eqPoly_odd (n : ℕ) (r : ℕ → F) (i : ℕ) :
    eqPoly (n + 1) r (2 * i + 1) = r 0 * eqPoly n (fun j => r (j + 1)) i := by
  rw [eqPoly_low, if_pos (by omega), show (2 * i + 1) / 2 = i by omega]

theorem eqPoly_lt (n : ℕ) (r : ℕ → F) (i : ℕ) (hi : i < 2 ^ n) :
    eqPoly (n + 1) r i = eqPoly n r i * (1 - r n) := by
  rw [eqPoly_succ, Nat.testBit_lt_two_pow hi]; simp

theorem eqPoly_ge (n : ℕ) (r : ℕ → F) (i : ℕ) (hi : i < 2 ^ n) :
    eqPoly (n + 1) r (i + 2 ^ n) = eqPoly n r i * r n := by
  have h1 : eqPoly n r (i + 2 ^ n) = eqPoly n r i := by
    have := eqPoly_add_mul n r i 1; rwa [Nat.mul_one] at this
  rw [eqPoly_succ, h1, Nat.testBit_eq_decide_div_mod_eq, Nat.add_div_right _ (by positivity),
    Nat.div_eq_of_lt hi]
  simp

theorem sum_eqPoly (n : ℕ) (r : ℕ → F) : ∑ i ∈ range (2 ^ n), eqPoly n r i = 1 := by
  induction n generalizing r with
  | zero => simp [eqPoly_zero]
  | succ n ih =>
    rw [pow_succ', sum_range_two_mul]
    simp only [eqPoly_even, eqPoly_odd, ← add_mul]
    rw [← mul_sum, ih]; ring

/-- the equality polynomial between two points -/
theorem sum_eqPoly_mul (n : ℕ) (r s : ℕ → F) :
    ∑ i ∈ range (2 ^ n), eqPoly n r i * eqPoly n s i =
      ∏ j ∈ range n, (1 - r j - s j + 2 * r j * s j) := by
  induction n generalizing r s with
  | zero => simp [eqPoly_zero]
  | succ n ih =>
    rw [pow_succ', sum_range_two_mul, prod_range_succ', ← ih, sum_mul]
    refine sum_congr rfl (fun i _ => ?_)
    rw [eqPoly_even, eqPoly_even, eqPoly_odd, eqPoly_odd]
    ring

/-! ## folding -/

/-- bind one variable -/
def foldT (r : F) (T : ℕ → F) : ℕ → F := fun i => T (2 * i) * (1 - r) + T (2 * i + 1) * r

/-- bind the first `k` variables -/
def foldK (r : ℕ → F) : ℕ → (ℕ → F) → (ℕ → F)
  | 0, T => T
  | k + 1, T => foldT (r k) (foldK r k T)

theorem foldK_eq (r : ℕ → F) (k : ℕ) (T : ℕ → F) (i : ℕ) :
    foldK r k T i = ∑ x ∈ range (2 ^ k), eqPoly k r x * T (x + 2 ^ k * i) := by
  induction k generalizing i with
  | zero => simp [foldK, eqPoly_zero]
  | succ k ih =>
    rw [foldK, foldT, ih, ih, pow_succ, mul_two, sum_range_add, sum_mul, sum_mul]
    congr 1
    · refine sum_congr rfl (fun x hx => ?_)
      rw [eqPoly_lt k r x (mem_range.1 hx), show x + 2 ^ k * (2 * i) = x + (2 ^ k + 2 ^ k) * i by ring]
      ring
    · refine sum_congr rfl (fun x hx => ?_)
      rw [Nat.add_comm (2 ^ k) x, eqPoly_ge k r x (mem_range.1 hx),
        show x + 2 ^ k * (2 * i + 1) = x + 2 ^ k + (2 ^ k + 2 ^ k) * i by ring]
      ring

theorem foldK_mle (r : ℕ → F) (n : ℕ) (T : ℕ → F) : foldK r n T 0 = mle n T r := by
  rw [foldK_eq]; simp [mle]

theorem foldK_congr {r s : ℕ → F} {k : ℕ} (T : ℕ → F) (h : ∀ j < k, r j = s j) :
    foldK r k T = foldK s k T := by
  induction k with
  | zero => rfl
  | succ k ih => rw [foldK, foldK, ih (fun j hj => h j (by omega)), h k (by omega)]

/-- folding one variable, then the rest, is the multilinear extension -/
theorem mle_succ (n : ℕ) (T : ℕ → F) (r : ℕ → F) :
    mle (n + 1) T r = mle n (foldT (r 0) T) (fun j => r (j + 1)) := by
  rw [mle, pow_succ', sum_range_two_mul, mle]
  refine sum_congr rfl (fun i _ => ?_)
  rw [eqPoly_even, eqPoly_odd, foldT]; ring

theorem mle_congr {n : ℕ} {T T' r s : ℕ → F} (h : ∀ i < 2 ^ n, T i = T' i)
    (hr : ∀ j < n, r j = s j) : mle n T r = mle n T' s :=
  sum_congr rfl (fun i hi => by rw [h i (mem_range.1 hi), eqPoly_congr_r i hr])

theorem mle_add (n : ℕ) (T T' r : ℕ → F) :
    mle n (fun i => T i + T' i) r = mle n T r + mle n T' r := by
  simp only [mle, mul_add, sum_add_distrib]

theorem mle_smul (n : ℕ) (c : F) (T r : ℕ → F) :
    mle n (fun i => c * T i) r = c * mle n T r := by
  simp only [mle, mul_sum]
  exact sum_congr rfl (fun i _ => by ring)

theorem eqPoly_corner (n i k : ℕ) (hi : i < 2 ^ n) (hk : k < 2 ^ n) :
    eqPoly n (corner k : ℕ → F) i = if i = k then 1 else 0 := by
  by_cases h : i = k
  · subst h
    rw [if_pos rfl, eqPoly]
    refine prod_eq_one (fun j _ => ?_)
    by_cases hb : i.testBit j <;> simp [corner, hb]
  · rw [if_neg h]
    obtain ⟨j, hj⟩ : ∃ j, i.testBit j ≠ k.testBit j := by
      by_contra hc
      push Not at hc
      exact h (Nat.eq_of_testBit_eq hc)
    have hjn : j < n := by
      by_contra hc
      push Not at hc
      have hp : 2 ^ n ≤ 2 ^ j := Nat.pow_le_pow_right (by norm_num) hc
      rw [Nat.testBit_lt_two_pow (by omega), Nat.testBit_lt_two_pow (by omega)] at hj
      exact hj rfl
    refine prod_eq_zero (mem_range.2 hjn) ?_
    cases h1 : i.testBit j <;> cases h2 : k.testBit j <;> simp_all [corner]

theorem mle_corner (n : ℕ) (T : ℕ → F) (k : ℕ) (hk : k < 2 ^ n) : mle n T (corner k) = T k := by
  rw [mle, sum_eq_single k]
  · rw [eqPoly_corner n k k hk hk]; simp
  · intro i hi hne
    rw [eqPoly_corner n i k (mem_range.1 hi) hk, if_neg hne, zero_mul]
  · intro h; exact absurd (mem_range.2 hk) h

theorem eqPoly_affine (n : ℕ) (r : ℕ → F) (j : ℕ) (hj : j < n) (x : F) (i : ℕ) :
    eqPoly n (Function.update r j x) i =
      (1 - x) * eqPoly n (Function.update r j 0) i + x * eqPoly n (Function.update r j 1) i := by
  have key (y : F) : eqPoly n (Function.update r j y) i =
      (if i.testBit j then y else 1 - y) *
        ∏ l ∈ (range n).erase j, (if i.testBit l then r l else 1 - r l) := by
    rw [eqPoly, ← mul_prod_erase _ _ (mem_range.2 hj), Function.update_self]
    congr 1
    refine prod_congr rfl (fun l hl => ?_)
    rw [Function.update_of_ne (mem_erase.1 hl).1]
  rw [key x, key 0, key 1]
  split_ifs <;> ring

theorem mle_multilinear (n : ℕ) (T : ℕ → F) : Multilinear n (mle n T) where
  local_ r s h := mle_congr (fun _ _ => rfl) h
  affine r j hj x := by
    simp only [mle, mul_sum, ← sum_add_distrib]
    exact sum_congr rfl (fun i _ => by rw [eqPoly_affine n r j hj x]; ring)

/-- the multilinear extension is the only multilinear function with the given table -/
theorem mle_unique (n : ℕ) (T : ℕ → F) (f : (ℕ → F) → F) (hf : Multilinear n f)
    (h : ∀ k < 2 ^ n, f (corner k) = T k) (r : ℕ → F) : f r = mle n T r := by
  have key : ∀ m ≤ n, ∀ r : ℕ → F, (∀ j < n, m ≤ j → r j = 0 ∨ r j = 1) → f r = mle n T r := by
    intro m
    induction m with
    | zero =>
      intro _ r hr
      classical
      -- a boolean point is a corner
      obtain ⟨k, hk, hc⟩ : ∃ k < 2 ^ n, ∀ j < n, r j = (corner k : ℕ → F) j := by
        clear hf h
        induction n with
        | zero => exact ⟨0, by simp, fun j hj => absurd hj (by omega)⟩
        | succ n ih =>
          obtain ⟨k, hk, hc⟩ := ih (Nat.zero_le _) (fun j hj hm => hr j (by omega) hm)
          rcases hr n (by omega) (by omega) with h0 | h0
          · refine ⟨k, by rw [pow_succ]; omega, fun j hj => ?_⟩
            rcases Nat.lt_succ_iff_lt_or_eq.1 hj with h1 | rfl
            · exact hc j h1
            · rw [h0, corner, Nat.testBit_lt_two_pow hk]; simp
          · refine ⟨k + 2 ^ n, by rw [pow_succ]; omega, fun j hj => ?_⟩
            rcases Nat.lt_succ_iff_lt_or_eq.1 hj with h1 | rfl
            · rw [hc j h1, corner, corner, Nat.testBit_eq_decide_div_mod_eq,
                Nat.testBit_eq_decide_div_mod_eq]
              obtain ⟨d, rfl⟩ : ∃ d, n = j + (d + 1) := ⟨n - j - 1, by omega⟩
              rw [show 2 ^ (j + (d + 1)) = 2 ^ j * (2 * 2 ^ d) by rw [pow_add, pow_succ]; ring,
                Nat.add_mul_div_left _ _ (by positivity), Nat.add_mul_mod_self_left]
            · rw [h0, corner, Nat.testBit_eq_decide_div_mod_eq, Nat.add_div_right _ (by positivity),
                Nat.div_eq_of_lt hk]; simp
      rw [hf.local_ r (corner k) hc, (mle_multilinear n T).local_ r (corner k) hc, h k hk,
        mle_corner n T k hk]
    | succ m ih =>
      intro hm r hr
      have e : r = Function.update r m (r m) := (Function.update_eq_self m r).symm
      rw [e, hf.affine r m (by omega), (mle_multilinear n T).affine r m (by omega)]
      have hb (x : F) (hx : x = 0 ∨ x = 1) : f (Function.update r m x)
          = mle n T (Function.update r m x) := by
        refine ih (by omega) _ (fun j hj hmj => ?_)
        by_cases hjm : j = m
        · subst hjm; rw [Function.update_self]; exact hx
        · rw [Function.update_of_ne hjm]; exact hr j hj (by omega)
      rw [hb 0 (Or.inl rfl), hb 1 (Or.inr rfl)]
  exact key n le_rfl r (fun j hj hm => absurd hj (by omega))

end Spec
end Libra
