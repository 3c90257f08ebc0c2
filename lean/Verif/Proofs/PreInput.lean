import Verif.Model.InputVpd
import Verif.Proofs.VpdR

namespace Libra
open Spec Finset

section sums
variable {A : Type} [AddCommMonoid A]

theorem sum_blocks (a m : ℕ) (f : ℕ → A) :
    ∑ i ∈ range (a * m), f i = ∑ i ∈ range m, ∑ x ∈ range a, f (a * i + x) := by
  induction m with
  | zero => simp
  | succ m ih => rw [Nat.mul_succ, sum_range_add, ih, sum_range_succ]

theorem sum_two_halves (h : ℕ) (f : ℕ → A) :
    ∑ i ∈ range (h + h), f i = ∑ i ∈ range h, (f i + f (h + i)) := by
  rw [sum_range_add, sum_add_distrib]

end sums

namespace InputVpd

/-- the reversal at the start of `pre_input` -/
theorem reverse_loop (N m : ℕ) (hm : 2 * m ≤ N) (T : ℕ → ℕ) (k : ℕ) :
    loop m (fun i (input : ℕ → ℕ) => Function.update (Function.update input i (input (N - 1 - i)))
      (N - 1 - i) (input i)) T k =
      if k < m ∨ (N - 1 - m < k ∧ k < N) then T (N - 1 - k) else T k := by
  induction m generalizing k with
  | zero =>
    rw [loop_zero, if_neg (by omega)]
  | succ m ih =>
    have ih := fun k => ih (by omega) k
    rw [loop_succ]
    by_cases h1 : k = N - 1 - m
    · subst h1
      rw [Function.update_self, ih, if_neg (by omega), if_pos (by omega),
        show N - 1 - (N - 1 - m) = m by omega]
    · rw [Function.update_of_ne h1]
      by_cases h2 : k = m
      · subst h2
        rw [Function.update_self, ih, if_neg (by omega), if_pos (by omega)]
      · rw [Function.update_of_ne h2, ih]
        by_cases h3 : k < m ∨ (N - 1 - m < k ∧ k < N)
        · rw [if_pos h3, if_pos (by omega)]
        · rw [if_neg h3, if_neg (by omega)]

/-- the butterflies of one block -/
theorem block_loop (base half m : ℕ) (hm : m ≤ half) (T : ℕ → ℕ) :
    let T' := loop m (fun k input => butterfly base half k input) T
    (∀ k < m, T' (base + k) = T (base + half + k) ∧
      T' (base + half + k) = (T (base + k) + p - T (base + half + k)) % p) ∧
    (∀ k, m ≤ k → k < half → T' (base + k) = T (base + k) ∧
      T' (base + half + k) = T (base + half + k)) ∧
    (∀ x, (x < base ∨ base + 2 * half ≤ x) → T' x = T x) := by
  induction m with
  | zero => exact ⟨fun k hk => absurd hk (Nat.not_lt_zero k), fun k _ _ => ⟨rfl, rfl⟩, fun x _ => rfl⟩
  | succ m ih =>
    obtain ⟨i1, i2, i3⟩ := ih (by omega)
    simp only [loop_succ]
    set S := loop m (fun k input => butterfly base half k input) T with hS
    have hb : ∀ x, butterfly base half m S x = if x = base + half + m then
        (S (base + m) + p - S (base + half + m)) % p
        else if x = base + m then S (base + half + m) else S x := by
      intro x
      simp only [butterfly]
      rw [show base + m + half = base + half + m by omega]
      by_cases h1 : x = base + half + m
      · subst h1
        rw [Function.update_self, if_pos rfl, Function.update_of_ne (by omega)]
      · rw [Function.update_of_ne h1, if_neg h1]
        by_cases h2 : x = base + m
        · subst h2; rw [Function.update_self, if_pos rfl]
        · rw [Function.update_of_ne h2, if_neg h2]
    have hm2 := i2 m le_rfl (by omega)
    refine ⟨?_, ?_, ?_⟩
    · intro k hk
      rw [hb, hb]
      rcases Nat.lt_or_ge k m with h | h
      · rw [if_neg (by omega), if_neg (by omega), if_neg (by omega), if_neg (by omega)]
        exact i1 k h
      · obtain rfl : k = m := by omega
        rw [if_neg (by omega), if_pos rfl, if_pos rfl, hm2.1, hm2.2]
        exact ⟨rfl, rfl⟩
    · intro k hk hk2
      rw [hb, hb, if_neg (by omega), if_neg (by omega), if_neg (by omega), if_neg (by omega)]
      exact i2 k (by omega) hk2
    · intro x hx
      rw [hb, if_neg (by omega), if_neg (by omega)]
      exact i3 x hx

/-- one level of butterflies -/
theorem level_loop (half m : ℕ) (hh : 0 < half) (T : ℕ → ℕ) :
    let T' := loop m (fun j input =>
      loop half (fun k input => butterfly (j * (2 * half)) half k input) input) T
    (∀ j < m, ∀ k < half, T' (2 * half * j + k) = T (2 * half * j + (half + k)) ∧
      T' (2 * half * j + (half + k)) =
        (T (2 * half * j + k) + p - T (2 * half * j + (half + k))) % p) ∧
    (∀ x, 2 * half * m ≤ x → T' x = T x) := by
  induction m with
  | zero => exact ⟨fun k hk => absurd hk (Nat.not_lt_zero k), fun x _ => rfl⟩
  | succ m ih =>
    obtain ⟨i1, i2⟩ := ih
    simp only [loop_succ]
    set S := loop m (fun j input =>
      loop half (fun k input => butterfly (j * (2 * half)) half k input) input) T with hS
    obtain ⟨b1, _, b3⟩ := block_loop (m * (2 * half)) half half le_rfl S
    have hmm : m * (2 * half) = 2 * half * m := Nat.mul_comm _ _
    simp only [hmm] at b1 b3 ⊢
    refine ⟨?_, ?_⟩
    · intro j hj k hk
      rcases Nat.lt_or_ge j m with h | h
      · have hle : 2 * half * (j + 1) ≤ 2 * half * m := Nat.mul_le_mul le_rfl h
        rw [Nat.mul_succ] at hle
        rw [b3 _ (by omega), b3 _ (by omega)]
        exact i1 j h k hk
      · obtain rfl : j = m := by omega
        have h1 := b1 k hk
        rw [← Nat.add_assoc, h1.1, h1.2, i2 _ (by omega), i2 _ (by omega)]
        exact ⟨rfl, rfl⟩
    · intro x hx
      rw [Nat.mul_succ] at hx
      rw [b3 x (by omega), i2 x (by omega)]

section weight
variable {R : Type} [CommRing R]

/-- weight of entry `j` when the first `i` variables have been converted -/
def weight (n i : ℕ) (x : ℕ → R) (j : ℕ) : R :=
  ∏ k ∈ range n, if k < i then (if j.testBit k then x k else 1)
    else (if j.testBit k then 1 - x k else x k)

theorem weight_pair (n i : ℕ) (hi : i < n) (x : ℕ → R) (q k : ℕ) (hk : k < 2 ^ i) :
    ∃ c : R, weight n (i + 1) x (2 * 2 ^ i * q + k) = c ∧
      weight n (i + 1) x (2 * 2 ^ i * q + (2 ^ i + k)) = c * x i ∧
      weight n i x (2 * 2 ^ i * q + k) = c * x i ∧
      weight n i x (2 * 2 ^ i * q + (2 ^ i + k)) = c * (1 - x i) := by
  have hp : 2 * 2 ^ i = 2 ^ (i + 1) := by rw [pow_succ, Nat.mul_comm]
  have t0 : ∀ m, (2 * 2 ^ i * q + k).testBit m = if m < i + 1 then k.testBit m
      else q.testBit (m - (i + 1)) := fun m => by
    rw [hp, Nat.testBit_two_pow_mul_add q (by rw [← hp]; omega)]
  have t1 : ∀ m, (2 * 2 ^ i * q + (2 ^ i + k)).testBit m = if m < i + 1 then (2 ^ i + k).testBit m
      else q.testBit (m - (i + 1)) := fun m => by
    rw [hp, Nat.testBit_two_pow_mul_add q (by rw [← hp]; omega)]
  have b0 : (2 * 2 ^ i * q + k).testBit i = false := by
    rw [t0, if_pos (Nat.lt_succ_self i), Nat.testBit_lt_two_pow hk]
  have b1 : (2 * 2 ^ i * q + (2 ^ i + k)).testBit i = true := by
    rw [t1, if_pos (Nat.lt_succ_self i), Nat.testBit_two_pow_add_eq, Nat.testBit_lt_two_pow hk]; rfl
  have hb : ∀ m ≠ i, (2 * 2 ^ i * q + (2 ^ i + k)).testBit m = (2 * 2 ^ i * q + k).testBit m := by
    intro m hm
    rw [t0, t1]
    split_ifs with h
    · exact Nat.testBit_two_pow_add_gt (by omega) k
    · rfl
  have hmem : i ∈ range n := mem_range.2 hi
  refine ⟨∏ m ∈ (range n).erase i, if m < i then
      (if (2 * 2 ^ i * q + k).testBit m then x m else 1)
      else (if (2 * 2 ^ i * q + k).testBit m then 1 - x m else x m), ?_, ?_, ?_, ?_⟩
  · rw [weight, ← prod_erase_mul _ _ hmem, if_pos (Nat.lt_succ_self i), b0, if_neg (by decide),
      mul_one]
    refine prod_congr rfl (fun m hm => ?_)
    have := ne_of_mem_erase hm
    by_cases h : m < i
    · rw [if_pos h, if_pos (by omega)]
    · rw [if_neg h, if_neg (by omega)]
  · rw [weight, ← prod_erase_mul _ _ hmem, if_pos (Nat.lt_succ_self i), b1, if_pos rfl]
    congr 1
    refine prod_congr rfl (fun m hm => ?_)
    have := ne_of_mem_erase hm
    rw [hb m this]
    by_cases h : m < i
    · rw [if_pos h, if_pos (by omega)]
    · rw [if_neg h, if_neg (by omega)]
  · rw [weight, ← prod_erase_mul _ _ hmem, if_neg (lt_irrefl i), b0, if_neg (by decide)]
  · rw [weight, ← prod_erase_mul _ _ hmem, if_neg (lt_irrefl i), b1, if_pos rfl]
    congr 1
    refine prod_congr rfl (fun m hm => ?_)
    rw [hb m (ne_of_mem_erase hm)]

theorem weight_zero (n : ℕ) (x : ℕ → R) (T : ℕ → R) :
    ∑ j ∈ range (2 ^ n), T (2 ^ n - 1 - j) * weight n 0 x j = mle n T x := by
  rw [mle, ← sum_range_reflect]
  refine sum_congr rfl (fun j hj => ?_)
  have hj := mem_range.1 hj
  rw [mul_comm]
  have h1 : 2 ^ n - 1 - (2 ^ n - 1 - j) = j := by omega
  rw [h1]
  congr 1
  unfold weight eqPoly
  refine prod_congr rfl (fun k hk => ?_)
  have hk := mem_range.1 hk
  rw [if_neg (Nat.not_lt_zero k), show 2 ^ n - 1 - j = 2 ^ n - (j + 1) by omega,
    Nat.testBit_two_pow_sub_succ hj]
  cases j.testBit k <;> simp [hk]

theorem weight_all (n : ℕ) (x : ℕ → R) (T : ℕ → R) :
    ∑ j ∈ range (2 ^ n), T j * weight n n x j = coeffPoly n T x := by
  unfold coeffPoly weight monomial
  refine sum_congr rfl (fun j _ => ?_)
  congr 1
  exact prod_congr rfl (fun k hk => if_pos (mem_range.1 hk))

end weight

/-- `pre_input`: evaluations become coefficients -/
theorem preInput_spec (n : ℕ) (hn : 1 ≤ n) (V : ℕ → ℕ) (hV : ∀ i < 2 ^ n, V i < p) :
    (∀ i < 2 ^ n, preInput n V i < p) ∧ (∀ i, 2 ^ n ≤ i → preInput n V i = V i) ∧
    ∀ (R : Type) [CommRing R], (p : R) = 0 → ∀ x : ℕ → R,
      coeffPoly n (fun i => (preInput n V i : R)) x = mle n (fun i => (V i : R)) x := by
  have hpos : 0 < p := by decide +kernel
  have hrev := reverse_loop (2 ^ n) (2 ^ (n - 1))
    (by rw [← Nat.pow_succ', Nat.succ_eq_add_one, Nat.sub_add_cancel hn]) V
  have hhalf : 2 ^ n = 2 * 2 ^ (n - 1) := by
    rw [← Nat.pow_succ', Nat.succ_eq_add_one, Nat.sub_add_cancel hn]
  unfold preInput
  simp only []
  set V0 := loop (2 ^ (n - 1)) (fun i (input : ℕ → ℕ) =>
    Function.update (Function.update input i (input (2 ^ n - 1 - i))) (2 ^ n - 1 - i) (input i)) V
    with hV0
  have h0 : ∀ k < 2 ^ n, V0 k = V (2 ^ n - 1 - k) := by
    intro k hk
    rw [hrev k, if_pos (by omega)]
  have h0' : ∀ k, 2 ^ n ≤ k → V0 k = V k := by
    intro k hk
    rw [hrev k, if_neg (by omega)]
  have key := loop_inv (n := n) (s := V0) (b := fun i input =>
      loop (2 ^ n / 2 ^ (i + 1)) (fun j input =>
        loop (2 ^ (i + 1) / 2) (fun k input => butterfly (j * 2 ^ (i + 1)) (2 ^ i) k input) input)
        input)
    (fun i T => (∀ k < 2 ^ n, T k < p) ∧ (∀ k, 2 ^ n ≤ k → T k = V k) ∧
      ∀ (R : Type) [CommRing R], (p : R) = 0 → ∀ x : ℕ → R,
        ∑ j ∈ range (2 ^ n), (T j : R) * weight n i x j = mle n (fun i => (V i : R)) x)
    ⟨fun k hk => by rw [h0 k hk]; exact hV _ (by omega), h0', fun R _ _ x => by
      rw [← weight_zero]
      exact sum_congr rfl (fun j hj => by rw [h0 j (mem_range.1 hj)])⟩ (by
    rintro i hi T ⟨g1, g2, g3⟩
    have e1 : 2 ^ (i + 1) = 2 * 2 ^ i := Nat.pow_succ'
    have e2 : 2 ^ (i + 1) / 2 = 2 ^ i := by omega
    have e3 : 2 ^ n / 2 ^ (i + 1) = 2 ^ (n - (i + 1)) := Nat.pow_div (by omega) (by decide)
    have e4 : 2 * 2 ^ i * 2 ^ (n - (i + 1)) = 2 ^ n := by
      rw [← e1, ← pow_add]; congr 1; omega
    simp only [e2, e3]
    rw [e1]
    obtain ⟨l1, l2⟩ := level_loop (2 ^ i) (2 ^ (n - (i + 1))) (Nat.two_pow_pos i) T
    generalize loop (2 ^ (n - (i + 1))) (fun j input =>
      loop (2 ^ i) (fun k input => butterfly (j * (2 * 2 ^ i)) (2 ^ i) k input) input) T = T'
      at l1 l2 ⊢
    refine ⟨?_, ?_, ?_⟩
    · intro k hk
      have hq : k / (2 * 2 ^ i) < 2 ^ (n - (i + 1)) := by
        apply Nat.div_lt_of_lt_mul; rw [e4]; exact hk
      have hm := Nat.div_add_mod k (2 * 2 ^ i)
      have hml := Nat.mod_lt k (show 0 < 2 * 2 ^ i by positivity)
      have hlt : 2 * 2 ^ i * (k / (2 * 2 ^ i)) + 2 * 2 ^ i ≤ 2 ^ n := by
        rw [← e4, ← Nat.mul_succ]; exact Nat.mul_le_mul le_rfl hq
      rcases Nat.lt_or_ge (k % (2 * 2 ^ i)) (2 ^ i) with h | h
      · have := (l1 _ hq _ h).1
        rw [hm] at this
        rw [this]
        exact g1 _ (by omega)
      · have := (l1 _ hq (k % (2 * 2 ^ i) - 2 ^ i) (by omega)).2
        rw [show 2 ^ i + (k % (2 * 2 ^ i) - 2 ^ i) = k % (2 * 2 ^ i) by omega, hm] at this
        rw [this]
        exact Nat.mod_lt _ hpos
    · intro k hk
      rw [l2 k (by rw [e4]; exact hk), g2 k hk]
    · intro R _ hp x
      rw [← g3 R hp x]
      conv_lhs => rw [← e4]
      conv_rhs => rw [← e4]
      rw [sum_blocks, sum_blocks]
      refine sum_congr rfl (fun q hq => ?_)
      have hq := mem_range.1 hq
      rw [show 2 * 2 ^ i = 2 ^ i + 2 ^ i by omega, sum_two_halves, sum_two_halves]
      refine sum_congr rfl (fun k hk => ?_)
      have hk := mem_range.1 hk
      rw [← show 2 * 2 ^ i = 2 ^ i + 2 ^ i by omega]
      obtain ⟨c, w1, w2, w3, w4⟩ := weight_pair (R := R) n i hi x q k hk
      have hv := l1 q hq k hk
      have hlt : T (2 * 2 ^ i * q + (2 ^ i + k)) < p := by
        apply g1
        have : 2 * 2 ^ i * q + 2 * 2 ^ i ≤ 2 ^ n := by
          rw [← e4, ← Nat.mul_succ]; exact Nat.mul_le_mul le_rfl hq
        omega
      rw [w1, w2, w3, w4, hv.1, hv.2, cast_mod_p hp, Nat.cast_sub (by omega), Nat.cast_add, hp]
      ring)
  exact ⟨key.1, key.2.1, fun R _ hp x => by rw [← key.2.2 R hp x, weight_all]⟩

end InputVpd
end Libra
