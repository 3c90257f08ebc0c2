import Verif.Proofs.ZkComplete
import Verif.Proofs.Splice
import Verif.Spec.Masked

/-!
# The messages of the zero-knowledge prover as partial sums of the masked polynomial
-/

namespace Libra.Zk
open Libra Spec Finset Libra.FastTrack
variable {F : Type} [CommRing F] {G1 G2 : Type}

/-! ## sums over the hypercube -/

theorem sum_bit (hp : ((p : ℕ) : F) = 0) (f : F → F) {j m : ℕ} (hj : j < m) :
    ∑ b ∈ range (2 ^ m), f (corner b j) = inv2 * 2 ^ m * (f 0 + f 1) := by
  have h2 := two_inv2 hp
  have hs : ∀ m, ∑ b ∈ range (2 ^ (m + 1)), f (corner b j) =
      ∑ b ∈ range (2 ^ m), f (corner b j) + ∑ b ∈ range (2 ^ m), f (corner (2 ^ m + b) j) := by
    intro m
    rw [pow_succ, mul_two, sum_range_add]
  induction m with
  | zero => omega
  | succ m ih =>
    rw [hs]
    rcases Nat.lt_or_ge j m with h | h
    · have e : ∀ b ∈ range (2 ^ m), f (corner (2 ^ m + b) j) = f (corner b j) := fun b _ => by
        simp only [corner]
        rw [Nat.testBit_two_pow_add_gt h]
      rw [sum_congr rfl e, ih h]
      ring
    · obtain rfl : j = m := by omega
      have e1 : ∀ b ∈ range (2 ^ j), f (corner b j) = f 0 := fun b hb => by
        simp only [corner]
        rw [Nat.testBit_lt_two_pow (mem_range.1 hb)]; simp
      have e2 : ∀ b ∈ range (2 ^ j), f (corner (2 ^ j + b) j) = f 1 := fun b hb => by
        simp only [corner]
        rw [Nat.testBit_two_pow_add_eq, Nat.testBit_lt_two_pow (mem_range.1 hb)]; simp
      rw [sum_congr rfl e1, sum_congr rfl e2, sum_const, sum_const, card_range, nsmul_eq_mul,
        nsmul_eq_mul, pow_succ]
      push_cast
      linear_combination (-(2 : F) ^ j * (f 0 + f 1)) * h2

theorem sum_corner (hp : ((p : ℕ) : F) = 0) (q : ℕ → F → F) (hq : ∀ j, q j 0 = 0) (n : ℕ) :
    ∑ y ∈ range (2 ^ n), ∑ j ∈ range n, q j (corner y j) =
      inv2 * 2 ^ n * ∑ j ∈ range n, q j 1 := by
  rw [sum_comm, mul_sum]
  refine sum_congr rfl (fun j hj => ?_)
  rw [sum_bit hp (q j) (mem_range.1 hj), hq, zero_add]

theorem sum_splice (hp : ((p : ℕ) : F) = 0) (q : ℕ → F → F) (hq : ∀ j, q j 0 = 0) {n k : ℕ}
    (hk : k < n) (r : ℕ → F) (x : F) :
    ∑ b ∈ range (2 ^ (n - (k + 1))), ∑ j ∈ range n, q j (splice r k x b j) =
      2 ^ (n - (k + 1)) * (∑ j ∈ range k, q j (r j) + q k x)
        + inv2 * 2 ^ (n - (k + 1)) * ∑ j ∈ Ico (k + 1) n, q j 1 := by
  have hsplit : ∀ f : ℕ → F, ∑ j ∈ range n, f j = (∑ j ∈ range k, f j + f k) + ∑ j ∈ Ico (k + 1) n, f j := by
    intro f
    rw [← sum_range_succ, range_eq_Ico, range_eq_Ico, sum_Ico_consecutive _ (by omega) (by omega)]
  simp only [hsplit]
  rw [sum_add_distrib]
  congr 1
  · have : ∀ b ∈ range (2 ^ (n - (k + 1))), (∑ j ∈ range k, q j (splice r k x b j) + q k (splice r k x b k)) =
        ∑ j ∈ range k, q j (r j) + q k x := fun b _ => by
      congr 1
      · refine sum_congr rfl (fun j hj => ?_)
        rw [splice, if_pos (mem_range.1 hj)]
      · simp [splice]
    rw [sum_congr rfl this, sum_const, card_range, nsmul_eq_mul]
    push_cast; rfl
  · rw [sum_comm, mul_sum]
    refine sum_congr rfl (fun j hj => ?_)
    have hj := mem_Ico.1 hj
    have : ∀ b ∈ range (2 ^ (n - (k + 1))), q j (splice r k x b j) = q j (corner b (j - (k + 1))) := fun b _ => by
      rw [splice, if_neg (by omega), if_neg (by omega)]
    rw [sum_congr rfl this, sum_bit hp (q j) (by omega), hq, zero_add]

theorem prod_corner (n : ℕ) :
    ∑ y ∈ range (2 ^ n), ∏ j ∈ range n, (1 - corner (F := F) y j) = 1 := by
  have : ∀ y ∈ range (2 ^ n), ∏ j ∈ range n, (1 - corner (F := F) y j) = eqPoly n (corner y) 0 * 1 :=
    fun y _ => by rw [mul_one, eqPoly]; exact prod_congr rfl (fun j _ => by simp)
  rw [sum_congr rfl this]
  rw [sum_eq_single 0]
  · rw [eqPoly]; simp [corner]
  · intro b hb h0
    rw [eqPoly_corner n 0 b (by positivity) (mem_range.1 hb)]
    simp [h0, Ne.symm h0]
  · intro h; simp at h

theorem prod_splice {n k : ℕ} (hk : k < n) (r : ℕ → F) (x : F) :
    ∑ b ∈ range (2 ^ (n - (k + 1))), ∏ j ∈ range n, (1 - splice r k x b j) = IAt r k * (1 - x) := by
  have hsplit : ∀ f : ℕ → F, ∏ j ∈ range n, f j =
      ((∏ j ∈ range k, f j) * f k) * ∏ j ∈ range (n - (k + 1)), f (k + 1 + j) := by
    intro f
    rw [← prod_range_succ, ← prod_range_add, show k + 1 + (n - (k + 1)) = n by omega]
  simp only [hsplit]
  have : ∀ b ∈ range (2 ^ (n - (k + 1))), (((∏ j ∈ range k, (1 - splice r k x b j)) * (1 - splice r k x b k)) *
      ∏ j ∈ range (n - (k + 1)), (1 - splice r k x b (k + 1 + j))) =
      IAt r k * (1 - x) * ∏ j ∈ range (n - (k + 1)), (1 - corner (F := F) b j) := fun b _ => by
    congr 1
    · congr 1
      · exact prod_congr rfl (fun j hj => by rw [splice, if_pos (mem_range.1 hj)])
      · simp [splice]
    · refine prod_congr rfl (fun j _ => ?_)
      rw [splice, if_neg (by omega), if_neg (by omega), Nat.add_sub_cancel_left]
  rw [sum_congr rfl this, ← mul_sum, prod_corner, mul_one]

theorem z_corner {n : ℕ} (hn : 1 ≤ n) (y : ℕ) : ∏ j ∈ range n, ((1 - corner (F := F) y j) * corner y j) = 0 := by
  refine prod_eq_zero (i := 0) (mem_range.2 hn) ?_
  simp only [corner]; split_ifs <;> simp

theorem z_splice {n k : ℕ} (hk : k < n) (r : ℕ → F) (x : F) (b : ℕ) :
    ∏ j ∈ range n, ((1 - splice r k x b j) * splice r k x b j) =
      if k + 1 = n then ZAt r k * (x * (1 - x)) else 0 := by
  split_ifs with h
  · rw [← h, prod_range_succ, ZAt]
    congr 1
    · exact prod_congr rfl (fun j hj => by rw [splice, if_pos (mem_range.1 hj)])
    · simp [splice]; ring
  · refine prod_eq_zero (i := k + 1) (mem_range.2 (by omega)) ?_
    rw [splice, if_neg (by omega), if_neg (by omega)]
    simp only [corner]; split_ifs <;> simp

/-! ## the sum-check mask -/

theorem sumMaskPoly_join (n : ℕ) (hn : 1 ≤ n) (a u v : ℕ → F) (c : F) :
    sumMaskPoly (2 * n + 1) a (joinPoint n u v c) = a (2 * (2 * n + 1)) + (∑ j ∈ range n, qAt n a j (u j)
      + ∑ j ∈ range n, qAt n a (n + j) (v j) + qAt n a (2 * n) c) := by
  rw [sumMaskPoly_eq n hn, sum_range_succ, two_mul n, sum_range_add]
  congr 1
  congr 1
  · congr 1
    · exact sum_congr rfl (fun j hj => by rw [joinPoint, if_pos (mem_range.1 hj)])
    · refine sum_congr rfl (fun j hj => ?_)
      have := mem_range.1 hj
      rw [joinPoint, if_neg (by omega), if_pos (by omega), Nat.add_sub_cancel_left]
  · rw [joinPoint, if_neg (by omega), if_neg (by omega)]

theorem mask_two (n : ℕ) (hn : 1 ≤ n) (a u v : ℕ → F) :
    ∑ c ∈ range 2, sumMaskPoly (2 * n + 1) a (joinPoint n u v (c : F)) =
      2 * a (2 * (2 * n + 1)) + qAt n a (2 * n) 1 + 2 * (∑ j ∈ range n, qAt n a j (u j))
      + 2 * ∑ j ∈ range n, qAt n a (n + j) (v j) := by
  rw [sum_range_succ, sum_range_one, sumMaskPoly_join n hn, sumMaskPoly_join n hn, Nat.cast_zero, Nat.cast_one,
    qAt_zero]
  ring

/-- the partial sum of the mask in a round of phase 1 -/
theorem mask_round1 (hp : ((p : ℕ) : F) = 0) {n k : ℕ} (hk : k < n) (a r : ℕ → F) {pt : ℕ → F}
    (hpt : ∀ j < k, pt j = r j) (x : F) :
    ∑ b ∈ range (2 ^ (n - (k + 1))), ∑ y ∈ range (2 ^ n), ∑ c ∈ range 2,
      sumMaskPoly (2 * n + 1) a (joinPoint n (splice r k x b) (corner y) (c : F)) = mAt n a pt k x := by
  have h2 := two_inv2 hp
  have hn : 1 ≤ n := by omega
  have e1 := sum_splice hp (fun j => qAt n a j) (fun j => qAt_zero n a j) hk r x
  have e2 := sum_corner hp (fun j => qAt n a (n + j)) (fun j => qAt_zero n a _) n
  simp only [mask_two n hn]
  simp only [sum_add_distrib, ← mul_sum, e1, e2, sum_const, card_range, nsmul_eq_mul]
  have hR : RAt n a pt k = ∑ j ∈ range k, qAt n a j (r j) :=
    sum_congr rfl (fun j hj => by rw [hpt j (mem_range.1 hj)])
  have hS : ∑ j ∈ Ico (k + 1) (2 * n + 1), qAt n a j 1 = ∑ j ∈ Ico (k + 1) n, qAt n a j 1
      + ∑ j ∈ range n, qAt n a (n + j) 1 + qAt n a (2 * n) 1 := by
    rw [sum_Ico_succ_top (by omega), ← sum_Ico_consecutive _ (show k + 1 ≤ n by omega) (show n ≤ 2 * n by omega)]
    congr 2
    rw [sum_Ico_eq_sum_range, show 2 * n - n = n by omega]
  rw [mAt, SAt, hR, hS, show 2 * n + 1 - (k + 1) = 2 * n - k by omega,
    show 2 * n - k = (n - (k + 1)) + n + 1 by omega, pow_succ, pow_add]
  push_cast
  linear_combination (- (2 : F) ^ (n - (k + 1)) * 2 ^ n * (2 * a (2 * (2 * n + 1)) + qAt n a (2 * n) 1)) * h2

/-- the partial sum of the mask in a round of phase 2 -/
theorem mask_round2 (hp : ((p : ℕ) : F) = 0) {n k : ℕ} (hk : k < n) (a ru r : ℕ → F) {pt : ℕ → F}
    (hptu : ∀ j < n, pt j = ru j) (hpt : ∀ j < k, pt (j + n) = r j) (x : F) :
    ∑ b ∈ range (2 ^ (n - (k + 1))), ∑ c ∈ range 2,
      sumMaskPoly (2 * n + 1) a (joinPoint n ru (splice r k x b) (c : F)) = mAt n a pt (k + n) x := by
  have h2 := two_inv2 hp
  have hn : 1 ≤ n := by omega
  have e1 := sum_splice hp (fun j => qAt n a (n + j)) (fun j => qAt_zero n a _) hk r x
  simp only [mask_two n hn]
  simp only [sum_add_distrib, ← mul_sum, e1, sum_const, card_range, nsmul_eq_mul]
  have hR : RAt n a pt (k + n) = ∑ j ∈ range n, qAt n a j (ru j) + ∑ j ∈ range k, qAt n a (n + j) (r j) := by
    rw [RAt, add_comm k n, sum_range_add]
    congr 1
    · exact sum_congr rfl (fun j hj => by rw [hptu j (mem_range.1 hj)])
    · exact sum_congr rfl (fun j hj => by rw [add_comm n j, hpt j (mem_range.1 hj)])
  have hS : ∑ j ∈ Ico (k + n + 1) (2 * n + 1), qAt n a j 1 = ∑ j ∈ Ico (k + 1) n, qAt n a (n + j) 1
      + qAt n a (2 * n) 1 := by
    rw [sum_Ico_succ_top (by omega), sum_Ico_add (fun j => qAt n a j 1) (k + 1) n n]
    congr 3 <;> ring
  rw [mAt, SAt, hR, hS, show 2 * n + 1 - (k + n + 1) = 2 * n - (k + n) by omega,
    show 2 * n - (k + n) = (n - (k + 1)) + 1 by omega, pow_succ, add_comm k n]
  push_cast
  linear_combination (- (2 : F) ^ (n - (k + 1)) * (2 * a (2 * (2 * n + 1)) + qAt n a (2 * n) 1)) * h2

/-- the sum of the mask over the hypercube -/
theorem mask_total (hp : ((p : ℕ) : F) = 0) {n : ℕ} (hn : 1 ≤ n) (a : ℕ → F) :
    ∑ b ∈ range (2 ^ (2 * n + 1)), sumMaskPoly (2 * n + 1) a (corner b) = SAt n a 0 := by
  have h2 := two_inv2 hp
  simp only [sumMaskPoly_eq n hn]
  rw [sum_add_distrib, sum_corner hp (fun j => qAt n a j) (fun j => qAt_zero n a j), sum_const, card_range,
    nsmul_eq_mul, SAt, Nat.sub_zero, range_eq_Ico]
  push_cast
  linear_combination (- (2 : F) ^ (2 * n + 1) * a (2 * (2 * n + 1))) * h2

end Libra.Zk
