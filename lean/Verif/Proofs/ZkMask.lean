import Verif.Model.ZkProver
import Verif.Proofs.FastTrack
import Verif.Spec.Vpd

/-!
# The mask of the sum-check

`a` are the coefficients of the mask after the multiplication with `rho`, `n` the number of
variables of the layer below; the mask has `2 n + 1` variables.
-/

namespace Libra.Zk
open Libra Spec Finset
variable {F : Type} [CommRing F]

theorem foldl_cast (l : List Char) (n : ℕ) :
    l.foldl (fun (ret : F) c => ret * 10 + ((c.toNat - '0'.toNat : ℕ) : F)) (n : F) =
      ((l.foldl (fun (ret : ℕ) c => ret * 10 + (c.toNat - '0'.toNat)) n : ℕ) : F) := by
  induction l generalizing n with
  | nil => rfl
  | cons c l ih => rw [List.foldl_cons, List.foldl_cons, ← ih]; push_cast; rfl

theorem two_inv2 (h : ((p : ℕ) : F) = 0) : 2 * (inv2 : F) = 1 := by
  have e : (inv2 : F) = ((8399054365507916142470402071115866954879789801702376374514189432082785107975 : ℕ) : F) := by
    have := foldl_cast (F := F)
      "8399054365507916142470402071115866954879789801702376374514189432082785107975".toList 0
    rw [Nat.cast_zero] at this
    rw [inv2, fromString, this]
    exact congrArg (fun n : ℕ => (n : F)) (by decide +kernel)
  rw [e]
  have h2 : (2 * 8399054365507916142470402071115866954879789801702376374514189432082785107975 : ℕ) =
      p + 1 := by decide +kernel
  calc (2 : F) * ((8399054365507916142470402071115866954879789801702376374514189432082785107975 : ℕ) : F)
      = ((2 * 8399054365507916142470402071115866954879789801702376374514189432082785107975 : ℕ) : F) := by
        rw [Nat.cast_mul]; rfl
    _ = 1 := by rw [h2, Nat.cast_add, h]; simp

theorem dbl_eq (n : ℕ) (x : F) : dbl n x = 2 ^ n * x := by
  induction n with
  | zero => simp [dbl, loop]
  | succ n ih => rw [dbl, loop_succ, ← dbl, ih]; ring

/-- the part of the mask in variable `k` of degree at most 2 -/
def lo (a : ℕ → F) (k : ℕ) (x : F) : F := a (2 * k) * x ^ 2 + a (2 * k + 1) * x

/-- the part of higher degree -/
def hi (n : ℕ) (a : ℕ → F) (k : ℕ) (x : F) : F :=
  (if k + 1 = n then a (2 * (2 * n + 1) + 1) * x ^ 5 + a (2 * (2 * n + 1) + 2) * x ^ 4
    + a (2 * (2 * n + 1) + 3) * x ^ 3 else 0) +
  if k + 1 = n + n then a (2 * (2 * n + 1) + 4) * x ^ 5 + a (2 * (2 * n + 1) + 5) * x ^ 4
    + a (2 * (2 * n + 1) + 6) * x ^ 3 else 0

/-- the part of the mask in variable `k` -/
def qAt (n : ℕ) (a : ℕ → F) (k : ℕ) (x : F) : F := lo a k x + hi n a k x

theorem qAt_zero (n : ℕ) (a : ℕ → F) (k : ℕ) : qAt n a k 0 = 0 := by
  simp [qAt, lo, hi]

theorem sumMaskPoly_eq (n : ℕ) (hn : 1 ≤ n) (a x : ℕ → F) :
    sumMaskPoly (2 * n + 1) a x =
      a (2 * (2 * n + 1)) + ∑ k ∈ range (2 * n + 1), qAt n a k (x k) := by
  have h1 : (2 * n + 1) / 2 - 1 = n - 1 := by omega
  have h2 : 2 * n + 1 - 2 = n + n - 1 := by omega
  have h3 : ∀ k, k + 1 = n ↔ k = n - 1 := fun k => by omega
  have h4 : ∀ k, k + 1 = n + n ↔ k = n + n - 1 := fun k => by omega
  simp only [qAt, hi, lo, sum_add_distrib, sumMaskPoly, h1, h2, h3, h4]
  rw [sum_ite_eq', sum_ite_eq', if_pos (by simp; omega), if_pos (by simp; omega)]
  ring

/-- twice the constant plus the values at 1 of the variables from `k` on, summed over the cube -/
def SAt (n : ℕ) (a : ℕ → F) (k : ℕ) : F :=
  inv2 * 2 ^ (2 * n + 1 - k) *
    (2 * a (2 * (2 * n + 1)) + ∑ j ∈ Ico k (2 * n + 1), qAt n a j 1)

/-- the values of the variables before `k` at the point `pt` -/
def RAt (n : ℕ) (a pt : ℕ → F) (k : ℕ) : F := ∑ j ∈ range k, qAt n a j (pt j)

/-- the mask in the polynomial of round `k` -/
def mAt (n : ℕ) (a pt : ℕ → F) (k : ℕ) (x : F) : F :=
  2 ^ (2 * n - k) * (qAt n a k x + RAt n a pt k) + SAt n a (k + 1)

theorem SAt_succ (hp : ((p : ℕ) : F) = 0) (n : ℕ) (a : ℕ → F) {k : ℕ} (hk : k < 2 * n + 1) :
    SAt n a (k + 1) = (SAt n a k - 2 ^ (2 * n - k) * qAt n a k 1) * inv2 := by
  have h2 := two_inv2 hp
  rw [SAt, SAt, sum_eq_sum_Ico_succ_bot hk, show 2 * n + 1 - (k + 1) = 2 * n - k by omega,
    show 2 * n + 1 - k = (2 * n - k) + 1 by omega, pow_succ]
  linear_combination (-(2 : F) ^ (2 * n - k) * (2 * a (2 * (2 * n + 1)) +
    (qAt n a k 1 + ∑ j ∈ Ico (k + 1) (2 * n + 1), qAt n a j 1)) * inv2) * h2

theorem SAt_last (hp : ((p : ℕ) : F) = 0) (n : ℕ) (a : ℕ → F) :
    SAt n a (2 * n + 1) = a (2 * (2 * n + 1)) := by
  rw [SAt, Ico_self, sum_empty, Nat.sub_self]
  linear_combination a (2 * (2 * n + 1)) * two_inv2 hp

theorem SAt_zero (hp : ((p : ℕ) : F) = 0) (n : ℕ) (a : ℕ → F) :
    SAt n a 0 = 2 ^ (2 * n) * (2 * a (2 * (2 * n + 1)) + ∑ j ∈ range (2 * n + 1), qAt n a j 1) := by
  rw [SAt, Nat.sub_zero, pow_succ, range_eq_Ico]
  linear_combination (2 ^ (2 * n) *
    (2 * a (2 * (2 * n + 1)) + ∑ j ∈ Ico 0 (2 * n + 1), qAt n a j 1)) * two_inv2 hp

theorem RAt_succ (n : ℕ) (a pt : ℕ → F) (k : ℕ) :
    RAt n a pt (k + 1) = RAt n a pt k + qAt n a k (pt k) := by
  rw [RAt, sum_range_succ, ← RAt]

theorem RAt_congr {n : ℕ} {a pt pt' : ℕ → F} {k : ℕ} (h : ∀ j < k, pt j = pt' j) :
    RAt n a pt k = RAt n a pt' k :=
  sum_congr rfl (fun j hj => by rw [h j (mem_range.1 hj)])

theorem mAt_sum (hp : ((p : ℕ) : F) = 0) (n : ℕ) (a pt : ℕ → F) {k : ℕ} (hk : k < 2 * n + 1) :
    mAt n a pt k 0 + mAt n a pt k 1 = SAt n a k + 2 ^ (2 * n + 1 - k) * RAt n a pt k := by
  have h2 := two_inv2 hp
  rw [mAt, mAt, qAt_zero, SAt_succ hp n a hk, show 2 * n + 1 - k = (2 * n - k) + 1 by omega, pow_succ]
  linear_combination (SAt n a k - 2 ^ (2 * n - k) * qAt n a k 1) * h2

theorem mAt_next (n : ℕ) (a pt : ℕ → F) (k : ℕ) :
    mAt n a pt k (pt k) = SAt n a (k + 1) + 2 ^ (2 * n + 1 - (k + 1)) * RAt n a pt (k + 1) := by
  rw [mAt, RAt_succ, show 2 * n + 1 - (k + 1) = 2 * n - k by omega]; ring

theorem mAt_last (hp : ((p : ℕ) : F) = 0) (n : ℕ) (hn : 1 ≤ n) (a pt : ℕ → F) :
    mAt n a pt (2 * n) (pt (2 * n)) = sumMaskPoly (2 * n + 1) a pt := by
  rw [mAt_next, SAt_last hp, sumMaskPoly_eq n hn, Nat.sub_self, pow_zero, one_mul]; rfl

theorem sumMaskPoly_mul (d : ℕ) (c : F) (a x : ℕ → F) :
    sumMaskPoly d (fun i => a i * c) x = c * sumMaskPoly d a x := by
  simp only [sumMaskPoly, mul_add, mul_sum]
  have : ∀ i ∈ range d, a (2 * i) * c * x i ^ 2 + a (2 * i + 1) * c * x i =
      c * (a (2 * i) * x i ^ 2) + c * (a (2 * i + 1) * x i) := fun i _ => by ring
  rw [sum_congr rfl this]
  ring

theorem sumMaskPoly_congr {d : ℕ} (hd : 2 ≤ d) {a a' x x' : ℕ → F} (ha : ∀ i < 2 * d + 7, a i = a' i)
    (hx : ∀ i < d, x i = x' i) : sumMaskPoly d a x = sumMaskPoly d a' x' := by
  unfold sumMaskPoly
  rw [sum_congr rfl (fun i hi => by
    rw [ha _ (by have := mem_range.1 hi; omega), ha (2 * i + 1) (by have := mem_range.1 hi; omega),
      hx i (mem_range.1 hi)] :
    ∀ i ∈ range d, a (2 * i) * x i ^ 2 + a (2 * i + 1) * x i =
      a' (2 * i) * x' i ^ 2 + a' (2 * i + 1) * x' i)]
  rw [ha _ (by omega), ha (2 * d + 1) (by omega), ha (2 * d + 2) (by omega), ha (2 * d + 3) (by omega),
    ha (2 * d + 4) (by omega), ha (2 * d + 5) (by omega), ha (2 * d + 6) (by omega),
    hx _ (by omega), hx (d - 2) (by omega)]

/-! ## the code that prepares the mask -/

theorem scale_loop (N : ℕ) (c : F) (m : ℕ → F) (k : ℕ) :
    loop N (fun i (m : ℕ → F) => Function.update m i (m i * c)) m k =
      if k < N then m k * c else m k := by
  induction N generalizing k with
  | zero => simp [loop]
  | succ N ih =>
    rw [loop_succ]
    by_cases h : k = N
    · subst h; rw [Function.update_self, ih, if_neg (by omega), if_pos (by omega)]
    · rw [Function.update_of_ne h, ih]
      by_cases h2 : k < N
      · rw [if_pos h2, if_pos (by omega)]
      · rw [if_neg h2, if_neg (by omega)]

theorem double_loop (n : ℕ) (x : F) : loopFrom 1 n (fun _ s => s + s) x = 2 ^ (n - 1) * x := by
  rw [loopFrom, ← dbl_eq]; rfl

end Libra.Zk
