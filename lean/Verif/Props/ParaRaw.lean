import Verif.Proofs.RawExpr
import Verif.Props.RawStmts
import Verif.Model.ParaRaw
import Mathlib.Tactic.IntervalCases
import Mathlib.Tactic.LinearCombination

/-!
# C55: the 512-bit arithmetic of the threaded prover
-/

namespace Libra.Props
open Libra Raw ParaTrack PrimeField RawStmt

/-- Outside the range of the Barrett reduction `%` still keeps the residue class. -/
theorem mod_residue (x : U512) : ((x.mod.toNat : ℕ) : ZMod p) = (x.toNat : ZMod p) := by
  have hx := x.toNat_lt
  have h1 : barrettQ x.toNat % 2 ^ 256 * p ≤ x.toNat :=
    (Nat.mul_le_mul_right _ (Nat.mod_le _ _)).trans (barrettQ_le _)
  rw [U512.toNat_mod_gen]
  generalize hq : barrettQ x.toNat % 2 ^ 256 * p = q at h1
  have e : (x.toNat + (2 ^ 512 - q)) % 2 ^ 512 = x.toNat - q := by omega
  have hq0 : (q : ZMod p) = 0 := by rw [← hq, Nat.cast_mul, p_cast_zero, mul_zero]
  rw [e]
  dsimp only
  split_ifs with h
  · rw [Nat.cast_sub h, Nat.cast_sub h1, hq0, p_cast_zero, sub_zero, sub_zero]
  · rw [Nat.cast_sub h1, hq0, sub_zero]

/-- the integer `a * b + c` -/
def prodSum (a b c : Fp) : ℕ := a.val.toNat * b.val.toNat + c.val.toNat

theorem slope2_inner (a b c d : Fp) :
    ((Raw.sub (.add (.mul (.var 0) (.var 1)) (.var 2)) (.var 3)).run (limbsOf [a, b, c, d])).toNat =
      (prodSum a b c + (2 ^ 512 - d.val.toNat)) % 2 ^ 512 ∧ prodSum a b c < 2 ^ 508 := by
  have ha : a.val.toNat < p := a.2
  have hb : b.val.toNat < p := b.2
  have hc : c.val.toNat < p := c.2
  have hp := p_lt
  have hab : a.val.toNat * b.val.toNat ≤ p * p := Nat.mul_le_mul ha.le hb.le
  have hpp : p * p + p < 2 ^ 508 := by decide +kernel
  have hs : prodSum a b c < 2 ^ 508 := by unfold prodSum; omega
  refine ⟨?_, hs⟩
  have e1 : ((Raw.add (.mul (.var 0) (.var 1)) (.var 2)).run (limbsOf [a, b, c, d])).toNat =
      prodSum a b c := by
    change ((U512.mul a.val b.val).add c.val).toNat = _
    rw [U512.toNat_add, U512.toNat_mul_of_lt _ _ (by omega) (by omega)]
    unfold prodSum at hs ⊢
    omega
  change (((Raw.add (.mul (.var 0) (.var 1)) (.var 2)).run (limbsOf [a, b, c, d])).sub d.val).toNat = _
  rw [U512.toNat_sub, e1]

/-- Phase 2 computes the slope of a table entry correctly if the subtraction does not underflow. -/
theorem C55_slope_partial (a b c d : Fp) (h : d.val.toNat ≤ prodSum a b c) :
    slope2.run (limbsOf [a, b, c, d]) = (a * b + c - d : Fp).val := by
  obtain ⟨e, hs⟩ := slope2_inner a b c d
  have hx : (prodSum a b c + (2 ^ 512 - d.val.toNat)) % 2 ^ 512 = prodSum a b c - d.val.toNat := by
    have := d.val.toNat_lt
    omega
  rw [hx] at e
  have hm : (slope2.run (limbsOf [a, b, c, d])).toNat = (prodSum a b c - d.val.toNat) % p := by
    change (U512.mod _).toNat = _
    rw [U512.toNat_mod _ (by rw [e]; omega), e]
  have hlt : (slope2.run (limbsOf [a, b, c, d])).toNat < p := by rw [hm]; exact Nat.mod_lt _ p_pos
  have key : (⟨slope2.run (limbsOf [a, b, c, d]), hlt⟩ : Fp) = a * b + c - d := by
    apply Fp.toZ_injective
    rw [Fp.toZ_sub, Fp.toZ_add, Fp.toZ_mul]
    change (((slope2.run (limbsOf [a, b, c, d])).toNat : ℕ) : ZMod p) = _
    rw [hm, ZMod.natCast_mod, Nat.cast_sub h, prodSum, Nat.cast_add, Nat.cast_mul]
    rfl
  exact congrArg Fp.val key

/-- **It never does if the subtraction underflows**: the stored value is not even in the residue
class of the right one. -/
theorem C55_underflow (a b c d : Fp) (h : prodSum a b c < d.val.toNat) :
    (((slope2.run (limbsOf [a, b, c, d])).toNat : ℕ) : ZMod p) ≠
      ((a * b + c - d : Fp).val.toNat : ZMod p) := by
  obtain ⟨e, hs⟩ := slope2_inner a b c d
  have hd := d.val.toNat_lt
  have hx : (prodSum a b c + (2 ^ 512 - d.val.toNat)) % 2 ^ 512 =
      prodSum a b c + (2 ^ 512 - d.val.toNat) := by omega
  rw [hx] at e
  have hm : (((slope2.run (limbsOf [a, b, c, d])).toNat : ℕ) : ZMod p) =
      (prodSum a b c : ZMod p) + (2 ^ 512 - (d.val.toNat : ZMod p)) := by
    change (((U512.mod _).toNat : ℕ) : ZMod p) = _
    rw [mod_residue, e, Nat.cast_add, Nat.cast_sub hd.le, Nat.cast_pow, Nat.cast_ofNat]
  have hr : ((a * b + c - d : Fp).val.toNat : ZMod p) = prodSum a b c - d.val.toNat := by
    change (a * b + c - d : Fp).toZ = _
    rw [Fp.toZ_sub, Fp.toZ_add, Fp.toZ_mul, prodSum, Nat.cast_add, Nat.cast_mul]
    rfl
  rw [hm, hr]
  intro h0
  have h2 : ((2 ^ 512 : ℕ) : ZMod p) = 0 := by
    push_cast
    linear_combination h0
  rw [ZMod.natCast_eq_zero_iff] at h2
  exact absurd h2 (by decide +kernel)

/-- a table whose right half is 0 at this point, the left half not -/
example : prodSum 0 5 0 < (7 : Fp).val.toNat := by decide +kernel

example : (3 : Fp).val.toNat ≤ prodSum 4 5 6 := by decide +kernel

/-- With the `+ mod` of phase 1 the statement is always right. -/
theorem C55_slope1 (a b c d : Fp) : s11.run (limbsOf [a, b, c, d]) = (a * b + c - d : Fp).val :=
  s11_stores a b c d

theorem accumulate_den (env : ℕ → Fp) (k : ℕ) : (accumulateReduce k).den env =
    env 0 + ∑ i ∈ Finset.range k, (env (3 * i + 1) * env (3 * i + 2) + env (3 * i + 3)) := by
  change (accumulate k).den env = _
  induction k with
  | zero => simp [accumulate, den]
  | succ k ih =>
    rw [Finset.sum_range_succ]
    change (accumulate k).den env + env (3 * k + 1) * env (3 * k + 2) + env (3 * k + 3) = _
    rw [ih]
    ring

/-- Adding products up without reducing is right for up to two products ... -/
theorem C55_accumulate_partial (env : ℕ → Fp) (k : ℕ) (hk : k ≤ 2) :
    (accumulateReduce k).run (fun i => (env i).val) =
      (env 0 + ∑ i ∈ Finset.range k, (env (3 * i + 1) * env (3 * i + 2) + env (3 * i + 3)) : Fp).val := by
  rw [← accumulate_den]
  interval_cases k
  · exact run_eq _ (by decide +kernel) env
  · exact run_eq _ (by decide +kernel) env
  · exact run_eq _ (by decide +kernel) env

/-- **... but not for the eight products phase 2 adds up**: the stored value can be at least `mod`, so
that the equality test of `field_element` fails on it. -/
theorem C55_accumulate_false : ∃ env : ℕ → Fp,
    p ≤ ((accumulateReduce 8).run (fun i => (env i).val)).toNat := by
  refine ⟨fun _ => -1, ?_⟩
  decide +kernel

theorem gather_den (env : ℕ → Fp) (k : ℕ) : (gatherReduce k).den env =
    ∑ i ∈ Finset.range k, env (2 * i) * env (2 * i + 1) := by
  change (gatherSum k).den env = _
  induction k with
  | zero => simp [gatherSum, den]
  | succ k ih =>
    rw [Finset.sum_range_succ]
    change (gatherSum k).den env + env (2 * k) * env (2 * k + 1) = _
    rw [ih]

/-- Adding up the products of the addition gates with the same second operand is right for up to two gates, -/
theorem C55_gather_partial (env : ℕ → Fp) (k : ℕ) (hk : k ≤ 2) :
    (gatherReduce k).run (fun i => (env i).val) =
      (∑ i ∈ Finset.range k, env (2 * i) * env (2 * i + 1) : Fp).val := by
  rw [← gather_den]
  interval_cases k
  · exact run_eq _ (by decide +kernel) env
  · exact run_eq _ (by decide +kernel) env
  · exact run_eq _ (by decide +kernel) env

/-- and not for the 31 addition gates with the same second operand -/
theorem C55_gather_false : ∃ env : ℕ → Fp,
    p ≤ ((gatherReduce 31).run (fun i => (env i).val)).toNat := by
  refine ⟨fun _ => -1, ?_⟩
  decide +kernel

end Libra.Props
