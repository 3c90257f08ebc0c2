import Verif.Model.U256
import Mathlib.Tactic.Ring
import Mathlib.Tactic.Linarith
import Mathlib.Tactic.NormNum

/-! Helper lemmas on `u256b`. -/

namespace Libra
namespace U256

theorem toNat_lt (x : U256) : x.toNat < 2 ^ 256 := by
  have h1 := x.lo.isLt; have h2 := x.mid.isLt; have h3 := x.hi.isLt
  simp only [toNat]; omega

theorem toNat_inj {x y : U256} (h : x.toNat = y.toNat) : x = y := by
  obtain ⟨xl, xm, xh⟩ := x; obtain ⟨yl, ym, yh⟩ := y
  have h1 := xl.isLt; have h2 := xm.isLt; have h3 := xh.isLt
  have h1' := yl.isLt; have h2' := ym.isLt; have h3' := yh.isLt
  simp only [toNat] at h
  have e1 : xl.toNat = yl.toNat := by omega
  have e2 : xm.toNat = ym.toNat := by omega
  have e3 : xh.toNat = yh.toNat := by omega
  rw [BitVec.eq_of_toNat_eq e1, BitVec.eq_of_toNat_eq e2, BitVec.eq_of_toNat_eq e3]

theorem toNat_add (a x : U256) : (a.add x).toNat = (a.toNat + x.toNat) % 2 ^ 256 := by
  obtain ⟨al, am, ah⟩ := a; obtain ⟨xl, xm, xh⟩ := x
  have h1 := xl.isLt; have h2 := xm.isLt; have h3 := xh.isLt
  have h1' := al.isLt; have h2' := am.isLt; have h3' := ah.isLt
  have e0 : ((al + xl) < al) ↔ 2 ^ 64 ≤ al.toNat + xl.toNat := by
    rw [BitVec.lt_def, BitVec.toNat_add]; omega
  have e1 : (am.setWidth 128 + xm.setWidth 128 = maxUll) ↔ am.toNat + xm.toNat = 2 ^ 64 - 1 := by
    rw [← BitVec.toNat_inj]
    simp only [BitVec.toNat_add, BitVec.toNat_setWidth, maxUll, BitVec.toNat_ofNat]
    omega
  simp only [add, toNat, ofBool]
  by_cases c0 : al + xl < al <;> by_cases c1 : am.setWidth 128 + xm.setWidth 128 = maxUll <;>
    simp only [c0, c1, decide_true, decide_false, if_true, if_false, Bool.false_eq_true] <;>
    simp only [BitVec.toNat_add, BitVec.toNat_setWidth, BitVec.toNat_ushiftRight,
      Nat.shiftRight_eq_div_pow, maxUll, BitVec.toNat_ofNat] <;>
    rw [e0] at c0 <;> rw [e1] at c1 <;> omega

theorem toNat_sub (a x : U256) :
    (a.sub x).toNat = (a.toNat + (2 ^ 256 - 1 - x.toNat)) % 2 ^ 256 := by
  have hn : U256.toNat ⟨~~~x.lo, ~~~x.mid, ~~~x.hi⟩ = 2 ^ 256 - 1 - x.toNat := by
    have h1 := x.lo.isLt; have h2 := x.mid.isLt; have h3 := x.hi.isLt
    simp only [toNat, BitVec.toNat_not]; omega
  rw [sub, toNat_add, hn]

theorem toNat_and_maxUll (x : U128) : (x &&& maxUll).toNat = x.toNat % 2 ^ 64 := by
  rw [BitVec.toNat_and]
  have : maxUll.toNat = 2 ^ 64 - 1 := by decide
  rw [this, Nat.and_two_pow_sub_one_eq_mod]

theorem mul64_lt (x y : U64) : x.toNat * y.toNat ≤ (2 ^ 64 - 1) * (2 ^ 64 - 1) := by
  have h1 := x.isLt; have h2 := y.isLt
  exact Nat.mul_le_mul (by omega) (by omega)

/-- 64x64 -> 128 multiplication does not overflow -/
theorem toNat_mul64 (x y : U64) :
    (x.setWidth 128 * y.setWidth 128 : U128).toNat = x.toNat * y.toNat := by
  have := mul64_lt x y
  have h1 := x.isLt; have h2 := y.isLt
  rw [BitVec.toNat_mul, BitVec.toNat_setWidth, BitVec.toNat_setWidth,
    Nat.mod_eq_of_lt (a := x.toNat) (by omega), Nat.mod_eq_of_lt (a := y.toNat) (by omega)]
  exact Nat.mod_eq_of_lt (by omega)

theorem toNat_ofU64 (x : U64) : (ofU64 x).toNat = x.toNat := by
  simp [ofU64, toNat]

theorem toNat_ofU128 (x : U128) : (ofU128 x).toNat = x.toNat := by
  have := x.isLt
  have z : (0 : U128).toNat = 0 := rfl
  simp only [ofU128, toNat, BitVec.toNat_setWidth, toNat_and_maxUll, BitVec.toNat_ushiftRight,
    Nat.shiftRight_eq_div_pow, z]
  omega

/-- the schoolbook core shared by `operator *` and `mul_no_hi` -/
theorem toNat_mulNoHi (a b : U256) : (a.mulNoHi b).toNat =
    (a.lo.toNat + 2 ^ 64 * a.mid.toNat) * (b.lo.toNat + 2 ^ 64 * b.mid.toNat) := by
  have hA := mul64_lt a.lo b.lo; have hB := mul64_lt a.mid b.lo
  have hC := mul64_lt a.lo b.mid; have hD := mul64_lt a.mid b.mid
  have e : (a.lo.toNat + 2 ^ 64 * a.mid.toNat) * (b.lo.toNat + 2 ^ 64 * b.mid.toNat) =
      a.lo.toNat * b.lo.toNat + 2 ^ 64 * (a.mid.toNat * b.lo.toNat) +
      2 ^ 64 * (a.lo.toNat * b.mid.toNat) + 2 ^ 128 * (a.mid.toNat * b.mid.toNat) := by ring
  rw [e]
  simp only [mulNoHi, toNat, BitVec.toNat_setWidth, BitVec.toNat_add, toNat_and_maxUll,
    BitVec.toNat_ushiftRight, Nat.shiftRight_eq_div_pow, toNat_mul64]
  generalize a.lo.toNat * b.lo.toNat = A at *
  generalize a.mid.toNat * b.lo.toNat = B at *
  generalize a.lo.toNat * b.mid.toNat = C at *
  generalize a.mid.toNat * b.mid.toNat = D at *
  omega

theorem toNat_mul (a x : U256) : (a.mul x).toNat = (a.toNat * x.toNat) % 2 ^ 256 := by
  have hA := mul64_lt a.lo x.lo; have hB := mul64_lt a.mid x.lo
  have hC := mul64_lt a.lo x.mid; have hD := mul64_lt a.mid x.mid
  have e : a.toNat * x.toNat =
      a.lo.toNat * x.lo.toNat + 2 ^ 64 * (a.mid.toNat * x.lo.toNat) +
      2 ^ 64 * (a.lo.toNat * x.mid.toNat) + 2 ^ 128 * (a.mid.toNat * x.mid.toNat)
      + 2 ^ 128 * (a.lo.toNat * x.hi.toNat) + 2 ^ 128 * (a.hi.toNat * x.lo.toNat)
      + 2 ^ 192 * (a.mid.toNat * x.hi.toNat + a.hi.toNat * x.mid.toNat)
      + 2 ^ 256 * (a.hi.toNat * x.hi.toNat) := by
    simp only [toNat]; ring
  have l1 := a.lo.isLt; have l2 := a.mid.isLt; have l3 := x.lo.isLt; have l4 := x.mid.isLt
  have w1 : a.lo.toNat % 2 ^ 128 = a.lo.toNat := Nat.mod_eq_of_lt (by omega)
  have w2 : a.mid.toNat % 2 ^ 128 = a.mid.toNat := Nat.mod_eq_of_lt (by omega)
  have w3 : x.lo.toNat % 2 ^ 128 = x.lo.toNat := Nat.mod_eq_of_lt (by omega)
  have w4 : x.mid.toNat % 2 ^ 128 = x.mid.toNat := Nat.mod_eq_of_lt (by omega)
  rw [e]
  simp only [mul]
  rw [toNat]
  simp only [BitVec.toNat_setWidth, BitVec.toNat_add, toNat_and_maxUll, toNat_mul64,
    BitVec.toNat_ushiftRight, BitVec.toNat_shiftLeft, Nat.shiftLeft_eq, Nat.shiftRight_eq_div_pow]
  simp only [BitVec.toNat_mul, BitVec.toNat_setWidth, w1, w2, w3, w4]
  generalize a.lo.toNat * x.lo.toNat = A at *
  generalize a.mid.toNat * x.lo.toNat = B at *
  generalize a.lo.toNat * x.mid.toNat = C at *
  generalize a.mid.toNat * x.mid.toNat = D at *
  generalize a.lo.toNat * x.hi.toNat = E
  generalize a.hi.toNat * x.lo.toNat = F
  generalize a.mid.toNat * x.hi.toNat = G
  generalize a.hi.toNat * x.mid.toNat = H
  generalize a.hi.toNat * x.hi.toNat = I
  omega

theorem lt_iff (a x : U256) : a.lt x = true ↔ a.toNat < x.toNat := by
  have h1 := x.lo.isLt; have h2 := x.mid.isLt; have h3 := x.hi.isLt
  have h1' := a.lo.isLt; have h2' := a.mid.isLt; have h3' := a.hi.isLt
  simp only [lt, toNat, BitVec.lt_def, GT.gt]
  split_ifs <;> simp <;> omega

theorem gt_iff (a x : U256) : a.gt x = true ↔ x.toNat < a.toNat := by
  have h1 := x.lo.isLt; have h2 := x.mid.isLt; have h3 := x.hi.isLt
  have h1' := a.lo.isLt; have h2' := a.mid.isLt; have h3' := a.hi.isLt
  simp only [gt, toNat, BitVec.lt_def, GT.gt]
  split_ifs <;> simp <;> omega

theorem le_iff (a x : U256) : a.le x = true ↔ a.toNat ≤ x.toNat := by
  have h1 := x.lo.isLt; have h2 := x.mid.isLt; have h3 := x.hi.isLt
  have h1' := a.lo.isLt; have h2' := a.mid.isLt; have h3' := a.hi.isLt
  simp only [le, toNat, BitVec.lt_def, BitVec.le_def, GT.gt]
  split_ifs <;> simp <;> omega

theorem ne_iff (a x : U256) : a.ne x = true ↔ a.toNat ≠ x.toNat := by
  constructor
  · intro h hn
    have := toNat_inj hn
    subst this
    simp [ne] at h
  · intro h
    by_contra hc
    apply h
    simp only [ne, Bool.or_eq_true, bne_iff_ne, ne_eq] at hc
    have h1 : a.hi = x.hi := by_contra fun t => hc (Or.inl (Or.inl t))
    have h2 : a.lo = x.lo := by_contra fun t => hc (Or.inl (Or.inr t))
    have h3 : a.mid = x.mid := by_contra fun t => hc (Or.inr t)
    simp only [toNat, h1, h2, h3]

/-- two 64-bit halves put together -/
theorem or_shift (x y : U64) : (x.setWidth 128 ||| (y.setWidth 128 <<< 64) : U128).toNat = x.toNat + y.toNat * 2^64 := by
  have h1 := x.isLt; have h2 := y.isLt
  rw [BitVec.toNat_or, BitVec.toNat_shiftLeft, BitVec.toNat_setWidth, BitVec.toNat_setWidth, Nat.shiftLeft_eq]
  rw [Nat.mod_eq_of_lt (by omega : x.toNat < 2^128), Nat.mod_eq_of_lt (by omega : y.toNat < 2^128), Nat.mod_eq_of_lt (by omega)]
  rw [Nat.or_comm, ← Nat.shiftLeft_eq, ← Nat.shiftLeft_add_eq_or_of_lt h1, Nat.shiftLeft_eq, Nat.add_comm]
theorem toNat_left128 (a : U256) : a.left128.toNat = a.toNat * 2 ^ 128 % 2 ^ 256 := by
  have h1 := a.lo.isLt; have h2 := a.mid.isLt; have h3 := a.hi.isLt
  simp only [left128, toNat, or_shift]
  simp
  omega
theorem toNat_andU256 (a b : U256) : (a.and b).toNat = a.toNat &&& b.toNat := by
  have key : ∀ (x y z x' y' z' : Nat), x < 2^64 → y < 2^64 → x' < 2^64 → y' < 2^64 →
      (x &&& x') + (y &&& y') * 2^64 + (z &&& z') * 2^128 =
      (x + y * 2^64 + z * 2^128) &&& (x' + y' * 2^64 + z' * 2^128) := by
    intro x y z x' y' z' h1 h2 h3 h4
    have e : ∀ x y z : Nat, x < 2^64 → y < 2^64 → x + y * 2^64 + z * 2^128 = (z <<< 64 ||| y) <<< 64 ||| x := by
      intro x y z h1 h2
      rw [← Nat.shiftLeft_add_eq_or_of_lt h2, ← Nat.shiftLeft_add_eq_or_of_lt h1, Nat.shiftLeft_eq, Nat.shiftLeft_eq]; ring
    rw [e x y z h1 h2, e x' y' z' h3 h4, e _ _ _ (Nat.and_lt_two_pow _ h3) (Nat.and_lt_two_pow _ h4)]
    apply Nat.eq_of_testBit_eq
    intro i
    simp only [Nat.testBit_or, Nat.testBit_and, Nat.testBit_shiftLeft]
    by_cases c : i < 64
    · simp [Nat.not_le.2 c]
    · have c' : 64 ≤ i := by omega
      have t : ∀ u : Nat, u < 2^64 → u.testBit i = false := fun u hu =>
        Nat.testBit_lt_two_pow (lt_of_lt_of_le hu (Nat.pow_le_pow_right (by norm_num) c'))
      rw [t x h1, t x' h3]
      by_cases d : i - 64 < 64
      · have : ¬ 64 ≤ i - 64 := by omega
        simp [c', this]
      · have d' : 64 ≤ i - 64 := by omega
        have t : ∀ u : Nat, u < 2^64 → u.testBit (i - 64) = false := fun u hu =>
          Nat.testBit_lt_two_pow (lt_of_lt_of_le hu (Nat.pow_le_pow_right (by norm_num) d'))
        rw [t y h2, t y' h4]; simp [c', d']
  simp only [U256.and, toNat, BitVec.toNat_and]
  rw [Nat.mul_comm (2^64), Nat.mul_comm (2^128), Nat.mul_comm (2^64), Nat.mul_comm (2^128), Nat.mul_comm (2^64), Nat.mul_comm (2^128)]
  exact key _ _ _ _ _ _ a.lo.isLt a.mid.isLt b.lo.isLt b.mid.isLt

end U256
end Libra
