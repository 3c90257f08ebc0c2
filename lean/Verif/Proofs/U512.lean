import Verif.Model.U512
import Verif.Proofs.U256
import Verif.Spec.Field

/-! Helper lemmas on `u512b` and `field_element`. -/

namespace Libra

namespace U512

theorem toNat_lt (x : U512) : x.toNat < 2 ^ 512 := by
  have h1 := x.lo.isLt; have h2 := x.mid.isLt; have h3 := x.hi.toNat_lt
  simp only [toNat]; omega

theorem toNat_inj {x y : U512} (h : x.toNat = y.toNat) : x = y := by
  obtain ⟨xl, xm, xh⟩ := x; obtain ⟨yl, ym, yh⟩ := y
  have h1 := xl.isLt; have h2 := xm.isLt; have h3 := xh.toNat_lt
  have h1' := yl.isLt; have h2' := ym.isLt; have h3' := yh.toNat_lt
  simp only [toNat] at h
  have e1 : xl.toNat = yl.toNat := by omega
  have e2 : xm.toNat = ym.toNat := by omega
  have e3 : xh.toNat = yh.toNat := by omega
  rw [BitVec.eq_of_toNat_eq e1, BitVec.eq_of_toNat_eq e2, U256.toNat_inj e3]

theorem u256_zero_toNat : U256.toNat ⟨0, 0, 0⟩ = 0 := by decide

theorem join64_toNat (l m : U64) :
    ((m.setWidth 128 <<< 64) ||| l.setWidth 128 : U128).toNat = l.toNat + 2 ^ 64 * m.toNat := by
  have hl := l.isLt; have hm := m.isLt
  rw [BitVec.toNat_or, BitVec.toNat_shiftLeft, BitVec.toNat_setWidth, BitVec.toNat_setWidth,
    Nat.mod_eq_of_lt (a := l.toNat) (by omega), Nat.mod_eq_of_lt (a := m.toNat) (by omega),
    Nat.shiftLeft_eq, Nat.mod_eq_of_lt (by omega), Nat.mul_comm, ← Nat.two_pow_add_eq_or_of_lt hl]
  omega

theorem join64_toNat' (l m : U64) :
    (l.setWidth 128 ||| (m.setWidth 128 <<< 64) : U128).toNat = l.toNat + 2 ^ 64 * m.toNat := by
  rw [BitVec.or_comm, join64_toNat]

theorem toNat_ofU256 (x : U256) : (ofU256 x).toNat = x.toNat := by
  simp only [ofU256, toNat, join64_toNat, U256.toNat, u256_zero_toNat]
  simp

theorem toNat_ofU128 (x : U128) : (ofU128 x).toNat = x.toNat := by
  have z : (0 : U128).toNat = 0 := rfl
  simp only [ofU128, toNat, u256_zero_toNat, z, Nat.mul_zero, Nat.add_zero]

theorem toNat_add (a x : U512) : (a.add x).toNat = (a.toNat + x.toNat) % 2 ^ 512 := by
  obtain ⟨al, am, ah⟩ := a; obtain ⟨xl, xm, xh⟩ := x
  have h1 := xl.isLt; have h2 := xm.isLt; have h3 := xh.toNat_lt
  have h1' := al.isLt; have h2' := am.isLt; have h3' := ah.toNat_lt
  have e0 : ((al + xl) < al) ↔ 2 ^ 128 ≤ al.toNat + xl.toNat := by
    rw [BitVec.lt_def, BitVec.toNat_add]; omega
  have z0 : (0#128 : U128) = 0 := rfl
  have z1 : ¬ ((1#128 : U128) = 0) := by decide
  have t0 : (0#128 : U128).toNat = 0 := rfl
  have t1 : (1#128 : U128).toNat = 1 := rfl
  simp only [add, toNat, U256.ofBool]
  by_cases c0 : al + xl < al
  · simp only [c0, decide_true, if_true, z1, if_false]
    rw [e0] at c0
    by_cases c1 : am + xm + 1#128 ≤ am
    · simp only [c1, decide_true, if_true, U256.toNat_add, U256.toNat_ofU128]
      rw [BitVec.le_def] at c1
      simp only [BitVec.toNat_add, t1] at c1 ⊢
      omega
    · simp only [c1, decide_false, Bool.false_eq_true, if_false, U256.toNat_add, U256.toNat_ofU128]
      rw [BitVec.le_def] at c1
      simp only [BitVec.toNat_add, t1, t0] at c1 ⊢
      omega
  · simp only [c0, decide_false, Bool.false_eq_true, if_false, z0, if_true]
    rw [e0] at c0
    by_cases c1 : am + xm + 0 < am
    · simp only [c1, decide_true, if_true, U256.toNat_add, U256.toNat_ofU128]
      rw [BitVec.lt_def] at c1
      simp only [BitVec.toNat_add, ← z0, t1, t0] at c1 ⊢
      omega
    · simp only [c1, decide_false, Bool.false_eq_true, if_false, U256.toNat_add, U256.toNat_ofU128]
      rw [BitVec.lt_def] at c1
      simp only [BitVec.toNat_add, ← z0, t0] at c1 ⊢
      omega

theorem toNat_one : one.toNat = 1 := by decide

theorem toNat_sub (a x : U512) :
    (a.sub x).toNat = (a.toNat + (2 ^ 512 - x.toNat)) % 2 ^ 512 := by
  have hx := x.toNat_lt
  have hn : U512.toNat ⟨~~~x.lo, ~~~x.mid, ⟨~~~x.hi.lo, ~~~x.hi.mid, ~~~x.hi.hi⟩⟩
      = 2 ^ 512 - 1 - x.toNat := by
    have h1 := x.lo.isLt; have h2 := x.mid.isLt
    have h3 := x.hi.lo.isLt; have h4 := x.hi.mid.isLt; have h5 := x.hi.hi.isLt
    simp only [toNat, U256.toNat, BitVec.toNat_not]; omega
  rw [sub, toNat_add, toNat_add, hn, toNat_one]
  omega

theorem low_zero_iff (x : U512) : (x.mid = 0 ∧ x.lo = 0) ↔ x.toNat % 2 ^ 256 = 0 := by
  have h1 := x.lo.isLt; have h2 := x.mid.isLt
  rw [← BitVec.toNat_inj, ← BitVec.toNat_inj]
  have z : (0 : U128).toNat = 0 := rfl
  simp only [toNat, z]; omega

theorem low_mod (x : U512) : x.toNat % 2 ^ 256 = x.lo.toNat + 2 ^ 128 * x.mid.toNat := by
  have h1 := x.lo.isLt; have h2 := x.mid.isLt
  simp only [toNat]; omega

theorem ofU128_parts (x : U128) :
    (U256.ofU128 x).lo.toNat + 2 ^ 64 * (U256.ofU128 x).mid.toNat = x.toNat := by
  have h := U256.toNat_ofU128 x
  have z : (U256.ofU128 x).hi.toNat = 0 := rfl
  rw [U256.toNat, z] at h
  omega

theorem mul128_lt (x y : U128) : x.toNat * y.toNat ≤ (2 ^ 128 - 1) * (2 ^ 128 - 1) := by
  have h1 := x.isLt; have h2 := y.isLt
  exact Nat.mul_le_mul (by omega) (by omega)

/-- the product, when neither early return is taken -/
theorem toNat_mul_main (a x : U512) (hx : x.toNat % 2 ^ 256 ≠ 0) (ha : a.toNat % 2 ^ 256 ≠ 0) :
    (a.mul x).toNat = (a.toNat % 2 ^ 256) * (x.toNat % 2 ^ 256) := by
  have c1 : ¬ (x.mid = 0 ∧ x.lo = 0) := fun h => hx ((low_zero_iff x).1 h)
  have c2 : ¬ (a.mid = 0 ∧ a.lo = 0) := fun h => ha ((low_zero_iff a).1 h)
  rw [mul, if_neg c1, if_neg c2, low_mod, low_mod]
  dsimp only
  have e : (a.lo.toNat + 2 ^ 128 * a.mid.toNat) * (x.lo.toNat + 2 ^ 128 * x.mid.toNat) =
      a.lo.toNat * x.lo.toNat + 2 ^ 128 * (a.mid.toNat * x.lo.toNat) +
      2 ^ 128 * (a.lo.toNat * x.mid.toNat) + 2 ^ 256 * (a.mid.toNat * x.mid.toNat) := by ring
  rw [e]
  have hA := mul128_lt a.lo x.lo; have hB := mul128_lt a.mid x.lo
  have hC := mul128_lt a.lo x.mid; have hD := mul128_lt a.mid x.mid
  have mA := U256.toNat_mulNoHi (U256.ofU128 a.lo) (U256.ofU128 x.lo)
  have mB := U256.toNat_mulNoHi (U256.ofU128 a.mid) (U256.ofU128 x.lo)
  have mC := U256.toNat_mulNoHi (U256.ofU128 a.lo) (U256.ofU128 x.mid)
  have mD := U256.toNat_mulNoHi (U256.ofU128 a.mid) (U256.ofU128 x.mid)
  rw [ofU128_parts, ofU128_parts] at mA mB mC mD
  rw [← mA, ← mB, ← mC, ← mD]
  rw [← mA] at hA; rw [← mB] at hB; rw [← mC] at hC; rw [← mD] at hD
  clear mA mB mC mD e
  generalize U256.mulNoHi (U256.ofU128 a.lo) (U256.ofU128 x.lo) = A at *
  generalize U256.mulNoHi (U256.ofU128 a.mid) (U256.ofU128 x.lo) = B at *
  generalize U256.mulNoHi (U256.ofU128 a.lo) (U256.ofU128 x.mid) = C at *
  generalize U256.mulNoHi (U256.ofU128 a.mid) (U256.ofU128 x.mid) = D at *
  -- the carry into bit 256
  set s := ((U256.ofU128 (B.lo.setWidth 128 ||| (B.mid.setWidth 128 <<< 64))).add
        (U256.ofU128 (C.lo.setWidth 128 ||| (C.mid.setWidth 128 <<< 64)))).add
        (U256.ofU128 A.hi) with hs
  have hs' : s.toNat = (B.lo.toNat + 2 ^ 64 * B.mid.toNat) + (C.lo.toNat + 2 ^ 64 * C.mid.toNat)
      + A.hi.toNat := by
    have h1 := B.lo.isLt; have h2 := B.mid.isLt; have h3 := C.lo.isLt; have h4 := C.mid.isLt
    have h5 := A.hi.isLt
    rw [hs]
    simp only [U256.toNat_add, U256.toNat_ofU128, join64_toNat']
    omega
  have hshi : s.hi.toNat = s.toNat / 2 ^ 128 := by
    have h1 := s.lo.isLt; have h2 := s.mid.isLt
    simp only [U256.toNat]; omega
  set t := (B.add C).add (U256.ofU128 A.hi) with ht
  have ht' : t.toNat = (B.toNat + C.toNat + A.hi.toNat) % 2 ^ 256 := by
    rw [ht]; simp only [U256.toNat_add, U256.toNat_ofU128]; omega
  have htlo : t.lo.toNat + 2 ^ 64 * t.mid.toNat = t.toNat % 2 ^ 128 := by
    have h1 := t.lo.isLt; have h2 := t.mid.isLt
    simp only [U256.toNat]; omega
  simp only [toNat, join64_toNat', htlo, U256.toNat_add, U256.toNat_ofU128, hshi]
  rw [hs', ht']
  clear hs' ht' htlo hshi hs ht
  have h1 := A.lo.isLt; have h2 := A.mid.isLt; have h5 := A.hi.isLt
  have h1 := B.lo.isLt; have h2 := B.mid.isLt; have h5 := B.hi.isLt
  have h1 := C.lo.isLt; have h2 := C.mid.isLt; have h5 := C.hi.isLt
  simp only [U256.toNat] at *
  omega

theorem toNat_mul (a x : U512) : (a.mul x).toNat =
    if x.toNat % 2 ^ 256 = 0 then x.toNat
    else if a.toNat % 2 ^ 256 = 0 then a.toNat
    else (a.toNat % 2 ^ 256) * (x.toNat % 2 ^ 256) := by
  split_ifs with h1 h2
  · rw [mul, if_pos ((low_zero_iff x).2 h1)]
  · rw [mul, if_neg (fun h => h1 ((low_zero_iff x).1 h)), if_pos ((low_zero_iff a).2 h2)]
  · exact toNat_mul_main a x h1 h2

theorem toNat_mul_of_lt (a x : U512) (ha : a.toNat < 2 ^ 256) (hx : x.toNat < 2 ^ 256) :
    (a.mul x).toNat = a.toNat * x.toNat := by
  rw [toNat_mul, Nat.mod_eq_of_lt ha, Nat.mod_eq_of_lt hx]
  split_ifs with h1 h2
  · rw [h1, Nat.mul_zero]
  · rw [h2, Nat.zero_mul]
  · rfl

theorem ge_iff (a x : U512) : a.ge x = true ↔ x.toNat ≤ a.toNat := by
  have h1 := x.lo.isLt; have h2 := x.mid.isLt
  have h1' := a.lo.isLt; have h2' := a.mid.isLt
  simp only [ge, toNat, BitVec.lt_def, GE.ge, BitVec.le_def, GT.gt, U256.lt_iff, U256.gt_iff]
  split_ifs <;> simp <;> omega

theorem gt_iff (a x : U512) : a.gt x = true ↔ x.toNat < a.toNat := by
  have h1 := x.lo.isLt; have h2 := x.mid.isLt
  have h1' := a.lo.isLt; have h2' := a.mid.isLt
  simp only [gt, toNat, BitVec.lt_def, GT.gt, U256.lt_iff, U256.gt_iff]
  split_ifs <;> simp <;> omega

theorem lt_iff (a x : U512) : a.lt x = true ↔ a.toNat < x.toNat := by
  have h1 := x.lo.isLt; have h2 := x.mid.isLt
  have h1' := a.lo.isLt; have h2' := a.mid.isLt
  simp only [lt, toNat, BitVec.lt_def, GT.gt, U256.lt_iff, U256.gt_iff]
  split_ifs <;> simp <;> omega

theorem ne_iff (a x : U512) : a.ne x = true ↔ a.toNat ≠ x.toNat := by
  constructor
  · intro h hn
    have := toNat_inj hn
    subst this
    have : ¬ (a.hi.ne a.hi = true) := by rw [U256.ne_iff]; simp
    simp [ne, this] at h
  · intro h
    by_contra hc
    apply h
    simp only [ne, Bool.or_eq_true, bne_iff_ne, ne_eq] at hc
    have h1 : a.lo = x.lo := by_contra fun t => hc (Or.inl (Or.inl t))
    have h2 : a.mid = x.mid := by_contra fun t => hc (Or.inl (Or.inr t))
    have h3 : ¬ a.hi.ne x.hi = true := fun t => hc (Or.inr t)
    rw [U256.ne_iff, not_not] at h3
    simp only [toNat, h1, h2, h3]

end U512

namespace PrimeField

export Libra.Spec (p)

/-- the Barrett factor -/
def f : Nat := 49885853761272603568320884710755151782187486770207743353506441985236025007921

theorem mod_toNat : mod.toNat = p := by decide +kernel
theorem myFactor_toNat : myFactor.toNat = f := by decide +kernel
theorem f_eq : f = 2 ^ 508 / p := by decide +kernel
theorem mod512_toNat : mod512.toNat = p := by rw [mod512, U512.toNat_ofU256, mod_toNat]
theorem p_lt : p < 2 ^ 254 := by decide +kernel
theorem p_pos : 0 < p := by decide +kernel
theorem minusMod512_toNat : minusMod512.toNat = 2 ^ 512 - p := by decide +kernel

end PrimeField

open PrimeField

theorem barrett_shift (res : U512) :
    U256.toNat ⟨((res.hi.lo <<< 4).setWidth 128 ||| (res.mid >>> 124)).setWidth 64,
       res.hi.mid <<< 4 ||| (res.hi.lo >>> 60),
       res.hi.hi <<< 4 ||| (res.hi.mid >>> 60).setWidth 128⟩ = res.toNat / 2 ^ 252 % 2 ^ 256 := by
  have h1 := res.lo.isLt; have h2 := res.mid.isLt
  have h3 := res.hi.lo.isLt; have h4 := res.hi.mid.isLt; have h5 := res.hi.hi.isLt
  have k (a b : Nat) (hb : b < 2 ^ 4) : (2 ^ 4 * a) ||| b = 2 ^ 4 * a + b := by
    rw [← Nat.two_pow_add_eq_or_of_lt hb]
  have e1 : (((res.hi.lo <<< 4).setWidth 128 ||| (res.mid >>> 124)).setWidth 64 : U64).toNat
      = (2 ^ 4 * res.hi.lo.toNat + res.mid.toNat / 2 ^ 124) % 2 ^ 64 := by
    simp only [BitVec.toNat_setWidth, BitVec.toNat_or, BitVec.toNat_shiftLeft,
      BitVec.toNat_ushiftRight, Nat.shiftLeft_eq, Nat.shiftRight_eq_div_pow]
    have : res.hi.lo.toNat * 2 ^ 4 % 2 ^ 64 % 2 ^ 128 = 2 ^ 4 * (res.hi.lo.toNat % 2 ^ 60) := by
      omega
    rw [this, k _ _ (by omega)]
    omega
  have e2 : (res.hi.mid <<< 4 ||| (res.hi.lo >>> 60) : U64).toNat
      = 2 ^ 4 * (res.hi.mid.toNat % 2 ^ 60) + res.hi.lo.toNat / 2 ^ 60 := by
    simp only [BitVec.toNat_or, BitVec.toNat_shiftLeft,
      BitVec.toNat_ushiftRight, Nat.shiftLeft_eq, Nat.shiftRight_eq_div_pow]
    have : res.hi.mid.toNat * 2 ^ 4 % 2 ^ 64 = 2 ^ 4 * (res.hi.mid.toNat % 2 ^ 60) := by
      omega
    rw [this, k _ _ (by omega)]
  have e3 : (res.hi.hi <<< 4 ||| (res.hi.mid >>> 60).setWidth 128 : U128).toNat
      = 2 ^ 4 * (res.hi.hi.toNat % 2 ^ 124) + res.hi.mid.toNat / 2 ^ 60 := by
    simp only [BitVec.toNat_or, BitVec.toNat_shiftLeft, BitVec.toNat_setWidth,
      BitVec.toNat_ushiftRight, Nat.shiftLeft_eq, Nat.shiftRight_eq_div_pow]
    have : res.hi.hi.toNat * 2 ^ 4 % 2 ^ 128 = 2 ^ 4 * (res.hi.hi.toNat % 2 ^ 124) := by
      omega
    rw [this, Nat.mod_eq_of_lt (a := res.hi.mid.toNat / 2 ^ 60) (by omega), k _ _ (by omega)]
  rw [U256.toNat, e1, e2, e3]
  simp only [U512.toNat, U256.toNat]
  omega

/-- the quotient estimate of `operator %`, before truncation -/
def barrettQ (n : Nat) : Nat := n * f / 2 ^ 508

theorem barrettQ_le (n : Nat) : barrettQ n * p ≤ n := by
  have hf : f * p ≤ 2 ^ 508 := by decide +kernel
  unfold barrettQ
  have h1 : n * f / 2 ^ 508 * 2 ^ 508 ≤ n * f := Nat.div_mul_le_self _ _
  have h2 : n * f / 2 ^ 508 * 2 ^ 508 * p ≤ n * (f * p) := by
    calc n * f / 2 ^ 508 * 2 ^ 508 * p ≤ n * f * p := Nat.mul_le_mul_right _ h1
      _ = n * (f * p) := by ring
  have h3 : n * (f * p) ≤ n * 2 ^ 508 := Nat.mul_le_mul_left _ hf
  have h4 : (n * f / 2 ^ 508 * p) * 2 ^ 508 ≤ n * 2 ^ 508 := by
    calc (n * f / 2 ^ 508 * p) * 2 ^ 508 = n * f / 2 ^ 508 * 2 ^ 508 * p := by ring
      _ ≤ _ := h2.trans h3
  exact Nat.le_of_mul_le_mul_right h4 (by positivity)

theorem barrettQ_lt (n : Nat) (hn : n < 2 ^ 508) : n < barrettQ n * p + 2 * p := by
  have hf : 2 ^ 508 < f * p + p := by decide +kernel
  unfold barrettQ
  have h1 : n * f < n * f / 2 ^ 508 * 2 ^ 508 + 2 ^ 508 := by
    have := Nat.lt_div_mul_add (a := n * f) (b := 2 ^ 508) (by positivity)
    exact this
  -- n * 2^508 ≤ n * f * p + n * p
  have h2 : n * 2 ^ 508 ≤ n * f * p + n * p := by
    calc n * 2 ^ 508 ≤ n * (f * p + p) := Nat.mul_le_mul_left _ hf.le
      _ = _ := by ring
  have h3 : n * f * p < (n * f / 2 ^ 508 * 2 ^ 508 + 2 ^ 508) * p :=
    Nat.mul_lt_mul_of_pos_right h1 p_pos
  have h4 : n * p ≤ 2 ^ 508 * p := Nat.mul_le_mul_right _ hn.le
  have h5 : n * 2 ^ 508 < (n * f / 2 ^ 508 * p + 2 * p) * 2 ^ 508 := by
    have : (n * f / 2 ^ 508 * p + 2 * p) * 2 ^ 508 =
      (n * f / 2 ^ 508 * 2 ^ 508 + 2 ^ 508) * p + 2 ^ 508 * p := by ring
    rw [this]; omega
  exact Nat.lt_of_mul_lt_mul_right h5

theorem p_lt256 : p < 2 ^ 256 := by decide +kernel
theorem f_lt256 : f < 2 ^ 256 := by decide +kernel

/-- what `operator %` computes, for every 512-bit value -/
theorem U512.toNat_mod_gen (a : U512) : (a.mod).toNat =
    (let d := (a.toNat + (2 ^ 512 - barrettQ a.toNat % 2 ^ 256 * p)) % 2 ^ 512
     if p ≤ d then d - p else d) := by
  have ha := a.toNat_lt
  have hal := a.lo.isLt; have ham := a.mid.isLt; have hah := a.hi.toNat_lt
  rw [mod]
  split_ifs with hz
  · obtain ⟨z1, z2, z3, z4, z5⟩ := hz
    have : a = ⟨0, 0, ⟨0, 0, 0⟩⟩ := by
      obtain ⟨l, m, ⟨h1, h2, h3⟩⟩ := a
      simp only at z1 z2 z3 z4 z5; subst z1 z2 z3 z4 z5; rfl
    rw [this]
    decide +kernel
  · dsimp only
    set loF := (U512.mul ⟨a.lo, a.mid, U256.ofU64 0⟩ (U512.ofU256 myFactor)) with hloF
    set hiF := (U512.ofU256 a.hi).mul (U512.ofU256 myFactor) with hhiF
    set res := hiF.add (U512.ofU256 loF.hi) with hres
    have eLo : loF.toNat = (a.toNat % 2 ^ 256) * f := by
      have e0 : U512.toNat ⟨a.lo, a.mid, U256.ofU64 0⟩ = a.toNat % 2 ^ 256 := by
        rw [U512.low_mod]; simp [U512.toNat, U256.toNat_ofU64]
      rw [hloF, U512.toNat_mul_of_lt, e0, U512.toNat_ofU256, myFactor_toNat]
      · rw [e0]; exact Nat.mod_lt _ (by positivity)
      · rw [U512.toNat_ofU256]; exact U256.toNat_lt _
    have eHi : hiF.toNat = (a.toNat / 2 ^ 256) * f := by
      have e0 : a.hi.toNat = a.toNat / 2 ^ 256 := by simp only [U512.toNat]; omega
      rw [hhiF, U512.toNat_mul_of_lt, U512.toNat_ofU256, U512.toNat_ofU256, myFactor_toNat, e0]
      · rw [U512.toNat_ofU256]; exact U256.toNat_lt _
      · rw [U512.toNat_ofU256]; exact U256.toNat_lt _
    have eloHi : loF.hi.toNat = loF.toNat / 2 ^ 256 := by
      have h1 := loF.lo.isLt; have h2 := loF.mid.isLt
      simp only [U512.toNat]; omega
    have hR : a.toNat * f / 2 ^ 256 = (a.toNat / 2 ^ 256) * f + a.toNat % 2 ^ 256 * f / 2 ^ 256 := by
      have hd : a.toNat = 2 ^ 256 * (a.toNat / 2 ^ 256) + a.toNat % 2 ^ 256 :=
        (Nat.div_add_mod _ _).symm
      generalize a.toNat / 2 ^ 256 = H at *
      generalize a.toNat % 2 ^ 256 = L at *
      rw [hd, show (2 ^ 256 * H + L) * f = L * f + 2 ^ 256 * (H * f) by ring,
        Nat.add_mul_div_left _ _ (by positivity)]
      omega
    have hRlt : a.toNat * f / 2 ^ 256 < 2 ^ 512 := by
      rw [Nat.div_lt_iff_lt_mul (by positivity)]
      exact Nat.mul_lt_mul'' ha f_lt256
    have eRes : res.toNat = a.toNat * f / 2 ^ 256 := by
      rw [hres, U512.toNat_add, U512.toNat_ofU256, eloHi, eLo, eHi, ← hR,
        Nat.mod_eq_of_lt hRlt]
    set t : U256 := ⟨((res.hi.lo <<< 4).setWidth 128 ||| (res.mid >>> 124)).setWidth 64,
       res.hi.mid <<< 4 ||| (res.hi.lo >>> 60),
       res.hi.hi <<< 4 ||| (res.hi.mid >>> 60).setWidth 128⟩ with ht
    have eT : t.toNat = barrettQ a.toNat % 2 ^ 256 := by
      rw [ht, barrett_shift, eRes, Nat.div_div_eq_div_mul, barrettQ, ← pow_add]
    have eM : ((U512.ofU256 t).mul (U512.ofU256 PrimeField.mod)).toNat
        = barrettQ a.toNat % 2 ^ 256 * p := by
      rw [U512.toNat_mul_of_lt, U512.toNat_ofU256, U512.toNat_ofU256, eT, mod_toNat]
      · rw [U512.toNat_ofU256]; exact U256.toNat_lt _
      · rw [U512.toNat_ofU256]; exact U256.toNat_lt _
    have eD : (a.sub ((U512.ofU256 t).mul (U512.ofU256 PrimeField.mod))).toNat
        = (a.toNat + (2 ^ 512 - barrettQ a.toNat % 2 ^ 256 * p)) % 2 ^ 512 := by
      rw [U512.toNat_sub, eM]
    have hp := p_lt256
    by_cases c : (a.sub ((U512.ofU256 t).mul (U512.ofU256 PrimeField.mod))).ge
        (U512.ofU256 PrimeField.mod) = true
    · rw [if_pos c]
      rw [U512.ge_iff, U512.toNat_ofU256, mod_toNat] at c
      rw [U512.toNat_sub, U512.toNat_ofU256, mod_toNat, eD]
      rw [eD] at c
      rw [if_pos c]
      omega
    · rw [if_neg c]
      rw [U512.ge_iff, U512.toNat_ofU256, mod_toNat, eD] at c
      rw [if_neg c, eD]

/-- `operator %` is exact below `2^508`. -/
theorem U512.toNat_mod (a : U512) (h : a.toNat < 2 ^ 508) : (a.mod).toNat = a.toNat % p := by
  rw [U512.toNat_mod_gen]
  have h1 := barrettQ_le a.toNat
  have h2 := barrettQ_lt a.toNat h
  have hp := p_lt
  have hq : barrettQ a.toNat < 2 ^ 256 := by
    by_contra hc
    have hc : 2 ^ 256 ≤ barrettQ a.toNat := by omega
    have : 2 ^ 256 * p ≤ barrettQ a.toNat * p := Nat.mul_le_mul_right _ hc
    have : 2 ^ 508 ≤ 2 ^ 256 * p := by decide +kernel
    omega
  rw [Nat.mod_eq_of_lt hq]
  generalize barrettQ a.toNat = q at *
  have hd : (a.toNat + (2 ^ 512 - q * p)) % 2 ^ 512 = a.toNat - q * p := by
    generalize q * p = z at *
    omega
  dsimp only
  rw [hd]
  have key : a.toNat = q * p + (a.toNat - q * p) := by omega
  generalize a.toNat - q * p = d at *
  have hm : a.toNat % p = d % p := by
    rw [key, Nat.add_comm, Nat.add_mul_mod_self_right]
  rw [hm]
  split_ifs with hpd
  · rw [Nat.mod_eq_sub_mod hpd, Nat.mod_eq_of_lt (by omega)]
  · rw [Nat.mod_eq_of_lt (by omega)]

namespace FE

/-- canonical representative: what every `field_element` of the protocol is expected to be -/
def Canon (x : FE) : Prop := x.toNat < p

theorem toNat_add' {a b : FE} (h : a.toNat + b.toNat < 2 ^ 512) : (add a b).toNat =
    if p ≤ a.toNat + b.toNat then a.toNat + b.toNat - p else a.toNat + b.toNat := by
  have hp := p_lt
  unfold add
  dsimp only
  have e : (U512.add b a).toNat = a.toNat + b.toNat := by
    rw [U512.toNat_add]; omega
  by_cases c : (U512.add b a).ge mod512 = true
  · rw [if_pos c]
    rw [U512.ge_iff, mod512_toNat, e] at c
    rw [if_pos c, U512.toNat_add, e, minusMod512_toNat]; omega
  · rw [if_neg c]
    rw [U512.ge_iff, mod512_toNat, e] at c
    rw [if_neg c, e]

theorem toNat_add {a b : FE} (ha : Canon a) (hb : Canon b) :
    (add a b).toNat = (a.toNat + b.toNat) % p := by
  have hp := p_lt
  unfold Canon at *
  rw [toNat_add' (by omega)]
  split_ifs with c
  · rw [Nat.mod_eq_sub_mod c, Nat.mod_eq_of_lt (by omega)]
  · rw [Nat.mod_eq_of_lt (by omega)]

theorem toNat_sub {a b : FE} (ha : Canon a) (hb : Canon b) :
    (sub a b).toNat = (a.toNat + (p - b.toNat)) % p := by
  have hp := p_lt
  unfold Canon at *
  unfold sub
  by_cases c : U512.ge a b = true
  · rw [if_pos c]
    rw [U512.ge_iff] at c
    rw [U512.toNat_sub]
    have : a.toNat + (p - b.toNat) = (a.toNat - b.toNat) + p := by omega
    rw [this, Nat.add_mod_right, Nat.mod_eq_of_lt (a := a.toNat - b.toNat) (by omega)]
    omega
  · rw [if_neg c]
    rw [U512.ge_iff] at c
    rw [U512.toNat_sub, U512.toNat_add, mod512_toNat,
      Nat.mod_eq_of_lt (a := a.toNat + (p - b.toNat)) (by omega)]
    omega

theorem toNat_mul {a b : FE} (ha : a.toNat < 2 ^ 254) (hb : b.toNat < 2 ^ 254) :
    (mul a b).toNat = (a.toNat * b.toNat) % p := by
  unfold mul
  have e : (U512.mul b a).toNat = a.toNat * b.toNat := by
    rw [U512.toNat_mul_of_lt _ _ (by omega) (by omega), Nat.mul_comm]
  rw [U512.toNat_mod, e]
  rw [e]
  calc a.toNat * b.toNat < 2 ^ 254 * 2 ^ 254 := Nat.mul_lt_mul'' ha hb
    _ = 2 ^ 508 := by rw [← pow_add]

theorem canon_add {a b : FE} (ha : Canon a) (hb : Canon b) : Canon (add a b) := by
  unfold Canon; rw [toNat_add ha hb]; exact Nat.mod_lt _ p_pos

theorem canon_sub {a b : FE} (ha : Canon a) (hb : Canon b) : Canon (sub a b) := by
  unfold Canon; rw [toNat_sub ha hb]; exact Nat.mod_lt _ p_pos

theorem canon_mul {a b : FE} (ha : Canon a) (hb : Canon b) : Canon (mul a b) := by
  have := p_lt
  unfold Canon at *; rw [toNat_mul (by omega) (by omega)]; exact Nat.mod_lt _ p_pos

end FE
end Libra
