import Verif.Proofs.Prime

/-!
# Field elements of the protocol

A `prime_field::field_element` that holds a canonical value. Its operations are, literally, the
limb-level operations of `Verif.Model.U512`; this file shows that they stay canonical and make
`Fp` a field, isomorphic to `ZMod p`. Every protocol model is written for an arbitrary field and can
be run at `Fp`, where `+ - *` are the code's own operators.
-/

namespace Libra
open PrimeField

/-- A canonical `field_element` (prime_field.h:90-94). -/
def Fp : Type := {x : FE // x.toNat < p}

namespace Fp

instance : DecidableEq Fp := inferInstanceAs (DecidableEq {x : FE // x.toNat < p})

/-- the limbs -/
def val (x : Fp) : FE := x.1

theorem val_canon (x : Fp) : FE.Canon x.val := x.2

/-- the residue class an element stands for -/
def toZ (x : Fp) : ZMod p := (x.val.toNat : ZMod p)

/-- A 512-bit value from a natural number (specification helper: used only to name constants and
inverses, never by the code). -/
def limbs (n : ℕ) : U512 :=
  ⟨BitVec.ofNat 128 n, BitVec.ofNat 128 (n / 2 ^ 128),
    ⟨BitVec.ofNat 64 (n / 2 ^ 256), BitVec.ofNat 64 (n / 2 ^ 320), BitVec.ofNat 128 (n / 2 ^ 384)⟩⟩

theorem limbs_toNat (n : ℕ) : (limbs n).toNat = n % 2 ^ 512 := by
  simp only [limbs, U512.toNat, U256.toNat, BitVec.toNat_ofNat]
  omega

theorem limbs_toNat_p (n : ℕ) : (limbs (n % p)).toNat = n % p := by
  rw [limbs_toNat]
  have := Nat.mod_lt n p_pos
  have := p_lt
  omega

/-- the canonical element of a residue class -/
def ofNat (n : ℕ) : Fp := ⟨limbs (n % p), by rw [limbs_toNat_p]; exact Nat.mod_lt n p_pos⟩

/-- inverse of `toZ` -/
def ofZ (z : ZMod p) : Fp := ofNat z.val

theorem toZ_ofNat (n : ℕ) : (ofNat n).toZ = (n : ZMod p) := by
  have e : (ofNat n).val.toNat = n % p := limbs_toNat_p n
  rw [toZ, e]
  simp

theorem toZ_ofZ (z : ZMod p) : (ofZ z).toZ = z := by
  rw [ofZ, toZ_ofNat, ZMod.natCast_zmod_val]

theorem toZ_injective : Function.Injective toZ := by
  intro a b h
  rw [toZ, toZ, ZMod.natCast_eq_natCast_iff'] at h
  have ha : a.val.toNat < p := a.2
  have hb : b.val.toNat < p := b.2
  rw [Nat.mod_eq_of_lt ha, Nat.mod_eq_of_lt hb] at h
  exact Subtype.ext (U512.toNat_inj h)

theorem ofZ_toZ (x : Fp) : ofZ x.toZ = x := toZ_injective (toZ_ofZ _)

instance : Zero Fp := ⟨⟨FE.ofInt 0, by decide +kernel⟩⟩
instance : One Fp := ⟨⟨FE.ofInt 1, by decide +kernel⟩⟩
/-- `operator +` -/
instance : Add Fp := ⟨fun a b => ⟨FE.add a.1 b.1, FE.canon_add a.2 b.2⟩⟩
/-- `operator -` -/
instance : Sub Fp := ⟨fun a b => ⟨FE.sub a.1 b.1, FE.canon_sub a.2 b.2⟩⟩
/-- `operator *` -/
instance : Mul Fp := ⟨fun a b => ⟨FE.mul a.1 b.1, FE.canon_mul a.2 b.2⟩⟩
instance : Neg Fp := ⟨fun a => 0 - a⟩
instance : Inv Fp := ⟨fun a => ofZ (a.toZ)⁻¹⟩
instance : Div Fp := ⟨fun a b => a * b⁻¹⟩
instance : NatCast Fp := ⟨ofNat⟩
instance : IntCast Fp := ⟨fun n => ofZ n⟩
instance : SMul ℕ Fp := ⟨fun n a => ofZ (n • a.toZ)⟩
instance : SMul ℤ Fp := ⟨fun n a => ofZ (n • a.toZ)⟩
instance : NNRatCast Fp := ⟨fun q => ofZ q⟩
instance : RatCast Fp := ⟨fun q => ofZ q⟩
instance : SMul ℚ≥0 Fp := ⟨fun n a => ofZ (n • a.toZ)⟩
instance : SMul ℚ Fp := ⟨fun n a => ofZ (n • a.toZ)⟩
instance : Pow Fp ℕ := ⟨fun a n => ofZ (a.toZ ^ n)⟩
instance : Pow Fp ℤ := ⟨fun a n => ofZ (a.toZ ^ n)⟩

theorem toZ_zero : (0 : Fp).toZ = 0 := by
  have : (0 : Fp).val.toNat = 0 := by decide +kernel
  rw [toZ, this]; simp

theorem toZ_one : (1 : Fp).toZ = 1 := by
  have : (1 : Fp).val.toNat = 1 := by decide +kernel
  rw [toZ, this]; simp

theorem toZ_add (a b : Fp) : (a + b).toZ = a.toZ + b.toZ := by
  have e : (a + b).val.toNat = (a.val.toNat + b.val.toNat) % p := FE.toNat_add a.2 b.2
  rw [toZ, e]; simp [toZ]

theorem toZ_mul (a b : Fp) : (a * b).toZ = a.toZ * b.toZ := by
  have ha : a.val.toNat < p := a.2
  have hb : b.val.toNat < p := b.2
  have e : (a * b).val.toNat = (a.val.toNat * b.val.toNat) % p :=
    FE.toNat_mul (lt_trans ha p_lt) (lt_trans hb p_lt)
  rw [toZ, e]; simp [toZ]

theorem toZ_sub (a b : Fp) : (a - b).toZ = a.toZ - b.toZ := by
  have hb : b.val.toNat < p := b.2
  have e : (a - b).val.toNat = (a.val.toNat + (p - b.val.toNat)) % p := FE.toNat_sub a.2 b.2
  rw [toZ, e]
  rw [ZMod.natCast_mod, Nat.cast_add, Nat.cast_sub hb.le]
  simp [toZ, sub_eq_add_neg]

instance : Field Fp := toZ_injective.field toZ toZ_zero toZ_one toZ_add toZ_mul
  (fun a => by rw [show -a = 0 - a from rfl, toZ_sub, toZ_zero, zero_sub])
  toZ_sub (fun _ => toZ_ofZ _)
  (fun a b => by
    rw [show a / b = a * b⁻¹ from rfl, toZ_mul, show b⁻¹ = ofZ (b.toZ)⁻¹ from rfl, toZ_ofZ,
      div_eq_mul_inv])
  (fun _ _ => toZ_ofZ _) (fun _ _ => toZ_ofZ _) (fun _ _ => toZ_ofZ _) (fun _ _ => toZ_ofZ _)
  (fun _ _ => toZ_ofZ _) (fun _ _ => toZ_ofZ _) (fun _ => toZ_ofNat _) (fun _ => toZ_ofZ _)
  (fun _ => toZ_ofZ _) (fun _ => toZ_ofZ _)

/-- `Fp` with the code's operators is the field `ZMod p`. -/
def equiv : Fp ≃+* ZMod p where
  toFun := toZ
  invFun := ofZ
  left_inv := ofZ_toZ
  right_inv := toZ_ofZ
  map_mul' := toZ_mul
  map_add' := toZ_add

instance : Fintype Fp := Fintype.ofEquiv (ZMod p) equiv.toEquiv.symm

theorem card : Fintype.card Fp = p := by
  rw [Fintype.card_congr equiv.toEquiv, ZMod.card]

end Fp
end Libra
