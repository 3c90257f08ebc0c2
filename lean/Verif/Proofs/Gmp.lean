import Verif.Model.ZkProver
import Verif.Props.Field
import Verif.Model.Fp

/-!
# `to_gmp_class` on field elements
-/

namespace Libra
open Spec

/-- `field_element::to_gmp_class` (prime_field.cpp:604-625): the binary string it builds, read by
`mpz_class(str, 2)`; the failed assertion (never reached for a field element) counts as 0. -/
instance Fp.instGmp : Gmp Fp := ⟨fun x => ((FE.toGmpString x.val).map binaryBE).getD 0⟩

theorem Fp.toMpz_eq (x : Fp) : Gmp.toMpz x = x.val.toNat := by
  obtain ⟨s, e, h⟩ := Props.C07_to_gmp_class x.val (lt_trans x.2 p_lt256)
  change ((FE.toGmpString x.val).map binaryBE).getD 0 = _
  rw [e]; exact h

instance : LawfulGmp Fp where
  lt x := by rw [Fp.toMpz_eq]; exact x.2
  cast x := by
    apply Fp.equiv.injective
    rw [map_natCast, Fp.toMpz_eq]
    rfl
  char := by
    apply Fp.equiv.injective
    rw [map_natCast, map_zero, ZMod.natCast_self]

end Libra
