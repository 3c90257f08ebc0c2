import Verif.Model.Aes
import Verif.Spec.Aes

/-! The table of substitutions, and products with constants, for all bytes. -/

namespace Libra
namespace Aes

theorem inv_table : ∀ n < 256, BitVec.ofNat 8 n ≠ 0 →
    Spec.Aes.gmul (BitVec.ofNat 8 n) (Spec.Aes.inv (BitVec.ofNat 8 n)) = 1 := by decide +kernel

theorem sbox_table : ∀ n < 256, sbox (BitVec.ofNat 8 n) = Spec.Aes.sbox (BitVec.ofNat 8 n) := by
  decide +kernel

theorem double_table : ∀ n < 256, double (BitVec.ofNat 8 n) = Spec.Aes.gmul 2 (BitVec.ofNat 8 n) ∧
    double (BitVec.ofNat 8 n) ^^^ BitVec.ofNat 8 n = Spec.Aes.gmul 3 (BitVec.ofNat 8 n) := by
  decide +kernel

theorem byte_cases {P : BitVec 8 → Prop} (h : ∀ n < 256, P (BitVec.ofNat 8 n)) (b : BitVec 8) : P b := by
  have := h b.toNat b.isLt
  rwa [BitVec.ofNat_toNat, BitVec.setWidth_eq] at this

theorem sbox_eq (b : BitVec 8) : sbox b = Spec.Aes.sbox b := byte_cases (P := fun b => sbox b = Spec.Aes.sbox b) sbox_table b

theorem double_eq (b : BitVec 8) : double b = Spec.Aes.gmul 2 b := (byte_cases (P := fun b => double b = Spec.Aes.gmul 2 b ∧ double b ^^^ b = Spec.Aes.gmul 3 b)
    double_table b).1

theorem triple_eq (b : BitVec 8) : double b ^^^ b = Spec.Aes.gmul 3 b := (byte_cases (P := fun b => double b = Spec.Aes.gmul 2 b ∧ double b ^^^ b = Spec.Aes.gmul 3 b)
    double_table b).2

end Aes
end Libra
