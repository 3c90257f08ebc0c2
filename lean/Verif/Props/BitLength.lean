import Verif.Props.Field

/-!
# C07: the bit length of every 256-bit and every 512-bit value

`C07_bitLen` is about canonical elements, whose upper half is zero; here the other branches.
-/

namespace Libra.Props
open Libra

/-- the bit length of `lo + 2^k * hi` -/
theorem size_split {lo hi k : ℕ} (hlo : lo < 2 ^ k) (hhi : hi ≠ 0) :
    Nat.size (lo + 2 ^ k * hi) = Nat.size hi + k := by
  apply le_antisymm
  · rw [Nat.size_le, pow_add]
    have h := Nat.mul_le_mul_right (2 ^ k) (Nat.succ_le_of_lt (Nat.lt_size_self hi))
    rw [Nat.succ_mul, Nat.mul_comm hi] at h
    omega
  · have hs : 0 < Nat.size hi := Nat.size_pos.2 (Nat.pos_of_ne_zero hhi)
    have h3 : 2 ^ (Nat.size hi - 1) ≤ hi := by rw [← Nat.lt_size]; omega
    have h4 : Nat.size hi - 1 + k < Nat.size (lo + 2 ^ k * hi) := by
      rw [Nat.lt_size, pow_add]
      calc _ ≤ hi * 2 ^ k := Nat.mul_le_mul_right _ h3
        _ ≤ _ := by rw [Nat.mul_comm]; omega
    omega

/-- `u256b::bitLen` is the bit length of every non-zero 256-bit value. -/
theorem C07_u256_bitLen (a : U256) (h0 : a.toNat ≠ 0) : U256.bitLen a = .ok (Nat.size a.toNat : ℤ) := by
  have hl := a.lo.isLt; have hm := a.mid.isLt
  have ea : a.toNat = a.lo.toNat + 2 ^ 64 * a.mid.toNat + 2 ^ 128 * a.hi.toNat := rfl
  unfold U256.bitLen
  by_cases c : a.hi = 0
  · rw [if_neg (by simpa using c)]
    have z : a.hi.toNat = 0 := by rw [c]; rfl
    by_cases c2 : a.mid = 0
    · rw [if_neg (by simpa using c2)]
      have z2 : a.mid.toNat = 0 := by rw [c2]; rfl
      have e1 : a.toNat = a.lo.toNat := by rw [ea, z, z2]; rfl
      have hlo : a.lo ≠ 0 := by intro e; apply h0; rw [e1, e]; rfl
      rw [clz_eq _ hlo, e1]
      show Ub.ok _ = _
      congr 1; ring
    · rw [if_pos (by simpa using c2), clz_eq _ c2]
      have hm0 : a.mid.toNat ≠ 0 := fun e => c2 (BitVec.eq_of_toNat_eq (by rw [e]; rfl))
      have e1 : a.toNat = a.lo.toNat + 2 ^ 64 * a.mid.toNat := by rw [ea, z]; rfl
      rw [e1, size_split hl hm0]
      show Ub.ok _ = _
      congr 1; push_cast; ring
  · rw [if_pos (by simpa using c)]
    have hh0 : a.hi.toNat ≠ 0 := fun e => c (BitVec.eq_of_toNat_eq (by rw [e]; rfl))
    rw [ea, size_split (k := 128) (by omega) hh0]
    have key := bitLen_split 0 a.hi c
    dsimp only at key ⊢
    split_ifs at key ⊢ with c2
    · have c3 : ((a.hi >>> 64).setWidth 64 : U64) ≠ 0 := c2
      rw [clz_eq _ c3] at key ⊢
      have k2 : (128 : ℤ) - (64 - (Nat.size ((a.hi >>> 64).setWidth 64 : U64).toNat : ℤ))
        = (Nat.size a.hi.toNat : ℤ) := Ub.ok.inj key
      show Ub.ok _ = _
      congr 1; push_cast at k2 ⊢; omega
    · by_cases c3 : ((a.hi &&& U256.maxUll).setWidth 64 : U64) = 0
      · rw [c3] at key; exact absurd key (by simp [U256.clz, bind, Ub.bind])
      · rw [clz_eq _ c3] at key ⊢
        have k2 : (64 : ℤ) - (64 - (Nat.size ((a.hi &&& U256.maxUll).setWidth 64 : U64).toNat : ℤ))
          = (Nat.size a.hi.toNat : ℤ) := Ub.ok.inj key
        show Ub.ok _ = _
        congr 1; push_cast at k2 ⊢; omega

/-- `field_element::bitLen` is the bit length of every non-zero 512-bit value, canonical or not. -/
theorem C07_bitLen_wide (a : FE) (h0 : a.toNat ≠ 0) : FE.bitLen a = .ok (Nat.size a.toNat : ℤ) := by
  by_cases h : a.toNat < 2 ^ 256
  · exact C07_bitLen a h h0
  have hl := a.lo.isLt; have hm := a.mid.isLt
  have ea : a.toNat = a.lo.toNat + 2 ^ 128 * a.mid.toNat + 2 ^ 256 * a.hi.toNat := rfl
  have hh0 : a.hi.toNat ≠ 0 := by omega
  have hz : a.hi.ne (U256.ofU64 0) = true := by
    rw [U256.ne_iff, U256.toNat_ofU64]
    exact hh0
  unfold FE.bitLen
  rw [if_pos hz, C07_u256_bitLen _ hh0, ea, size_split (k := 256) (by omega) hh0]
  show Ub.ok _ = _
  congr 1

/-- the branches: both words of the upper half of 256 bits, and the upper half of 512 bits -/
example : U256.bitLen ⟨0, 0, 2 ^ 127⟩ = .ok 256 ∧ U256.bitLen ⟨0, 0, 1⟩ = .ok 129 ∧
    FE.bitLen ⟨0, 0, ⟨1, 0, 0⟩⟩ = .ok 257 := by decide +kernel

/-- and undefined behaviour on zero -/
theorem C07_u256_bitLen_zero : U256.bitLen ⟨0, 0, 0⟩ = .undefined := by decide

end Libra.Props
