import Verif.Proofs.FieldBits
import Verif.Proofs.RawExpr
import Verif.Model.Poly
import Mathlib.Algebra.Polynomial.Roots
import Mathlib.Tactic.LinearCombination

/-!
# C01-C09, C26 (part), C39 (part): arithmetic of the field
-/

namespace Libra.Props
open Spec PrimeField

/-! ## C01 field operations compute in Z/p -/

/-- `operator +` -/
theorem C01_add (a b : FE) (ha : a.toNat < p) (hb : b.toNat < p) :
    (FE.add a b).toNat < p ∧ ((FE.add a b).toNat : ZMod p) = (a.toNat : ZMod p) + b.toNat := by
  refine ⟨FE.canon_add ha hb, ?_⟩
  rw [FE.toNat_add ha hb]; simp

/-- `operator -` -/
theorem C01_sub (a b : FE) (ha : a.toNat < p) (hb : b.toNat < p) :
    (FE.sub a b).toNat < p ∧ ((FE.sub a b).toNat : ZMod p) = (a.toNat : ZMod p) - b.toNat := by
  refine ⟨FE.canon_sub ha hb, ?_⟩
  rw [FE.toNat_sub ha hb, ZMod.natCast_mod, Nat.cast_add, Nat.cast_sub hb.le]
  simp [sub_eq_add_neg]

/-- `operator *` -/
theorem C01_mul (a b : FE) (ha : a.toNat < p) (hb : b.toNat < p) :
    (FE.mul a b).toNat < p ∧ ((FE.mul a b).toNat : ZMod p) = (a.toNat : ZMod p) * b.toNat := by
  refine ⟨FE.canon_mul ha hb, ?_⟩
  rw [FE.toNat_mul (lt_trans ha p_lt) (lt_trans hb p_lt)]; simp

/-- Two operands for which addition wraps around the modulus, subtraction borrows and the product
needs the full Barrett quotient. -/
example : ∃ a b : FE, a.toNat < p ∧ b.toNat < p ∧ p ≤ a.toNat + b.toNat ∧ a.toNat < b.toNat ∧
    2 ^ 500 < a.toNat * b.toNat :=
  ⟨Fp.limbs (p - 2), Fp.limbs (p - 1), by decide +kernel⟩

/-- The canonical field elements with the code's operators form a field isomorphic to `Z/p`:
all field laws hold for the code. -/
theorem C01_field : ∃ e : Fp ≃+* ZMod p,
    (∀ x, e x = (x.val.toNat : ZMod p)) ∧
    (∀ x y : Fp, (x + y).val = FE.add x.val y.val) ∧
    (∀ x y : Fp, (x - y).val = FE.sub x.val y.val) ∧
    (∀ x y : Fp, (x * y).val = FE.mul x.val y.val) :=
  ⟨Fp.equiv, fun _ => rfl, fun _ _ => rfl, fun _ _ => rfl, fun _ _ => rfl⟩

/-! ## C02 wide integer arithmetic -/

theorem C02_u256_add (a b : U256) : (a.add b).toNat = (a.toNat + b.toNat) % 2 ^ 256 :=
  U256.toNat_add a b

theorem C02_u256_mul (a b : U256) : (a.mul b).toNat = (a.toNat * b.toNat) % 2 ^ 256 :=
  U256.toNat_mul a b

theorem C02_u512_add (a b : U512) : (a.add b).toNat = (a.toNat + b.toNat) % 2 ^ 512 :=
  U512.toNat_add a b

/-- subtraction modulo `2^512`, as an integer statement -/
theorem C02_u512_sub (a b : U512) :
    ((a.sub b).toNat : ℤ) = ((a.toNat : ℤ) - b.toNat) % 2 ^ 512 := by
  have hb := b.toNat_lt
  rw [U512.toNat_sub, Int.natCast_mod, Nat.cast_add, Nat.cast_sub hb.le]
  have : (a.toNat : ℤ) + (((2 ^ 512 : ℕ) : ℤ) - b.toNat) = (a.toNat - b.toNat) + 2 ^ 512 := by
    push_cast; ring
  rw [this]
  push_cast
  rw [Int.add_emod_right]

theorem C02_u512_mul (a b : U512) (ha : a.toNat < 2 ^ 256) (hb : b.toNat < 2 ^ 256) :
    (a.mul b).toNat = a.toNat * b.toNat := U512.toNat_mul_of_lt a b ha hb

example : ∃ a b : U512, a.toNat < 2 ^ 256 ∧ b.toNat < 2 ^ 256 ∧ 2 ^ 511 < a.toNat * b.toNat :=
  ⟨Fp.limbs (2 ^ 256 - 1), Fp.limbs (2 ^ 256 - 1), by decide +kernel⟩

/-- The constructors keep the value. -/
theorem C02_conversions (x : U64) (y : U128) (z : U256) :
    (U256.ofU64 x).toNat = x.toNat ∧ (U256.ofU128 y).toNat = y.toNat ∧
    (U512.ofU256 z).toNat = z.toNat ∧ (U512.ofU128 y).toNat = y.toNat :=
  ⟨U256.toNat_ofU64 x, U256.toNat_ofU128 y, U512.toNat_ofU256 z, U512.toNat_ofU128 y⟩

/-- So do the constructors of field elements from unsigned numbers, and `mul_non_mod` is the exact product. -/
theorem C02_non_mod (x : U64) (a b : FE) (ha : a.toNat < 2 ^ 256) (hb : b.toNat < 2 ^ 256) :
    (FE.ofU64 x).toNat = x.toNat ∧ (FE.mulNonMod a b).toNat = a.toNat * b.toNat :=
  ⟨by rw [FE.ofU64, U512.toNat_ofU256, U256.toNat_ofU64],
    by rw [FE.mulNonMod, U512.toNat_mul_of_lt b a hb ha, Nat.mul_comm]⟩

/-- `left_128` multiplies by `2^128` modulo `2^256`. -/
theorem C02_left_128 (a : U256) : a.left128.toNat = a.toNat * 2 ^ 128 % 2 ^ 256 :=
  U256.toNat_left128 a

/-- `operator &` is the bitwise conjunction of the numbers. -/
theorem C02_u256_and (a b : U256) : (a.and b).toNat = a.toNat &&& b.toNat :=
  U256.toNat_andU256 a b

/-- Outside the stated range `operator *` is not the product modulo `2^512`: it drops the high
halves (or returns an operand unchanged). -/
theorem C02_u512_mul_high_dropped : ∃ a b : U512, (a.mul b).toNat ≠ a.toNat * b.toNat % 2 ^ 512 :=
  ⟨Fp.limbs (2 ^ 256 + 1), Fp.limbs 2, by decide +kernel⟩

/-! ## C03 256-bit subtraction (the property fails by one) -/

/-- what `u256b::operator -` returns: one less than the difference -/
theorem C03_sub_off_by_one (a b : U256) :
    ((a.sub b).toNat : ℤ) = ((a.toNat : ℤ) - b.toNat - 1) % 2 ^ 256 := by
  have hb := b.toNat_lt
  rw [U256.toNat_sub, Int.natCast_mod, Nat.cast_add, Nat.cast_sub (by omega)]
  have : (a.toNat : ℤ) + (((2 ^ 256 - 1 : ℕ) : ℤ) - b.toNat)
      = (a.toNat - b.toNat - 1) + 2 ^ 256 := by
    rw [Nat.cast_sub (by norm_num)]; push_cast; ring
  rw [this]
  push_cast
  rw [Int.add_emod_right]

/-- ... so the property is false, for every pair of operands. -/
theorem C03_sub_false (a b : U256) :
    ((a.sub b).toNat : ℤ) ≠ ((a.toNat : ℤ) - b.toNat) % 2 ^ 256 := by
  rw [C03_sub_off_by_one]; omega

/-! ## C04 modular reduction -/

/-- exact residue below `2^508` -/
theorem C04_mod (a : U512) (h : a.toNat < 2 ^ 508) : (a.mod).toNat = a.toNat % p :=
  U512.toNat_mod a h

/-- The range covers a sum of two products of canonical elements plus a canonical element (the
largest expression the code reduces), but not three products. -/
theorem C04_range : 2 * ((p - 1) * (p - 1)) + 2 * (p - 1) < 2 ^ 508 ∧
    2 ^ 508 < 3 * ((p - 1) * (p - 1)) := by decide +kernel

example : ∃ a : U512, 2 ^ 507 < a.toNat ∧ a.toNat < 2 ^ 508 ∧ a.toNat % p ≠ 0 :=
  ⟨Fp.limbs (2 ^ 508 - 1), by decide +kernel⟩

/-- The bound cannot be dropped: for the largest 512-bit value the result is not below `p`. -/
theorem C04_mod_fails_above : ∃ a : U512, ¬ (a.mod).toNat < p :=
  ⟨Fp.limbs (2 ^ 512 - 1), by decide +kernel⟩

/-! ## C05 comparisons -/

theorem C05_u256 (a b : U256) :
    (a.lt b = true ↔ a.toNat < b.toNat) ∧ (a.gt b = true ↔ a.toNat > b.toNat) ∧
    (a.le b = true ↔ a.toNat ≤ b.toNat) ∧ (a.ne b = true ↔ a.toNat ≠ b.toNat) :=
  ⟨U256.lt_iff a b, U256.gt_iff a b, U256.le_iff a b, U256.ne_iff a b⟩

theorem C05_u512 (a b : U512) :
    (a.lt b = true ↔ a.toNat < b.toNat) ∧ (a.gt b = true ↔ a.toNat > b.toNat) ∧
    (a.ge b = true ↔ a.toNat ≥ b.toNat) ∧ (a.ne b = true ↔ a.toNat ≠ b.toNat) :=
  ⟨U512.lt_iff a b, U512.gt_iff a b, U512.ge_iff a b, U512.ne_iff a b⟩

/-! ## C06 decimal parsing -/

theorem C06_u256 (s : List Char) (h : ∀ c ∈ s, '0' ≤ c ∧ c ≤ '9') :
    (U256.ofDigits 10 s).toNat = decimal s % 2 ^ 256 := (u256_parse s h).1

/-- The 512-bit constructor is right up to 78 digits (every value below `10^78`, in particular
every field element). Missing: longer strings, where it is wrong, see below. -/
theorem C06_u512_partial (s : List Char) (h : ∀ c ∈ s, '0' ≤ c ∧ c ≤ '9') (hl : s.length ≤ 78) :
    (U512.ofDigits s).toNat = decimal s % 2 ^ 512 := by
  rw [show (U512.ofDigits s).toNat = decimal s from (u512_parse s h hl).1]
  have h1 := decimal_lt s h
  have h2 : 10 ^ s.length ≤ 10 ^ 78 := Nat.pow_le_pow_right (by norm_num) hl
  rw [Nat.mod_eq_of_lt]
  omega

example : ∃ s : List Char, (∀ c ∈ s, '0' ≤ c ∧ c ≤ '9') ∧ s.length ≤ 78 ∧ decimal s = p :=
  ⟨modString.toList, by decide +kernel⟩

/-- With 79 digits the 512-bit constructor is wrong: `10^78` is not `10^78`. -/
theorem C06_u512_false : ∃ s : List Char, (∀ c ∈ s, '0' ≤ c ∧ c ≤ '9') ∧ s.length = 79 ∧
    (U512.ofDigits s).toNat ≠ decimal s % 2 ^ 512 :=
  ⟨'1' :: List.replicate 78 '0', by decide +kernel⟩

/-- The constants of `prime_field::init` are what their names say. -/
theorem C06_init_constants : PrimeField.mod.toNat = p ∧ PrimeField.mod512.toNat = p ∧
    PrimeField.myFactor.toNat = 2 ^ 508 / p ∧ PrimeField.minusMod512.toNat = 2 ^ 512 - p :=
  ⟨mod_toNat, mod512_toNat, by rw [myFactor_toNat, f_eq], minusMod512_toNat⟩

/-! ## C07 bits -/

/-- `bit_stream` emits 256 bits, and they are the binary expansion of the value. -/
theorem C07_bit_stream (a : FE) (h : a.toNat < 2 ^ 256) :
    (FE.bitStream a).length = 256 ∧ binaryLE (FE.bitStream a) = a.toNat := by
  refine ⟨by simp [FE.bitStream], ?_⟩
  have hb (x : U128) (i : ℕ) : ((x >>> i &&& 1) != 0) = decide (x.toNat / 2 ^ i % 2 = 1) := by
    have e := limb_bit (w := 128) (by norm_num) x i
    rw [Bool.eq_iff_iff, bne_iff_ne, decide_eq_true_eq, ne_eq, ← BitVec.toNat_inj, e]
    have z : (0 : U128).toNat = 0 := rfl
    rw [z]; omega
  simp only [FE.bitStream, hb]
  rw [binaryLE_append, binaryLE_range, binaryLE_range, List.length_map, List.length_range]
  have h1 := a.lo.isLt; have h2 := a.mid.isLt
  simp only [U512.toNat] at h ⊢
  omega

/-- ... so the element can be recovered from its bits. -/
theorem C07_bit_stream_injective (a b : FE) (ha : a.toNat < p) (hb : b.toNat < p)
    (h : FE.bitStream a = FE.bitStream b) : a = b := by
  have hp := p_lt256
  have h1 := (C07_bit_stream a (by omega)).2
  have h2 := (C07_bit_stream b (by omega)).2
  exact U512.toNat_inj (by rw [← h1, ← h2, h])

/-- `to_gmp_class` parses a binary string that denotes the value of the element. -/
theorem C07_to_gmp_class (a : FE) (h : a.toNat < 2 ^ 256) :
    ∃ s, FE.toGmpString a = some s ∧ binaryBE s = a.toNat := by
  have hz : ¬ (a.hi.ne (U256.ofU64 0) = true) := by
    rw [U256.ne_iff, not_not, U256.toNat_ofU64]
    simp only [U512.toNat] at h
    have : (0 : U64).toNat = 0 := rfl
    omega
  refine ⟨_, by rw [FE.toGmpString, if_neg hz], ?_⟩
  obtain ⟨-, h2⟩ := C07_bit_stream a h
  rw [← h2, ← binaryBE_reverse]
  have hb (x : U128) (i : ℕ) : Char.ofNat ((x >>> i &&& 1).toNat + 48) =
      Char.ofNat (((x >>> i &&& 1) != 0).toNat + 48) := by
    have e := limb_bit (w := 128) (by norm_num) x i
    rcases Nat.mod_two_eq_zero_or_one (x.toNat / 2 ^ i) with c | c
    · have : x >>> i &&& 1 = 0 := BitVec.eq_of_toNat_eq (by rw [e, c]; rfl)
      rw [this]; rfl
    · have : x >>> i &&& 1 = 1 := BitVec.eq_of_toNat_eq (by rw [e, c]; rfl)
      rw [this]; rfl
  simp only [hb]
  rw [FE.bitStream, List.map_append, List.map_map, List.map_map]
  rfl

/-- `bit_at` returns the binary digit at every valid position. -/
theorem C07_bit_at (a : U256) (i : ℕ) (hi : i < 256) :
    a.bitAt i = .ok (a.toNat / 2 ^ i % 2) := by
  have h1 := a.lo.isLt; have h2 := a.mid.isLt
  have key : a.toNat = a.lo.toNat + 2 ^ 64 * a.mid.toNat + 2 ^ 128 * a.hi.toNat := rfl
  unfold U256.bitAt
  by_cases c1 : (i : ℤ) < 64
  · rw [if_pos c1, U256.shr, if_pos ⟨by omega, by exact_mod_cast c1⟩]
    have e := limb_bit (w := 64) (by norm_num) a.lo i
    show Ub.ok ((a.lo >>> (i : ℤ).toNat) &&& 1).toNat = _
    rw [Int.toNat_natCast, e]
    congr 1
    have hi : i < 64 := by omega
    rw [key, show a.lo.toNat + 2 ^ 64 * a.mid.toNat + 2 ^ 128 * a.hi.toNat
      = a.lo.toNat + 2 ^ i * (2 * (2 ^ (63 - i) * (a.mid.toNat + 2 ^ 64 * a.hi.toNat))) by
        have : (2 : ℕ) ^ 64 = 2 ^ i * (2 * 2 ^ (63 - i)) := by
          rw [← pow_succ', ← pow_add]; congr 1; omega
        calc _ = a.lo.toNat + 2 ^ 64 * (a.mid.toNat + 2 ^ 64 * a.hi.toNat) := by ring
          _ = _ := by rw [this]; ring,
      Nat.add_mul_div_left _ _ (by positivity), Nat.add_mul_mod_self_left]
  · rw [if_neg c1]
    by_cases c2 : (i : ℤ) < 128
    · rw [if_pos c2, U256.shr, if_pos ⟨by omega, by push_cast; omega⟩]
      obtain ⟨j, rfl⟩ : ∃ j, i = 64 + j := ⟨i - 64, by omega⟩
      have e := limb_bit (w := 64) (by norm_num) a.mid j
      show Ub.ok ((a.mid >>> (((64 + j : ℕ) : ℤ) - 64).toNat) &&& 1).toNat = _
      rw [show (((64 + j : ℕ) : ℤ) - 64).toNat = j by omega, e]
      congr 1
      have hj : j < 64 := by omega
      rw [pow_add, ← Nat.div_div_eq_div_mul, key,
        show (a.lo.toNat + 2 ^ 64 * a.mid.toNat + 2 ^ 128 * a.hi.toNat) / 2 ^ 64
          = a.mid.toNat + 2 ^ 64 * a.hi.toNat by omega,
        show a.mid.toNat + 2 ^ 64 * a.hi.toNat
          = a.mid.toNat + 2 ^ j * (2 * (2 ^ (63 - j) * a.hi.toNat)) by
          have : (2 : ℕ) ^ 64 = 2 ^ j * (2 * 2 ^ (63 - j)) := by
            rw [← pow_succ', ← pow_add]; congr 1; omega
          rw [this]; ring,
        Nat.add_mul_div_left _ _ (by positivity), Nat.add_mul_mod_self_left]
    · rw [if_neg c2, U256.shr, if_pos ⟨by omega, by push_cast; omega⟩]
      obtain ⟨j, rfl⟩ : ∃ j, i = 128 + j := ⟨i - 128, by omega⟩
      have e := limb_bit (w := 128) (by norm_num) a.hi j
      show Ub.ok ((a.hi >>> (((128 + j : ℕ) : ℤ) - 128).toNat) &&& 1).toNat = _
      rw [show (((128 + j : ℕ) : ℤ) - 128).toNat = j by omega, e]
      congr 1
      rw [pow_add, ← Nat.div_div_eq_div_mul, key,
        show (a.lo.toNat + 2 ^ 64 * a.mid.toNat + 2 ^ 128 * a.hi.toNat) / 2 ^ 128
          = a.hi.toNat by omega]

/-- `testBit` agrees with `bit_at` except at the limb boundaries 64 and 128. -/
theorem C07_test_bit_partial (a : U256) (i : ℕ) (hi : i < 256) (h1 : i ≠ 64) (h2 : i ≠ 128) :
    a.testBit i = .ok (a.toNat / 2 ^ i % 2) := by
  rw [← C07_bit_at a i hi]
  unfold U256.testBit U256.bitAt
  have e1 : ((i : ℤ) ≤ 64) ↔ ((i : ℤ) < 64) := by omega
  have e2 : ((i : ℤ) ≤ 128) ↔ ((i : ℤ) < 128) := by omega
  simp only [e1, e2]

/-- At the positions 64 and 128 `testBit` shifts a 64-bit word by 64: undefined behaviour. -/
theorem C07_test_bit_false (a : U256) : a.testBit 64 = .undefined ∧ a.testBit 128 = .undefined := by
  constructor <;> rfl

instance : LawfulMonad Ub := LawfulMonad.mk'
  (id_map := fun x => by cases x <;> rfl) (pure_bind := fun _ _ => rfl) (bind_assoc := fun x _ _ => by cases x <;> rfl)

/-- `to_string` writes the 512 binary digits, the lowest first, for every value. (Nothing ends the string: the buffer has exactly
512 characters.) -/
theorem C07_to_string (a : FE) : ∃ s, FE.toStringBuf a = .ok s ∧ s.length = 512 ∧ (∀ c ∈ s, c = '0' ∨ c = '1') ∧
    binaryBE s.reverse = a.toNat := by
  have hm : ∀ l : List ℕ, (∀ i ∈ l, i < 256) → (l.mapM (fun (i : ℕ) => a.hi.bitAt (Int.ofNat i)) : Ub (List ℕ)) =
      .ok (l.map (fun i => a.hi.toNat / 2 ^ i % 2)) := by
    intro l hl
    induction l with
    | nil => rfl
    | cons i l ih =>
      rw [List.mapM_cons, ih (fun j hj => hl j (by simp [hj]))]
      change (a.hi.bitAt (i : ℤ)).bind _ = _
      rw [C07_bit_at a.hi i (hl i (by simp))]
      rfl
  set bits : List Bool := (List.range 128).map (fun i => decide (a.lo.toNat / 2 ^ i % 2 = 1)) ++
    ((List.range 128).map (fun i => decide (a.mid.toNat / 2 ^ i % 2 = 1)) ++
    (List.range 256).map (fun i => decide (a.hi.toNat / 2 ^ i % 2 = 1))) with hbits
  have hc : ∀ n : ℕ, n % 2 = (decide (n % 2 = 1)).toNat := fun n => by
    rcases Nat.mod_two_eq_zero_or_one n with c | c <;> simp [c]
  have hb (x : U128) (i : ℕ) : Char.ofNat ((x >>> i &&& 1).toNat + 48) =
      Char.ofNat ((decide (x.toNat / 2 ^ i % 2 = 1)).toNat + 48) := by
    rw [limb_bit (w := 128) (by norm_num) x i, ← hc]
  refine ⟨bits.map (fun b => Char.ofNat (b.toNat + 48)), ?_, by simp [hbits], ?_, ?_⟩
  · rw [FE.toStringBuf, hm _ (fun i hi => List.mem_range.1 hi)]
    change Ub.ok _ = _
    simp only [hbits, List.map_append, List.map_map, hb, List.append_assoc]
    congr 4
    funext i
    simp only [Function.comp_apply, ← hc, Nat.mod_mod]
  · intro c hc
    obtain ⟨b, -, rfl⟩ := List.mem_map.1 hc
    cases b
    · exact .inl rfl
    · exact .inr rfl
  · rw [binaryBE_reverse, hbits, binaryLE_append, binaryLE_append, binaryLE_range, binaryLE_range, binaryLE_range]
    simp only [List.length_map, List.length_range]
    have h1 := a.lo.isLt; have h2 := a.mid.isLt; have h3 := a.hi.toNat_lt
    rw [Nat.mod_eq_of_lt h1, Nat.mod_eq_of_lt h2, Nat.mod_eq_of_lt h3, U512.toNat]
    ring

example : ∃ (a : U256) (i : ℕ), i < 256 ∧ i ≠ 64 ∧ i ≠ 128 ∧ a.testBit i = .ok 1 :=
  ⟨U256.ofU64 6, 2, by decide⟩

theorem bitLen_split (lo w : U128) (h : w ≠ 0) :
    (let hi : U64 := (w >>> 64).setWidth 64
     let lo : U64 := (w &&& U256.maxUll).setWidth 64
     if hi ≠ 0 then (do let c ← U256.clz hi; pure (128 - c) : Ub Int)
     else (do let c ← U256.clz lo; pure (64 - c) : Ub Int)) = .ok (Nat.size w.toNat : ℤ) := by
  have hw := w.isLt
  have h0 : w.toNat ≠ 0 := fun e => h (BitVec.eq_of_toNat_eq (by rw [e]; rfl))
  have ehi : ((w >>> 64).setWidth 64 : U64).toNat = w.toNat / 2 ^ 64 := by
    rw [BitVec.toNat_setWidth, BitVec.toNat_ushiftRight, Nat.shiftRight_eq_div_pow]; omega
  have elo : ((w &&& U256.maxUll).setWidth 64 : U64).toNat = w.toNat % 2 ^ 64 := by
    rw [BitVec.toNat_setWidth, U256.toNat_and_maxUll]; omega
  dsimp only
  by_cases c : ((w >>> 64).setWidth 64 : U64) = 0
  · rw [if_neg (by simpa using c)]
    have z : w.toNat / 2 ^ 64 = 0 := by rw [← ehi, c]; rfl
    have hlo : ((w &&& U256.maxUll).setWidth 64 : U64) ≠ 0 := by
      intro e
      have : w.toNat % 2 ^ 64 = 0 := by rw [← elo, e]; rfl
      omega
    rw [clz_eq _ hlo, elo, Nat.mod_eq_of_lt (by omega)]
    show Ub.ok _ = _
    congr 1; ring
  · rw [if_pos (by simpa using c), clz_eq _ c, ehi]
    show Ub.ok _ = _
    congr 1
    have hq : w.toNat / 2 ^ 64 ≠ 0 := by
      intro e; apply c; apply BitVec.eq_of_toNat_eq; rw [ehi, e]; rfl
    have : Nat.size w.toNat = Nat.size (w.toNat / 2 ^ 64) + 64 := by
      apply le_antisymm
      · rw [Nat.size_le, pow_add]
        have := Nat.lt_size_self (w.toNat / 2 ^ 64)
        have h2 := Nat.lt_div_mul_add (a := w.toNat) (b := 2 ^ 64) (by norm_num)
        have h3 : (w.toNat / 2 ^ 64 + 1) * 2 ^ 64 ≤ 2 ^ (w.toNat / 2 ^ 64).size * 2 ^ 64 :=
          Nat.mul_le_mul_right _ this
        rw [Nat.add_mul, Nat.one_mul] at h3; exact lt_of_lt_of_le h2 h3
      · have hs : 0 < Nat.size (w.toNat / 2 ^ 64) := Nat.size_pos.2 (Nat.pos_of_ne_zero hq)
        have h3 : 2 ^ (Nat.size (w.toNat / 2 ^ 64) - 1) ≤ w.toNat / 2 ^ 64 := by
          rw [← Nat.lt_size]; omega
        have h4 : Nat.size (w.toNat / 2 ^ 64) - 1 + 64 < Nat.size w.toNat := by
          rw [Nat.lt_size, pow_add]
          calc _ ≤ (w.toNat / 2 ^ 64) * 2 ^ 64 := Nat.mul_le_mul_right _ h3
            _ ≤ _ := Nat.div_mul_le_self _ _
        omega
    rw [this]; push_cast; ring

/-- `field_element::bitLen` is the bit length of every non-zero element ... -/
theorem C07_bitLen (a : FE) (h : a.toNat < 2 ^ 256) (h0 : a.toNat ≠ 0) :
    FE.bitLen a = .ok (Nat.size a.toNat : ℤ) := by
  have hl := a.lo.isLt; have hm := a.mid.isLt
  have hz : ¬ (a.hi.ne (U256.ofU64 0) = true) := by
    rw [U256.ne_iff, not_not, U256.toNat_ofU64]
    simp only [U512.toNat] at h
    have : (0 : U64).toNat = 0 := rfl
    omega
  have hhi : a.hi.toNat = 0 := by simp only [U512.toNat] at h; omega
  have ea : a.toNat = a.lo.toNat + 2 ^ 128 * a.mid.toNat := by simp only [U512.toNat]; omega
  unfold FE.bitLen
  rw [if_neg hz]
  by_cases c : a.mid = 0
  · rw [if_neg (by simpa using c)]
    have hlo : a.lo ≠ 0 := by
      intro e; apply h0; rw [ea, e, c]; rfl
    have e1 : a.toNat = a.lo.toNat := by rw [ea, c]; simp
    rw [e1]
    exact bitLen_split 0 a.lo hlo
  · rw [if_pos (by simpa using c)]
    have key := bitLen_split 0 a.mid c
    have hmid : a.mid.toNat ≠ 0 := fun e => c (BitVec.eq_of_toNat_eq (by rw [e]; rfl))
    have hs : Nat.size a.toNat = Nat.size a.mid.toNat + 128 := by
      have hq : a.toNat / 2 ^ 128 = a.mid.toNat := by omega
      apply le_antisymm
      · rw [Nat.size_le, pow_add]
        have := Nat.lt_size_self a.mid.toNat
        have h3 : (a.mid.toNat + 1) * 2 ^ 128 ≤ 2 ^ a.mid.toNat.size * 2 ^ 128 :=
          Nat.mul_le_mul_right _ this
        rw [Nat.add_mul] at h3; omega
      · have hs : 0 < Nat.size a.mid.toNat := Nat.size_pos.2 (Nat.pos_of_ne_zero hmid)
        have h3 : 2 ^ (Nat.size a.mid.toNat - 1) ≤ a.mid.toNat := by
          rw [← Nat.lt_size]; omega
        have h4 : Nat.size a.mid.toNat - 1 + 128 < Nat.size a.toNat := by
          rw [Nat.lt_size, pow_add]
          calc _ ≤ a.mid.toNat * 2 ^ 128 := Nat.mul_le_mul_right _ h3
            _ ≤ _ := by omega
        omega
    rw [hs]
    dsimp only at key ⊢
    split_ifs at key ⊢ with c2
    · by_cases c3 : ((a.mid >>> 64).setWidth 64 : U64) = 0
      · exact absurd c3 c2
      · rw [clz_eq _ c3] at key ⊢
        have k2 : (128 : ℤ) - (64 - (Nat.size ((a.mid >>> 64).setWidth 64 : U64).toNat : ℤ))
          = (Nat.size a.mid.toNat : ℤ) := Ub.ok.inj key
        show Ub.ok _ = _
        congr 1
        push_cast at k2 ⊢; omega
    · by_cases c3 : ((a.mid &&& U256.maxUll).setWidth 64 : U64) = 0
      · rw [c3] at key; exact absurd key (by simp [U256.clz, bind, Ub.bind])
      · rw [clz_eq _ c3] at key ⊢
        have k2 : (64 : ℤ) - (64 - (Nat.size ((a.mid &&& U256.maxUll).setWidth 64 : U64).toNat : ℤ))
          = (Nat.size a.mid.toNat : ℤ) := Ub.ok.inj key
        show Ub.ok _ = _
        congr 1
        push_cast at k2 ⊢; omega

/-- ... and undefined (`__builtin_clzll(0)`) on zero. -/
theorem C07_bitLen_zero : FE.bitLen FE.zero = .undefined := by decide

/-! ## C08 equality and primality -/

theorem C08_eq (a b : FE) (ha : a.toNat < p) (hb : b.toNat < p) :
    (FE.eq a b = true ↔ (a.toNat : ZMod p) = b.toNat) ∧
    (FE.ne a b = true ↔ (a.toNat : ZMod p) ≠ b.toNat) := by
  have key : (a.toNat : ZMod p) = b.toNat ↔ a.toNat = b.toNat := by
    rw [ZMod.natCast_eq_natCast_iff', Nat.mod_eq_of_lt ha, Nat.mod_eq_of_lt hb]
  have hne : FE.ne a b = true ↔ a.toNat ≠ b.toNat := U512.ne_iff a b
  constructor
  · rw [key, FE.eq]
    cases h : FE.ne a b
    · simp only [Bool.not_false, true_iff]
      by_contra hc
      rw [hne.2 hc] at h; simp at h
    · simp only [Bool.not_true, Bool.false_eq_true, false_iff]
      exact hne.1 h
  · rw [hne, ne_eq, ne_eq, key]

/-- equality of non-canonical representatives is *not* equality in the field -/
theorem C08_eq_needs_canonical : ∃ a b : FE, (a.toNat : ZMod p) = b.toNat ∧ FE.eq a b = false :=
  ⟨Fp.limbs p, Fp.limbs 0, by
    rw [Fp.limbs_toNat, Fp.limbs_toNat]
    have : p % 2 ^ 512 = p := by decide +kernel
    rw [this]; simp, by decide +kernel⟩

/-- the modulus is prime -/
theorem C08_prime : Nat.Prime p := p_prime

/-- every non-zero element has a multiplicative inverse for the code's `operator *` -/
theorem C08_inverse (a : Fp) (h : a ≠ 0) : ∃ b : Fp, FE.mul a.val b.val = FE.ofInt 1 :=
  ⟨a⁻¹, congrArg Fp.val (mul_inv_cancel₀ h)⟩

example : ∃ a : Fp, a ≠ 0 := ⟨1, one_ne_zero⟩

/-- a non-zero polynomial of degree `d` has at most `d` roots among the field elements -/
theorem C08_roots (q : Polynomial Fp) (h : q ≠ 0) :
    (Finset.univ.filter (fun x : Fp => q.eval x = 0)).card ≤ q.natDegree := by
  classical
  have : Finset.univ.filter (fun x : Fp => q.eval x = 0) ⊆ q.roots.toFinset := by
    intro x hx
    simp only [Finset.mem_filter, Finset.mem_univ, true_and] at hx
    rw [Multiset.mem_toFinset, Polynomial.mem_roots h]
    exact hx
  calc _ ≤ _ := Finset.card_le_card this
    _ ≤ _ := Multiset.toFinset_card_le _
    _ ≤ _ := Polynomial.card_roots' q

/-! ## C09 polynomial objects -/

section poly
variable {R : Type} [CommRing R]

theorem C09_linear (q : LinearPoly R) (x : R) : q.eval x = q.a * x + q.b := rfl
theorem C09_quadratic (q : QuadraticPoly R) (x : R) :
    q.eval x = q.a * x ^ 2 + q.b * x + q.c := by unfold QuadraticPoly.eval; ring
theorem C09_cubic (q : CubicPoly R) (x : R) :
    q.eval x = q.a * x ^ 3 + q.b * x ^ 2 + q.c * x + q.d := by unfold CubicPoly.eval; ring
theorem C09_quadruple (q : QuadruplePoly R) (x : R) :
    q.eval x = q.a * x ^ 4 + q.b * x ^ 3 + q.c * x ^ 2 + q.d * x + q.e := by
  unfold QuadruplePoly.eval; ring
theorem C09_quintuple (q : QuintuplePoly R) (x : R) :
    q.eval x = q.a * x ^ 5 + q.b * x ^ 4 + q.c * x ^ 3 + q.d * x ^ 2 + q.e * x + q.f := by
  unfold QuintuplePoly.eval; ring

theorem C09_add_linear (q r : LinearPoly R) (x : R) :
    (q.add r).eval x = q.eval x + r.eval x := by
  unfold LinearPoly.eval LinearPoly.add; ring
theorem C09_add_quadratic (q r : QuadraticPoly R) (x : R) :
    (q.add r).eval x = q.eval x + r.eval x := by
  unfold QuadraticPoly.eval QuadraticPoly.add; ring
theorem C09_add_cubic (q r : CubicPoly R) (x : R) :
    (q.add r).eval x = q.eval x + r.eval x := by
  unfold CubicPoly.eval CubicPoly.add; ring
theorem C09_add_quadruple (q r : QuadruplePoly R) (x : R) :
    (q.add r).eval x = q.eval x + r.eval x := by
  unfold QuadruplePoly.eval QuadruplePoly.add; ring
theorem C09_add_quintuple (q r : QuintuplePoly R) (x : R) :
    (q.add r).eval x = q.eval x + r.eval x := by
  unfold QuintuplePoly.eval QuintuplePoly.add; ring

theorem C09_mul_linear (q r : LinearPoly R) (x : R) :
    (q.mul r).eval x = q.eval x * r.eval x := by
  unfold QuadraticPoly.eval LinearPoly.eval LinearPoly.mul; ring
theorem C09_mul_quadratic (q : QuadraticPoly R) (r : LinearPoly R) (x : R) :
    (q.mul r).eval x = q.eval x * r.eval x := by
  unfold CubicPoly.eval QuadraticPoly.eval LinearPoly.eval QuadraticPoly.mul; ring

theorem C09_const (c x : R) : (LinearPoly.ofConst c).eval x = c := by
  unfold LinearPoly.eval LinearPoly.ofConst; ring

end poly

/-! ## C26 (the range of the sampler) -/

/-- The three `rand()` results are 31-bit. Whatever they are, `prime_field::random` returns a
value assembled from them: at most `2^93` different elements, far fewer than `p`. -/
theorem C26_random_range_false : ∃ x : Fp, ∀ r1 r2 r3 : ℕ, r1 < 2 ^ 31 → r2 < 2 ^ 31 →
    r3 < 2 ^ 31 → FE.random r1 r2 r3 ≠ x.val := by
  classical
  by_contra hc
  push Not at hc
  choose a b c ha hb hcc h using hc
  have inj : Function.Injective (fun x : Fp =>
      ((⟨a x, ha x⟩, ⟨b x, hb x⟩, ⟨c x, hcc x⟩) :
        Fin (2 ^ 31) × Fin (2 ^ 31) × Fin (2 ^ 31))) := by
    intro x y hxy
    simp only [Prod.mk.injEq, Fin.mk.injEq] at hxy
    obtain ⟨h1, h2, h3⟩ := hxy
    have := h x
    rw [h1, h2, h3, h y] at this
    exact Subtype.ext this.symm
  have := Fintype.card_le_of_injective _ inj
  rw [Fp.card] at this
  simp only [Fintype.card_prod, Fintype.card_fin] at this
  have h2 : (2 : ℕ) ^ 31 * (2 ^ 31 * 2 ^ 31) < p := by decide +kernel
  omega

/-- What does hold: the sampler always returns a canonical element. -/
theorem C26_random_canonical_partial (r1 r2 r3 : ℕ) (h1 : r1 < 2 ^ 31) (h2 : r2 < 2 ^ 31)
    (h3 : r3 < 2 ^ 31) : (FE.random r1 r2 r3).toNat < p := by
  have e : (U512.random r1 r2 r3).toNat = r1 + 2 ^ 128 * r2 + 2 ^ 256 * r3 := by
    simp only [U512.random, U512.toNat, U256.toNat_ofU64, BitVec.toNat_ofNat]
    omega
  rw [FE.random, U512.toNat_mod _ (by rw [e]; omega)]
  exact Nat.mod_lt _ p_pos

/-! ## C39 (the constructor from `int`) -/

/-- `field_element(x)` of a non-negative `int` is `x` ... -/
theorem C39_ofInt_partial (x : ℤ) (h0 : 0 ≤ x) (h : x < 2 ^ 31) :
    (FE.ofInt x).toNat < p ∧ ((FE.ofInt x).toNat : ZMod p) = x := by
  obtain ⟨n, rfl⟩ := Int.eq_ofNat_of_zero_le h0
  have e : (FE.ofInt (n : ℤ)).toNat = n := by
    rw [FE.ofInt, U512.toNat_ofU256, U256.toNat_ofU64]
    simp only [BitVec.ofInt_natCast, BitVec.toNat_ofNat]
    omega
  have hp : 2 ^ 31 < p := by decide +kernel
  exact ⟨by rw [e]; omega, by rw [e]; simp⟩

/-- ... but of a negative one it is `2^64 + x`, which is never `x` modulo `p`. -/
theorem C39_ofInt_negative_false (x : ℤ) (h : x < 0) (h' : -2 ^ 31 ≤ x) :
    ((FE.ofInt x).toNat : ℤ) = 2 ^ 64 + x ∧ ((FE.ofInt x).toNat : ZMod p) ≠ x := by
  have e : ((FE.ofInt x).toNat : ℤ) = 2 ^ 64 + x := by
    rw [FE.ofInt, U512.toNat_ofU256, U256.toNat_ofU64, BitVec.toNat_ofInt]
    omega
  refine ⟨e, fun hc => ?_⟩
  have h1 : (((FE.ofInt x).toNat : ℤ) : ZMod p) = ((x : ℤ) : ZMod p) := by simpa using hc
  rw [e] at h1
  have h2 : ((2 ^ 64 : ℤ) : ZMod p) = 0 := by
    push_cast at h1 ⊢
    linear_combination h1
  have h3 : (((2 ^ 64 : ℕ) : ZMod p)) = 0 := by exact_mod_cast h2
  rw [ZMod.natCast_eq_zero_iff] at h3
  have := Nat.le_of_dvd (by norm_num) h3
  have h4 : 2 ^ 64 < p := by decide +kernel
  omega

end Libra.Props
