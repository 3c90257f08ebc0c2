import Verif.Proofs.U512
import Mathlib.Data.Nat.Bitwise
import Mathlib.Data.Nat.Size

/-! Helper lemmas: decimal strings, bit positions, bit lengths. -/

namespace Libra
open Spec

/-- all characters are decimal digits -/
def IsDigits (s : List Char) : Prop := ∀ c ∈ s, '0' ≤ c ∧ c ≤ '9'

theorem digit_range {c : Char} (h : '0' ≤ c ∧ c ≤ '9') : 48 ≤ c.toNat ∧ c.toNat ≤ 57 := by
  obtain ⟨h1, h2⟩ := h
  rw [Char.le_def, UInt32.le_iff_toNat_le] at h1 h2
  exact ⟨h1, h2⟩

theorem digit_bv {c : Char} (h : '0' ≤ c ∧ c ≤ '9') :
    (BitVec.ofInt 64 ((c.toNat : Int) - 48)).toNat = digit c := by
  obtain ⟨h1, h2⟩ := digit_range h
  have e : ((c.toNat : Int) - 48) = ((c.toNat - 48 : ℕ) : Int) := by omega
  rw [e, BitVec.ofInt_natCast, BitVec.toNat_ofNat]
  have : digit c = c.toNat - 48 := rfl
  omega

theorem digit_le {c : Char} (h : '0' ≤ c ∧ c ≤ '9') : digit c ≤ 9 := by
  obtain ⟨h1, h2⟩ := digit_range h
  have : digit c = c.toNat - 48 := rfl
  omega

theorem decimal_foldl (s : List Char) (n : ℕ) :
    s.foldl (fun n c => 10 * n + digit c) n = n * 10 ^ s.length + decimal s := by
  unfold decimal
  induction s generalizing n with
  | nil => simp
  | cons c s ih =>
    simp only [List.foldl_cons, List.length_cons]
    rw [ih (10 * n + digit c), ih (10 * 0 + digit c)]
    ring

theorem decimal_cons (c : Char) (s : List Char) :
    decimal (c :: s) = digit c * 10 ^ s.length + decimal s := by
  rw [decimal, List.foldl_cons, decimal_foldl]; simp

theorem decimal_lt (s : List Char) (h : IsDigits s) : decimal s < 10 ^ s.length := by
  induction s with
  | nil => simp [decimal]
  | cons c s ih =>
    rw [decimal_cons, List.length_cons, pow_succ]
    have h1 := ih (fun x hx => h x (List.mem_cons_of_mem _ hx))
    have h2 := digit_le (h c (by simp))
    have h3 : digit c * 10 ^ s.length ≤ 9 * 10 ^ s.length := Nat.mul_le_mul_right _ h2
    omega

theorem u256_parse (s : List Char) (h : IsDigits s) :
    let r := s.foldr (fun c (s : U256 × U256) =>
      (s.1.add (s.2.mul (U256.ofU64 (BitVec.ofInt 64 ((c.toNat : Int) - 48)))),
       s.2.mul (U256.ofU64 (BitVec.ofInt 64 10)))) (U256.ofU64 0, U256.ofU64 1)
    r.1.toNat = decimal s % 2 ^ 256 ∧ r.2.toNat = 10 ^ s.length % 2 ^ 256 := by
  induction s with
  | nil => exact ⟨by decide, by decide⟩
  | cons c s ih =>
    obtain ⟨h1, h2⟩ := ih (fun x hx => h x (List.mem_cons_of_mem _ hx))
    simp only [List.foldr_cons]
    have t : (BitVec.ofInt 64 10 : U64).toNat = 10 := by decide
    constructor
    · rw [U256.toNat_add, U256.toNat_mul, h1, h2, U256.toNat_ofU64, digit_bv (h c (by simp)),
        decimal_cons, Nat.mod_mul_mod, ← Nat.add_mod, Nat.add_comm, Nat.mul_comm]
    · rw [U256.toNat_mul, h2, U256.toNat_ofU64, t, Nat.mod_mul_mod, List.length_cons, ← pow_succ]

theorem u512_parse (s : List Char) (h : IsDigits s) (hl : s.length ≤ 78) :
    let r := s.foldr (fun c (s : U512 × U512) =>
      (s.1.add (s.2.mul (U512.ofU256 (U256.ofU64 (BitVec.ofInt 64 ((c.toNat : Int) - 48))))),
       s.2.mul (U512.ofU256 (U256.ofU64 10))))
      (U512.ofU256 (U256.ofU64 0), U512.ofU256 (U256.ofU64 1))
    r.1.toNat = decimal s ∧ r.2.toNat = 10 ^ s.length := by
  induction s with
  | nil => exact ⟨by decide, by decide⟩
  | cons c s ih =>
    have hd : IsDigits s := fun x hx => h x (List.mem_cons_of_mem _ hx)
    simp only [List.length_cons] at hl
    obtain ⟨h1, h2⟩ := ih hd (by omega)
    simp only [List.foldr_cons]
    have t : (10 : U64).toNat = 10 := by decide
    have hc := digit_le (h c (by simp))
    have hb : 10 ^ s.length ≤ 10 ^ 77 := Nat.pow_le_pow_right (by norm_num) (by omega)
    have hdl := decimal_lt s hd
    have e1 := digit_bv (h c (by simp))
    have hm : digit c * 10 ^ s.length ≤ 9 * 10 ^ s.length := Nat.mul_le_mul_right _ hc
    constructor
    · rw [U512.toNat_add, U512.toNat_mul_of_lt, h1, h2, U512.toNat_ofU256, U256.toNat_ofU64, e1,
        decimal_cons, Nat.mul_comm (10 ^ s.length), Nat.add_comm]
      · apply Nat.mod_eq_of_lt; omega
      · rw [h2]; omega
      · rw [U512.toNat_ofU256, U256.toNat_ofU64, e1]; omega
    · rw [U512.toNat_mul_of_lt, h2, U512.toNat_ofU256, U256.toNat_ofU64, t, List.length_cons,
        pow_succ]
      · rw [h2]; omega
      · rw [U512.toNat_ofU256, U256.toNat_ofU64, t]; omega

/-- bit of a limb -/
theorem limb_bit {w : ℕ} (hw : 1 < w) (x : BitVec w) (i : ℕ) :
    (x >>> i &&& 1).toNat = x.toNat / 2 ^ i % 2 := by
  have h1 : (1 : BitVec w).toNat = 1 := by
    have : 1 < 2 ^ w := Nat.one_lt_two_pow (by omega)
    simp [Nat.mod_eq_of_lt this]
  rw [BitVec.toNat_and, h1, Nat.and_one_is_mod, BitVec.toNat_ushiftRight,
    Nat.shiftRight_eq_div_pow]

theorem binaryLE_range (n k : ℕ) :
    binaryLE ((List.range k).map (fun i => decide (n / 2 ^ i % 2 = 1))) = n % 2 ^ k := by
  induction k generalizing n with
  | zero => simp [binaryLE, Nat.mod_one]
  | succ k ih =>
    rw [List.range_succ_eq_map, List.map_cons, List.map_map]
    have : ((fun i => decide (n / 2 ^ i % 2 = 1)) ∘ Nat.succ)
        = (fun i => decide ((n / 2) / 2 ^ i % 2 = 1)) := by
      funext i
      simp only [Function.comp, Nat.succ_eq_add_one, pow_succ, Nat.mul_comm _ 2,
        Nat.div_div_eq_div_mul]
    rw [this]
    have h := ih (n / 2)
    unfold binaryLE at h ⊢
    rw [List.foldr_cons, h, pow_succ, Nat.mul_comm _ 2, Nat.mod_mul]
    have : n / 2 ^ 0 % 2 = n % 2 := by simp
    rw [this]
    rcases Nat.mod_two_eq_zero_or_one n with e | e <;> simp [e]

theorem binaryLE_append (a b : List Bool) :
    binaryLE (a ++ b) = binaryLE a + 2 ^ a.length * binaryLE b := by
  induction a with
  | nil => simp [binaryLE]
  | cons x a ih =>
    unfold binaryLE at *
    rw [List.cons_append, List.foldr_cons, List.foldr_cons, ih, List.length_cons, pow_succ]
    ring

theorem binaryBE_foldl (s : List Char) (n : ℕ) :
    s.foldl (fun n c => 2 * n + digit c) n = n * 2 ^ s.length + binaryBE s := by
  unfold binaryBE
  induction s generalizing n with
  | nil => simp
  | cons c s ih =>
    simp only [List.foldl_cons, List.length_cons]
    rw [ih (2 * n + digit c), ih (2 * 0 + digit c)]
    ring

theorem binaryBE_reverse (s : List Bool) :
    binaryBE ((s.map (fun b => Char.ofNat (b.toNat + 48))).reverse) = binaryLE s := by
  induction s with
  | nil => rfl
  | cons b s ih =>
    have e : binaryLE (b :: s) = b.toNat + 2 * binaryLE s := rfl
    rw [List.map_cons, List.reverse_cons, binaryBE, List.foldl_append, ← binaryBE, ih, e]
    simp only [List.foldl_cons, List.foldl_nil]
    cases b
    · have : digit (Char.ofNat (false.toNat + 48)) = 0 := by decide
      rw [this]; simp
    · have : digit (Char.ofNat (true.toNat + 48)) = 1 := by decide
      rw [this]; simp; omega

theorem clz_eq (x : U64) (h : x ≠ 0) : U256.clz x = .ok (64 - (Nat.size x.toNat : Int)) := by
  have hx : x.toNat ≠ 0 := by
    intro h0; apply h; apply BitVec.eq_of_toNat_eq; rw [h0]; rfl
  rw [U256.clz, if_neg h]
  have : Nat.size x.toNat = Nat.log2 x.toNat + 1 := by
    apply le_antisymm
    · rw [Nat.size_le]; exact Nat.lt_log2_self
    · rw [Nat.succ_le_iff, Nat.lt_size]; exact Nat.log2_self_le hx
  rw [this]
  congr 1
  push_cast; ring

end Libra
