import Verif.Model.RawExpr
import Verif.Model.Fp

/-! Interval analysis for raw statements. -/

namespace Libra.Raw
open PrimeField

/-- What the statement means in the field (the modulus is 0, `%` does nothing). -/
def den {R : Type*} [CommRing R] (env : ℕ → R) : Raw → R
  | var i => env i
  | modulus => 0
  | lit n => n
  | add x y => x.den env + y.den env
  | sub x y => x.den env - y.den env
  | mul x y => x.den env * y.den env
  | rem x => x.den env
  | csub _ x => x.den env
  | wsub _ x => x.den env

/-- Integer interval containing the exact value of the expression before wrap-around, when every
variable is canonical and every reduction is within the range of the Barrett algorithm. -/
def bounds : Raw → Option (ℤ × ℤ)
  | var _ => some (0, p - 1)
  | modulus => some (p, p)
  | lit n => if n < 2 ^ 31 then some (n, n) else none
  | add x y => do
    let (a, b) ← x.bounds; let (c, d) ← y.bounds
    some (a + c, b + d)
  | sub x y => do
    let (a, b) ← x.bounds; let (c, d) ← y.bounds
    some (a - d, b - c)
  | mul x y => do
    let (a, b) ← x.bounds; let (c, d) ← y.bounds
    if 0 ≤ a ∧ 0 ≤ c ∧ b < 2 ^ 256 ∧ d < 2 ^ 256 then some (a * c, b * d) else none
  | rem x => do
    let (a, b) ← x.bounds
    if 0 ≤ a ∧ b < 2 ^ 508 then some (0, p - 1) else none
  | csub _ x => do
    let (a, b) ← x.bounds
    if 0 ≤ a ∧ b < 2 * p then some (0, p - 1) else none
  | wsub _ x => do
    let (a, b) ← x.bounds
    if 0 ≤ a ∧ b < 2 ^ 512 then some (0, p - 1) else none

/-- the statement stores a canonical value -/
def ok (e : Raw) : Bool :=
  match e.bounds with
  | some (a, b) => decide (0 ≤ a) && decide (b < p)
  | none => false

/-- `x` holds, modulo `2^512`, an integer in `[l,h]` of residue class `z` -/
def Rep (l h : ℤ) (x : U512) (z : ZMod p) : Prop :=
  ∃ k : ℤ, l ≤ k ∧ k ≤ h ∧ (k : ZMod p) = z ∧ (x.toNat : ℤ) = k % 2 ^ 512

theorem Rep.exact {l h : ℤ} {x : U512} {z : ZMod p} (r : Rep l h x z) (hl : 0 ≤ l)
    (hh : h < 2 ^ 512) : l ≤ x.toNat ∧ (x.toNat : ℤ) ≤ h ∧ ((x.toNat : ℕ) : ZMod p) = z := by
  obtain ⟨k, h1, h2, h3, h4⟩ := r
  rw [Int.emod_eq_of_lt (by omega) (by omega)] at h4
  refine ⟨by omega, by omega, ?_⟩
  rw [← h3, ← h4]; simp

theorem Rep.ofExact {l h : ℤ} {x : U512} {z : ZMod p} (h1 : l ≤ x.toNat) (h2 : (x.toNat : ℤ) ≤ h)
    (h3 : ((x.toNat : ℕ) : ZMod p) = z) : Rep l h x z := by
  have := x.toNat_lt
  exact ⟨x.toNat, h1, h2, by simpa using h3, by rw [Int.emod_eq_of_lt (by omega) (by omega)]⟩

theorem p_cast_zero : ((p : ℕ) : ZMod p) = 0 := ZMod.natCast_self p

theorem step_toNat (n : Bool) (v : U512) :
    (step n v).toNat = (if p ≤ v.toNat then v.toNat - p else v.toNat) ∧
    (((step n v).toNat : ℕ) : ZMod p) = (v.toNat : ZMod p) := by
  have hv := v.toNat_lt
  have hp := p_lt
  have e : (step n v).toNat = (if p ≤ v.toNat then v.toNat - p else v.toNat) := by
    unfold step
    by_cases c : p ≤ v.toNat
    · rw [if_pos ((U512.ge_iff _ _).2 (by rw [mod512_toNat]; exact c)), if_pos c]
      cases n
      · rw [if_neg (by simp), U512.toNat_sub, mod512_toNat]; omega
      · rw [if_pos rfl, U512.toNat_add, minusMod512_toNat]; omega
    · rw [if_neg (fun h => c (by rw [U512.ge_iff, mod512_toNat] at h; exact h)), if_neg c]
  refine ⟨e, ?_⟩
  rw [e]
  split_ifs with c
  · rw [Nat.cast_sub c, p_cast_zero, sub_zero]
  · rfl

theorem iterate_step (n : Bool) (k : ℕ) : ∀ v : U512, v.toNat ≤ k →
    ((step n)^[k] v).toNat < p ∧ ((((step n)^[k] v).toNat : ℕ) : ZMod p) = (v.toNat : ZMod p) := by
  have hp := p_pos
  induction k with
  | zero => intro v hv; exact ⟨by simp only [Function.iterate_zero, id]; omega, rfl⟩
  | succ k ih =>
    intro v hv
    obtain ⟨s1, s2⟩ := step_toNat n v
    rw [Function.iterate_succ_apply]
    by_cases c : p ≤ v.toNat
    · rw [if_pos c] at s1
      obtain ⟨h1, h2⟩ := ih (step n v) (by omega)
      exact ⟨h1, by rw [h2, s2]⟩
    · rw [if_neg c] at s1
      have e : step n v = v := U512.toNat_inj s1
      have fix : ∀ j, (step n)^[j] v = v := fun j => Function.iterate_fixed e j
      rw [e, fix]
      exact ⟨by omega, rfl⟩

theorem rep_run (env : ℕ → Fp) (e : Raw) : ∀ l h, e.bounds = some (l, h) →
    Rep l h (e.run (fun i => (env i).val)) (e.den (fun i => (env i).toZ)) := by
  have hp := p_lt
  have hp0 := p_pos
  induction e with
  | var i =>
    intro l h hb
    simp only [bounds, Option.some.injEq, Prod.mk.injEq] at hb
    obtain ⟨rfl, rfl⟩ := hb
    have : (env i).val.toNat < p := (env i).2
    exact Rep.ofExact (by simp [run]) (by simp only [run]; omega) rfl
  | modulus =>
    intro l h hb
    simp only [bounds, Option.some.injEq, Prod.mk.injEq] at hb
    obtain ⟨rfl, rfl⟩ := hb
    refine Rep.ofExact ?_ ?_ ?_ <;> simp only [run, mod512_toNat, den, le_refl]
    exact p_cast_zero
  | lit n =>
    intro l h hb
    simp only [bounds] at hb
    split_ifs at hb with hn
    simp only [Option.some.injEq, Prod.mk.injEq] at hb
    obtain ⟨rfl, rfl⟩ := hb
    have e : (FE.ofInt (n : ℤ)).toNat = n := by
      rw [FE.ofInt, U512.toNat_ofU256, U256.toNat_ofU64]
      simp only [BitVec.ofInt_natCast, BitVec.toNat_ofNat]
      omega
    refine Rep.ofExact ?_ ?_ ?_ <;> simp only [run, e, den, le_refl]
  | add x y ihx ihy =>
    intro l h hb
    simp only [bounds, Option.bind_eq_bind, Option.bind_eq_some_iff, Prod.exists,
      Option.some.injEq, Prod.mk.injEq] at hb
    obtain ⟨a, b, hx, c, d, hy, rfl, rfl⟩ := hb
    obtain ⟨k1, p1, p2, p3, p4⟩ := ihx a b hx
    obtain ⟨k2, q1, q2, q3, q4⟩ := ihy c d hy
    refine ⟨k1 + k2, by omega, by omega, by push_cast [p3, q3]; rfl, ?_⟩
    rw [run, U512.toNat_add]
    push_cast
    rw [p4, q4, ← Int.add_emod]
  | sub x y ihx ihy =>
    intro l h hb
    simp only [bounds, Option.bind_eq_bind, Option.bind_eq_some_iff, Prod.exists,
      Option.some.injEq, Prod.mk.injEq] at hb
    obtain ⟨a, b, hx, c, d, hy, rfl, rfl⟩ := hb
    obtain ⟨k1, p1, p2, p3, p4⟩ := ihx a b hx
    obtain ⟨k2, q1, q2, q3, q4⟩ := ihy c d hy
    refine ⟨k1 - k2, by omega, by omega, by push_cast [p3, q3]; rfl, ?_⟩
    have := (y.run (fun i => (env i).val)).toNat_lt
    rw [run, U512.toNat_sub]
    generalize (y.run (fun i => (env i).val)).toNat = Y at *
    generalize (x.run (fun i => (env i).val)).toNat = X at *
    clear ihx ihy
    rw [Int.natCast_mod, Nat.cast_add, Nat.cast_sub this.le, p4, q4, Nat.cast_pow, Nat.cast_ofNat]
    have e : k1 % 2 ^ 512 + (2 ^ 512 - k2 % 2 ^ 512) = (k1 % 2 ^ 512 - k2 % 2 ^ 512) + 2 ^ 512 := by
      ring
    rw [e, Int.add_emod_right, ← Int.sub_emod]
  | mul x y ihx ihy =>
    intro l h hb
    simp only [bounds, Option.bind_eq_bind, Option.bind_eq_some_iff, Prod.exists] at hb
    obtain ⟨a, b, hx, c, d, hy, hb⟩ := hb
    split_ifs at hb with hc
    obtain ⟨c1, c2, c3, c4⟩ := hc
    simp only [Option.some.injEq, Prod.mk.injEq] at hb
    obtain ⟨rfl, rfl⟩ := hb
    obtain ⟨p1, p2, p3⟩ := (ihx a b hx).exact c1 (by omega)
    obtain ⟨q1, q2, q3⟩ := (ihy c d hy).exact c2 (by omega)
    have e := U512.toNat_mul_of_lt (x.run (fun i => (env i).val)) (y.run (fun i => (env i).val))
      (by omega) (by omega)
    refine Rep.ofExact ?_ ?_ ?_
    · rw [run, e]; push_cast; exact mul_le_mul p1 q1 c2 (by omega)
    · rw [run, e]; push_cast; exact mul_le_mul p2 q2 (by omega) (by omega)
    · rw [run, e, den]; push_cast; rw [p3, q3]
  | rem x ih =>
    intro l h hb
    simp only [bounds, Option.bind_eq_bind, Option.bind_eq_some_iff, Prod.exists] at hb
    obtain ⟨a, b, hx, hb⟩ := hb
    split_ifs at hb with hc
    simp only [Option.some.injEq, Prod.mk.injEq] at hb
    obtain ⟨rfl, rfl⟩ := hb
    obtain ⟨p1, p2, p3⟩ := (ih a b hx).exact hc.1 (by omega)
    have e := U512.toNat_mod (x.run (fun i => (env i).val)) (by omega)
    have := Nat.mod_lt (x.run (fun i => (env i).val)).toNat hp0
    refine Rep.ofExact (by omega) (by rw [run, e]; omega) ?_
    rw [run, e, den, ← p3]; simp
  | csub n x ih =>
    intro l h hb
    simp only [bounds, Option.bind_eq_bind, Option.bind_eq_some_iff, Prod.exists] at hb
    obtain ⟨a, b, hx, hb⟩ := hb
    split_ifs at hb with hc
    simp only [Option.some.injEq, Prod.mk.injEq] at hb
    obtain ⟨rfl, rfl⟩ := hb
    obtain ⟨p1, p2, p3⟩ := (ih a b hx).exact hc.1 (by omega)
    simp only [run]
    obtain ⟨s1, s2⟩ := step_toNat n (x.run (fun i => (env i).val))
    refine Rep.ofExact (by omega) ?_ ?_
    · rw [s1]; split_ifs <;> omega
    · rw [s2, p3, den]
  | wsub n x ih =>
    intro l h hb
    simp only [bounds, Option.bind_eq_bind, Option.bind_eq_some_iff, Prod.exists] at hb
    obtain ⟨a, b, hx, hb⟩ := hb
    split_ifs at hb with hc
    simp only [Option.some.injEq, Prod.mk.injEq] at hb
    obtain ⟨rfl, rfl⟩ := hb
    obtain ⟨p1, p2, p3⟩ := (ih a b hx).exact hc.1 hc.2
    simp only [run]
    obtain ⟨s1, s2⟩ := iterate_step n (x.run (fun i => (env i).val)).toNat
      (x.run (fun i => (env i).val)) le_rfl
    exact Rep.ofExact (by omega) (by omega) (by rw [s2, p3, den])

/-- A statement accepted by the analysis stores a canonical value in the residue class that the
statement denotes. -/
theorem run_ok (e : Raw) (he : e.ok = true) (env : ℕ → Fp) :
    (e.run (fun i => (env i).val)).toNat < p ∧
    (((e.run (fun i => (env i).val)).toNat : ℕ) : ZMod p) = e.den (fun i => (env i).toZ) := by
  unfold ok at he
  split at he
  · rename_i a b hab
    simp only [Bool.and_eq_true, decide_eq_true_eq] at he
    have hp := p_lt
    obtain ⟨p1, p2, p3⟩ := (rep_run env e a b hab).exact he.1 (by omega)
    exact ⟨by omega, p3⟩
  · exact absurd he (by simp)

theorem den_toZ (e : Raw) (env : ℕ → Fp) : e.den (fun i => (env i).toZ) = (e.den env).toZ := by
  induction e with
  | var i => rfl
  | modulus => exact Fp.toZ_zero.symm
  | lit n => exact (Fp.toZ_ofNat n).symm
  | add x y hx hy => rw [den, den, hx, hy, Fp.toZ_add]
  | sub x y hx hy => rw [den, den, hx, hy, Fp.toZ_sub]
  | mul x y hx hy => rw [den, den, hx, hy, Fp.toZ_mul]
  | rem x hx => exact hx
  | csub _ x hx => exact hx
  | wsub _ x hx => exact hx

/-- ... i.e. it stores exactly the field element obtained with the operators `+ - *`. -/
theorem run_eq (e : Raw) (he : e.ok = true) (env : ℕ → Fp) :
    e.run (fun i => (env i).val) = (e.den env).val := by
  obtain ⟨h1, h2⟩ := run_ok e he env
  have : (⟨e.run (fun i => (env i).val), h1⟩ : Fp) = e.den env := by
    apply Fp.toZ_injective
    rw [← den_toZ]; exact h2
  exact congrArg Fp.val this

end Libra.Raw
