import Verif.Proofs.Vpd
import Mathlib.Tactic.IntervalCases

namespace Libra
open Spec Finset Vpd

theorem cast_mod_p {R : Type} [CommRing R] (hp : (p : R) = 0) (n : ℕ) : ((n % p : ℕ) : R) = n := by
  conv_rhs => rw [← Nat.mod_add_div n p]
  rw [Nat.cast_add, Nat.cast_mul, hp, zero_mul, add_zero]

theorem cast_p : ((p : ℕ) : ZMod p) = 0 := ZMod.natCast_self p

variable {G1 G2 GT : Type} [AddCommGroup G1] [AddCommGroup G2] [AddCommGroup GT]
  [Module (ZMod p) G1] [Module (ZMod p) G2] [Module (ZMod p) GT]

/-- the parts of an honest key that do not depend on the scheme -/
structure Vpd.Good (E : Pairing G1 G2 GT) (a : ℕ) (K : VpdKey G1 G2) : Prop where
  key : K.a = a
  g1Pre : K.g1Pre = precompute E.g1
  g2Pre : K.g2Pre = precompute E.g2
  g2a : K.g2a = a • E.g2

theorem Vpd.Good.checkCommit [DecidableEq GT] {E : Pairing G1 G2 GT} {a : ℕ} {K : VpdKey G1 G2}
    (h : Vpd.Good E a K) (x : G1) : Vpd.checkCommit E K x (a • x) = true := by
  rw [Vpd.checkCommit, beq_iff_eq, h.g2a]
  exact knowledge_honest E a x

theorem Vpd.Good.knowledge [DecidableEq GT] {E : Pairing G1 G2 GT} {a : ℕ} {K : VpdKey G1 G2}
    (h : Vpd.Good E a K) (m : ℕ) (w : ℕ → G1) :
    knowledgeCheck E K m w (fun i => K.a • w i) = true := by
  rw [knowledgeCheck_iff]
  intro i _
  rw [h.key, h.g2a]
  exact knowledge_honest E a _

namespace VpdR

/-- exponents of the public elements -/
def pubExp (s : ℕ → ZMod p) (i : ℕ) : ZMod p :=
  if i = 0 then 1 else if i = 1 then s 0 else if i = 2 then s 0 * s 0 else if i = 3 then s 1
  else if i = 4 then s 1 * s 1 else if i = 5 then s 0 * s 1 else if i = 6 then s 2 else 0

structure Good (E : Pairing G1 G2 GT) (a : ℕ) (s : ℕ → ℕ) (K : VpdKey G1 G2) : Prop
    extends Vpd.Good E a K where
  pubG1 : ∀ i, K.pubG1 i = pubExp (fun i => (s i : ZMod p)) i • E.g1
  pubG2 : ∀ i ≤ 2, K.pubG2 i = (s i : ZMod p) • E.g2

theorem keyGen_good (E : Pairing G1 G2 GT) (a : ℕ) (s : ℕ → ℕ) (hs : ∀ i ≤ 2, s i < p) :
    ∃ K, keyGen E a s = .ok K ∧ Good E a s K := by
  have h0 := hs 0 (by decide)
  have h1 := hs 1 (by decide)
  have h2 := hs 2 (by decide)
  unfold keyGen
  simp only [preExp_eq _ _ (mod_lt_P _), preExp_eq _ _ (lt_P h0), preExp_eq _ _ (lt_P h1),
    preExp_eq _ _ (lt_P h2), Outcome.ok_bind, Outcome.pure_eq]
  refine ⟨_, rfl, ⟨rfl, rfl, rfl, rfl⟩, ?_, ?_⟩
  · intro i
    simp only [pubExp, nsmul_eq, cast_mod_p cast_p, Nat.cast_mul]
    split_ifs <;> simp
  · intro i hi
    interval_cases i <;> simp [nsmul_eq]

theorem complete [DecidableEq GT] {E : Pairing G1 G2 GT} {a : ℕ} {s : ℕ → ℕ} {K : VpdKey G1 G2}
    (hK : Good E a s K) (input : ℕ → ℕ) (rf : ℕ) (t r : ℕ → ℕ) (hr : ∀ i < 2, r i < p) :
    ∃ O, prove K r input rf t = .ok O ∧ O.ans < p ∧
      (∀ (R : Type) [CommRing R], (p : R) = 0 →
        (O.ans : R) = maskRPoly (fun i => (input i : R)) (r 0) (r 1)) ∧
      verify E K r (commit K input rf).1 O.ans O.witness O.witnessa = .ok true := by
  unfold prove
  simp only [hK.g1Pre, preExp_eq _ _ (mod_lt_P _), Outcome.ok_bind, Outcome.pure_eq]
  refine ⟨_, rfl, Nat.mod_lt _ (by decide +kernel), ?_, ?_⟩
  · intro R _ hp
    simp [cast_mod_p hp, maskRPoly]
    ring
  · have hans : ∀ n : ℕ, n % p < 2 ^ P := mod_lt_P
    unfold verify
    obtain ⟨b, e, hb⟩ := finalCheck_eq E K id 2 r (commit K input rf).1 _ _ hK.g1Pre hK.g2Pre
      (fun i hi => lt_P (hr i hi)) (hans _)
    rw [e, Outcome.ok_bind]
    have hb' : b = true := by
      rw [hb]
      refine finalEq_scalars E K id 2 r _ _ _ (fun i => (s i : ZMod p))
        (fun i => if i = 0 then (input 2 * r 0 + input 1 + input 2 * s 0 + input 5 * s 1
            + t 0 * s 2 : ZMod p)
          else if i = 1 then (input 5 * r 0 + input 4 * r 1 + input 3 + input 4 * s 1
            + t 1 * s 2 : ZMod p)
          else (rf + r 0 * t 0 + r 1 * t 1 - t 0 * s 0 - t 1 * s 1 : ZMod p))
        (∑ i ∈ range 7, ((Function.update input 6 rf i : ℕ) : ZMod p)
          * pubExp (fun i => (s i : ZMod p)) i) hK.pubG2 ?_ ?_ ?_
      · intro i hi
        interval_cases i <;>
          simp [hK.pubG1, nsmul_eq, cast_mod_p cast_p, pubExp] <;> module
      · simp only [commit, loop_add_sum, zero_add, sum_smul, hK.pubG1, nsmul_eq, smul_smul]
      · simp [sum_range_succ, cast_mod_p cast_p, pubExp]
        ring
    rw [hb', hK.knowledge 2]
    rfl

end VpdR
end Libra
