import Mathlib.Data.Fintype.Pi
import Mathlib.Data.Fintype.BigOperators
import Mathlib.Algebra.Order.BigOperators.Group.Finset
import Mathlib.Algebra.BigOperators.Ring.Finset
import Mathlib.Algebra.Polynomial.Roots
import Mathlib.Tactic.LinearCombination
import Mathlib.Tactic.Ring
import Verif.Model.Poly

/-!
# Counting challenge assignments
-/

namespace Libra.Counting
open Finset
variable {ι F : Type} [Fintype ι] [DecidableEq ι] [Fintype F] [DecidableEq F]

/-- `E` has at most `d` elements on every line parallel to the axis `c` -/
def FiberBound (E : (ι → F) → Prop) (c : ι) (d : ℕ) : Prop :=
  ∀ ω : ι → F, ∃ S : Finset F, S.card ≤ d ∧ ∀ x, E (Function.update ω c x) → x ∈ S

theorem card_fiber (E : (ι → F) → Prop) [DecidablePred E] (c : ι) (d : ℕ)
    (h : FiberBound E c d) :
    (univ.filter E).card * Fintype.card F ≤ d * Fintype.card (ι → F) := by
  classical
  let A : Finset ((ι → F) × F) := univ.filter (fun q => E (Function.update q.1 c q.2))
  have h1 : A.card ≤ d * Fintype.card (ι → F) := by
    have : A.card = ∑ ω : ι → F, (univ.filter (fun x => E (Function.update ω c x))).card := by
      rw [card_eq_sum_card_fiberwise (f := Prod.fst) (t := univ) (fun _ _ => by simp)]
      refine sum_congr rfl (fun ω _ => ?_)
      refine card_bij (fun q _ => q.2) ?_ ?_ ?_
      · intro q hq
        simp only [A, mem_filter, mem_univ, true_and] at hq ⊢
        rw [← hq.2]; exact hq.1
      · intro q hq q' hq' e
        simp only [A, mem_filter, mem_univ, true_and] at hq hq'
        exact Prod.ext (hq.2.trans hq'.2.symm) e
      · intro x hx
        simp only [mem_filter, mem_univ, true_and] at hx
        exact ⟨(ω, x), by simp [A, hx], rfl⟩
    rw [this]
    calc _ ≤ ∑ _ω : ι → F, d := sum_le_sum (fun ω _ => by
            obtain ⟨S, hS, hx⟩ := h ω
            refine le_trans (card_le_card (fun x hx' => hx x ?_)) hS
            simpa using hx')
      _ = d * Fintype.card (ι → F) := by rw [sum_const, card_univ, smul_eq_mul, mul_comm]
  have h2 : (univ.filter E).card * Fintype.card F ≤ A.card := by
    rw [← card_univ (α := F), ← card_product]
    refine card_le_card_of_injOn (fun q => (Function.update q.1 c q.2, q.1 c)) ?_ ?_
    · intro q hq
      have hq := (mem_product.1 hq).1
      simp only [mem_filter, mem_univ, true_and] at hq
      simp [A, hq]
    · intro q _ q' _ e
      simp only [Prod.mk.injEq] at e
      have h1 : q.1 = q'.1 := by
        funext j
        by_cases hj : j = c
        · subst hj; exact e.2
        · have := congrFun e.1 j
          simpa [Function.update_of_ne hj] using this
      have h2 : q.2 = q'.2 := by
        have := congrFun e.1 c
        simpa using this
      exact Prod.ext h1 h2
  exact h2.trans h1

/-- union bound over a finite family of events, each attached to one coordinate -/
theorem card_union {κ : Type} [DecidableEq κ] (K : Finset κ) (E : κ → (ι → F) → Prop) (c : κ → ι)
    (d : κ → ℕ) (h : ∀ k ∈ K, FiberBound (E k) (c k) (d k)) (acc : (ι → F) → Prop)
    [DecidablePred acc] (hacc : ∀ ω, acc ω → ∃ k ∈ K, E k ω) :
    (univ.filter acc).card * Fintype.card F ≤ (∑ k ∈ K, d k) * Fintype.card (ι → F) := by
  classical
  have h1 : univ.filter acc ⊆ K.biUnion (fun k => univ.filter (E k)) := by
    intro ω hω
    simp only [mem_filter, mem_univ, true_and] at hω
    obtain ⟨k, hk, he⟩ := hacc ω hω
    exact mem_biUnion.2 ⟨k, hk, by simpa using he⟩
  calc (univ.filter acc).card * Fintype.card F
      ≤ (∑ k ∈ K, (univ.filter (E k)).card) * Fintype.card F :=
        Nat.mul_le_mul_right _ ((card_le_card h1).trans card_biUnion_le)
    _ = ∑ k ∈ K, (univ.filter (E k)).card * Fintype.card F := sum_mul _ _ _
    _ ≤ ∑ k ∈ K, d k * Fintype.card (ι → F) := sum_le_sum (fun k hk => card_fiber (E k) (c k) (d k) (h k hk))
    _ = _ := (sum_mul _ _ _).symm

/-- two different quadratics agree in at most two points -/
theorem quadratic_agree {F : Type} [CommRing F] [IsDomain F] [DecidableEq F]
    (p q : QuadraticPoly F) (h : p ≠ q) :
    ∃ S : Finset F, S.card ≤ 2 ∧ ∀ x, p.eval x = q.eval x → x ∈ S := by
  open Polynomial in
  let f : F[X] := C (p.a - q.a) * X ^ 2 + C (p.b - q.b) * X + C (p.c - q.c)
  have hf : f ≠ 0 := by
    intro h0
    apply h
    have h2 := congrArg (fun g => g.coeff 2) h0
    have h1 := congrArg (fun g => g.coeff 1) h0
    have hc := congrArg (fun g => g.coeff 0) h0
    simp only [f, Polynomial.coeff_add, Polynomial.coeff_C_mul, Polynomial.coeff_X, Polynomial.coeff_C,
      Polynomial.coeff_X_pow, Polynomial.coeff_zero] at h2 h1 hc
    norm_num at h2 h1 hc
    exact QuadraticPoly.ext (sub_eq_zero.1 h2) (sub_eq_zero.1 h1) (sub_eq_zero.1 hc)
  refine ⟨f.roots.toFinset, ?_, fun x hx => ?_⟩
  · refine (Multiset.toFinset_card_le _).trans ((Polynomial.card_roots' f).trans ?_)
    exact Polynomial.natDegree_quadratic_le
  · rw [Multiset.mem_toFinset, Polynomial.mem_roots hf]
    simp only [QuadraticPoly.eval] at hx
    simp only [Polynomial.IsRoot, f, Polynomial.eval_add, Polynomial.eval_mul, Polynomial.eval_C,
      Polynomial.eval_pow, Polynomial.eval_X]
    linear_combination hx

/-- a non-zero line has at most one root -/
theorem line_root {F : Type} [CommRing F] [IsDomain F] [DecidableEq F] (a b : F) (h : a ≠ 0 ∨ b ≠ 0) :
    ∃ S : Finset F, S.card ≤ 1 ∧ ∀ x, a * x + b = 0 → x ∈ S := by
  by_cases ha : a = 0
  · subst ha
    refine ⟨∅, by simp, fun x hx => ?_⟩
    simp at hx h
    exact absurd hx h
  · by_cases hx : ∃ x, a * x + b = 0
    · obtain ⟨x0, h0⟩ := hx
      refine ⟨{x0}, by simp, fun x hx => ?_⟩
      have : a * (x - x0) = 0 := by linear_combination hx - h0
      rcases mul_eq_zero.1 this with h | h
      · exact absurd h ha
      · simpa using sub_eq_zero.1 h
    · exact ⟨∅, by simp, fun x h => absurd ⟨x, h⟩ hx⟩

end Libra.Counting
