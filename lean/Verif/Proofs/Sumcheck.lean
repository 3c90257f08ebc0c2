import Verif.Proofs.Tables

/-!
# The table sum-check

`A`, `V`, `B` are the value tables behind `add_mult_sum`, `V_mult_add` and `addV_array`.
-/

namespace Libra
open Spec Finset
variable {F : Type} [CommRing F]

/-- the line through two neighbouring table entries -/
def lineOf (T : ℕ → F) (i : ℕ) : LinearPoly F := ⟨T (2 * i + 1) - T (2 * i), T (2 * i)⟩

theorem lineOf_eval (T : ℕ → F) (i : ℕ) (r : F) : (lineOf T i).eval r = foldT r T i := by
  unfold lineOf LinearPoly.eval foldT; ring

/-- sum over the remaining boolean variables -/
def tableSum (m : ℕ) (A V B : ℕ → F) : F := ∑ i ∈ range m, (A i * V i + B i)

/-- the honest round polynomial -/
def roundValue (m : ℕ) (A V B : ℕ → F) (x : F) : F :=
  tableSum m (foldT x A) (foldT x V) (foldT x B)

theorem roundValue_zero_one (m : ℕ) (A V B : ℕ → F) :
    roundValue m A V B 0 + roundValue m A V B 1 = tableSum (2 * m) A V B := by
  rw [tableSum, sum_range_two_mul, roundValue, roundValue, tableSum, tableSum, ← sum_add_distrib]
  refine sum_congr rfl (fun i _ => ?_)
  unfold foldT; ring

/-- effect of `bindStep` at index `i` -/
def bindF (first : Bool) (r : F) (x y : LinearPoly F) : LinearPoly F :=
  if first then ⟨y.b - x.b, x.b⟩ else ⟨y.eval r - x.eval r, x.eval r⟩

theorem bindStep_eq (first : Bool) (r : F) (i : ℕ) (T : ℕ → LinearPoly F) :
    bindStep first r i T = Function.update T i (bindF first r (T (2 * i)) (T (2 * i + 1))) := by
  have h : 2 * i + 1 ≠ i := by omega
  unfold bindStep bindF LinearPoly.eval
  simp only [shl_one, two_mul_or_one]
  cases first <;> simp [Function.update_self, Function.update_of_ne h, Function.update_idem]

theorem bindLoop (first : Bool) (r : F) (T : ℕ → LinearPoly F) (m k : ℕ) :
    loop m (bindStep first r) T k =
      if k < m then bindF first r (T (2 * k)) (T (2 * k + 1)) else T k := by
  rw [← loop_halve (bindF first r) T m k]
  exact congrFun (loop_congr (fun i _ s => bindStep_eq first r i s)) k

/-- `X` holds the lines of the table `T` folded `k` times (rounds `0..k` have run). -/
def Holds (n : ℕ) (r : ℕ → F) (k : ℕ) (T : ℕ → F) (X : ℕ → LinearPoly F) : Prop :=
  match k with
  | 0 => ∀ i < 2 ^ n, (X i).b = T i
  | k + 1 => ∀ i < 2 ^ (n - (k + 1)), X i = lineOf (foldK r k T) i

theorem pow_sub_succ {n k : ℕ} (h : k < n) : 2 ^ (n - k) = 2 * 2 ^ (n - (k + 1)) := by
  rw [← pow_succ']; congr 1; omega

/-- one round advances all tables; `prev` is the previous challenge -/
theorem holds_bind {n k : ℕ} {r : ℕ → F} {T : ℕ → F} {X : ℕ → LinearPoly F} (hk : k < n)
    (h : Holds n r k T X) (prev : F) (hp : ∀ j, k = j + 1 → prev = r j) :
    Holds n r (k + 1) T (loop (2 ^ (n - (k + 1))) (bindStep (k == 0) prev) X) := by
  intro i hi
  rw [bindLoop, if_pos hi]
  have hpow := pow_sub_succ hk
  cases k with
  | zero =>
    simp only [Holds] at h
    simp only [Nat.sub_zero] at hpow
    simp only [bindF, foldK, lineOf, beq_self_eq_true, if_true]
    rw [h _ (by omega), h _ (by omega)]
  | succ k =>
    simp only [Holds] at h
    have : (k + 1 == 0) = false := by simp
    simp only [bindF, this, Bool.false_eq_true, if_false]
    rw [h _ (by omega), h _ (by omega), lineOf_eval, lineOf_eval, hp k rfl]
    rfl

theorem accumulate_eval (A V B : LinearPoly F) (ret : QuadraticPoly F) (x : F) :
    (accumulate A V B ret).eval x = ret.eval x + (A.eval x * V.eval x + B.eval x) := by
  unfold accumulate QuadraticPoly.eval LinearPoly.eval; ring

/-- claim after `k` rounds -/
def claimAt (n : ℕ) (r : ℕ → F) (A V B : ℕ → F) (k : ℕ) : F :=
  tableSum (2 ^ (n - k)) (foldK r k A) (foldK r k V) (foldK r k B)

/-- polynomial of round `k` -/
def polyAt (n : ℕ) (r : ℕ → F) (A V B : ℕ → F) (k : ℕ) (x : F) : F :=
  roundValue (2 ^ (n - (k + 1))) (foldK r k A) (foldK r k V) (foldK r k B) x

theorem polyAt_sum {n k : ℕ} (hk : k < n) (r : ℕ → F) (A V B : ℕ → F) :
    polyAt n r A V B k 0 + polyAt n r A V B k 1 = claimAt n r A V B k := by
  rw [polyAt, polyAt, roundValue_zero_one, ← pow_sub_succ hk, claimAt]

theorem polyAt_next (n k : ℕ) (r : ℕ → F) (A V B : ℕ → F) :
    polyAt n r A V B k (r k) = claimAt n r A V B (k + 1) := rfl

theorem claimAt_zero (n : ℕ) (r A V B : ℕ → F) :
    claimAt n r A V B 0 = ∑ i ∈ range (2 ^ n), (A i * V i + B i) := rfl

theorem claimAt_last (n : ℕ) (r A V B : ℕ → F) :
    claimAt n r A V B n = mle n A r * mle n V r + mle n B r := by
  rw [claimAt, tableSum, Nat.sub_self, pow_zero, sum_range_one, foldK_mle, foldK_mle, foldK_mle]

/-! ## tables as linear functionals -/

/-- `Σ_x c_x T[x].b` -/
def dot (N : ℕ) (c : ℕ → F) (T : ℕ → LinearPoly F) : F := ∑ x ∈ range N, c x * (T x).b

theorem dot_addB (N : ℕ) (c : ℕ → F) (T : ℕ → LinearPoly F) (i : ℕ) (t : F) (hi : i < N) :
    dot N c (addB T i t) = dot N c T + c i * t := by
  have : ∀ x ∈ range N, c x * (addB T i t x).b = c x * (T x).b + if x = i then c i * t else 0 := by
    intro x _
    unfold addB
    by_cases h : x = i
    · subst h; rw [Function.update_self, if_pos rfl]; ring
    · rw [Function.update_of_ne h, if_neg h, add_zero]
  rw [dot, sum_congr rfl this, sum_add_distrib, sum_ite_eq' (range N) i, if_pos (mem_range.2 hi)]
  rfl

theorem dot_loop_addB (N : ℕ) (c : ℕ → F) (u v : ℕ) (t : ℕ → F) (hv : v ≤ N)
    (T : ℕ → LinearPoly F) :
    dot N c (loopFrom u v (fun j A => addB A j (t j)) T) =
      dot N c T + ∑ j ∈ Ico u v, c j * t j := by
  rw [← loopFrom_add_sum, loopFrom, loopFrom]
  exact loop_map (dot N c) (fun i hi s => dot_addB N c s _ _ (by omega))

theorem dot_loop_addB_at (N : ℕ) (c : ℕ → F) (k u v : ℕ) (t : ℕ → F) (hk : k < N)
    (T : ℕ → LinearPoly F) :
    dot N c (loopFrom u v (fun j A => addB A k (t j)) T) =
      dot N c T + ∑ j ∈ Ico u v, c k * t j := by
  rw [← loopFrom_add_sum, loopFrom, loopFrom]
  exact loop_map (dot N c) (fun i _ s => dot_addB N c s _ _ hk)

/-- an observation of the state that grows by a summand each iteration -/
theorem loop_sum {σ : Type _} (f : σ → F) {n : ℕ} {b : ℕ → σ → σ} {s : σ} (t : ℕ → F)
    (h : ∀ i < n, ∀ s, f (b i s) = f s + t i) : f (loop n b s) = f s + ∑ i ∈ range n, t i := by
  rw [← loop_add_sum]
  exact loop_map f h

theorem dot_zero (N : ℕ) (c : ℕ → F) (T : ℕ → LinearPoly F) (h : ∀ i < N, (T i).b = 0) :
    dot N c T = 0 :=
  sum_eq_zero (fun x hx => by rw [h x (mem_range.1 hx), mul_zero])

end Libra
