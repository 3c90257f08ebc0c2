import Verif.Model.LanczosGen
import Verif.Spec.Lanczos
import Verif.Proofs.Sha256Size
import Verif.Proofs.Sha256Accept
import Mathlib.Algebra.BigOperators.Ring.Finset
import Mathlib.Tactic.Linarith

/-!
# The program of the image scaling benchmark
-/

namespace Libra.LanczosGen
open Compiler Sha256Gen Spec Finset

/-! ### Straight-line code -/

theorem lanczosMuls_emits {v : ℕ} {coeffs row : List ℕ} (hl : row.length = coeffs.length) (hr : ∀ i ∈ row, i < v)
    (hc : ∀ i ∈ coeffs, i < v) :
    Emits v (lanczosMuls coeffs row) fun ys v' => ys.length = row.length ∧ ∀ y ∈ ys, y < v' := by
  unfold lanczosMuls
  simp only [bind_def]
  refine Emits.bind (Emits.assertThat (by simpa using hl) ((Emits.mapG_gate hr hc).mono ?_))
  rintro ys v' - ⟨rfl, rfl⟩
  refine ⟨by rw [List.length_range', hl, min_self], fun y hy => (List.mem_range'_1.1 hy).2⟩

theorem addTree_emits : ∀ {fuel v : ℕ} {ivals : List ℕ}, ivals ≠ [] → ivals.length ≤ fuel → (∀ i ∈ ivals, i < v) →
    Emits v (addTree fuel ivals) fun o v' => o < v'
  | 0, v, ivals, hne, hf, _ => by
    have := List.length_pos_of_ne_nil hne
    omega
  | fuel + 1, v, ivals, hne, hf, hi => by
    have hpos := List.length_pos_of_ne_nil hne
    have hget : ∀ j < ivals.length, ivals.getD j 0 < v := by
      intro j hj
      rw [List.getD_eq_getElem?_getD, List.getElem?_eq_getElem hj]
      exact hi _ (List.getElem_mem hj)
    unfold addTree
    simp only [bind_def, pure_def]
    refine Emits.bind ((Emits.mapG_one (s := fun idx u => Stmt.gate .add u (ivals.getD (2 * idx) 0) (ivals.getD (2 * idx + 1) 0))
      fun j hj v' hv' => ?_).mono ?_)
    · have := List.mem_range.1 hj
      exact ⟨rfl, (hget _ (by omega)).trans_le hv', (hget _ (by omega)).trans_le hv'⟩
    · rintro ys v' - ⟨rfl, rfl⟩
      rw [List.length_range]
      have hlast : ivals.getLastD 0 < v := by
        rw [List.getLastD_eq_getLast?, List.getLast?_eq_getElem?, List.getElem?_eq_getElem (by omega)]
        exact hi _ (List.getElem_mem _)
      generalize ho : (if ivals.length % 2 ≠ 0 then List.range' v (ivals.length / 2) ++ [ivals.getLastD 0] else
        List.range' v (ivals.length / 2)) = outs
      have hlen : outs.length = (ivals.length + 1) / 2 := by
        rw [← ho]
        split
        · simp; omega
        · simp; omega
      have hlt : ∀ y ∈ outs, y < v + ivals.length / 2 := by
        intro y hy
        rw [← ho] at hy
        split at hy
        · rcases List.mem_append.1 hy with hy | hy
          · exact (List.mem_range'_1.1 hy).2
          · rw [List.mem_singleton.1 hy]; omega
        · exact (List.mem_range'_1.1 hy).2
      by_cases h1 : outs.length = 1
      · rw [if_pos h1]
        refine Emits.pure ?_
        obtain ⟨a, rfl⟩ := List.length_eq_one_iff.1 h1
        exact hlt a (by simp)
      · rw [if_neg h1]
        refine addTree_emits ?_ (by omega) hlt
        rintro rfl
        simp at hlen
        omega

theorem coeffsIdx_eq (ratio : ℕ) : coeffsIdx ratio =
    (List.range' (16 * ratio ^ 2) (2 * ratio)).reverse ++ List.range' (16 * ratio ^ 2) (2 * ratio) := by
  have e : nInputs ratio - 2 * ratio = 16 * ratio ^ 2 := by unfold nInputs; omega
  have e' : nInputs ratio - 16 * ratio ^ 2 = 2 * ratio := by unfold nInputs; omega
  unfold coeffsIdx
  rw [e, e']

theorem coeffsIdx_length (ratio : ℕ) : (coeffsIdx ratio).length = 4 * ratio := by
  rw [coeffsIdx_eq]; simp; omega

theorem coeffsIdx_lt {ratio i : ℕ} (h : i ∈ coeffsIdx ratio) : 16 * ratio ^ 2 ≤ i ∧ i < nInputs ratio := by
  rw [coeffsIdx_eq] at h
  simp only [List.mem_append, List.mem_reverse, List.mem_range'_1, or_self] at h
  exact h

theorem pixel_lt {ratio x off : ℕ} (hx : x < 4 * ratio) (ho : off < 4 * ratio) : 4 * ratio * x + off < 16 * ratio ^ 2 := by
  have : 4 * ratio * (x + 1) ≤ 4 * ratio * (4 * ratio) := Nat.mul_le_mul_left _ hx
  nlinarith

theorem pwsRow_emits {ratio x v : ℕ} (hx : x < 4 * ratio) (hv : nInputs ratio ≤ v) :
    Emits v (pwsRow ratio x) fun o v' => o < v' := by
  unfold pwsRow
  simp only [bind_def]
  refine Emits.bind ((lanczosMuls_emits (by rw [coeffsIdx_length]; simp) ?_ ?_).mono ?_)
  · intro i hi
    obtain ⟨off, ho, rfl⟩ := List.mem_map.1 hi
    have := pixel_lt hx (List.mem_range.1 ho)
    unfold nInputs at hv
    omega
  · intro i hi
    exact (coeffsIdx_lt hi).2.trans_le hv
  · rintro ys v' - ⟨hl, hy⟩
    refine addTree_emits ?_ le_rfl hy
    rintro rfl
    simp at hl
    omega

theorem pwsBody_emits {ratio v : ℕ} (hr : ratio ≠ 0) (hv : nInputs ratio ≤ v) :
    Emits v (pwsBody ratio) fun o v' => o < v' := by
  unfold pwsBody
  simp only [bind_def]
  refine Emits.bind ((Emits.mapG_all (Q := fun o v' => o < v') (fun b v v' h h' => h'.trans_le h) fun x hx v' hv' =>
    pwsRow_emits (List.mem_range.1 hx) (hv.trans hv')).mono ?_)
  rintro outs v1 hv1 ⟨hl, ho⟩
  rw [List.length_range] at hl
  refine Emits.bind (Emits.assertThat (by simpa using hl) ?_)
  refine Emits.bind ((lanczosMuls_emits (by rw [coeffsIdx_length, hl]) ho fun i hi => ?_).mono ?_)
  · exact (coeffsIdx_lt hi).2.trans_le (hv.trans hv1)
  · rintro ys v' - ⟨hl', hy⟩
    refine addTree_emits ?_ le_rfl hy
    rintro rfl
    simp at hl'
    omega

/-! ### The number of lines -/

theorem lanczosMuls_cost {coeffs row : List ℕ} {n : ℕ} (hc : coeffs.length = n) (hr : row.length = n) :
    Cost (lanczosMuls coeffs row) n fun ys => ys.length = n := by
  unfold lanczosMuls
  simp only [bind_def]
  exact Cost.bind (Cost.assertThat.mono fun _ _ => Cost.gates hr hc) (Nat.zero_add n).symm

theorem addTree_cost : ∀ {fuel : ℕ} {ivals : List ℕ}, ivals ≠ [] → Cost (addTree fuel ivals) (ivals.length - 1) fun _ => True
  | 0, ivals, _ => by intro v a v' L e; cases e
  | fuel + 1, ivals, hne => by
    have hpos := List.length_pos_of_ne_nil hne
    unfold addTree
    simp only [bind_def, pure_def]
    refine Cost.bind (m := (ivals.length + 1) / 2 - 1) ((Cost.each (c := 1) (Q := fun _ => True) (k := ivals.length / 2)
      (fun _ _ => Cost.gate) (by simp) (mul_one _).symm).mono fun ys hys => ?_) (by omega)
    generalize ho : (if ivals.length % 2 ≠ 0 then ys ++ [ivals.getLastD 0] else ys) = outs
    have hlen : outs.length = (ivals.length + 1) / 2 := by
      rw [← ho]
      split
      · simp; omega
      · omega
    rw [← hlen]
    by_cases h1 : outs.length = 1
    · rw [if_pos h1, h1]
      exact Cost.pure trivial
    · rw [if_neg h1]
      refine addTree_cost ?_
      rintro rfl
      simp at hlen
      omega

theorem pwsRow_cost {ratio : ℕ} (hr : ratio ≠ 0) (x : ℕ) : Cost (pwsRow ratio x) (8 * ratio - 1) fun _ => True := by
  unfold pwsRow
  simp only [bind_def]
  refine Cost.bind (n := 4 * ratio) (m := 4 * ratio - 1) ((lanczosMuls_cost (coeffsIdx_length ratio) (by simp)).mono fun ys hys => ?_)
    (by omega)
  rw [← hys]
  refine addTree_cost ?_
  rintro rfl
  simp at hys
  omega

theorem pwsBody_cost {ratio : ℕ} (hr : ratio ≠ 0) : Cost (pwsBody ratio) ((4 * ratio + 1) * (8 * ratio - 1)) fun _ => True := by
  unfold pwsBody
  simp only [bind_def]
  refine Cost.bind (n := 4 * ratio * (8 * ratio - 1)) (m := 8 * ratio - 1) ((Cost.each (Q := fun _ => True) (k := 4 * ratio)
    (fun x _ => pwsRow_cost hr x) (by simp) rfl).mono fun outs hl => ?_) (by ring)
  refine Cost.bind (n := 0) (m := 8 * ratio - 1) (Cost.assertThat.mono fun _ _ => ?_) (by omega)
  refine Cost.bind (n := 4 * ratio) (m := 4 * ratio - 1) ((lanczosMuls_cost (coeffsIdx_length ratio) hl).mono fun ys hys => ?_) (by omega)
  rw [← hys]
  refine addTree_cost ?_
  rintro rfl
  simp at hys
  omega

/-! ### What the lines compute -/

section
variable {F : Type} [CommRing F] {w : ℕ → F}

theorem Run.mapV {α β : Type} {f : α → Gen β} {R : α → β → Prop} {xs : List α} (h : ∀ x ∈ xs, Run w (f x) fun y _ => R x y) :
    Run w (mapG f xs) fun ys _ => List.Forall₂ R xs ys := by
  induction xs with
  | nil => exact Run.pure .nil
  | cons x xs ih =>
    exact Run.bind ((h x (by simp)).mono fun y _ hy => Run.bind ((ih fun x' hx' => h x' (by simp [hx'])).mono fun ys _ hys =>
      Run.pure (.cons hy hys)))

/-- the products of a row -/
theorem lanczosMuls_run {coeffs row : List ℕ} : Run w (lanczosMuls coeffs row) fun ys _ =>
    row.length = coeffs.length ∧ ys.map w = List.zipWith (fun a b => w a * w b) row coeffs := by
  unfold lanczosMuls
  simp only [bind_def]
  refine Run.bind (Run.assertThat fun h => ?_)
  have hl : row.length = coeffs.length := by simpa using h
  refine (Run.mapV (R := fun (p : ℕ × ℕ) y => w y = w p.1 * w p.2) fun p _ => Run.gate fun v hv => hv).mono ?_
  rintro ys z hR
  refine ⟨hl, ?_⟩
  have : ∀ {l : List (ℕ × ℕ)} {ys : List ℕ}, List.Forall₂ (fun (p : ℕ × ℕ) y => w y = w p.1 * w p.2) l ys →
      ys.map w = l.map fun p => w p.1 * w p.2 := by
    intro l ys h
    induction h with
    | nil => rfl
    | cons h _ ih => rw [List.map_cons, List.map_cons, h, ih]
  rw [this hR, List.zip, List.map_zipWith]

theorem sum_pairs (f : ℕ → F) : ∀ k, ((List.range k).map fun i => f (2 * i) + f (2 * i + 1)).sum = ∑ i ∈ range (2 * k), f i
  | 0 => by simp
  | k + 1 => by
    rw [List.range_succ, List.map_append, List.sum_append, sum_pairs f k, show 2 * (k + 1) = 2 * k + 1 + 1 by ring,
      sum_range_succ, sum_range_succ]
    simp [add_assoc]

theorem sum_getD (w : ℕ → F) (l : List ℕ) : (l.map w).sum = ∑ i ∈ range l.length, w (l.getD i 0) := by
  induction l with
  | nil => simp
  | cons a l ih =>
    rw [List.map_cons, List.sum_cons, ih, List.length_cons, sum_range_succ']
    simp [add_comm]

/-- the tree computes the sum -/
theorem addTree_run : ∀ {fuel : ℕ} {ivals : List ℕ}, Run w (addTree fuel ivals) fun o _ => w o = (ivals.map w).sum
  | 0, ivals => by intro v a v' L e; cases e
  | fuel + 1, ivals => by
    unfold addTree
    simp only [bind_def, pure_def]
    refine Run.bind ((Run.mapV (R := fun idx y => w y = w (ivals.getD (2 * idx) 0) + w (ivals.getD (2 * idx + 1) 0))
      fun j _ => Run.gate fun v hv => hv).mono ?_)
    rintro ys z hR
    have hy : ys.map w = (List.range (ivals.length / 2)).map fun i => w (ivals.getD (2 * i) 0) + w (ivals.getD (2 * i + 1) 0) := by
      generalize List.range (ivals.length / 2) = l at hR ⊢
      induction hR with
      | nil => rfl
      | cons h _ ih => rw [List.map_cons, List.map_cons, h, ih]
    generalize ho : (if ivals.length % 2 ≠ 0 then ys ++ [ivals.getLastD 0] else ys) = outs
    have hsum : (outs.map w).sum = (ivals.map w).sum := by
      rw [← ho, sum_getD w ivals]
      have hs := sum_pairs (fun i => w (ivals.getD i 0)) (ivals.length / 2)
      rw [← hy] at hs
      split
      · next h =>
        have hl : ivals.length = 2 * (ivals.length / 2) + 1 := by omega
        rw [List.map_append, List.sum_append, hs]
        rw [show range ivals.length = range (2 * (ivals.length / 2) + 1) by rw [← hl], sum_range_succ]
        simp only [List.map_cons, List.map_nil, List.sum_cons, List.sum_nil, add_zero]
        rw [List.getLastD_eq_getLast?, List.getLast?_eq_getElem?, List.getD_eq_getElem?_getD,
          show ivals.length - 1 = 2 * (ivals.length / 2) by omega]
      · next h =>
        have hl : ivals.length = 2 * (ivals.length / 2) := by omega
        rw [hs, ← hl]
    by_cases h1 : outs.length = 1
    · rw [if_pos h1]
      refine Run.pure ?_
      obtain ⟨a, rfl⟩ := List.length_eq_one_iff.1 h1
      rw [← hsum]
      simp
    · rw [if_neg h1]
      exact addTree_run.mono fun o _ h => h.trans hsum

omit [CommRing F] in
theorem coeffsIdx_get {ratio i : ℕ} (hi : i < 4 * ratio) : w ((coeffsIdx ratio).getD i 0) =
    Lanczos.weight ratio (fun k => w (16 * ratio ^ 2 + k)) i := by
  rw [coeffsIdx_eq, List.getD_eq_getElem?_getD]
  unfold Lanczos.weight
  split
  · next h =>
    rw [List.getElem?_append_left (by simpa using h), List.getElem?_reverse (by simpa using h), List.length_range',
      List.getElem?_range' (by omega)]
    simp
  · next h =>
    rw [List.getElem?_append_right (by simpa using h), List.length_reverse, List.length_range', List.getElem?_range' (by omega)]
    simp

/-- the weighted sum of a row -/
theorem weighted {ratio : ℕ} {row : List ℕ} (hl : row.length = (coeffsIdx ratio).length) :
    (List.zipWith (fun a b => w a * w b) row (coeffsIdx ratio)).sum =
      ∑ i ∈ range (4 * ratio), Lanczos.weight ratio (fun k => w (16 * ratio ^ 2 + k)) i * w (row.getD i 0) := by
  have : ∀ l l' : List ℕ, l.length = l'.length → (List.zipWith (fun a b => w a * w b) l l').sum =
      ∑ i ∈ range l'.length, w (l'.getD i 0) * w (l.getD i 0) := by
    intro l
    induction l with
    | nil => intro l' h; simp at h; simp [← h]
    | cons a l ih =>
      intro l' h
      cases l' with
      | nil => simp at h
      | cons b l' =>
        rw [List.zipWith_cons_cons, List.sum_cons, ih l' (by simpa using h), List.length_cons, sum_range_succ']
        simp [add_comm, mul_comm]
  rw [this _ _ hl, coeffsIdx_length]
  exact sum_congr rfl fun i hi => by rw [coeffsIdx_get (w := w) (mem_range.1 hi)]

theorem pwsRow_run {ratio x : ℕ} : Run w (pwsRow ratio x) fun o _ =>
    w o = ∑ j ∈ range (4 * ratio), Lanczos.weight ratio (fun k => w (16 * ratio ^ 2 + k)) j * w (4 * ratio * x + j) := by
  unfold pwsRow
  simp only [bind_def]
  refine Run.bind (lanczosMuls_run.mono ?_)
  rintro ys z ⟨hl, hy⟩
  refine addTree_run.mono fun o _ h => ?_
  rw [h, hy, weighted hl]
  refine sum_congr rfl fun j hj => ?_
  rw [List.getD_eq_getElem?_getD, List.getElem?_map, List.getElem?_range (mem_range.1 hj)]
  rfl

theorem pwsBody_run {ratio : ℕ} : Run w (pwsBody ratio) fun o _ =>
    w o = Lanczos.scaled ratio (fun k => w (16 * ratio ^ 2 + k)) (fun i j => w (4 * ratio * i + j)) 0 0 := by
  unfold pwsBody
  simp only [bind_def]
  refine Run.bind ((Run.mapV fun x _ => pwsRow_run (x := x)).mono ?_)
  rintro outs z hR
  have hget : ∀ i < 4 * ratio, w (outs.getD i 0) = ∑ j ∈ range (4 * ratio),
      Lanczos.weight ratio (fun k => w (16 * ratio ^ 2 + k)) j * w (4 * ratio * i + j) := by
    intro i hi
    have hlen := hR.length_eq
    rw [List.length_range] at hlen
    have := List.Forall₂.get hR (i := i) (by simpa using hi) (by omega)
    rw [List.getD_eq_getElem?_getD, List.getElem?_eq_getElem (by omega)]
    simpa using this
  refine Run.bind (Run.assertThat fun _ => ?_)
  refine Run.bind (lanczosMuls_run.mono ?_)
  rintro ys z' ⟨hl, hy⟩
  refine addTree_run.mono fun o _ h => ?_
  rw [h, hy, weighted hl, Lanczos.scaled]
  refine sum_congr rfl fun i hi => ?_
  rw [hget i (mem_range.1 hi), mul_sum]
  refine sum_congr rfl fun j _ => ?_
  rw [mul_zero, zero_add, zero_add, ← mul_assoc]

end

end Libra.LanczosGen
