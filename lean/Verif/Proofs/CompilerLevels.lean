import Verif.Proofs.CompilerDag
import Mathlib.Algebra.BigOperators.Group.List.Basic
import Mathlib.Tactic.Ring

/-!
# The circuit compiler: levels
-/

namespace Libra.Compiler
open Spec

/-- the same graph up to levels and numbers -/
def Reshape (d d' : Dag) : Prop :=
  d'.keys = d.keys ∧ ∀ k, SameGate (d'.node k) (d.node k) ∧ (d'.node k).outputs = (d.node k).outputs

theorem Reshape.refl (d : Dag) : Reshape d d := ⟨rfl, fun _ => ⟨SameGate.refl _, rfl⟩⟩

theorem Reshape.trans {a b c : Dag} (h : Reshape a b) (h' : Reshape b c) : Reshape a c :=
  ⟨h'.1.trans h.1, fun k => ⟨(h'.2 k).1.trans (h.2 k).1, (h'.2 k).2.trans (h.2 k).2⟩⟩

theorem Reshape.set {d d' : Dag} (h : Reshape d d') (hd : Sorted d.keys) {k : Id} (hk : k ∈ d.keys) {g : DagGate}
    (hg : SameGate g (d'.node k) ∧ g.outputs = (d'.node k).outputs) : Reshape d (d'.set k g) := by
  refine ⟨?_, fun x => ?_⟩
  · change insertKey k d'.keys = _
    rw [h.1, insertKey_of_mem hd hk]
  · by_cases e : x = k
    · subst e; rw [set_node_self]; exact ⟨hg.1.trans (h.2 _).1, hg.2.trans (h.2 _).2⟩
    · rw [set_node_ne e]; exact h.2 x

/-! ### Number of predecessors -/

theorem foldl_count (l : List Id) (m : Id → ℤ) (x : Id) :
    l.foldl (fun m y => Function.update m y (m y + 1)) m x = m x + (l.count x : ℤ) := by
  induction l generalizing m with
  | nil => simp
  | cons y ys ih =>
    rw [List.foldl_cons, ih, List.count_cons]
    by_cases e : y = x
    · subst e; simp; ring
    · have : ¬ x = y := fun h => e h.symm
      simp [e, this]

theorem inDegrees_eq (d : Dag) (x : Id) :
    inDegrees d x = ((d.keys.map (fun k => (d.node k).outputs.count x)).sum : ℕ) := by
  have : ∀ (l : List Id) (m : Id → ℤ), l.foldl (fun m k => (d.node k).outputs.foldl
      (fun m y => Function.update m y (m y + 1)) m) m x =
      m x + ((l.map (fun k => (d.node k).outputs.count x)).sum : ℕ) := by
    intro l
    induction l with
    | nil => simp
    | cons k ks ih => intro m; rw [List.foldl_cons, ih, foldl_count]; simp; ring
  rw [inDegrees, this]; simp

theorem inDegrees_ne {d : Dag} {x : Id} (h : inDegrees d x ≠ 0) :
    ∃ k ∈ d.keys, x ∈ (d.node k).outputs := by
  by_contra hcon
  push Not at hcon
  apply h
  rw [inDegrees_eq]
  have : (d.keys.map (fun k => (d.node k).outputs.count x)).sum = 0 := by
    apply List.sum_eq_zero
    intro n hn
    obtain ⟨k, hk, rfl⟩ := List.mem_map.1 hn
    exact List.count_eq_zero.2 (hcon k hk)
  exact_mod_cast this

/-! ### The start -/

theorem startLevels_spec {d d' : Dag} {deg : Id → ℤ} (hd : Sorted d.keys) (h : startLevels d deg = .ok d') :
    Reshape d d' ∧ (∀ k ∈ d.keys, deg k ≠ 0 ∨ (d.node k).ty = 3) ∧ ∀ k ∈ d.keys, (d'.node k).lvl = 0 := by
  have := foldlM_append_inv (l := d.keys) (b := d) (b' := d')
    (motive := fun Q x => Reshape d x ∧ (∀ k ∈ Q, deg k ≠ 0 ∨ (d.node k).ty = 3) ∧ ∀ k ∈ Q, (x.node k).lvl = 0)
    ⟨Reshape.refl d, by simp, by simp⟩ ?_ h
  · exact this
  · rintro Q k x y hpre ⟨h1, h2, h3⟩ hxy
    obtain ⟨_, h4, h5⟩ := Outcome.bind_eq_ok' hxy
    cases h5
    have hk : k ∈ d.keys := hpre.subset (by simp)
    have h6 : deg k ≠ 0 ∨ (d.node k).ty = 3 := by
      have : (decide (deg k ≠ 0) || (x.node k).ty == 3) = true := by
        by_contra hc
        rw [Outcome.assert, if_neg hc] at h4
        cases h4
      rw [(h1.2 k).1.1] at this
      simpa using this
    refine ⟨h1.set hd hk ⟨⟨rfl, rfl, rfl, rfl⟩, rfl⟩, ?_, ?_⟩
    · intro k' hk'
      rcases List.mem_append.1 hk' with hk' | hk'
      · exact h2 k' hk'
      · rw [List.mem_singleton] at hk'; subst hk'; exact h6
    · intro k' hk'
      by_cases e : k' = k
      · subst e; rw [set_node_self]
      · rw [set_node_ne e]
        rcases List.mem_append.1 hk' with hk' | hk'
        · exact h3 k' hk'
        · rw [List.mem_singleton] at hk'; exact absurd hk' e

/-- after the start every gate is the gate of a line -/
theorem allDefined {P Q : List Stmt} {d : Dag} (h : Reads P Q d)
    (hs : ∀ k ∈ d.keys, inDegrees d k ≠ 0 ∨ (d.node k).ty = 3) :
    ∀ n, V n ∈ d.keys → FromLine P n (d.node (V n)) := by
  intro n hn
  by_cases hex : ∃ s ∈ P, target s = some n
  · obtain ⟨s, a, b⟩ := hex
    exact (h.defined s a n b).2
  · exfalso
    rcases hs _ hn with h1 | h1
    · obtain ⟨k, -, hk⟩ := inDegrees_ne h1
      obtain ⟨s, a, m, e, b⟩ := h.succs k _ hk
      rw [V_inj] at e
      exact hex ⟨s, a, by rw [b, e]⟩
    · have := (h.others n hex).1
      rw [h1] at this
      cases this

/-! ### The loop -/

theorem foldl_inv {α β : Type} {f : β → α → β} {motive : β → Prop} {l : List α} {b : β} (h0 : motive b)
    (hstep : ∀ x, ∀ a ∈ l, motive x → motive (f x a)) : motive (l.foldl f b) := by
  induction l generalizing b with
  | nil => exact h0
  | cons a l ih => exact ih (hstep b a (by simp) h0) (fun x a' ha' => hstep x a' (by simp [ha']))

theorem levelStep_shape {d : Dag} (hd : Sorted d.keys)
    (hsucc : ∀ k, ∀ y ∈ (d.node k).outputs, y ∈ d.keys) {s : LevelState} (h : Reshape d s.dag) (cur : Id)
    (rest : List Id) : Reshape d (levelStep s cur rest).dag := by
  rw [levelStep]
  refine foldl_inv (motive := fun s : LevelState => Reshape d s.dag) h ?_
  intro x a ha hx
  rw [(h.2 cur).2] at ha
  exact hx.set hd (hsucc cur a ha) ⟨⟨rfl, rfl, rfl, rfl⟩, rfl⟩

theorem levels_shape {d : Dag} (hd : Sorted d.keys)
    (hsucc : ∀ k, ∀ y ∈ (d.node k).outputs, y ∈ d.keys) {n : ℕ} {s s' : LevelState} (h : Reshape d s.dag)
    (hs : levels n s = .ok s') : Reshape d s'.dag := by
  induction n generalizing s with
  | zero => cases hs
  | succ n ih =>
    rw [levels] at hs
    split at hs
    · cases hs; exact h
    · exact ih (levelStep_shape hd hsucc h _ _) hs

/-- the depth is reached by the level of a gate, and the queue holds gates only -/
def Reached (s : LevelState) : Prop :=
  (s.depth = 0 ∨ ∃ k ∈ s.dag.keys, s.depth ≤ (s.dag.node k).lvl + 1) ∧ ∀ x ∈ s.q, x ∈ s.dag.keys

theorem levelStep_reached {s : LevelState} {cur : Id} {rest : List Id} (hq : s.q = cur :: rest) (h : Reached s) :
    Reached (levelStep s cur rest) := by
  rw [levelStep]
  refine foldl_inv (motive := Reached) ⟨.inr ?_, ?_⟩ ?_
  · dsimp only
    have hc : cur ∈ s.dag.keys := h.2 cur (by rw [hq]; simp)
    rcases h.1 with h0 | ⟨k, hk, hle⟩
    · exact ⟨cur, hc, by omega⟩
    · rcases Nat.le_total s.depth ((s.dag.node cur).lvl + 1) with hl | hl
      · exact ⟨cur, hc, by omega⟩
      · exact ⟨k, hk, by omega⟩
  · exact fun x hx => h.2 x (by rw [hq]; exact List.mem_cons_of_mem _ hx)
  · rintro x a - ⟨h1, h2⟩
    refine ⟨?_, ?_⟩
    · rcases h1 with h0 | ⟨k, hk, hle⟩
      · exact .inl h0
      · refine .inr ⟨k, mem_set.2 (.inr hk), ?_⟩
        dsimp only [relax]
        by_cases e : k = a
        · subst e
          rw [set_node_self]
          dsimp only
          omega
        · rw [set_node_ne e]
          exact hle
    · intro y hy
      dsimp only [relax] at hy ⊢
      rw [mem_set]
      split at hy
      · rcases List.mem_append.1 hy with hy | hy
        · exact .inr (h2 y hy)
        · exact .inl (List.mem_singleton.1 hy)
      · exact .inr (h2 y hy)

/-- after the loop the depth is that of a gate -/
theorem levels_reached {n : ℕ} {s s' : LevelState} (h : Reached s) (hs : levels n s = .ok s') : Reached s' := by
  induction n generalizing s with
  | zero => cases hs
  | succ n ih =>
    rw [levels] at hs
    split at hs
    · cases hs; exact h
    · rename_i cur rest hq
      exact ih (levelStep_reached hq h) hs

/-- the number of gates whose counter is positive -/
def positive (d : Dag) (deg : Id → ℤ) : ℕ := d.keys.countP (fun k => decide (0 < deg k))

theorem positive_update {d : Dag} (hd : Sorted d.keys) {deg : Id → ℤ} {x : Id} (hx : x ∈ d.keys) :
    positive d (Function.update deg x (deg x - 1)) + (if deg x - 1 = 0 then 1 else 0) = positive d deg := by
  have hnd := hd.nodup
  unfold positive
  revert hx
  generalize d.keys = l at *
  clear hd
  induction l with
  | nil => simp
  | cons y ys ih =>
    intro hx
    rw [List.nodup_cons] at hnd
    rw [List.countP_cons, List.countP_cons]
    by_cases e : x = y
    · subst e
      have : ys.countP (fun k => decide (0 < Function.update deg x (deg x - 1) k)) =
          ys.countP (fun k => decide (0 < deg k)) := by
        apply List.countP_congr
        intro k hk
        have : k ≠ x := fun e => hnd.1 (e ▸ hk)
        simp [this]
      rw [this]
      simp only [Function.update_self, decide_eq_true_eq]
      split_ifs <;> omega
    · have hx' : x ∈ ys := by
        rcases List.mem_cons.1 hx with h | h
        exacts [absurd h e, h]
      have := ih hnd.2 hx'
      have hy : Function.update deg x (deg x - 1) y = deg y := by
        rw [Function.update_of_ne (Ne.symm e)]
      rw [hy]
      omega

theorem levelStep_measure {d : Dag} (hd : Sorted d.keys)
    (hsucc : ∀ k, ∀ y ∈ (d.node k).outputs, y ∈ d.keys) {s : LevelState} (h : Reshape d s.dag) (cur : Id)
    (rest : List Id) : (levelStep s cur rest).q.length + positive d (levelStep s cur rest).inDeg =
      rest.length + positive d s.inDeg := by
  rw [levelStep]
  refine foldl_inv (motive := fun t : LevelState => t.q.length + positive d t.inDeg = rest.length + positive d s.inDeg) rfl ?_
  intro x a ha hx
  rw [(h.2 cur).2] at ha
  have := positive_update hd (deg := x.inDeg) (hsucc cur a ha)
  rw [← hx, relax]
  dsimp only
  simp only [Function.update_self]
  split_ifs at this ⊢ <;> simp <;> omega

/-- the loop ends within the bound -/
theorem levels_terminates {d : Dag} (hd : Sorted d.keys)
    (hsucc : ∀ k, ∀ y ∈ (d.node k).outputs, y ∈ d.keys) {n : ℕ} {s : LevelState} (h : Reshape d s.dag)
    (hn : s.q.length + positive d s.inDeg < n) : ∃ s', levels n s = .ok s' := by
  induction n generalizing s with
  | zero => omega
  | succ n ih =>
    rw [levels]
    split
    · exact ⟨_, rfl⟩
    · rename_i cur rest hq
      refine ih (levelStep_shape hd hsucc h _ _) ?_
      rw [levelStep_measure hd hsucc h]
      rw [hq] at hn
      simp at hn
      omega

end Libra.Compiler
