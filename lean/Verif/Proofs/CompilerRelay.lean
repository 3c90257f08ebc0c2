import Verif.Proofs.CompilerLevels

/-!
# The circuit compiler: relays
-/

namespace Libra.Compiler
open Spec

theorem R_ne_V (a b : ℕ) : R a ≠ V b := by simp [R, V]
theorem R_inj {a b : ℕ} : R a = R b ↔ a = b := by simp [R]

/-- The graph with relays added, compared with the one without. `src` says which variable a gate
carries. -/
structure Relayed (copy : Dag) (src : Id → Id) (s : Dag × ℕ) : Prop where
  sorted : Sorted s.1.keys
  keys : ∀ k, k ∈ s.1.keys ↔ k ∈ copy.keys ∨ ∃ j < s.2, k = R j
  vars : ∀ n, src (V n) = V n
  relays : ∀ j < s.2, (s.1.node (R j)).ty = 10 ∧ (∃ m, src (R j) = V m) ∧
    src (s.1.node (R j)).input0 = src (R j)
  gates : ∀ k ∈ copy.keys, (s.1.node k).ty = (copy.node k).ty ∧ (s.1.node k).lvl = (copy.node k).lvl ∧
    src (s.1.node k).input0 = src (copy.node k).input0 ∧ src (s.1.node k).input1 = src (copy.node k).input1
  exact0 : ∀ k ∈ copy.keys, ((copy.node k).ty = 5 ∨ (copy.node k).ty = 12 ∨ (copy.node k).ty = 3 ∨
    (copy.node k).lvl = (copy.node (copy.node k).input0).lvl + 1) →
    (s.1.node k).input0 = (copy.node k).input0
  exact1 : ∀ k ∈ copy.keys, ((copy.node k).ty = 5 ∨ (copy.node k).ty = 12 ∨ (copy.node k).ty = 3 ∨
    (copy.node k).ty = 13 ∨ (copy.node k).ty = 6 ∨
    (copy.node k).lvl = (copy.node (copy.node k).input1).lvl + 1) →
    (s.1.node k).input1 = (copy.node k).input1
  fresh : ∀ k ∈ s.1.keys, ∀ j, ((s.1.node k).input0 = R j → j < s.2) ∧ ((s.1.node k).input1 = R j → j < s.2)
  closed0 : ∀ k ∈ s.1.keys, (s.1.node k).ty ≠ 3 → (s.1.node k).input0 ∈ s.1.keys
  closed1 : ∀ k ∈ s.1.keys, (s.1.node k).ty ≠ 3 → (s.1.node k).ty ≠ 10 → (s.1.node k).input1 ∈ s.1.keys

/-- a graph before relays are added -/
structure Plain (copy : Dag) : Prop where
  sorted : Sorted copy.keys
  vars : ∀ k ∈ copy.keys, ∃ n, k = V n
  inputs : ∀ k ∈ copy.keys, ∀ j, (copy.node k).input0 ≠ R j ∧ (copy.node k).input1 ≠ R j
  ids : ∀ k ∈ copy.keys, (copy.node k).id = k
  operands : ∀ k ∈ copy.keys, (copy.node k).ty ≠ 3 →
    (∃ m, (copy.node k).input0 = V m ∧ V m ∈ copy.keys) ∧ ∃ m, (copy.node k).input1 = V m ∧ V m ∈ copy.keys

theorem Plain.relayed {copy : Dag} (h : Plain copy) : Relayed copy id (copy, 0) := by
  refine ⟨h.sorted, by simp, fun n => rfl, by simp, fun k _ => ⟨rfl, rfl, rfl, rfl⟩, fun k _ _ => rfl,
    fun k _ _ => rfl, fun k hk j => ⟨fun e => ?_, fun e => ?_⟩, fun k hk h3 => ?_, fun k hk h3 _ => ?_⟩
  · exact absurd e (h.inputs k hk j).1
  · exact absurd e (h.inputs k hk j).2
  · obtain ⟨⟨m, e, hm⟩, -⟩ := h.operands k hk h3
    exact e ▸ hm
  · obtain ⟨-, m, e, hm⟩ := h.operands k hk h3
    exact e ▸ hm

/-- a new relay of the gate `pre` -/
theorem Relayed.addOne {copy : Dag} (hc : Plain copy) {src : Id → Id} {d : Dag} {c : ℕ}
    (h : Relayed copy src (d, c)) {pre : Id} {m : ℕ} (hpre : src pre = V m) (hf : ∀ j, pre = R j → j < c)
    (hmem : pre ∈ d.keys) (l : ℕ) : Relayed copy (Function.update src (R c) (V m))
      (d.set (R c) { ty := 10, id := R c, lvl := l, input0 := pre, input1 := N }, c + 1) := by
  have hsrc : ∀ y, (∀ j, y = R j → j < c) → Function.update src (R c) (V m) y = src y := by
    intro y hy
    rw [Function.update_of_ne]
    intro e
    exact absurd (hy c e) (by omega)
  have hV : ∀ k ∈ copy.keys, k ≠ R c := by
    intro k hk e
    obtain ⟨n, rfl⟩ := hc.vars k hk
    exact R_ne_V c n e.symm
  have hnode : ∀ k, k ≠ R c → (d.set (R c) { ty := 10, id := R c, lvl := l, input0 := pre, input1 := N }).node k =
      d.node k := fun k hk => set_node_ne hk
  refine ⟨sorted_insertKey h.sorted, ?_, ?_, ?_, ?_, ?_, ?_, ?_, ?_, ?_⟩
  · intro k
    dsimp only
    rw [mem_set, h.keys]
    constructor
    · rintro (rfl | h | ⟨j, h1, h2⟩)
      exacts [.inr ⟨c, by omega, rfl⟩, .inl h, .inr ⟨j, by dsimp only at h1; omega, h2⟩]
    · rintro (h | ⟨j, h1, h2⟩)
      · exact .inr (.inl h)
      · by_cases e : j = c
        · subst e; exact .inl h2
        · exact .inr (.inr ⟨j, by dsimp only; omega, h2⟩)
  · intro n
    rw [hsrc _ (fun j e => absurd e.symm (R_ne_V j n)), h.vars]
  · intro j hj
    dsimp only at hj ⊢
    by_cases e : j = c
    · subst e
      rw [set_node_self]
      refine ⟨rfl, ⟨m, by simp⟩, ?_⟩
      dsimp only
      rw [hsrc pre hf, hpre, Function.update_self]
    · have hj' : j < c := by omega
      obtain ⟨h1, h2, h3⟩ := h.relays j hj'
      have hR : R j ≠ R c := by rwa [Ne, R_inj]
      rw [hnode _ hR, Function.update_of_ne hR]
      refine ⟨h1, h2, ?_⟩
      rw [hsrc _ (fun i e => (h.fresh (R j) ((h.keys _).2 (.inr ⟨j, hj', rfl⟩)) i).1 e)]
      exact h3
  · intro k hk
    obtain ⟨h1, h2, h3, h4⟩ := h.gates k hk
    have hk' := (h.keys k).2 (.inl hk)
    dsimp only
    rw [hnode k (hV k hk), hsrc _ (fun i e => (h.fresh k hk' i).1 e), hsrc _ (fun i e => (h.fresh k hk' i).2 e),
      hsrc _ (fun i e => absurd e (hc.inputs k hk i).1), hsrc _ (fun i e => absurd e (hc.inputs k hk i).2)]
    exact ⟨h1, h2, h3, h4⟩
  · intro k hk hx
    dsimp only
    rw [hnode k (hV k hk)]
    exact h.exact0 k hk hx
  · intro k hk hx
    dsimp only
    rw [hnode k (hV k hk)]
    exact h.exact1 k hk hx
  · intro k hk j
    dsimp only at hk ⊢
    by_cases e : k = R c
    · subst e
      rw [set_node_self]
      exact ⟨fun e => Nat.lt_succ_of_lt (hf j e), fun e => by simp [N, R] at e⟩
    · rw [hnode k e]
      have hk' : k ∈ d.keys := by
        rcases mem_set.1 hk with h | h
        exacts [absurd h e, h]
      exact ⟨fun e => Nat.lt_succ_of_lt ((h.fresh k hk' j).1 e), fun e => Nat.lt_succ_of_lt ((h.fresh k hk' j).2 e)⟩
  · intro k hk h3
    dsimp only at hk h3 ⊢
    by_cases e : k = R c
    · subst e
      rw [set_node_self]
      exact mem_set.2 (.inr hmem)
    · rw [hnode k e] at h3 ⊢
      rcases mem_set.1 hk with h' | h'
      exacts [absurd h' e, mem_set.2 (.inr (h.closed0 k h' h3))]
  · intro k hk h3 h10
    dsimp only at hk h3 h10 ⊢
    by_cases e : k = R c
    · subst e
      rw [set_node_self] at h10
      exact absurd rfl h10
    · rw [hnode k e] at h3 h10 ⊢
      rcases mem_set.1 hk with h' | h'
      exacts [absurd h' e, mem_set.2 (.inr (h.closed1 k h' h3 h10))]

/-- the chain of relays of `add_relay` -/
theorem Relayed.chain {copy : Dag} (hc : Plain copy) {src : Id → Id} {d : Dag} {c : ℕ}
    (h : Relayed copy src (d, c)) (m n b : ℕ) (hm : V m ∈ d.keys) :
    ∃ src' d' c' pre, loop n (fun j (t : Dag × ℕ × Id) =>
      (t.1.set (R t.2.1) { ty := 10, id := R t.2.1, lvl := b + j, input0 := t.2.2, input1 := N },
        t.2.1 + 1, R t.2.1)) (d, c, V m) = (d', c', pre) ∧ Relayed copy src' (d', c') ∧ src' pre = V m ∧
      (∀ j, pre = R j → j < c') ∧ pre ∈ d'.keys := by
  induction n with
  | zero => exact ⟨src, d, c, V m, rfl, h, h.vars m, fun j e => absurd e.symm (R_ne_V j m), hm⟩
  | succ n ih =>
    obtain ⟨src', d', c', pre, e, h', hpre, hf, hmem⟩ := ih
    refine ⟨_, _, c' + 1, R c', by rw [loop, e], h'.addOne hc hpre hf hmem (b + n), ?_, ?_, ?_⟩
    · simp
    · intro j e; rw [R_inj] at e; omega
    · exact mem_set.2 (.inl rfl)

/-- `add_relay` on the operand `V m` of the gate `k` -/
theorem Relayed.addRelay {copy : Dag} (hc : Plain copy) {src : Id → Id} {s : Dag × ℕ}
    (h : Relayed copy src s) {k : Id} (hk : k ∈ copy.keys) {m : ℕ} (hm : V m ∈ copy.keys) (left : Bool)
    (hin : (if left then (copy.node k).input0 else (copy.node k).input1) = V m)
    (hty : (copy.node k).ty ≠ 5 ∧ (copy.node k).ty ≠ 12 ∧ (copy.node k).ty ≠ 3)
    (hty' : left = false → (copy.node k).ty ≠ 13 ∧ (copy.node k).ty ≠ 6) :
    ∃ src', Relayed copy src' (addRelay copy k (V m) left s) := by
  obtain ⟨d, c⟩ := s
  unfold Compiler.addRelay
  dsimp only
  by_cases hl : (copy.node k).lvl = (copy.node (V m)).lvl + 1
  · rw [if_pos hl]; exact ⟨src, h⟩
  · rw [if_neg hl, hc.ids (V m) hm, hc.ids k hk]
    obtain ⟨src', d', c', pre, e, h', hpre, hf, hmem⟩ := h.chain hc m
      ((copy.node k).lvl - ((copy.node (V m)).lvl + 1)) ((copy.node (V m)).lvl + 1) ((h.keys _).2 (.inl hm))
    rw [e]
    dsimp only
    refine ⟨src', ?_⟩
    have hk' : k ∈ d'.keys := (h'.keys k).2 (.inl hk)
    have hkR : ∀ j, R j ≠ k := by
      intro j e
      obtain ⟨n, rfl⟩ := hc.vars k hk
      exact R_ne_V j n e
    obtain ⟨g1, g2, g3, g4⟩ := h'.gates k hk
    refine ⟨sorted_insertKey h'.sorted, ?_, h'.vars, ?_, ?_, ?_, ?_, ?_, ?_, ?_⟩
    · intro x
      dsimp only
      rw [mem_set, h'.keys]
      constructor
      · rintro (rfl | h)
        exacts [.inl hk, h]
      · exact .inr
    · intro j hj
      dsimp only
      rw [set_node_ne (hkR j)]
      exact h'.relays j hj
    · intro x hx
      dsimp only
      by_cases ex : x = k
      · subst ex
        rw [set_node_self]
        cases left with
        | true =>
          simp only [if_true] at hin ⊢
          exact ⟨g1, g2, by rw [hpre, hin, h'.vars], g4⟩
        | false =>
          simp only [Bool.false_eq_true, if_false] at hin ⊢
          exact ⟨g1, g2, g3, by rw [hpre, hin, h'.vars]⟩
      · rw [set_node_ne ex]; exact h'.gates x hx
    · intro x hx hex
      dsimp only
      by_cases ex : x = k
      · subst ex
        rw [set_node_self]
        cases left with
        | true =>
          simp only [if_true] at hin
          rw [hin] at hex
          rcases hex with h | h | h | h
          exacts [absurd h hty.1, absurd h hty.2.1, absurd h hty.2.2, absurd h hl]
        | false =>
          simp only [Bool.false_eq_true, if_false]
          exact h'.exact0 x hx hex
      · rw [set_node_ne ex]; exact h'.exact0 x hx hex
    · intro x hx hex
      dsimp only
      by_cases ex : x = k
      · subst ex
        rw [set_node_self]
        cases left with
        | true =>
          simp only [if_true]
          exact h'.exact1 x hx hex
        | false =>
          simp only [Bool.false_eq_true, if_false] at hin
          rw [hin] at hex
          rcases hex with h | h | h | h | h | h
          exacts [absurd h hty.1, absurd h hty.2.1, absurd h hty.2.2, absurd h (hty' rfl).1,
            absurd h (hty' rfl).2, absurd h hl]
      · rw [set_node_ne ex]; exact h'.exact1 x hx hex
    · intro x hx j
      dsimp only at hx ⊢
      by_cases ex : x = k
      · subst ex
        rw [set_node_self]
        have := h'.fresh x hk' j
        cases left with
        | true => simp only [if_true]; exact ⟨hf j, this.2⟩
        | false => simp only [Bool.false_eq_true, if_false]; exact ⟨this.1, hf j⟩
      · rw [set_node_ne ex]
        have hx' : x ∈ d'.keys := by
          rcases mem_set.1 hx with h | h
          exacts [absurd h ex, h]
        exact h'.fresh x hx' j
    · intro x hx h3
      dsimp only at hx h3 ⊢
      by_cases ex : x = k
      · subst ex
        rw [set_node_self] at h3 ⊢
        cases left with
        | true => simp only [if_true]; exact mem_set.2 (.inr hmem)
        | false =>
          simp only [Bool.false_eq_true, if_false] at h3 ⊢
          exact mem_set.2 (.inr (h'.closed0 x hk' h3))
      · rw [set_node_ne ex] at h3 ⊢
        rcases mem_set.1 hx with h | h
        exacts [absurd h ex, mem_set.2 (.inr (h'.closed0 x h h3))]
    · intro x hx h3 h10
      dsimp only at hx h3 h10 ⊢
      by_cases ex : x = k
      · subst ex
        rw [set_node_self] at h3 h10 ⊢
        cases left with
        | true =>
          simp only [if_true] at h3 h10 ⊢
          exact mem_set.2 (.inr (h'.closed1 x hk' h3 h10))
        | false => simp only [Bool.false_eq_true, if_false]; exact mem_set.2 (.inr hmem)
      · rw [set_node_ne ex] at h3 h10 ⊢
        rcases mem_set.1 hx with h | h
        exacts [absurd h ex, mem_set.2 (.inr (h'.closed1 x h h3 h10))]

/-- what the assertions of the loop establish -/
def RelayChecked (copy : Dag) (k : Id) : Prop :=
  ((copy.node k).ty = 3 → (copy.node k).lvl = 0) ∧
  (((copy.node k).ty = 5 ∨ (copy.node k).ty = 12) → ∀ i, i < (copy.node k).input1.2 + 1 - (copy.node k).input0.2 →
    (copy.node k).lvl = (copy.node (V ((copy.node k).input0.2 + i))).lvl + 1) ∧
  ((copy.node k).ty = 13 → (copy.node k).input0 = (copy.node k).input1)

theorem assert_ok {b : Bool} {u : Unit} (h : Outcome.assert b = .ok u) : b = true := by
  unfold Outcome.assert at h
  split_ifs at h with hb
  exact hb

theorem relayGate_ok {copy : Dag} (hc : Plain copy) {src : Id → Id} {s s' : Dag × ℕ}
    (h : Relayed copy src s) {k : Id} (hk : k ∈ copy.keys) (hs : relayGate copy s k = .ok s') :
    (∃ src', Relayed copy src' s') ∧ RelayChecked copy k := by
  unfold relayGate at hs
  dsimp only at hs
  split_ifs at hs with h1 h2 h3 h4 h5
  · cases hs
    have hne : (copy.node k).ty ≠ 5 ∧ (copy.node k).ty ≠ 12 ∧ (copy.node k).ty ≠ 3 := by omega
    obtain ⟨⟨m, e, hm⟩, m', e', hm'⟩ := hc.operands k hk hne.2.2
    obtain ⟨src', h'⟩ := h.addRelay hc hk hm true (by simpa using e) hne (by simp)
    obtain ⟨src'', h''⟩ := h'.addRelay hc hk hm' false (by simpa using e') hne (by intro; omega)
    rw [e, e']
    exact ⟨⟨src'', h''⟩, by omega, by omega, by omega⟩
  · obtain ⟨_, h4, h5⟩ := Outcome.bind_eq_ok' hs
    cases h5
    have := assert_ok h4
    exact ⟨⟨src, h⟩, fun _ => by simpa using this, by omega, by omega⟩
  · cases hs
    have hne : (copy.node k).ty ≠ 5 ∧ (copy.node k).ty ≠ 12 ∧ (copy.node k).ty ≠ 3 := by omega
    obtain ⟨⟨m, e, hm⟩, -⟩ := hc.operands k hk hne.2.2
    obtain ⟨src', h'⟩ := h.addRelay hc hk hm true (by simpa using e) hne (by simp)
    rw [e]
    exact ⟨⟨src', h'⟩, by omega, by omega, by omega⟩
  · have : ∀ n, ∀ s', loopM n (fun i s => do
        Outcome.assert ((copy.node k).lvl == (copy.node (V ((copy.node k).input0.2 + i))).lvl + 1)
        return s) s = .ok s' → s' = s ∧ ∀ i < n, (copy.node k).lvl = (copy.node (V ((copy.node k).input0.2 + i))).lvl + 1 := by
      intro n
      induction n with
      | zero => intro s' hs; cases hs; exact ⟨rfl, fun i hi => absurd hi (by omega)⟩
      | succ n ih =>
        intro s' hs
        obtain ⟨t, e1, e2⟩ := Outcome.bind_eq_ok' hs
        obtain ⟨rfl, h7⟩ := ih t e1
        obtain ⟨_, e3, e4⟩ := Outcome.bind_eq_ok' e2
        cases e4
        have := assert_ok e3
        refine ⟨rfl, fun i hi => ?_⟩
        by_cases e : i = n
        · subst e; simpa using this
        · exact h7 i (by omega)
    obtain ⟨rfl, h8⟩ := this _ _ hs
    exact ⟨⟨src, h⟩, by omega, fun _ => h8, by omega⟩
  · obtain ⟨_, h6, h7⟩ := Outcome.bind_eq_ok' hs
    cases h7
    have hin := assert_ok h6
    have hne : (copy.node k).ty ≠ 5 ∧ (copy.node k).ty ≠ 12 ∧ (copy.node k).ty ≠ 3 := by omega
    obtain ⟨⟨m, e, hm⟩, -⟩ := hc.operands k hk hne.2.2
    obtain ⟨src', h'⟩ := h.addRelay hc hk hm true (by simpa using e) hne (by simp)
    rw [e]
    exact ⟨⟨src', h'⟩, by omega, by omega, fun _ => by simpa using hin⟩
  · cases hs
    exact ⟨⟨src, h⟩, by omega, by omega, by omega⟩

theorem relayAll {copy : Dag} (hc : Plain copy) {s : Dag × ℕ}
    (hs : copy.keys.foldlM (relayGate copy) (copy, 0) = .ok s) :
    (∃ src, Relayed copy src s) ∧ ∀ k ∈ copy.keys, RelayChecked copy k := by
  have := foldlM_append_inv (motive := fun Q s => (∃ src, Relayed copy src s) ∧ ∀ k ∈ Q, RelayChecked copy k)
    ⟨⟨id, hc.relayed⟩, by simp⟩ ?_ hs
  · exact this
  · rintro Q k x y hpre ⟨⟨src, h⟩, h2⟩ hxy
    have hk : k ∈ copy.keys := hpre.subset (by simp)
    obtain ⟨h3, h4⟩ := relayGate_ok hc h hk hxy
    refine ⟨h3, fun k' hk' => ?_⟩
    rcases List.mem_append.1 hk' with hk' | hk'
    · exact h2 k' hk'
    · rw [List.mem_singleton] at hk'; subst hk'; exact h4

end Libra.Compiler
