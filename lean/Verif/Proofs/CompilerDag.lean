import Verif.Model.Compiler
import Verif.Spec.Program
import Verif.Proofs.Outcome
import Mathlib.Data.List.Sort

/-!
# The circuit compiler: the graph of gates
-/

namespace Libra.Compiler
open Spec

/-! ### Keys -/

theorem lt_irrefl (a : Id) : Id.lt a a = false := by simp [Id.lt]

theorem lt_trans {a b c : Id} (h : Id.lt a b = true) (h' : Id.lt b c = true) : Id.lt a c = true := by
  simp only [Id.lt, Bool.or_eq_true, decide_eq_true_eq, Bool.and_eq_true, beq_iff_eq] at *
  omega

theorem lt_or {a b : Id} (h : a ≠ b) (h' : Id.lt a b = false) : Id.lt b a = true := by
  have : ¬ (a.1 = b.1 ∧ a.2 = b.2) := fun e => h (Prod.ext e.1 e.2)
  simp only [Id.lt, Bool.or_eq_true, decide_eq_true_eq, Bool.and_eq_true, beq_iff_eq, Bool.or_eq_false_iff,
    decide_eq_false_iff_not, Bool.and_eq_false_imp] at *
  omega

/-- the keys of a map are strictly increasing -/
abbrev Sorted (l : List Id) : Prop := l.Pairwise (fun a b => Id.lt a b = true)

theorem Sorted.nodup {l : List Id} (h : Sorted l) : l.Nodup :=
  h.imp (fun {a b} hab e => by rw [e, lt_irrefl] at hab; cases hab)

theorem mem_insertKey {k x : Id} {l : List Id} : x ∈ insertKey k l ↔ x = k ∨ x ∈ l := by
  induction l with
  | nil => simp [insertKey]
  | cons y ys ih =>
    rw [insertKey]
    split_ifs with h1 h2
    · subst h1; simp
    · simp
    · simp only [List.mem_cons, ih]; tauto

theorem sorted_insertKey {k : Id} {l : List Id} (h : Sorted l) : Sorted (insertKey k l) := by
  induction l with
  | nil => simp [insertKey]
  | cons y ys ih =>
    rw [insertKey]
    have hy := List.pairwise_cons.1 h
    split_ifs with h1 h2
    · exact h
    · exact List.pairwise_cons.2 ⟨fun a ha => by
        rcases List.mem_cons.1 ha with rfl | ha
        · exact h2
        · exact lt_trans h2 (hy.1 a ha), h⟩
    · exact List.pairwise_cons.2 ⟨fun a ha => by
        rcases mem_insertKey.1 ha with rfl | ha
        · exact lt_or (Ne.symm h1) (by simpa using h2)
        · exact hy.1 a ha, ih hy.2⟩

theorem insertKey_of_mem {k : Id} {l : List Id} (h : Sorted l) (hk : k ∈ l) : insertKey k l = l := by
  induction l with
  | nil => simp at hk
  | cons y ys ih =>
    rw [insertKey]
    have hy := List.pairwise_cons.1 h
    split_ifs with h1 h2
    · rfl
    · exfalso
      rcases List.mem_cons.1 hk with rfl | hk
      · exact h1 rfl
      · have := lt_trans h2 (hy.1 k hk); rw [lt_irrefl] at this; cases this
    · rcases List.mem_cons.1 hk with rfl | hk
      · exact absurd rfl h1
      · rw [ih hy.2 hk]

@[simp] theorem set_node_self (d : Dag) (k : Id) (g : DagGate) : (d.set k g).node k = g := by
  simp [Dag.set]

theorem set_node_ne {d : Dag} {k x : Id} {g : DagGate} (h : x ≠ k) : (d.set k g).node x = d.node x := by
  simp [Dag.set, h]

theorem mem_set {d : Dag} {k x : Id} {g : DagGate} : x ∈ (d.set k g).keys ↔ x = k ∨ x ∈ d.keys :=
  mem_insertKey

theorem V_inj {a b : ℕ} : V a = V b ↔ a = b := by simp [V]

/-! ### Reading the program -/

/-- the gate a line defines -/
def gateOfStmt : Stmt → Option (ℕ × DagGate)
  | .gate op t a b => some (t, { ty := op.code, id := V t, input0 := V a, input1 := V b })
  | .sum t a b => some (t, { ty := 5, id := V t, input0 := V a, input1 := V b })
  | .expSum t a b => some (t, { ty := 12, id := V t, input0 := V a, input1 := V b })
  | .bit t a b => some (t, { ty := 13, id := V t, input0 := V a, input1 := V b })
  | .input t i => some (t, { ty := 3, id := V t, input0 := I i, input1 := N })
  | .output _ _ => none
  | .const _ _ => none

/-- two gates that differ at most in level, number and list of successors -/
def SameGate (g g' : DagGate) : Prop :=
  g.ty = g'.ty ∧ g.input0 = g'.input0 ∧ g.input1 = g'.input1 ∧ g.id = g'.id

theorem SameGate.refl (g : DagGate) : SameGate g g := ⟨rfl, rfl, rfl, rfl⟩
theorem SameGate.trans {a b c : DagGate} (h : SameGate a b) (h' : SameGate b c) : SameGate a c :=
  ⟨h.1.trans h'.1, h.2.1.trans h'.2.1, h.2.2.1.trans h'.2.2.1, h.2.2.2.trans h'.2.2.2⟩
theorem SameGate.symm {a b : DagGate} (h : SameGate a b) : SameGate b a :=
  ⟨h.1.symm, h.2.1.symm, h.2.2.1.symm, h.2.2.2.symm⟩

/-- the gate is the one of a line of the program -/
def FromLine (P : List Stmt) (n : ℕ) (g : DagGate) : Prop :=
  ∃ s ∈ P, ∃ g', gateOfStmt s = some (n, g') ∧ SameGate g g'

theorem FromLine.mono {P Q : List Stmt} {n : ℕ} {g : DagGate} (h : FromLine P n g) (hs : P ⊆ Q) :
    FromLine Q n g := by
  obtain ⟨s, hs', g', h1, h2⟩ := h
  exact ⟨s, hs hs', g', h1, h2⟩

theorem FromLine.id {P : List Stmt} {n : ℕ} {g : DagGate} (h : FromLine P n g) : g.id = V n := by
  obtain ⟨s, -, g', h1, h2⟩ := h
  rw [h2.2.2.2]
  cases s <;> simp [gateOfStmt] at h1 <;> obtain ⟨rfl, rfl⟩ := h1 <;> rfl

/-- the variables a line reads -/
def operands : Stmt → List ℕ
  | .gate _ _ a b => [a, b]
  | .sum _ a b => (List.range (b + 1 - a)).map (a + ·)
  | .expSum _ a b => (List.range (b + 1 - a)).map (a + ·)
  | .bit _ a b => [a, b]
  | .output _ a => [a]
  | _ => []

/-- The state after reading the lines `P`: the keys are increasing variables; every variable defined by a line
is present with the gate of a line; the gates that are not defined are as `operator[]` made them; successors are
defined variables; the operands of the lines `Q` are present. -/
structure Reads (P Q : List Stmt) (d : Dag) : Prop where
  sorted : Sorted d.keys
  vars : ∀ k ∈ d.keys, ∃ n, k = V n
  defined : ∀ s ∈ P, ∀ n, target s = some n → V n ∈ d.keys ∧ FromLine P n (d.node (V n))
  others : ∀ n, (¬ ∃ s ∈ P, target s = some n) → SameGate (d.node (V n)) {}
  succs : ∀ k, ∀ y ∈ (d.node k).outputs, ∃ s ∈ P, ∃ n, y = V n ∧ target s = some n
  present : ∀ s ∈ Q, ∀ a ∈ operands s, V a ∈ d.keys

theorem Reads.set_id {P Q : List Stmt} {d : Dag} (h : Reads P Q d) {n : ℕ} {g : DagGate}
    (hg : SameGate g (d.node (V n)))
    (hs : ∀ y ∈ g.outputs, ∃ s ∈ P, ∃ n, y = V n ∧ target s = some n) :
    Reads P Q (d.set (V n) g) := by
  refine ⟨sorted_insertKey h.sorted, ?_, ?_, ?_, ?_, ?_⟩
  · intro k hk
    rcases mem_set.1 hk with rfl | hk
    exacts [⟨n, rfl⟩, h.vars k hk]
  · intro s hs m hm
    obtain ⟨h1, h2⟩ := h.defined s hs m hm
    refine ⟨mem_set.2 (.inr h1), ?_⟩
    by_cases e : m = n
    · subst e
      obtain ⟨s', hs', g', e1, e2⟩ := h2
      rw [set_node_self]
      exact ⟨s', hs', g', e1, hg.trans e2⟩
    · rwa [set_node_ne (by rwa [Ne, V_inj])]
  · intro m hm
    by_cases e : m = n
    · subst e; rw [set_node_self]; exact hg.trans (h.others m hm)
    · rw [set_node_ne (by rwa [Ne, V_inj])]; exact h.others m hm
  · intro k y hy
    by_cases e : k = V n
    · subst e; rw [set_node_self] at hy; exact hs y hy
    · rw [set_node_ne e] at hy; exact h.succs k y hy
  · intro s hs a ha; exact mem_set.2 (.inr (h.present s hs a ha))

theorem Reads.addOutput {P Q : List Stmt} {d : Dag} (h : Reads P Q d) (a t : ℕ)
    (ht : ∃ s ∈ P, target s = some t) : Reads P Q (d.addOutput (V a) (V t)) := by
  refine h.set_id ⟨rfl, rfl, rfl, rfl⟩ ?_
  intro y hy
  rcases List.mem_append.1 hy with hy | hy
  · exact h.succs _ y hy
  · obtain ⟨s, hs, hs'⟩ := ht
    exact ⟨s, hs, t, by simpa using hy, hs'⟩

theorem Reads.define {P Q : List Stmt} {d : Dag} (h : Reads P Q d) {s : Stmt} {t : ℕ} {g : DagGate}
    (hs : gateOfStmt s = some (t, g)) (ht : target s = some t) :
    Reads (P ++ [s]) Q (d.set (V t) g) := by
  have hout : g.outputs = [] := by
    cases s <;> simp [gateOfStmt] at hs <;> obtain ⟨rfl, rfl⟩ := hs <;> rfl
  have hP : P ⊆ P ++ [s] := List.subset_append_left _ _
  refine ⟨sorted_insertKey h.sorted, ?_, ?_, ?_, ?_, ?_⟩
  · intro k hk
    rcases mem_set.1 hk with rfl | hk
    exacts [⟨t, rfl⟩, h.vars k hk]
  · intro s' hs' n hn
    by_cases e : n = t
    · subst e
      refine ⟨mem_set.2 (.inl rfl), ?_⟩
      rw [set_node_self]
      exact ⟨s, by simp, g, hs, SameGate.refl g⟩
    · rcases List.mem_append.1 hs' with hs' | hs'
      · obtain ⟨h1, h2⟩ := h.defined s' hs' n hn
        refine ⟨mem_set.2 (.inr h1), ?_⟩
        rw [set_node_ne (by rwa [Ne, V_inj])]
        exact h2.mono hP
      · rw [List.mem_singleton] at hs'
        subst hs'
        rw [ht] at hn
        exact absurd (Option.some.inj hn).symm e
  · intro n hn
    have hne : n ≠ t := fun e => hn ⟨s, by simp, by rw [ht, e]⟩
    rw [set_node_ne (by rwa [Ne, V_inj])]
    exact h.others n (fun ⟨s', a, b⟩ => hn ⟨s', hP a, b⟩)
  · intro k y hy
    by_cases e : k = V t
    · subst e; rw [set_node_self, hout] at hy; simp at hy
    · rw [set_node_ne e] at hy
      obtain ⟨s', a, b⟩ := h.succs k y hy
      exact ⟨s', hP a, b⟩
  · intro s' hs' a ha; exact mem_set.2 (.inr (h.present s' hs' a ha))

theorem Reads.addPresent {P Q : List Stmt} {d : Dag} (h : Reads P Q d) {s : Stmt}
    (hs : ∀ a ∈ operands s, V a ∈ d.keys) : Reads P (Q ++ [s]) d :=
  ⟨h.sorted, h.vars, h.defined, h.others, h.succs, by
    intro s' hs' a ha
    rcases List.mem_append.1 hs' with hs' | hs'
    · exact h.present s' hs' a ha
    · rw [List.mem_singleton] at hs'; subst hs'; exact hs a ha⟩

theorem Reads.addOutputs {P Q : List Stmt} {d : Dag} (h : Reads P Q d) (a n t : ℕ)
    (ht : ∃ s ∈ P, target s = some t) :
    Reads P Q (loop n (fun i d => d.addOutput (V (a + i)) (V t)) d) ∧
      ∀ i < n, V (a + i) ∈ (loop n (fun i d => d.addOutput (V (a + i)) (V t)) d).keys := by
  induction n with
  | zero => exact ⟨h, fun i hi => absurd hi (by omega)⟩
  | succ n ih =>
    refine ⟨ih.1.addOutput _ _ ht, fun i hi => ?_⟩
    rw [loop]
    by_cases e : i = n
    · subst e; exact mem_set.2 (.inl rfl)
    · exact mem_set.2 (.inr (ih.2 i (by omega)))

/-- the lines of a version of the compiler -/
def Known (var : Variant) : Stmt → Prop
  | .sum _ _ _ => var = .root
  | .expSum _ _ _ => var = .sha256
  | .bit _ _ _ => var = .sha256
  | .const _ _ => False
  | _ => True

theorem readStmt_reads {var : Variant} {P : List Stmt} {d d' : Dag} {c c' : ℕ} {s : Stmt}
    (h : Reads P P d) (hs : readStmt var (d, c) s = .ok (d', c')) :
    Reads (P ++ [s]) (P ++ [s]) d' ∧ Known var s ∧
      c' = c + inputCount [s] := by
  cases s with
  | gate op t a b =>
    simp only [readStmt, Outcome.ok.injEq, Prod.mk.injEq] at hs
    obtain ⟨rfl, rfl⟩ := hs
    have h1 := h.define (s := .gate op t a b) rfl rfl
    have h2 := (h1.addOutput a t ⟨_, List.mem_append_right _ (List.mem_singleton_self _), rfl⟩).addOutput b t ⟨_, List.mem_append_right _ (List.mem_singleton_self _), rfl⟩
    refine ⟨h2.addPresent ?_, trivial, rfl⟩
    intro x hx
    simp only [operands, List.mem_cons, List.not_mem_nil, or_false] at hx
    rcases hx with rfl | rfl
    · exact mem_set.2 (.inr (mem_set.2 (.inl rfl)))
    · exact mem_set.2 (.inl rfl)
  | bit t a b =>
    simp only [readStmt] at hs
    split_ifs at hs with hv
    simp only [Outcome.ok.injEq, Prod.mk.injEq] at hs
    obtain ⟨rfl, rfl⟩ := hs
    have h1 := h.define (s := .bit t a b) rfl rfl
    have h2 := (h1.addOutput a t ⟨_, List.mem_append_right _ (List.mem_singleton_self _), rfl⟩).addOutput b t ⟨_, List.mem_append_right _ (List.mem_singleton_self _), rfl⟩
    refine ⟨h2.addPresent ?_, hv, rfl⟩
    intro x hx
    simp only [operands, List.mem_cons, List.not_mem_nil, or_false] at hx
    rcases hx with rfl | rfl
    · exact mem_set.2 (.inr (mem_set.2 (.inl rfl)))
    · exact mem_set.2 (.inl rfl)
  | sum t a b =>
    simp only [readStmt] at hs
    split_ifs at hs with hv
    simp only [Outcome.ok.injEq, Prod.mk.injEq, loopFrom] at hs
    obtain ⟨rfl, rfl⟩ := hs
    have h1 := h.define (s := .sum t a b) rfl rfl
    obtain ⟨h2, h3⟩ := h1.addOutputs a (b + 1 - a) t ⟨_, List.mem_append_right _ (List.mem_singleton_self _), rfl⟩
    refine ⟨h2.addPresent ?_, hv, rfl⟩
    intro x hx
    simp only [operands, List.mem_map, List.mem_range] at hx
    obtain ⟨i, hi, rfl⟩ := hx
    exact h3 i hi
  | expSum t a b =>
    simp only [readStmt] at hs
    split_ifs at hs with hv
    simp only [Outcome.ok.injEq, Prod.mk.injEq, loopFrom] at hs
    obtain ⟨rfl, rfl⟩ := hs
    have h1 := h.define (s := .expSum t a b) rfl rfl
    obtain ⟨h2, h3⟩ := h1.addOutputs a (b + 1 - a) t ⟨_, List.mem_append_right _ (List.mem_singleton_self _), rfl⟩
    refine ⟨h2.addPresent ?_, hv, rfl⟩
    intro x hx
    simp only [operands, List.mem_map, List.mem_range] at hx
    obtain ⟨i, hi, rfl⟩ := hx
    exact h3 i hi
  | input t i =>
    simp only [readStmt, Outcome.ok.injEq, Prod.mk.injEq] at hs
    obtain ⟨rfl, rfl⟩ := hs
    have h1 := h.define (s := .input t i) rfl rfl
    exact ⟨h1.addPresent (by simp [operands]), trivial, rfl⟩
  | output o a =>
    simp only [readStmt, Outcome.ok.injEq, Prod.mk.injEq] at hs
    obtain ⟨rfl, rfl⟩ := hs
    have h1 := h.set_id (n := a) (SameGate.refl _) (h.succs _)
    have h2 : Reads (P ++ [.output o a]) P (d.set (V a) (d.node (V a))) := by
      have hP : P ⊆ P ++ [Stmt.output o a] := List.subset_append_left _ _
      refine ⟨h1.sorted, h1.vars, ?_, ?_, ?_, h1.present⟩
      · intro s hs n hn
        rcases List.mem_append.1 hs with hs | hs
        · exact ⟨(h1.defined s hs n hn).1, (h1.defined s hs n hn).2.mono hP⟩
        · rw [List.mem_singleton] at hs; subst hs; simp [target] at hn
      · intro n hn
        exact h1.others n (fun ⟨s', a, b⟩ => hn ⟨s', hP a, b⟩)
      · intro k y hy
        obtain ⟨s', a, b⟩ := h1.succs k y hy
        exact ⟨s', hP a, b⟩
    exact ⟨h2.addPresent (by simp [operands, mem_set]), trivial, rfl⟩
  | const t c => simp [readStmt] at hs

theorem foldlM_append_inv {α β : Type} {f : β → α → Outcome β} {motive : List α → β → Prop}
    {l : List α} {b b' : β} (h0 : motive [] b)
    (hstep : ∀ P s x y, P ++ [s] <+: l → motive P x → f x s = .ok y → motive (P ++ [s]) y)
    (h : l.foldlM f b = .ok b') : motive l b' := by
  suffices ∀ (P l' : List α) (b : β), P ++ l' = l → motive P b → l'.foldlM f b = .ok b' → motive l b' from
    this [] l b rfl h0 h
  intro P l'
  induction l' generalizing P with
  | nil =>
    intro b hP hb h'
    rw [List.append_nil] at hP
    subst hP
    change Outcome.ok b = _ at h'
    cases h'
    exact hb
  | cons a l' ih =>
    intro b hP hb h
    rw [List.foldlM_cons] at h
    obtain ⟨c, h1, h2⟩ := Outcome.bind_eq_ok' h
    have e : (P ++ [a]) ++ l' = l := by simpa using hP
    exact ih (P ++ [a]) c e (hstep P a b c ⟨l', e⟩ hb h1) h2

theorem readProgram_reads {var : Variant} {P : List Stmt} {d : Dag} {c : ℕ}
    (h : readProgram var P = .ok (d, c)) :
    Reads P P d ∧ (∀ s ∈ P, Known var s) ∧ c = inputCount P := by
  have := foldlM_append_inv (f := readStmt var) (l := P) (b := (Dag.empty, 0)) (b' := (d, c))
    (motive := fun Q s => Reads Q Q s.1 ∧ (∀ s ∈ Q, Known var s) ∧ s.2 = inputCount Q) ?_ ?_ h
  · exact this
  · refine ⟨⟨by simp [Dag.empty], by simp [Dag.empty], by simp, ?_, by simp [Dag.empty], by simp⟩, by simp, rfl⟩
    intro n _
    exact SameGate.refl _
  · rintro Q s ⟨x, cx⟩ ⟨y, cy⟩ - ⟨h1, h2, h3⟩ hxy
    obtain ⟨a, b, e⟩ := readStmt_reads h1 hxy
    refine ⟨a, ?_, ?_⟩
    · intro s' hs'
      rcases List.mem_append.1 hs' with hs' | hs'
      · exact h2 s' hs'
      · rw [List.mem_singleton] at hs'; subst hs'; exact b
    · dsimp only at h3 ⊢
      rw [e, h3, inputCount, inputCount, inputCount, List.countP_append]

end Libra.Compiler
