import Verif.Model.OldCompiler
import Verif.Spec.OldProgram
import Verif.Proofs.CompilerDag
import Mathlib.Tactic.Linarith
import Mathlib.Tactic.Ring

/-!
# The older circuit compilers: reading
-/

namespace Libra.OldCompiler
open Spec Compiler

/-! ### Elementary steps -/

theorem push_size (s : St) (g : Node) (l : ℤ) : (s.push g l).size = s.size + 1 := rfl
theorem push_node (s : St) (g : Node) (l : ℤ) (a : ℕ) :
    (s.push g l).node a = if a = s.size then g else s.node a := by simp [St.push, Function.update_apply]
theorem push_outs (s : St) (g : Node) (l : ℤ) (a : ℕ) :
    (s.push g l).outs a = if a = s.size then [] else s.outs a := by simp [St.push, Function.update_apply]
theorem push_lvl (s : St) (g : Node) (l : ℤ) (a : ℕ) :
    (s.push g l).lvl a = if a = s.size then l else s.lvl a := by simp [St.push, Function.update_apply]
theorem push_ids (s : St) (g : Node) (l : ℤ) (x : ℤ) :
    (s.push g l).ids x = if x = g.id then some s.size else s.ids x := by simp [St.push, Function.update_apply]
theorem push_addr (s : St) (g : Node) (l : ℤ) (x : ℤ) :
    (s.push g l).addr x = if x = g.id then s.size else s.addr x := by
  rw [St.addr, push_ids]; split <;> rfl

theorem addOut_size (s : St) (y x : ℤ) : (s.addOut y x).size = s.size := rfl
theorem addOut_node (s : St) (y x : ℤ) : (s.addOut y x).node = s.node := rfl
theorem addOut_lvl (s : St) (y x : ℤ) : (s.addOut y x).lvl = s.lvl := rfl
theorem addOut_outs (s : St) (y x : ℤ) (a : ℕ) :
    (s.addOut y x).outs a = if a = s.addr y then s.outs a ++ [x] else s.outs a := by
  by_cases h : a = s.addr y
  · subst h; simp [St.addOut]
  · simp [St.addOut, h]
theorem addOut_ids (s : St) (y x z : ℤ) :
    (s.addOut y x).ids z = if z = y then some (s.addr y) else s.ids z := by simp [St.addOut, Function.update_apply]
theorem addOut_addr (s : St) (y x z : ℤ) : (s.addOut y x).addr z = s.addr z := by
  rw [St.addr, addOut_ids]
  split
  · next h => subst h; rfl
  · rfl

/-- gate `b` takes the value of gate number `y`, which comes before it and knows about it -/
def Dep (s : St) (b : ℕ) (y : ℤ) : Prop := ∃ a < b, (s.node a).id = y ∧ (s.node b).id ∈ s.outs a

/-- the graph while reading lines; the operands of the first `n` gates are known -/
structure Graph (s : St) (n : ℕ) : Prop where
  pos : 0 < s.size
  addr : ∀ a < s.size, s.addr (s.node a).id = a
  zero : s.node 0 = ⟨3, -1, 0, 0⟩
  nonneg : ∀ a < s.size, a ≠ 0 → 0 ≤ (s.node a).id
  lvl : ∀ a < s.size, s.lvl a = -1
  src : ∀ b < n, b < s.size → (s.node b).ty ≠ 3 → Dep s b (s.node b).u ∧
    (Dep s b (s.node b).v ∨ (s.node b).ty = 6 ∧ (s.node b).v = 0)
  out : ∀ a < s.size, ∀ x ∈ s.outs a, ∃ b < s.size, a < b ∧ (s.node b).id = x ∧ (s.node b).ty ≠ 3
  some : ∀ a < s.size, a ≠ 0 → s.ids (s.node a).id = some a

theorem Graph.inj {s : St} {n : ℕ} (h : Graph s n) {a b : ℕ} (ha : a < s.size) (hb : b < s.size)
    (e : (s.node a).id = (s.node b).id) : a = b := by
  rw [← h.addr a ha, e, h.addr b hb]

theorem start_graph : Graph start 1 where
  pos := Nat.one_pos
  addr := fun a ha => by
    have : a = 0 := by have : a < 1 := ha; omega
    subst this; rfl
  zero := rfl
  nonneg := fun a ha h0 => absurd (by have : a < 1 := ha; omega) h0
  lvl := fun _ _ => rfl
  src := fun _ _ _ h => absurd rfl h
  out := fun _ _ x hx => by cases hx
  some := fun a ha h0 => absurd (by have : a < 1 := ha; omega) h0

/-- a new gate -/
theorem Graph.push {s : St} {n : ℕ} (h : Graph s n) (hn : n ≤ s.size) (g : Node) (h0 : 0 ≤ g.id)
    (hf : ∀ a < s.size, (s.node a).id ≠ g.id) : Graph (s.push g (-1)) n := by
  have hne : ∀ a < s.size, a ≠ s.size := fun a ha => Nat.ne_of_lt ha
  have hnode : ∀ a < s.size, (s.push g (-1)).node a = s.node a := fun a ha => by rw [push_node, if_neg (hne a ha)]
  have hself : (s.push g (-1)).node s.size = g := by rw [push_node, if_pos rfl]
  have houts : ∀ a < s.size, (s.push g (-1)).outs a = s.outs a := fun a ha => by rw [push_outs, if_neg (hne a ha)]
  have cases : ∀ a, a < (s.push g (-1)).size → a < s.size ∨ a = s.size := fun a ha => by
    rw [push_size] at ha; omega
  refine ⟨Nat.succ_pos _, fun a ha => ?_, ?_, fun a ha h1 => ?_, fun a ha => ?_, fun b hbn hb hty => ?_, fun a ha x hx => ?_,
    fun a ha h1 => ?_⟩
  · rcases cases a ha with ha | rfl
    · rw [hnode a ha, push_addr, if_neg (hf a ha), h.addr a ha]
    · rw [hself, push_addr, if_pos rfl]
  · rw [hnode 0 h.pos, h.zero]
  · rcases cases a ha with ha | rfl
    · rw [hnode a ha]; exact h.nonneg a ha h1
    · rw [hself]; exact h0
  · rcases cases a ha with ha | rfl
    · rw [push_lvl, if_neg (hne a ha), h.lvl a ha]
    · rw [push_lvl, if_pos rfl]
  · have hb : b < s.size := by omega
    rw [hnode b hb] at hty ⊢
    have key : ∀ y, Dep s b y → Dep (s.push g (-1)) b y := by
      rintro y ⟨a, ha, e1, e2⟩
      refine ⟨a, ha, ?_, ?_⟩
      · rw [hnode a (by omega), e1]
      · rw [hnode b hb, houts a (by omega)]; exact e2
    exact ⟨key _ (h.src b hbn hb hty).1, (h.src b hbn hb hty).2.imp (key _) id⟩
  · rcases cases a ha with ha | rfl
    · rw [houts a ha] at hx
      obtain ⟨b, hb, h1, h2, h3⟩ := h.out a ha x hx
      exact ⟨b, Nat.lt_succ_of_lt hb, h1, by rw [hnode b hb]; exact ⟨h2, h3⟩⟩
    · rw [push_outs, if_pos rfl] at hx; cases hx
  · rcases cases a ha with ha | rfl
    · rw [hnode a ha, push_ids, if_neg (hf a ha)]; exact h.some a ha h1
    · rw [hself, push_ids, if_pos rfl]

/-- a new edge, from gate `a` to gate `b` -/
theorem Graph.edge {s : St} {n : ℕ} (h : Graph s n) {a b : ℕ} (ha : a < b) (hb : b < s.size)
    (hty : (s.node b).ty ≠ 3) : Graph (s.addOut (s.node a).id (s.node b).id) n := by
  have had : s.addr (s.node a).id = a := h.addr a (by omega)
  have hmono : ∀ c x, x ∈ s.outs c → x ∈ (s.addOut (s.node a).id (s.node b).id).outs c := by
    intro c x hx
    rw [addOut_outs]; split
    · exact List.mem_append_left _ hx
    · exact hx
  refine ⟨h.pos, fun c hc => ?_, h.zero, h.nonneg, h.lvl, fun c hcn hc hty => ?_, fun c hc x hx => ?_, fun c hc h0 => ?_⟩
  · rw [addOut_addr]; exact h.addr c hc
  · have key : ∀ y, Dep s c y → Dep (s.addOut (s.node a).id (s.node b).id) c y := by
      rintro y ⟨e, he, h1, h2⟩
      exact ⟨e, he, h1, hmono _ _ h2⟩
    exact ⟨key _ (h.src c hcn hc hty).1, (h.src c hcn hc hty).2.imp (key _) id⟩
  · rw [addOut_outs, had] at hx
    by_cases e : c = a
    · subst e
      rw [if_pos rfl, List.mem_append, List.mem_singleton] at hx
      rcases hx with hx | rfl
      · exact h.out c hc x hx
      · exact ⟨b, hb, ha, rfl, hty⟩
    · rw [if_neg e] at hx; exact h.out c hc x hx
  · change (s.addOut _ _).ids (s.node c).id = _
    rw [addOut_ids, had]
    split
    · next e => rw [h.inj hc (by omega) e]
    · exact h.some c hc h0

/-- the operands of the next gate are known -/
theorem Graph.close {s : St} {n : ℕ} (h : Graph s n)
    (hs : (s.node n).ty ≠ 3 → Dep s n (s.node n).u ∧ (Dep s n (s.node n).v ∨ (s.node n).ty = 6 ∧ (s.node n).v = 0)) :
    Graph s (n + 1) := by
  refine ⟨h.pos, h.addr, h.zero, h.nonneg, h.lvl, fun b hbn hb hty => ?_, h.out, h.some⟩
  by_cases e : b = n
  · subst e; exact hs hty
  · exact h.src b (by omega) hb hty

/-- what stays the same when gates are added -/
structure Extends (s s' : St) : Prop where
  size : s.size ≤ s'.size
  node : ∀ a < s.size, s'.node a = s.node a
  ptrs : s'.ptrs = s.ptrs
  maxRdl : s'.maxRdl = s.maxRdl
  inp : s'.inp = s.inp

theorem Extends.trans {s s' s'' : St} (h : Extends s s') (h' : Extends s' s'') : Extends s s'' :=
  ⟨h.size.trans h'.size, fun a ha => (h'.node a (lt_of_lt_of_le ha h.size)).trans (h.node a ha), h'.ptrs.trans h.ptrs,
    h'.maxRdl.trans h.maxRdl, h'.inp.trans h.inp⟩

theorem Extends.push (s : St) (g : Node) (l : ℤ) : Extends s (s.push g l) :=
  ⟨Nat.le_succ _, fun a ha => by rw [push_node, if_neg (Nat.ne_of_lt ha)], rfl, rfl, rfl⟩

/-- a gate without operands -/
theorem Graph.leaf {s : St} (h : Graph s s.size) (g : Node) (ht : g.ty = 3) (h0 : 0 ≤ g.id)
    (hf : ∀ a < s.size, (s.node a).id ≠ g.id) : Graph (s.push g (-1)) (s.size + 1) :=
  (h.push le_rfl g h0 hf).close (fun hty => by
    rw [push_node, if_pos rfl] at hty; exact absurd ht hty)

/-- a gate with one operand -/
theorem Graph.unary {s : St} (h : Graph s s.size) (g : Node) (ht : g.ty = 6) (h0 : 0 ≤ g.id)
    (hf : ∀ a < s.size, (s.node a).id ≠ g.id) {a : ℕ} (ha : a < s.size) (hu : g.u = (s.node a).id) (hv : g.v = 0) :
    Graph ((s.push g (-1)).addOut g.u g.id) (s.size + 1) := by
  have e1 : (s.push g (-1)).node a = s.node a := (Extends.push s g (-1)).node a ha
  have e2 : (s.push g (-1)).node s.size = g := by rw [push_node, if_pos rfl]
  have h1 := (h.push le_rfl g h0 hf).edge (a := a) (b := s.size) ha (Nat.lt_succ_self _) (by rw [e2, ht]; decide)
  rw [e1, e2, ← hu] at h1
  refine h1.close (fun _ => ?_)
  rw [addOut_node, e2]
  refine ⟨⟨a, ha, ?_, ?_⟩, Or.inr ⟨ht, hv⟩⟩
  · rw [addOut_node, e1, hu]
  · have a1 : (s.push g (-1)).addr g.u = a := by rw [push_addr, if_neg (by rw [hu]; exact hf a ha), hu, h.addr a ha]
    rw [addOut_node, e2, addOut_outs, a1, if_pos rfl]
    exact List.mem_append_right _ (List.mem_singleton_self _)

/-- a gate with two operands -/
theorem Graph.binary {s : St} (h : Graph s s.size) (g : Node) (ht : g.ty ≠ 3) (h0 : 0 ≤ g.id)
    (hf : ∀ a < s.size, (s.node a).id ≠ g.id) {a b : ℕ} (ha : a < s.size) (hu : g.u = (s.node a).id)
    (hb : b < s.size) (hv : g.v = (s.node b).id) :
    Graph (((s.push g (-1)).addOut g.u g.id).addOut g.v g.id) (s.size + 1) := by
  have e1 : (s.push g (-1)).node a = s.node a := (Extends.push s g (-1)).node a ha
  have e1' : (s.push g (-1)).node b = s.node b := (Extends.push s g (-1)).node b hb
  have e2 : (s.push g (-1)).node s.size = g := by rw [push_node, if_pos rfl]
  have h1 := (h.push le_rfl g h0 hf).edge (a := a) (b := s.size) ha (Nat.lt_succ_self _) (by rw [e2]; exact ht)
  rw [e1, e2, ← hu] at h1
  have h2 := h1.edge (a := b) (b := s.size) hb (Nat.lt_succ_self _) (by rw [addOut_node, e2]; exact ht)
  rw [addOut_node, e1', e2, ← hv] at h2
  have a1 : (s.push g (-1)).addr g.u = a := by rw [push_addr, if_neg (by rw [hu]; exact hf a ha), hu, h.addr a ha]
  have a2 : (s.push g (-1)).addr g.v = b := by rw [push_addr, if_neg (by rw [hv]; exact hf b hb), hv, h.addr b hb]
  refine h2.close (fun _ => ?_)
  simp only [addOut_node, e2]
  refine ⟨⟨a, ha, ?_, ?_⟩, Or.inl ⟨b, hb, ?_, ?_⟩⟩
  · simp only [addOut_node, e1, hu]
  · simp only [addOut_node, e2, addOut_outs, addOut_addr, a1, a2, if_true]
    split <;> simp
  · simp only [addOut_node, e1', hv]
  · simp only [addOut_node, e2, addOut_outs, addOut_addr, a1, a2, if_true]
    simp

theorem Extends.addOut (s : St) (y x : ℤ) : Extends s (s.addOut y x) := ⟨le_rfl, fun _ _ => rfl, rfl, rfl, rfl⟩

/-- the order of the two steps does not matter -/
theorem addOut_push {s : St} {y : ℤ} {g : Node} {x : ℤ} (l : ℤ) (hy : y ≠ g.id) (ha : s.addr y < s.size) :
    (s.addOut y x).push g l = (s.push g l).addOut y x := by
  have e : (s.push g l).addr y = s.addr y := by rw [push_addr, if_neg hy]
  have hne : s.addr y ≠ s.size := Nat.ne_of_lt ha
  unfold St.addOut
  rw [e]
  unfold St.push
  simp only [Function.update_of_ne hne, St.mk.injEq, true_and, and_true]
  exact ⟨Function.update_comm hne _ _ _, Function.update_comm hy _ _ _⟩

/-! ### The wiring file -/

/-- `n` is the number of the input that the variable `x` stands for -/
def IsInput (P : List Stmt) (x n : ℕ) : Prop := .input x n ∈ P ∨ .const x (n : ℤ) ∈ P

/-- `y` is the number of the gate for the variable `x` in copy `r` -/
def Opnd (P : List Stmt) (W : List RStmt) (k M : ℕ) (x r : ℕ) (y : ℤ) : Prop :=
  (∃ n t, IsInput P x n ∧ (passes W)[n * k + r]? = some t ∧ y = (t : ℤ)) ∨
  ((∃ op a b, .gate op x a b ∈ P) ∧ y = ((x * k + r + M : ℕ) : ℤ))

/-- where a gate comes from -/
inductive Origin (P : List Stmt) (W : List RStmt) (k M : ℕ) : Node → Prop
  | zero : Origin P W k M ⟨3, -1, 0, 0⟩
  | const (t : ℕ) (c : ℤ) : .const t c ∈ W → Origin P W k M ⟨3, t, c, 0⟩
  | input (t i : ℕ) (x : ℤ) : .input t i x ∈ W → Origin P W k M ⟨3, t, x, 0⟩
  | pass (t a b : ℕ) : .pass t a b ∈ W → Origin P W k M ⟨0, t, a, -1⟩
  | unary (t a b r : ℕ) (u : ℤ) : .gate .not t a b ∈ P → r < k → Opnd P W k M a r u →
      Origin P W k M ⟨6, ((t * k + r + M : ℕ) : ℤ), u, 0⟩
  | binary (op : Op) (t a b r : ℕ) (u v : ℤ) : .gate op t a b ∈ P → op ≠ .not → r < k → Opnd P W k M a r u →
      Opnd P W k M b r v → Origin P W k M ⟨op.code, ((t * k + r + M : ℕ) : ℤ), u, v⟩

/-- after some lines `Q` of the wiring file -/
structure RInv (P : List Stmt) (W : List RStmt) (k M : ℕ) (Q : List RStmt) (s : St) : Prop where
  graph : Graph s s.size
  origin : ∀ a < s.size, Origin P W k M (s.node a)
  ids : ∀ a < s.size, a ≠ 0 → ∃ l ∈ Q, ∃ t, rtarget l = some t ∧ (s.node a).id = (t : ℤ)
  defined : ∀ l ∈ Q, ∀ t, rtarget l = some t → (∃ a < s.size, a ≠ 0 ∧ (s.node a).id = (t : ℤ)) ∧ t ≤ s.maxRdl
  ptrs : s.ptrs.map (fun p => (s.node p).id) = (passes Q).map (fun t => ((t : ℕ) : ℤ))
  ptrsLt : ∀ p ∈ s.ptrs, p < s.size ∧ p ≠ 0
  inp : s.inp = fun _ => none

theorem passes_append (A B : List RStmt) : passes (A ++ B) = passes A ++ passes B := by simp [passes]

theorem start_inv (P : List Stmt) (W : List RStmt) (k M : ℕ) : RInv P W k M [] start where
  graph := start_graph
  origin := fun _ _ => .zero
  ids := fun a ha h0 => absurd (by have : a < 1 := ha; omega) h0
  defined := fun l hl => by cases hl
  ptrs := rfl
  ptrsLt := fun p hp => by cases hp
  inp := rfl

/-- a line that defines the variable `t` by a gate -/
theorem RInv.add {P : List Stmt} {W : List RStmt} {k M : ℕ} {Q : List RStmt} {s s' : St} (h : RInv P W k M Q s) (l : RStmt) (t : ℕ)
    (hl : rtarget l = some t) (hs : s'.size = s.size + 1) (hg : Graph s' (s.size + 1))
    (hn : ∀ a < s.size, s'.node a = s.node a) (ho : Origin P W k M (s'.node s.size))
    (hid : (s'.node s.size).id = (t : ℤ)) (hm : s'.maxRdl = max s.maxRdl t)
    (hp : s'.ptrs = s.ptrs ++ (passes [l]).map (fun _ => s.size)) (hp1 : ∀ x ∈ passes [l], x = t) (hinp : s'.inp = s.inp) :
    RInv P W k M (Q ++ [l]) s' := by
  have cases : ∀ a, a < s'.size → a < s.size ∨ a = s.size := fun a ha => by rw [hs] at ha; omega
  refine ⟨hs ▸ hg, fun a ha => ?_, fun a ha h0 => ?_, fun l' hl' t' ht' => ?_, ?_, fun p hp' => ?_, hinp.trans h.inp⟩
  · rcases cases a ha with ha | rfl
    · rw [hn a ha]; exact h.origin a ha
    · exact ho
  · rcases cases a ha with ha | rfl
    · obtain ⟨l', hl', r⟩ := h.ids a ha h0
      exact ⟨l', List.mem_append_left _ hl', by rw [hn a ha]; exact r⟩
    · exact ⟨l, by simp, t, hl, hid⟩
  · rcases List.mem_append.1 hl' with hl' | hl'
    · obtain ⟨⟨a, ha, h0, e⟩, h2⟩ := h.defined l' hl' t' ht'
      exact ⟨⟨a, by omega, h0, by rw [hn a ha]; exact e⟩, by omega⟩
    · rw [List.mem_singleton] at hl'
      subst hl'
      rw [hl] at ht'
      cases ht'
      exact ⟨⟨s.size, by omega, Nat.pos_iff_ne_zero.1 h.graph.pos, hid⟩, by omega⟩
  · rw [hp, passes_append, List.map_append, List.map_append, ← h.ptrs, List.map_map]
    congr 1
    · exact List.map_congr_left (fun p hp => by rw [hn p (h.ptrsLt p hp).1])
    · exact List.map_congr_left (fun x hx => by dsimp only [Function.comp]; rw [hid, hp1 x hx])
  · rw [hp] at hp'
    rcases List.mem_append.1 hp' with hp' | hp'
    · exact ⟨by have := (h.ptrsLt p hp').1; omega, (h.ptrsLt p hp').2⟩
    · obtain ⟨x, -, rfl⟩ := List.mem_map.1 hp'
      exact ⟨by omega, Nat.pos_iff_ne_zero.1 h.graph.pos⟩

theorem RInv.fresh {P : List Stmt} {W : List RStmt} {k M : ℕ} {Q : List RStmt} {s : St} (h : RInv P W k M Q s) {t : ℕ}
    (ht : ∀ l ∈ Q, rtarget l ≠ some t) : ∀ a < s.size, (s.node a).id ≠ (t : ℤ) := by
  intro a ha e
  by_cases h0 : a = 0
  · subst h0; rw [h.graph.zero] at e; simp at e
  · obtain ⟨l, hl, t', h1, h2⟩ := h.ids a ha h0
    rw [h2] at e
    have : t' = t := by exact_mod_cast e
    exact ht l hl (this ▸ h1)

theorem readRLine_inv {P : List Stmt} {W : List RStmt} {k M : ℕ} {Q : List RStmt} {s : St} {l : RStmt} (h : RInv P W k M Q s)
    (hW : OldWiringOk W) (hl : Q ++ [l] <+: W) : RInv P W k M (Q ++ [l]) (readRLine s l) := by
  have hmem : l ∈ W := hl.subset (by simp)
  have hfresh : ∀ t, rtarget l = some t → ∀ l' ∈ Q, rtarget l' ≠ some t := by
    intro t ht l' hl' ht'
    have hnd := (hl.sublist.filterMap rtarget).nodup hW.single
    rw [List.filterMap_append, List.nodup_append] at hnd
    exact hnd.2.2 t (List.mem_filterMap.2 ⟨l', hl', ht'⟩) t (List.mem_filterMap.2 ⟨l, by simp, ht⟩) rfl
  cases l with
  | const t c =>
    refine h.add _ t rfl rfl ?_ (fun a ha => (Extends.push s _ (-1)).node a ha) ?_ ?_ rfl (by simp [passes, readRLine, St.push]) (by simp [passes]) rfl
    · have := h.graph.leaf ⟨3, t, c, 0⟩ rfl (Int.natCast_nonneg _) (h.fresh (hfresh t rfl))
      exact ⟨this.pos, this.addr, this.zero, this.nonneg, this.lvl, this.src, this.out, this.some⟩
    · change Origin _ _ _ _ ((s.push _ (-1)).node _); rw [push_node, if_pos rfl]; exact .const t c hmem
    · change ((s.push _ (-1)).node _).id = _; rw [push_node, if_pos rfl]
  | input t i x =>
    refine h.add _ t rfl rfl ?_ (fun a ha => (Extends.push s _ (-1)).node a ha) ?_ ?_ rfl (by simp [passes, readRLine, St.push]) (by simp [passes]) rfl
    · have := h.graph.leaf ⟨3, t, x, 0⟩ rfl (Int.natCast_nonneg _) (h.fresh (hfresh t rfl))
      exact ⟨this.pos, this.addr, this.zero, this.nonneg, this.lvl, this.src, this.out, this.some⟩
    · change Origin _ _ _ _ ((s.push _ (-1)).node _); rw [push_node, if_pos rfl]; exact .input t i x hmem
    · change ((s.push _ (-1)).node _).id = _; rw [push_node, if_pos rfl]
  | output o a =>
    have hp : passes (Q ++ [.output o a]) = passes Q := by simp [passes]
    refine ⟨h.graph, h.origin, fun b hb h0 => ?_, fun l' hl' t' ht' => ?_, by rw [hp]; exact h.ptrs, h.ptrsLt, h.inp⟩
    · obtain ⟨l', hl', r⟩ := h.ids b hb h0
      exact ⟨l', List.mem_append_left _ hl', r⟩
    · rcases List.mem_append.1 hl' with hl' | hl'
      · exact h.defined l' hl' t' ht'
      · rw [List.mem_singleton] at hl'; subst hl'; cases ht'
  | pass t a b =>
    obtain ⟨l', hl', ha'⟩ := hW.order Q t a b hl
    obtain ⟨⟨p, hp, hp0, hpid⟩, -⟩ := h.defined l' hl' a ha'
    have hf := h.fresh (hfresh t rfl)
    have hpa : s.addr (a : ℤ) = p := by rw [← hpid]; exact h.graph.addr p hp
    have hza : s.addr (-1) = 0 := by
      have := h.graph.addr 0 h.graph.pos
      rwa [h.graph.zero] at this
    have ht1 : ((-1 : ℤ)) ≠ (t : ℤ) := by omega
    have hne : ((a : ℤ)) ≠ (t : ℤ) := by rw [← hpid]; exact hf p hp
    have key : ((s.addOut a t).addOut (-1) t).push ⟨0, t, a, -1⟩ (-1) = ((s.push ⟨0, t, a, -1⟩ (-1)).addOut a t).addOut (-1) t := by
      rw [addOut_push (g := ⟨0, t, a, -1⟩) (-1) ht1 (by rw [addOut_addr, hza, addOut_size]; exact h.graph.pos),
        addOut_push (g := ⟨0, t, a, -1⟩) (-1) hne (by rw [hpa]; exact hp)]
    have hg := h.graph.binary ⟨0, t, a, -1⟩ (by change (0 : ℤ) ≠ 3; decide) (Int.natCast_nonneg _) hf hp hpid.symm h.graph.pos (by rw [h.graph.zero])
    have hnode : ∀ c, (readRLine s (.pass t a b)).node c = (s.push ⟨0, t, a, -1⟩ (-1)).node c := fun c => rfl
    refine h.add _ t rfl rfl ?_ (fun c hc => (hnode c).trans ((Extends.push s _ (-1)).node c hc)) ?_ ?_ rfl ?_ (by simp [passes]) rfl
    · rw [← key] at hg
      exact ⟨hg.pos, hg.addr, hg.zero, hg.nonneg, hg.lvl, hg.src, hg.out, hg.some⟩
    · rw [hnode, push_node, if_pos rfl]; exact .pass t a b hmem
    · rw [hnode, push_node, if_pos rfl]
    · simp [passes, readRLine, St.addOut]

theorem readWiring_inv {P : List Stmt} {W : List RStmt} {k M : ℕ} (hW : OldWiringOk W) (R : List RStmt) (Q : List RStmt) (s : St)
    (h : RInv P W k M Q s) (hQ : Q ++ R = W) : RInv P W k M W (R.foldl readRLine s) := by
  induction R generalizing Q s with
  | nil => rw [List.append_nil] at hQ; subst hQ; exact h
  | cons l R ih =>
    refine ih (Q ++ [l]) _ (readRLine_inv h hW ⟨R, by rw [← hQ]; simp⟩) (by rw [← hQ]; simp)

/-! ### The program -/

/-- while reading the program; `dom t r` says that there is a gate for the variable `t` of copy `r` -/
structure PInv (P : List Stmt) (W : List RStmt) (k M : ℕ) (dom : ℕ → ℕ → Prop) (s : St) : Prop where
  graph : Graph s s.size
  origin : ∀ a < s.size, Origin P W k M (s.node a)
  ids : ∀ a < s.size, (s.node a).id < M ∨ ∃ t r, dom t r ∧ r < k ∧ (s.node a).id = ((t * k + r + M : ℕ) : ℤ)
  wired : ∀ l ∈ W, ∀ t, rtarget l = some t → ∃ a < s.size, (s.node a).id = (t : ℤ)
  copies : ∀ t r, dom t r → r < k → ∃ a < s.size, a ≠ 0 ∧ (s.node a).id = ((t * k + r + M : ℕ) : ℤ)
  ptrs : s.ptrs.map (fun p => (s.node p).id) = (passes W).map (fun t => ((t : ℕ) : ℤ))
  ptrsLt : ∀ p ∈ s.ptrs, p < s.size ∧ p ≠ 0
  maxRdl : s.maxRdl = M

/-- the meaning of `circuit_input` after the lines `Q` -/
def InpOk (Q : List Stmt) (inp : ℕ → Option ℤ) : Prop :=
  (∀ x n, IsInput Q x n → inp x = some (n : ℤ)) ∧ (∀ op x a b, .gate op x a b ∈ Q → inp x = none) ∧
    ∀ x c, inp x = some c → ∃ st ∈ Q, target st = some x

/-- the result of `read_rdl` -/
theorem readWiring_ok {P : List Stmt} {W : List RStmt} {k : ℕ} (hk : 0 < k) (hW : OldWiringOk W) (hd : k ∣ (passes W).length) :
    ∃ s M, readWiring k W = .ok s ∧ PInv P W k M (fun _ _ => False) s ∧ s.inp = (fun _ => none) ∧
      ∀ l ∈ W, ∀ t, rtarget l = some t → t < M := by
  have hlen : (W.foldl readRLine start).ptrs.length = (passes W).length := by
    have := congrArg List.length (readWiring_inv (P := P) (k := k) (M := 0) hW W [] start (start_inv P W k 0) rfl).ptrs
    simpa using this
  have h := readWiring_inv (P := P) (k := k) (M := (W.foldl readRLine start).maxRdl + 1) hW W [] start (start_inv P W k _) rfl
  have hb : ∀ l ∈ W, ∀ t, rtarget l = some t → t < (W.foldl readRLine start).maxRdl + 1 := fun l hl t ht => by
    have := (h.defined l hl t ht).2; omega
  refine ⟨{ W.foldl readRLine start with maxRdl := (W.foldl readRLine start).maxRdl + 1 }, _, ?_, ?_, h.inp, hb⟩
  · unfold readWiring
    rw [if_neg (by omega)]
    dsimp only
    rw [hlen, Nat.div_mul_cancel hd, beq_self_eq_true]
    rfl
  · refine ⟨?_, h.origin, fun a ha => Or.inl ?_, fun l hl t ht => ?_, fun t r hf => hf.elim, h.ptrs, h.ptrsLt, rfl⟩
    · have := h.graph
      exact ⟨this.pos, this.addr, this.zero, this.nonneg, this.lvl, this.src, this.out, this.some⟩
    · change ((W.foldl readRLine start).node a).id < _
      by_cases h0 : a = 0
      · subst h0; rw [h.graph.zero]; push_cast; omega
      · obtain ⟨l, hl, t, h1, h2⟩ := h.ids a ha h0
        rw [h2]; exact_mod_cast hb l hl t h1
    · obtain ⟨⟨a, ha, -, e⟩, -⟩ := h.defined l hl t ht
      exact ⟨a, ha, e⟩

/-- the operand for a variable that is defined -/
theorem operand_ok {prog : Program} {P Q : List Stmt} {W : List RStmt} {k M : ℕ} {dom : ℕ → ℕ → Prop} {s : St} (h : PInv P W k M dom s)
    (hP : OldProgramOk P (passes W).length k) (hprog : prog = .lanczos → OnlyArithmetic P)
    (hQ : Q ⊆ P) (hi : InpOk Q s.inp) (hdom : ∀ op x a b, .gate op x a b ∈ Q → ∀ r < k, dom x r)
    {x r : ℕ} (hr : r < k) (hx : ∃ st ∈ Q, target st = some x) :
    ∃ y, operand prog k s r x = .ok y ∧ Opnd P W k M x r y ∧ ∃ a < s.size, a ≠ 0 ∧ (s.node a).id = y := by
  obtain ⟨st, hst, ht⟩ := hx
  have input : ∀ n : ℕ, IsInput Q x n → (n + 1) * k ≤ (passes W).length → (prog = .lanczos → n = x) →
      ∃ y, operand prog k s r x = .ok y ∧ Opnd P W k M x r y ∧ ∃ a < s.size, a ≠ 0 ∧ (s.node a).id = y := by
    intro n hn hlen hl
    have hlt : n * k + r < (passes W).length := by
      have : (n + 1) * k = n * k + k := by ring
      omega
    have hlt' : n * k + r < s.ptrs.length := by
      have := congrArg List.length h.ptrs
      simp only [List.length_map] at this
      omega
    have hp : (s.node s.ptrs[n * k + r]).id = (((passes W)[n * k + r] : ℕ) : ℤ) := by
      have e : (s.ptrs.map (fun p => (s.node p).id))[n * k + r]? = ((passes W).map (fun t => ((t : ℕ) : ℤ)))[n * k + r]? := by
        rw [h.ptrs]
      rw [List.getElem?_map, List.getElem?_map, List.getElem?_eq_getElem hlt, List.getElem?_eq_getElem hlt'] at e
      simpa using e
    refine ⟨(((passes W)[n * k + r] : ℕ) : ℤ), ?_, Or.inl ⟨n, _, ?_, List.getElem?_eq_getElem hlt, rfl⟩,
      s.ptrs[n * k + r], (h.ptrsLt _ (List.getElem_mem _)).1, (h.ptrsLt _ (List.getElem_mem _)).2, hp⟩
    · unfold operand
      rw [hi.1 x n hn]
      have e : ((if prog = .sha then (n : ℤ) else (x : ℤ)) * (k : ℤ) + (r : ℤ)) = ((n * k + r : ℕ) : ℤ) := by
        cases prog with
        | sha => simp
        | lanczos => rw [← hl rfl]; simp
      dsimp only
      rw [e, if_pos (Int.natCast_nonneg _), Int.toNat_natCast, List.getElem?_eq_getElem hlt', ← hp]
      rfl
    · exact hn.imp (fun h => hQ h) (fun h => hQ h)
  cases st with
  | gate op t a b =>
    cases ht
    obtain ⟨c, hc, h0, e⟩ := h.copies x r (hdom op x a b hst r hr) hr
    refine ⟨_, ?_, Or.inr ⟨⟨op, a, b, hQ hst⟩, rfl⟩, c, hc, h0, e⟩
    unfold operand
    rw [hi.2.1 op x a b hst, h.maxRdl]
  | input t i =>
    cases ht
    exact input i (Or.inl hst) (hP.inputs x i (hQ hst)) (fun hl => ((hprog hl).2.2 x i (hQ hst)).symm)
  | const t c =>
    cases ht
    obtain ⟨i, rfl, hlen⟩ := hP.consts x c (hQ hst)
    exact input i (Or.inr hst) hlen (fun hl => absurd (hQ hst) ((hprog hl).2.1 x i))
  | sum t a b => exact absurd (hQ hst) (hP.lines t a b).1
  | expSum t a b => exact absurd (hQ hst) (hP.lines t a b).2.1
  | bit t a b => exact absurd (hQ hst) (hP.lines t a b).2.2
  | output o a => cases ht

theorem copy_inj {k t t' r r' M : ℕ} (hr : r < k) (hr' : r' < k) (h : t * k + r + M = t' * k + r' + M) : t = t' ∧ r = r' := by
  have h1 : t * k + r = t' * k + r' := by omega
  have hk : 0 < k := by omega
  have e1 : (t * k + r) / k = t := by rw [Nat.add_comm, Nat.add_mul_div_right _ _ hk, Nat.div_eq_of_lt hr, Nat.zero_add]
  have e2 : (t' * k + r') / k = t' := by rw [Nat.add_comm, Nat.add_mul_div_right _ _ hk, Nat.div_eq_of_lt hr', Nat.zero_add]
  have : t = t' := by rw [← e1, h1, e2]
  subst this
  exact ⟨rfl, by omega⟩

/-- a new gate for the variable `t` of copy `r` -/
theorem PInv.add {P : List Stmt} {W : List RStmt} {k M : ℕ} {dom : ℕ → ℕ → Prop} {s s' : St} (h : PInv P W k M dom s) (t r : ℕ)
    (hr : r < k) (hs : s'.size = s.size + 1) (hg : Graph s' (s.size + 1)) (hn : ∀ a < s.size, s'.node a = s.node a)
    (ho : Origin P W k M (s'.node s.size)) (hid : (s'.node s.size).id = ((t * k + r + M : ℕ) : ℤ))
    (hm : s'.maxRdl = s.maxRdl) (hp : s'.ptrs = s.ptrs) :
    PInv P W k M (fun t' r' => dom t' r' ∨ t' = t ∧ r' = r) s' := by
  have cases : ∀ a, a < s'.size → a < s.size ∨ a = s.size := fun a ha => by rw [hs] at ha; omega
  refine ⟨hs ▸ hg, fun a ha => ?_, fun a ha => ?_, fun l hl t' ht' => ?_, fun t' r' hd hr' => ?_, ?_, fun p hp' => ?_,
    hm.trans h.maxRdl⟩
  · rcases cases a ha with ha | rfl
    · rw [hn a ha]; exact h.origin a ha
    · exact ho
  · rcases cases a ha with ha | rfl
    · rw [hn a ha]
      exact (h.ids a ha).imp_right (fun ⟨t', r', h1, h2⟩ => ⟨t', r', Or.inl h1, h2⟩)
    · exact Or.inr ⟨t, r, Or.inr ⟨rfl, rfl⟩, hr, hid⟩
  · obtain ⟨a, ha, e⟩ := h.wired l hl t' ht'
    exact ⟨a, by omega, by rw [hn a ha]; exact e⟩
  · rcases hd with hd | ⟨rfl, rfl⟩
    · obtain ⟨a, ha, h0, e⟩ := h.copies t' r' hd hr'
      exact ⟨a, by omega, h0, by rw [hn a ha]; exact e⟩
    · exact ⟨s.size, by omega, Nat.pos_iff_ne_zero.1 h.graph.pos, hid⟩
  · rw [hp, ← h.ptrs]
    exact List.map_congr_left (fun p hp => by rw [hn p (h.ptrsLt p hp).1])
  · rw [hp] at hp'
    exact ⟨by have := (h.ptrsLt p hp').1; omega, (h.ptrsLt p hp').2⟩

theorem PInv.fresh {P : List Stmt} {W : List RStmt} {k M : ℕ} {dom : ℕ → ℕ → Prop} {s : St} (h : PInv P W k M dom s) {t r : ℕ}
    (hr : r < k) (hd : ¬ dom t r) : ∀ a < s.size, (s.node a).id ≠ ((t * k + r + M : ℕ) : ℤ) := by
  intro a ha e
  rcases h.ids a ha with h1 | ⟨t', r', h1, h2, h3⟩
  · rw [e] at h1
    push_cast at h1
    have : (0 : ℤ) ≤ (t : ℤ) * k := by positivity
    omega
  · rw [h3] at e
    obtain ⟨rfl, rfl⟩ := copy_inj h2 hr (by exact_mod_cast e)
    exact hd h1

theorem PInv.mono {P : List Stmt} {W : List RStmt} {k M : ℕ} {dom dom' : ℕ → ℕ → Prop} {s : St} (h : PInv P W k M dom s)
    (hd : ∀ t r, r < k → (dom t r ↔ dom' t r)) : PInv P W k M dom' s :=
  ⟨h.graph, h.origin, fun a ha => (h.ids a ha).imp_right (fun ⟨t, r, h1, h2, h3⟩ => ⟨t, r, (hd t r h2).1 h1, h2, h3⟩), h.wired,
    fun t r h1 h2 => h.copies t r ((hd t r h2).2 h1) h2, h.ptrs, h.ptrsLt, h.maxRdl⟩

theorem readCopy_ok {prog : Program} {P Q : List Stmt} {W : List RStmt} {k M : ℕ} {dom : ℕ → ℕ → Prop} {s : St} (h : PInv P W k M dom s)
    (hP : OldProgramOk P (passes W).length k) (hprog : prog = .lanczos → OnlyArithmetic P)
    (hQ : Q ⊆ P) (hi : InpOk Q s.inp) (hdom : ∀ op x a b, .gate op x a b ∈ Q → ∀ r < k, dom x r)
    {op : Op} {t a b r : ℕ} (hr : r < k) (hst : .gate op t a b ∈ P) (ha : ∃ st ∈ Q, target st = some a)
    (hb : op ≠ .not → ∃ st ∈ Q, target st = some b) (hnew : ¬ dom t r) :
    ∃ s', readCopy prog k op t a b r s = .ok s' ∧ PInv P W k M (fun t' r' => dom t' r' ∨ t' = t ∧ r' = r) s' ∧ s'.inp = s.inp := by
  obtain ⟨u, hu, ou, c, hc, hc0, hcu⟩ := operand_ok h hP hprog hQ hi hdom hr ha
  have hf := h.fresh hr hnew
  have hcode : op.code ≠ 3 := by cases op <;> decide
  have h0 : (0 : ℤ) ≤ ((t * k + r + M : ℕ) : ℤ) := Int.natCast_nonneg _
  by_cases hop : op = .not
  · subst hop
    have hids : ((s.push ⟨6, ((t * k + r + M : ℕ) : ℤ), u, 0⟩ (-1)).ids u).isSome := by
      rw [push_ids]
      split
      · rfl
      · rw [← hcu, h.graph.some c hc hc0]; rfl
    refine ⟨(s.push ⟨6, ((t * k + r + M : ℕ) : ℤ), u, 0⟩ (-1)).addOut u ((t * k + r + M : ℕ) : ℤ), ?_, ?_, rfl⟩
    · unfold readCopy
      rw [if_pos rfl, hu, Outcome.ok_bind, h.maxRdl]
      change Outcome.bind (Outcome.assert ((s.push ⟨6, ((t * k + r + M : ℕ) : ℤ), u, 0⟩ (-1)).ids u).isSome) _ = _
      rw [hids]
      rfl
    · have hself : (s.push ⟨6, ((t * k + r + M : ℕ) : ℤ), u, 0⟩ (-1)).node s.size = ⟨6, ((t * k + r + M : ℕ) : ℤ), u, 0⟩ := by
        rw [push_node, if_pos rfl]
      refine h.add t r hr rfl (h.graph.unary ⟨6, _, u, 0⟩ rfl h0 hf hc hcu.symm rfl) (fun c hc => ?_) ?_ ?_ rfl rfl
      · exact (Extends.push s _ (-1)).node c hc
      · rw [addOut_node, hself]; exact .unary t a b r u hst hr ou
      · rw [addOut_node, hself]
  · obtain ⟨v, hv, ov, d, hd, hd0, hdv⟩ := operand_ok h hP hprog hQ hi hdom hr (hb hop)
    have hids : ∀ y c, c < s.size → c ≠ 0 → (s.node c).id = y →
        ((s.push ⟨op.code, ((t * k + r + M : ℕ) : ℤ), u, v⟩ (-1)).ids y).isSome := by
      intro y c hc hc0 hcy
      rw [push_ids]
      split
      · rfl
      · rw [← hcy, h.graph.some c hc hc0]; rfl
    refine ⟨((s.push ⟨op.code, ((t * k + r + M : ℕ) : ℤ), u, v⟩ (-1)).addOut u ((t * k + r + M : ℕ) : ℤ)).addOut v
      ((t * k + r + M : ℕ) : ℤ), ?_, ?_, rfl⟩
    · unfold readCopy
      rw [if_neg hop, hu, Outcome.ok_bind, hv, Outcome.ok_bind, h.maxRdl]
      change Outcome.bind (Outcome.assert ((s.push ⟨op.code, ((t * k + r + M : ℕ) : ℤ), u, v⟩ (-1)).ids u).isSome) (fun _ =>
        Outcome.bind (Outcome.assert ((s.push ⟨op.code, ((t * k + r + M : ℕ) : ℤ), u, v⟩ (-1)).ids v).isSome) _) = _
      rw [hids u c hc hc0 hcu, hids v d hd hd0 hdv]
      rfl
    · have hself : (s.push ⟨op.code, ((t * k + r + M : ℕ) : ℤ), u, v⟩ (-1)).node s.size = ⟨op.code, ((t * k + r + M : ℕ) : ℤ), u, v⟩ := by
        rw [push_node, if_pos rfl]
      refine h.add t r hr rfl (h.graph.binary ⟨op.code, _, u, v⟩ (by change ((op.code : ℕ) : ℤ) ≠ 3; exact_mod_cast hcode) h0 hf hc hcu.symm hd hdv.symm) (fun c hc => ?_) ?_ ?_ rfl rfl
      · exact (Extends.push s _ (-1)).node c hc
      · rw [addOut_node, addOut_node, hself]; exact .binary op t a b r u v hst hop hr ou ov
      · rw [addOut_node, addOut_node, hself]

theorem isInput_snoc {Q : List Stmt} {l : Stmt} {x n : ℕ} (h : IsInput (Q ++ [l]) x n) :
    IsInput Q x n ∨ l = .input x n ∨ l = .const x (n : ℤ) := by
  rcases h with h | h
  · rcases List.mem_append.1 h with h | h
    · exact Or.inl (Or.inl h)
    · exact Or.inr (Or.inl (List.mem_singleton.1 h).symm)
  · rcases List.mem_append.1 h with h | h
    · exact Or.inl (Or.inr h)
    · exact Or.inr (Or.inr (List.mem_singleton.1 h).symm)

theorem gate_snoc {Q : List Stmt} {l : Stmt} {op : Op} {x a b : ℕ} (h : .gate op x a b ∈ Q ++ [l]) :
    .gate op x a b ∈ Q ∨ l = .gate op x a b := by
  rcases List.mem_append.1 h with h | h
  · exact Or.inl h
  · exact Or.inr (List.mem_singleton.1 h).symm

/-- the copies of the variables defined by the gates among the lines -/
def domOf (Q : List Stmt) (t _r : ℕ) : Prop := ∃ op a b, .gate op t a b ∈ Q

theorem readLine_ok {prog : Program} {P Q : List Stmt} {W : List RStmt} {k M : ℕ} {s : St} {l : Stmt}
    (hP : OldProgramOk P (passes W).length k) (hprog : prog = .lanczos → OnlyArithmetic P) (hl : Q ++ [l] <+: P)
    (h : PInv P W k M (domOf Q) s) (hi : InpOk Q s.inp) :
    ∃ s', readLine prog k s l = .ok s' ∧ PInv P W k M (domOf (Q ++ [l])) s' ∧ InpOk (Q ++ [l]) s'.inp := by
  have hmem : l ∈ P := hl.subset (by simp)
  have hQ : Q ⊆ P := fun x hx => hl.subset (List.mem_append_left _ hx)
  have hfresh : ∀ t, target l = some t → ∀ l' ∈ Q, target l' ≠ some t := by
    intro t ht l' hl' ht'
    have hnd := (hl.sublist.filterMap target).nodup hP.single
    rw [List.filterMap_append, List.nodup_append] at hnd
    exact hnd.2.2 t (List.mem_filterMap.2 ⟨l', hl', ht'⟩) t (List.mem_filterMap.2 ⟨l, by simp, ht⟩) rfl
  -- a line that defines an input
  have input : ∀ (t n : ℕ), (l = .input t n ∨ l = .const t (n : ℤ)) → target l = some t →
      PInv P W k M (domOf (Q ++ [l])) { s with inp := Function.update s.inp t (some (n : ℤ)) } ∧
      InpOk (Q ++ [l]) (Function.update s.inp t (some (n : ℤ))) := by
    intro t n hl' ht
    have hng : ∀ op x a b, l ≠ .gate op x a b := by
      intro op x a b e
      rcases hl' with e' | e' <;> rw [e'] at e <;> cases e
    refine ⟨?_, fun x m hx => ?_, fun op x a b hg => ?_, fun x c hc => ?_⟩
    · have := h.mono (dom' := domOf (Q ++ [l])) (fun t r _ => ⟨fun ⟨op, a, b, e⟩ => ⟨op, a, b, List.mem_append_left _ e⟩,
        fun ⟨op, a, b, e⟩ => ⟨op, a, b, (gate_snoc e).resolve_right (hng op t a b)⟩⟩)
      exact ⟨⟨this.graph.pos, this.graph.addr, this.graph.zero, this.graph.nonneg, this.graph.lvl, this.graph.src, this.graph.out,
        this.graph.some⟩, this.origin, this.ids, this.wired, this.copies, this.ptrs, this.ptrsLt, this.maxRdl⟩
    · by_cases e : x = t
      · subst e
        rw [Function.update_self]
        rcases isInput_snoc hx with hx | hx
        · rcases hx with hx | hx <;> exact absurd rfl (hfresh x ht _ hx)
        · rcases hl' with hl' | hl' <;> rcases hx with hx | hx <;> rw [hl'] at hx <;> cases hx <;> rfl
      · rw [Function.update_of_ne e]
        rcases isInput_snoc hx with hx | hx
        · exact hi.1 x m hx
        · exfalso
          have hx' : target l = some x := by rcases hx with hx | hx <;> rw [hx] <;> rfl
          rw [ht] at hx'
          exact e (Option.some.inj hx').symm
    · have hg' := (gate_snoc hg).resolve_right (hng op x a b)
      have e : x ≠ t := by
        rintro rfl
        exact hfresh x ht _ hg' rfl
      rw [Function.update_of_ne e]
      exact hi.2.1 op x a b hg'
    · by_cases e : x = t
      · subst e; exact ⟨l, by simp, ht⟩
      · rw [Function.update_of_ne e] at hc
        obtain ⟨st, hst, e⟩ := hi.2.2 x c hc
        exact ⟨st, List.mem_append_left _ hst, e⟩
  cases l with
  | gate op t a b =>
    obtain ⟨ha, hb⟩ := hP.order Q op t a b hl
    have hop : prog = .sha ∨ op = .add ∨ op = .mult := by
      cases prog with
      | sha => exact Or.inl rfl
      | lanczos => exact Or.inr ((hprog rfl).1 op t a b hmem)
    have key : ∀ n, n ≤ k → ∃ s', loopM n (readCopy prog k op t a b) s = .ok s' ∧
        PInv P W k M (fun t' r' => domOf Q t' r' ∨ t' = t ∧ r' < n) s' ∧ s'.inp = s.inp := by
      intro n
      induction n with
      | zero => exact fun _ => ⟨s, rfl, h.mono (fun t' r' _ => by simp), rfl⟩
      | succ n ih =>
        intro hn
        obtain ⟨s1, e1, h1, i1⟩ := ih (by omega)
        have hnew : ¬ (domOf Q t n ∨ t = t ∧ n < n) := by
          rintro (⟨op', a', b', e⟩ | ⟨-, e⟩)
          · exact hfresh t rfl _ e rfl
          · omega
        obtain ⟨s2, e2, h2, i2⟩ := readCopy_ok h1 hP hprog hQ (i1 ▸ hi)
          (fun op x a b e r _ => Or.inl ⟨op, a, b, e⟩) (show n < k by omega) hmem ha hb hnew
        refine ⟨s2, ?_, h2.mono (fun t' r' _ => ?_), i2.trans i1⟩
        · rw [loopM, e1, Outcome.bind]; exact e2
        · constructor
          · rintro ((h | ⟨h, h'⟩) | ⟨h, h'⟩)
            · exact Or.inl h
            · exact Or.inr ⟨h, by omega⟩
            · exact Or.inr ⟨h, by omega⟩
          · rintro (h | ⟨h, h'⟩)
            · exact Or.inl (Or.inl h)
            · by_cases e : r' = n
              · exact Or.inr ⟨h, e⟩
              · exact Or.inl (Or.inr ⟨h, by omega⟩)
    obtain ⟨s', e, hs', i'⟩ := key k le_rfl
    refine ⟨s', ?_, hs'.mono (fun t' r' hr' => ?_), ?_⟩
    · rw [readLine, if_pos hop, e]
    · constructor
      · rintro (⟨op', a', b', e⟩ | ⟨rfl, -⟩)
        · exact ⟨op', a', b', List.mem_append_left _ e⟩
        · exact ⟨op, a, b, by simp⟩
      · rintro ⟨op', a', b', e⟩
        rcases gate_snoc e with e | e
        · exact Or.inl ⟨op', a', b', e⟩
        · cases e; exact Or.inr ⟨rfl, hr'⟩
    · rw [i']
      refine ⟨fun x n hx => ?_, fun op' x a' b' hg => ?_, fun x c hc => ?_⟩
      · rcases isInput_snoc hx with hx | hx | hx
        · exact hi.1 x n hx
        · cases hx
        · cases hx
      · rcases gate_snoc hg with hg | hg
        · exact hi.2.1 op' x a' b' hg
        · cases hg
          cases hc : s.inp t with
          | none => rfl
          | some c =>
            obtain ⟨st, hst, e⟩ := hi.2.2 t c hc
            exact absurd e (hfresh t rfl st hst)
      · obtain ⟨st, hst, e⟩ := hi.2.2 x c hc
        exact ⟨st, List.mem_append_left _ hst, e⟩
  | input t i =>
    obtain ⟨h1, h2⟩ := input t i (Or.inl rfl) rfl
    cases prog with
    | sha => exact ⟨_, by rw [readLine, if_pos rfl], h1, h2⟩
    | lanczos =>
      have e : t = i := (hprog rfl).2.2 t i hmem
      subst e
      refine ⟨_, ?_, h1, h2⟩
      rw [readLine, if_neg (by decide), beq_self_eq_true]
      rfl
  | const t c =>
    obtain ⟨i, rfl, -⟩ := hP.consts t c hmem
    obtain ⟨h1, h2⟩ := input t i (Or.inr rfl) rfl
    cases prog with
    | sha => exact ⟨_, by rw [readLine, if_pos rfl], h1, h2⟩
    | lanczos => exact absurd hmem ((hprog rfl).2.1 t i)
  | output o a =>
    refine ⟨s, rfl, h.mono (fun t r _ => ⟨fun ⟨op, a, b, e⟩ => ⟨op, a, b, List.mem_append_left _ e⟩,
        fun ⟨op, a, b, e⟩ => ⟨op, a, b, (gate_snoc e).resolve_right (fun e => by cases e)⟩⟩), fun x n hx => ?_, fun op x a b hg => ?_, fun x c hc => ?_⟩
    · rcases isInput_snoc hx with hx | hx | hx
      · exact hi.1 x n hx
      · cases hx
      · cases hx
    · exact hi.2.1 op x a b ((gate_snoc hg).resolve_right (fun e => by cases e))
    · obtain ⟨st, hst, e⟩ := hi.2.2 x c hc
      exact ⟨st, List.mem_append_left _ hst, e⟩
  | sum t a b => exact absurd hmem (hP.lines t a b).1
  | expSum t a b => exact absurd hmem (hP.lines t a b).2.1
  | bit t a b => exact absurd hmem (hP.lines t a b).2.2

theorem readCircuit_ok {prog : Program} {P : List Stmt} {W : List RStmt} {k M : ℕ}
    (hP : OldProgramOk P (passes W).length k) (hprog : prog = .lanczos → OnlyArithmetic P) (R Q : List Stmt) (s : St)
    (hQ : Q ++ R = P) (h : PInv P W k M (domOf Q) s) (hi : InpOk Q s.inp) :
    ∃ s', readCircuit prog k R s = .ok s' ∧ PInv P W k M (domOf P) s' := by
  induction R generalizing Q s with
  | nil => rw [List.append_nil] at hQ; subst hQ; exact ⟨s, rfl, h⟩
  | cons l R ih =>
    obtain ⟨s1, e1, h1, i1⟩ := readLine_ok (l := l) hP hprog ⟨R, by rw [← hQ]; simp⟩ h hi
    obtain ⟨s2, e2, h2⟩ := ih (Q ++ [l]) s1 (by rw [← hQ]; simp) h1 i1
    refine ⟨s2, ?_, h2⟩
    unfold readCircuit at e2 ⊢
    rw [List.foldlM_cons, e1]
    exact e2

end Libra.OldCompiler
