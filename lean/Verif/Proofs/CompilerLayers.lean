import Verif.Proofs.CompilerRelay

/-!
# The circuit compiler: layers
-/

namespace Libra.Compiler
open Spec

/-- the gates of a level, in the order of their keys -/
def levelKeys (d : Dag) (l : ℕ) : List Id := d.keys.filter (fun k => decide ((d.node k).lvl = l))

theorem mem_levelKeys {d : Dag} {l : ℕ} {k : Id} : k ∈ levelKeys d l ↔ k ∈ d.keys ∧ (d.node k).lvl = l := by
  simp [levelKeys]

/-! ### Sizes -/

theorem fullCount_eq (n : ℕ) : fullCount n = 2 ^ bitCount n := by
  induction n using Nat.strong_induction_on with
  | _ n ih =>
    rw [fullCount, bitCount]
    split_ifs with h
    · rfl
    · rw [ih (n / 2) (by omega), pow_succ]; ring

theorem lt_fullCount (n : ℕ) : n < fullCount n := by
  induction n using Nat.strong_induction_on with
  | _ n ih =>
    rw [fullCount]
    split_ifs with h
    · omega
    · have := ih (n / 2) (by omega); omega

theorem fullCount_le (n : ℕ) (h : n ≠ 0) : fullCount n ≤ 2 * n := by
  induction n using Nat.strong_induction_on with
  | _ n ih =>
    rw [fullCount, dif_neg h]
    by_cases h2 : n / 2 = 0
    · rw [h2, fullCount, dif_pos rfl]; omega
    · have := ih (n / 2) (by omega) h2; omega

theorem countLevels_ok {d : Dag} {depth : ℕ} {count : ℕ → ℕ} (h : countLevels d depth = .ok count) :
    (∀ l, count l = (levelKeys d l).length) ∧ ∀ k ∈ d.keys, (d.node k).lvl < depth := by
  have := foldlM_append_inv (motive := fun Q (c : ℕ → ℕ) =>
    (∀ l, c l = (Q.filter (fun k => decide ((d.node k).lvl = l))).length) ∧ ∀ k ∈ Q, (d.node k).lvl < depth)
    ⟨by simp, by simp⟩ ?_ h
  · exact this
  · rintro Q k x y - ⟨h1, h2⟩ hxy
    dsimp only at hxy
    split_ifs at hxy with hl
    cases hxy
    refine ⟨fun l => ?_, fun k' hk' => ?_⟩
    · rw [List.filter_append, List.length_append]
      by_cases e : (d.node k).lvl = l
      · subst e; simp [h1]
      · rw [Function.update_of_ne (Ne.symm e)]; simp [e, h1]
    · rcases List.mem_append.1 hk' with hk' | hk'
      · exact h2 k' hk'
      · rw [List.mem_singleton] at hk'; subst hk'; exact hl

/-- the same graph up to the numbers of the gates -/
def Renumber (d d' : Dag) : Prop :=
  d'.keys = d.keys ∧ ∀ k, SameGate (d'.node k) (d.node k) ∧ (d'.node k).lvl = (d.node k).lvl

theorem foldl_append_inv {α β : Type} {f : β → α → β} {motive : List α → β → Prop}
    {l : List α} {b : β} (h0 : motive [] b)
    (hstep : ∀ P s x, P ++ [s] <+: l → motive P x → motive (P ++ [s]) (f x s)) : motive l (l.foldl f b) := by
  suffices ∀ (P l' : List α) (b : β), P ++ l' = l → motive P b → motive l (l'.foldl f b) from
    this [] l b rfl h0
  intro P l'
  induction l' generalizing P with
  | nil =>
    intro b hP hb
    rw [List.append_nil] at hP
    subst hP
    exact hb
  | cons a l' ih =>
    intro b hP hb
    have e : (P ++ [a]) ++ l' = l := by simpa using hP
    exact ih (P ++ [a]) (f b a) e (hstep P a b ⟨l', e⟩ hb)

theorem assignIds_spec {d : Dag} (hd : Sorted d.keys) :
    Renumber d (assignIds d).1 ∧ (∀ l, (assignIds d).2 l = (levelKeys d l).length) ∧
    ∀ k ∈ d.keys, ((assignIds d).1.node k).lid = (levelKeys d (d.node k).lvl).idxOf k := by
  have := foldl_append_inv (l := d.keys) (b := (d, fun _ : ℕ => 0)) (f := fun (s : Dag × (ℕ → ℕ)) k =>
    let g := s.1.node k
    (s.1.set k { g with lid := s.2 g.lvl }, Function.update s.2 g.lvl (s.2 g.lvl + 1)))
    (motive := fun Q (s : Dag × (ℕ → ℕ)) => Renumber d s.1 ∧
      (∀ l, s.2 l = (Q.filter (fun k => decide ((d.node k).lvl = l))).length) ∧
      ∀ k ∈ Q, (s.1.node k).lid = (Q.filter (fun k' => decide ((d.node k').lvl = (d.node k).lvl))).idxOf k)
    ⟨⟨rfl, fun k => ⟨SameGate.refl _, rfl⟩⟩, by simp, by simp⟩ ?_
  · exact this
  · rintro Q k ⟨x, c⟩ hpre ⟨h1, h2, h3⟩
    have hk : k ∈ d.keys := hpre.subset (by simp)
    have hkQ : k ∉ Q := by
      have := hd.nodup.sublist hpre.sublist
      rw [List.nodup_append] at this
      intro hkQ
      exact this.2.2 k hkQ k (by simp) rfl
    dsimp only at h1 h2 h3 ⊢
    rw [(h1.2 k).2]
    refine ⟨⟨?_, fun y => ?_⟩, fun l => ?_, fun y hy => ?_⟩
    · change insertKey k x.keys = _
      rw [h1.1, insertKey_of_mem hd hk]
    · by_cases e : y = k
      · subst e; rw [set_node_self]; exact ⟨(h1.2 _).1, rfl⟩
      · rw [set_node_ne e]; exact h1.2 y
    · rw [List.filter_append, List.length_append]
      by_cases e : (d.node k).lvl = l
      · subst e; simp [h2]
      · rw [Function.update_of_ne (Ne.symm e)]; simp [e, h2]
    · rw [List.filter_append]
      rcases List.mem_append.1 hy with hy | hy
      · have e : y ≠ k := fun e => hkQ (e ▸ hy)
        rw [set_node_ne e, h3 y hy, List.idxOf_append_of_mem (by simp [hy])]
      · rw [List.mem_singleton] at hy
        subst hy
        rw [set_node_self]
        dsimp only
        rw [List.idxOf_append_of_notMem (by simp [hkQ]), h2]
        simp

theorem emitGates_ok {d : Dag} {gates : ℕ → List LGate} (h : emitGates d = .ok gates) :
    (∀ l, gates l = (levelKeys d l).map (layerGate d)) ∧
    ∀ k ∈ d.keys, ((d.node (d.node k).input0).lvl + 1 = (d.node k).lvl ∨ (d.node k).ty = 3) ∧
      ((d.node (d.node k).input1).lvl + 1 = (d.node k).lvl ∨ (d.node k).ty = 10 ∨ (d.node k).ty = 6 ∨
        (d.node k).ty = 3) := by
  have := foldlM_append_inv (motive := fun Q (gs : ℕ → List LGate) =>
    (∀ l, gs l = (Q.filter (fun k => decide ((d.node k).lvl = l))).map (layerGate d)) ∧
    ∀ k ∈ Q, ((d.node (d.node k).input0).lvl + 1 = (d.node k).lvl ∨ (d.node k).ty = 3) ∧
      ((d.node (d.node k).input1).lvl + 1 = (d.node k).lvl ∨ (d.node k).ty = 10 ∨ (d.node k).ty = 6 ∨
        (d.node k).ty = 3)) ⟨by simp, by simp⟩ ?_ h
  · exact this
  · rintro Q k x y - ⟨h1, h2⟩ hxy
    dsimp only at hxy
    obtain ⟨_, h3, hxy⟩ := Outcome.bind_eq_ok' hxy
    obtain ⟨_, h4, h5⟩ := Outcome.bind_eq_ok' hxy
    cases h5
    have h3 := assert_ok h3
    have h4 := assert_ok h4
    refine ⟨fun l => ?_, fun k' hk' => ?_⟩
    · rw [List.filter_append, List.map_append]
      by_cases e : (d.node k).lvl = l
      · subst e; simp [h1]
      · rw [Function.update_of_ne (Ne.symm e)]; simp [e, h1]
    · rcases List.mem_append.1 hk' with hk' | hk'
      · exact h2 k' hk'
      · rw [List.mem_singleton] at hk'; subst hk'
        simp only [Bool.or_eq_true, decide_eq_true_eq, beq_iff_eq] at h3 h4
        exact ⟨h3, by tauto⟩

theorem pad_eq (gs : List LGate) (c n : ℕ) :
    pad gs c n = gs ++ (List.range n).map (fun j => ⟨2, ((c + j : ℕ) : ℤ), 0, 0⟩) := by
  unfold pad
  induction n with
  | zero => simp [loop]
  | succ n ih => rw [loop, ih, List.range_succ, List.map_append, List.append_assoc]; rfl

/-- how the layers of a block are made from the graph -/
structure Layout (d : Dag) (L : Layered) : Prop where
  sorted : Sorted d.keys
  lid : ∀ k ∈ d.keys, (d.node k).lid = (levelKeys d (d.node k).lvl).idxOf k
  low : ∀ k ∈ d.keys, (d.node k).lvl < L.depth
  gates : ∀ l, L.gates l = (levelKeys d l).map (layerGate d) ++
    (List.range (fullCount (levelKeys d l).length - (levelKeys d l).length)).map
      (fun j => ⟨2, (((levelKeys d l).length + j : ℕ) : ℤ), 0, 0⟩)
  bitLen : ∀ l, L.bitLen l = bitCount (levelKeys d l).length
  padding : ∀ l, L.padding l = fullCount (levelKeys d l).length - (levelKeys d l).length
  below0 : ∀ k ∈ d.keys, (d.node (d.node k).input0).lvl + 1 = (d.node k).lvl ∨ (d.node k).ty = 3
  below1 : ∀ k ∈ d.keys, (d.node (d.node k).input1).lvl + 1 = (d.node k).lvl ∨ (d.node k).ty = 10 ∨
    (d.node k).ty = 6 ∨ (d.node k).ty = 3

theorem Layout.length {d : Dag} {L : Layered} (h : Layout d L) (l : ℕ) :
    (L.gates l).length = 2 ^ L.bitLen l := by
  have := lt_fullCount (levelKeys d l).length
  rw [h.gates, h.bitLen, ← fullCount_eq]
  simp
  omega

/-- What `DAG_to_layered` makes of a program: a graph whose gates are those of the program, with relays in between;
`src` says which variable a gate carries. -/
structure Compiled (P : List Stmt) (d : Dag) (src : Id → Id) (L : Layered) : Prop extends Layout d L where
  vars : ∀ n, src (V n) = V n
  kinds : ∀ k ∈ d.keys, (∃ j, k = R j ∧ (d.node k).ty = 10 ∧ (∃ m, src k = V m) ∧ src (d.node k).input0 = src k) ∨
    ∃ n, k = V n ∧ ∃ s ∈ P, ∃ g, gateOfStmt s = some (n, g) ∧ (d.node k).ty = g.ty ∧
      src (d.node k).input0 = src g.input0 ∧ src (d.node k).input1 = src g.input1 ∧
      (g.ty = 5 ∨ g.ty = 12 → (d.node k).input0 = g.input0 ∧ (d.node k).input1 = g.input1) ∧
      (g.ty = 3 → (d.node k).lvl = 0) ∧ (g.ty = 13 → (d.node k).input0 = (d.node k).input1)
  defined : ∀ s ∈ P, ∀ n, target s = some n → V n ∈ d.keys
  closed0 : ∀ k ∈ d.keys, (d.node k).ty ≠ 3 → (d.node k).input0 ∈ d.keys
  closed1 : ∀ k ∈ d.keys, (d.node k).ty ≠ 3 → (d.node k).ty ≠ 10 → (d.node k).ty ≠ 6 → (d.node k).input1 ∈ d.keys
  range : ∀ k ∈ d.keys, (d.node k).ty = 5 ∨ (d.node k).ty = 12 → ∃ a b, (d.node k).input0 = V a ∧
    (d.node k).input1 = V b ∧ ∀ i, i < b + 1 - a → V (a + i) ∈ d.keys ∧
      (d.node k).lvl = (d.node (V (a + i))).lvl + 1
  top : L.depth = 0 ∨ ∃ k ∈ d.keys, L.depth ≤ (d.node k).lvl + 1

/-- the ranges of `SS` and `EXPSUM` are not empty -/
def RangeOk : Stmt → Prop
  | .sum _ a b => a ≤ b
  | .expSum _ a b => a ≤ b
  | _ => True

/-- the gates of a program before the relays are added -/
theorem plain_of_reads {P : List Stmt} {d copy : Dag} (h : Reads P P d) (hr : ∀ s ∈ P, RangeOk s)
    (hdef : ∀ n, V n ∈ d.keys → FromLine P n (d.node (V n))) (hs : Reshape d copy) : Plain copy := by
  have key : ∀ k ∈ copy.keys, ∃ n, k = V n ∧ ∃ s ∈ P, ∃ g, gateOfStmt s = some (n, g) ∧
      SameGate (copy.node k) g := by
    intro k hk
    rw [hs.1] at hk
    obtain ⟨n, rfl⟩ := h.vars k hk
    obtain ⟨s, hs', g, e, hg⟩ := hdef n hk
    exact ⟨n, rfl, s, hs', g, e, (hs.2 _).1.trans hg⟩
  refine ⟨by rw [hs.1]; exact h.sorted, by rw [hs.1]; exact h.vars, ?_, ?_, ?_⟩
  · intro k hk j
    obtain ⟨n, rfl, s, -, g, e, hg⟩ := key k hk
    rw [hg.2.1, hg.2.2.1]
    cases s <;> simp [gateOfStmt] at e <;> obtain ⟨rfl, rfl⟩ := e <;> simp [V, R, I, N]
  · intro k hk
    obtain ⟨n, rfl, s, -, g, e, hg⟩ := key k hk
    rw [hg.2.2.2]
    cases s <;> simp [gateOfStmt] at e <;> obtain ⟨rfl, rfl⟩ := e <;> rfl
  · intro k hk h3
    obtain ⟨n, rfl, s, hsP, g, e, hg⟩ := key k hk
    rw [hg.1] at h3
    rw [hg.2.1, hg.2.2.1, hs.1]
    have hp := h.present s hsP
    have hrs := hr s hsP
    cases s with
    | gate op t a b =>
      simp [gateOfStmt] at e; obtain ⟨rfl, rfl⟩ := e
      exact ⟨⟨a, rfl, hp a (by simp [operands])⟩, b, rfl, hp b (by simp [operands])⟩
    | bit t a b =>
      simp [gateOfStmt] at e; obtain ⟨rfl, rfl⟩ := e
      exact ⟨⟨a, rfl, hp a (by simp [operands])⟩, b, rfl, hp b (by simp [operands])⟩
    | sum t a b =>
      simp [gateOfStmt] at e; obtain ⟨rfl, rfl⟩ := e
      have hab : a ≤ b := hrs
      refine ⟨⟨a, rfl, hp a ?_⟩, b, rfl, hp b ?_⟩ <;> simp only [operands, List.mem_map, List.mem_range]
      · exact ⟨0, by omega, rfl⟩
      · exact ⟨b - a, by omega, by omega⟩
    | expSum t a b =>
      simp [gateOfStmt] at e; obtain ⟨rfl, rfl⟩ := e
      have hab : a ≤ b := hrs
      refine ⟨⟨a, rfl, hp a ?_⟩, b, rfl, hp b ?_⟩ <;> simp only [operands, List.mem_map, List.mem_range]
      · exact ⟨0, by omega, rfl⟩
      · exact ⟨b - a, by omega, by omega⟩
    | input t i =>
      simp [gateOfStmt] at e; obtain ⟨rfl, rfl⟩ := e
      exact absurd rfl h3
    | output o a => simp [gateOfStmt] at e
    | const t c => simp [gateOfStmt] at e

theorem code_ne (op : Op) : op.code ≠ 3 ∧ op.code ≠ 5 ∧ op.code ≠ 12 ∧ op.code ≠ 13 ∧ op.code ≠ 10 := by
  cases op <;> decide

/-- the intermediate results of `DAG_to_layered` -/
structure Steps (d0 d : Dag) (L : Layered) where
  start : Dag
  state : LevelState
  relayed : Dag × ℕ
  src : Id → Id
  starts : startLevels d0 (inDegrees d0) = .ok start
  leveled : levels (2 * start.keys.length + 1) ⟨start, inDegrees d0, start.keys, 0⟩ = .ok state
  relays : state.dag.keys.foldlM (relayGate state.dag) (state.dag, 0) = .ok relayed
  isRelayed : Relayed state.dag src relayed
  final : d = (assignIds relayed.1).1
  depth : L.depth = state.depth

theorem dagToLayered_steps {P : List Stmt} {d0 : Dag} {L : Layered} (h : Reads P P d0)
    (hr : ∀ s ∈ P, RangeOk s) (hL : dagToLayered d0 = .ok L) : ∃ d src, Compiled P d src L ∧ Nonempty (Steps d0 d L) := by
  unfold dagToLayered at hL
  obtain ⟨d1, h1, hL⟩ := Outcome.bind_eq_ok' hL
  obtain ⟨s, h2, hL⟩ := Outcome.bind_eq_ok' hL
  obtain ⟨⟨d2, c⟩, h3, hL⟩ := Outcome.bind_eq_ok' hL
  obtain ⟨count, h4, hL⟩ := Outcome.bind_eq_ok' hL
  obtain ⟨gates, h5, hL⟩ := Outcome.bind_eq_ok' hL
  dsimp only at h2 h3 h4 h5 hL
  obtain ⟨r1, hstart, -⟩ := startLevels_spec h.sorted h1
  have hdef := allDefined h hstart
  have hsucc : ∀ k, ∀ y ∈ (d0.node k).outputs, y ∈ d0.keys := by
    intro k y hy
    obtain ⟨s', hs', n, rfl, hn⟩ := h.succs k y hy
    exact (h.defined s' hs' n hn).1
  have r2 := levels_shape h.sorted hsucc (s := ⟨d1, inDegrees d0, d1.keys, 0⟩) r1 h2
  have hplain := plain_of_reads h hr hdef r2
  obtain ⟨⟨src, hrel⟩, hchk⟩ := relayAll hplain h3
  obtain ⟨hcount, hlow⟩ := countLevels_ok h4
  obtain ⟨hren, hcnt, hlid⟩ := assignIds_spec hrel.sorted
  obtain ⟨hgates, hbelow⟩ := emitGates_ok h5
  set d3 := (assignIds d2).1 with hd3
  have hkeys : d3.keys = d2.keys := hren.1
  have hlk : ∀ l, levelKeys d3 l = levelKeys d2 l := by
    intro l
    unfold levelKeys
    rw [hkeys]
    congr 1
    funext k
    rw [(hren.2 k).2]
  have hfull : ∀ n, fullCount n - n ≠ 0 := fun n => by have := lt_fullCount n; omega
  cases hL
  have hty : ∀ k ∈ s.dag.keys, (d3.node k).ty = (s.dag.node k).ty := fun k hk => by
    rw [(hren.2 k).1.1]; exact (hrel.gates k hk).1
  have hlvl : ∀ k ∈ s.dag.keys, (d3.node k).lvl = (s.dag.node k).lvl := fun k hk => by
    rw [(hren.2 k).2]; exact (hrel.gates k hk).2.1
  have hin0 : ∀ k, (d3.node k).input0 = (d2.node k).input0 := fun k => (hren.2 k).1.2.1
  have hin1 : ∀ k, (d3.node k).input1 = (d2.node k).input1 := fun k => (hren.2 k).1.2.2.1
  have hVk : ∀ n, V n ∈ d3.keys → V n ∈ s.dag.keys := by
    intro n hn
    rw [hkeys] at hn
    rcases (hrel.keys _).1 hn with h | ⟨j, -, e⟩
    exacts [h, absurd e.symm (R_ne_V j n)]
  have hline : ∀ n, V n ∈ s.dag.keys → ∃ s' ∈ P, ∃ g, gateOfStmt s' = some (n, g) ∧
      SameGate (s.dag.node (V n)) g := by
    intro n hn
    rw [r2.1] at hn
    obtain ⟨s', hs', g, e, hg⟩ := hdef n hn
    exact ⟨s', hs', g, e, (r2.2 _).1.trans hg⟩
  refine ⟨d3, src, ⟨⟨?_, ?_, ?_, ?_, ?_, ?_, ?_, ?_⟩, hrel.vars, ?_, ?_, ?_, ?_, ?_, ?_⟩, ⟨⟨_, _, _, _, h1, h2, h3, hrel, rfl, rfl⟩⟩⟩
  · rw [hkeys]; exact hrel.sorted
  · intro k hk
    rw [hkeys] at hk
    rw [hlk, (hren.2 k).2]
    exact hlid k hk
  · intro k hk
    rw [hkeys] at hk
    rw [(hren.2 k).2]
    exact hlow k hk
  · intro l
    dsimp only
    rw [pad_eq, hgates, hcnt, hcount, hlk]
  · intro l
    dsimp only
    rw [hlk, if_neg (by rw [hcount]; exact hfull _), hcount]
  · intro l
    dsimp only
    rw [hlk, hcount]
  · exact fun k hk => (hbelow k hk).1
  · exact fun k hk => (hbelow k hk).2
  · intro k hk
    have hk' := hk
    rw [hkeys] at hk'
    rcases (hrel.keys _).1 hk' with hkc | ⟨j, hj, rfl⟩
    · right
      obtain ⟨n, rfl⟩ := hplain.vars k hkc
      obtain ⟨s', hs', g, e, hg⟩ := hline n hkc
      obtain ⟨-, -, g3, g4⟩ := hrel.gates _ hkc
      refine ⟨n, rfl, s', hs', g, e, (hty _ hkc).trans hg.1, ?_, ?_, ?_, ?_, ?_⟩
      · rw [hin0, g3, hg.2.1]
      · rw [hin1, g4, hg.2.2.1]
      · intro ht
        rw [← hg.1] at ht
        rw [hin0, hin1, hrel.exact0 _ hkc (by tauto), hrel.exact1 _ hkc (by tauto)]
        exact ⟨hg.2.1, hg.2.2.1⟩
      · intro ht
        rw [hlvl _ hkc]
        exact (hchk _ hkc).1 (hg.1.trans ht)
      · intro ht
        rw [← hg.1] at ht
        have e1 := hrel.exact1 _ hkc (by tauto)
        have hsame := (hchk _ hkc).2.2 ht
        have hb := (hbelow _ hk).2
        rw [hty _ hkc, ht, hin1, e1, hlvl _ hkc] at hb
        have hb' : (d3.node (s.dag.node (V n)).input1).lvl + 1 = (s.dag.node (V n)).lvl := by
          rcases hb with h | h | h | h
          · exact h
          all_goals exact absurd h (by decide)
        obtain ⟨-, m, e2, hm⟩ := hplain.operands _ hkc (by rw [ht]; decide)
        rw [e2, hlvl _ hm] at hb'
        rw [hin0, hin1, e1, hrel.exact0 _ hkc (.inr (.inr (.inr (by rw [hsame, e2, hb']))))]
        exact hsame
    · left
      obtain ⟨a, b, c'⟩ := hrel.relays j hj
      exact ⟨j, rfl, (hren.2 _).1.1.trans a, b, by rw [hin0]; exact c'⟩
  · intro s' hs' n hn
    rw [hkeys, hrel.keys]
    left
    rw [r2.1]
    exact (h.defined s' hs' n hn).1
  · intro k hk h3
    rw [hkeys] at hk ⊢
    rw [(hren.2 k).1.1] at h3
    rw [hin0]
    exact hrel.closed0 k hk h3
  · intro k hk h3 h10 h6
    rw [hkeys] at hk ⊢
    rw [(hren.2 k).1.1] at h3 h10
    rw [hin1]
    exact hrel.closed1 k hk h3 h10
  · intro k hk ht
    have hk' := hk
    rw [hkeys] at hk'
    rcases (hrel.keys _).1 hk' with hkc | ⟨j, hj, rfl⟩
    · rw [hty _ hkc] at ht
      obtain ⟨n, rfl⟩ := hplain.vars k hkc
      have e0 := hrel.exact0 _ hkc (by tauto)
      have e1 := hrel.exact1 _ hkc (by tauto)
      obtain ⟨⟨a, ea, -⟩, b, eb, -⟩ := hplain.operands _ hkc (by omega)
      refine ⟨a, b, by rw [hin0, e0, ea], by rw [hin1, e1, eb], fun i hi => ?_⟩
      have hchk := (hchk _ hkc).2.1 ht i (by rw [ea, eb]; exact hi)
      rw [ea] at hchk
      have hmem : V (a + i) ∈ s.dag.keys := by
        obtain ⟨s', hs', g, e, hg⟩ := hline n hkc
        rw [r2.1]
        refine h.present s' hs' _ ?_
        rw [hg.1] at ht
        rw [hg.2.1] at ea
        rw [hg.2.2.1] at eb
        cases s' with
        | gate op t x y =>
          simp [gateOfStmt] at e; obtain ⟨rfl, rfl⟩ := e
          have := code_ne op
          dsimp only at ht
          omega
        | bit t x y =>
          simp [gateOfStmt] at e; obtain ⟨rfl, rfl⟩ := e
          simp at ht
        | sum t x y =>
          simp [gateOfStmt] at e; obtain ⟨rfl, rfl⟩ := e
          rw [V_inj] at ea eb
          subst ea eb
          simpa [operands] using hi
        | expSum t x y =>
          simp [gateOfStmt] at e; obtain ⟨rfl, rfl⟩ := e
          rw [V_inj] at ea eb
          subst ea eb
          simpa [operands] using hi
        | input t x =>
          simp [gateOfStmt] at e; obtain ⟨rfl, rfl⟩ := e
          simp at ht
        | output o x => simp [gateOfStmt] at e
        | const t x => simp [gateOfStmt] at e
      refine ⟨by rw [hkeys, hrel.keys]; exact .inl hmem, ?_⟩
      rw [hlvl _ hkc, hlvl _ hmem]
      exact hchk
    · exfalso
      rw [(hren.2 _).1.1, (hrel.relays j hj).1] at ht
      omega
  · have hre := levels_reached (s := ⟨d1, inDegrees d0, d1.keys, 0⟩) ⟨.inl rfl, fun _ hx => hx⟩ h2
    rcases hre.1 with h0 | ⟨k, hk, hle⟩
    · exact .inl h0
    · refine .inr ⟨k, ?_, ?_⟩
      · rw [hkeys, hrel.keys]
        exact .inl hk
      · rw [hlvl k hk]
        exact hle

theorem dagToLayered_ok {P : List Stmt} {d0 : Dag} {L : Layered} (h : Reads P P d0)
    (hr : ∀ s ∈ P, RangeOk s) (hL : dagToLayered d0 = .ok L) : ∃ d src, Compiled P d src L := by
  obtain ⟨d, src, hc, -⟩ := dagToLayered_steps h hr hL
  exact ⟨d, src, hc⟩

end Libra.Compiler
