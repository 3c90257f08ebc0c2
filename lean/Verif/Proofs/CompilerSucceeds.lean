import Verif.Proofs.CompilerGood

/-!
# The circuit compiler: programs that are accepted
-/

namespace Libra.Compiler
open Libra Spec

theorem uses_iff (s : Stmt) (x : ℕ) : Uses s x ↔ x ∈ operands s := by
  cases s with
  | sum t a b =>
    simp only [Uses, operands, List.mem_map, List.mem_range]
    exact ⟨fun h => ⟨x - a, by omega, by omega⟩, fun ⟨i, h1, h2⟩ => by omega⟩
  | expSum t a b =>
    simp only [Uses, operands, List.mem_map, List.mem_range]
    exact ⟨fun h => ⟨x - a, by omega, by omega⟩, fun ⟨i, h1, h2⟩ => by omega⟩
  | _ => simp [Uses, operands]

/-! ### Reading -/

theorem foldlM_succeeds {α β : Type} {f : β → α → Outcome β} {l : List α} (h : ∀ b, ∀ a ∈ l, ∃ b', f b a = .ok b') (b : β) :
    ∃ b', l.foldlM f b = .ok b' := by
  induction l generalizing b with
  | nil => exact ⟨b, rfl⟩
  | cons a l ih =>
    obtain ⟨b', e⟩ := h b a (by simp)
    obtain ⟨b'', e'⟩ := ih (fun b a ha => h b a (by simp [ha])) b'
    exact ⟨b'', by rw [List.foldlM_cons, e, Outcome.ok_bind, e']⟩

theorem readProgram_succeeds {var : Variant} {P : List Stmt} (h : ∀ s ∈ P, Known var s) : ∃ d c, readProgram var P = .ok (d, c) := by
  obtain ⟨⟨d, c⟩, e⟩ := foldlM_succeeds (f := readStmt var) (l := P) (fun b s hs => by
    have := h s hs
    cases s with
    | sum t a b => exact ⟨_, if_pos this⟩
    | expSum t a b => exact ⟨_, if_pos this⟩
    | bit t a b => exact ⟨_, if_pos this⟩
    | const t c => exact this.elim
    | _ => exact ⟨_, rfl⟩) (Dag.empty, 0)
  exact ⟨d, c, e⟩

/-- the successors of a variable are the variables computed from it -/
structure Edges (P : List Stmt) (d : Dag) : Prop where
  fwd : ∀ s ∈ P, ∀ t, target s = some t → ∀ a ∈ operands s, V t ∈ (d.node (V a)).outputs
  bwd : ∀ k, ∀ y ∈ (d.node k).outputs, ∃ s ∈ P, ∃ a ∈ operands s, ∃ t, k = V a ∧ y = V t ∧ target s = some t

theorem addOutput_outputs (d : Dag) (a x k : Id) :
    ((d.addOutput a x).node k).outputs = if k = a then (d.node k).outputs ++ [x] else (d.node k).outputs := by
  unfold Dag.addOutput
  split_ifs with h
  · subst h; rw [set_node_self]
  · rw [set_node_ne h]

theorem addOutputs_mem (d : Dag) (a n : ℕ) (x k y : Id) :
    y ∈ ((loop n (fun i d => d.addOutput (V (a + i)) x) d).node k).outputs ↔
      y ∈ (d.node k).outputs ∨ y = x ∧ ∃ i < n, k = V (a + i) := by
  induction n with
  | zero => simp [loop]
  | succ n ih =>
    rw [loop, addOutput_outputs]
    split_ifs with h
    · rw [List.mem_append, ih, List.mem_singleton]
      constructor
      · rintro ((h1 | ⟨h1, i, hi, e⟩) | h1)
        exacts [.inl h1, .inr ⟨h1, i, by omega, e⟩, .inr ⟨h1, n, by omega, h⟩]
      · rintro (h1 | ⟨h1, i, hi, e⟩)
        exacts [.inl (.inl h1), .inr h1]
    · rw [ih]
      refine or_congr_right (and_congr_right fun _ => ⟨fun ⟨i, hi, e⟩ => ⟨i, by omega, e⟩, fun ⟨i, hi, e⟩ => ⟨i, ?_, e⟩⟩)
      by_contra hc
      exact h (by rw [e]; congr 2; omega)

/-- the outputs after reading a line that defines `t` -/
theorem readStmt_outputs {var : Variant} {d d' : Dag} {c c' : ℕ} {s : Stmt} (h : readStmt var (d, c) s = .ok (d', c'))
    (k y : Id) : y ∈ (d'.node k).outputs ↔
      (∃ t, target s = some t ∧ y = V t ∧ ∃ a ∈ operands s, k = V a) ∨
        y ∈ (d.node k).outputs ∧ ∀ t, target s = some t → k ≠ V t := by
  have base : ∀ (t : ℕ) (g : DagGate), g.outputs = [] →
      (y ∈ ((d.set (V t) g).node k).outputs ↔ y ∈ (d.node k).outputs ∧ k ≠ V t) := by
    intro t g hg
    by_cases e : k = V t
    · subst e; simp [hg]
    · rw [set_node_ne e]; simp [e]
  have tgt : ∀ t : ℕ, (∀ t' : ℕ, some t = some t' → k ≠ V t') ↔ k ≠ V t := fun t =>
    ⟨fun h => h t rfl, fun h t' e => by cases e; exact h⟩
  have ex : ∀ (t : ℕ) (p : Prop), (∃ t', some t = some t' ∧ y = V t' ∧ p) ↔ y = V t ∧ p := fun t p =>
    ⟨fun ⟨t', e, h⟩ => by cases e; exact h, fun h => ⟨t, rfl, h⟩⟩
  have two : ∀ (t a b : ℕ) (g : DagGate), g.outputs = [] →
      (y ∈ ((((d.set (V t) g).addOutput (V a) (V t)).addOutput (V b) (V t)).node k).outputs ↔
        (y = V t ∧ ∃ x ∈ [a, b], k = V x) ∨ y ∈ (d.node k).outputs ∧ k ≠ V t) := by
    intro t a b g hg
    rw [← base t g hg, addOutput_outputs, addOutput_outputs]
    simp only [List.mem_cons, List.not_mem_nil, or_false, exists_eq_or_imp, exists_eq_left]
    split_ifs with h1 h2 h2 <;> simp only [List.mem_append, List.mem_singleton, h1, h2] <;> tauto
  have many : ∀ (t a b : ℕ) (g : DagGate), g.outputs = [] →
      (y ∈ ((loopFrom a (b + 1) (fun i d => d.addOutput (V i) (V t)) (d.set (V t) g)).node k).outputs ↔
        (y = V t ∧ ∃ x ∈ (List.range (b + 1 - a)).map (a + ·), k = V x) ∨ y ∈ (d.node k).outputs ∧ k ≠ V t) := by
    intro t a b g hg
    rw [loopFrom, addOutputs_mem, base t g hg, or_comm]
    simp only [List.mem_map, List.mem_range]
    refine or_congr_left (and_congr_right fun _ => ⟨fun ⟨i, h1, h2⟩ => ⟨a + i, ⟨i, h1, rfl⟩, h2⟩, ?_⟩)
    rintro ⟨x, ⟨i, h1, rfl⟩, h2⟩
    exact ⟨i, h1, h2⟩
  cases s with
  | gate op t a b =>
    simp only [readStmt, Outcome.ok.injEq, Prod.mk.injEq] at h
    rw [← h.1, two _ _ _ _ rfl]
    simp only [target]
    rw [tgt, ex]; rfl
  | bit t a b =>
    simp only [readStmt] at h
    split_ifs at h
    simp only [Outcome.ok.injEq, Prod.mk.injEq] at h
    rw [← h.1, two _ _ _ _ rfl]
    simp only [target]
    rw [tgt, ex]; rfl
  | sum t a b =>
    simp only [readStmt] at h
    split_ifs at h
    simp only [Outcome.ok.injEq, Prod.mk.injEq] at h
    rw [← h.1, many _ _ _ _ rfl]
    simp only [target]
    rw [tgt, ex]; rfl
  | expSum t a b =>
    simp only [readStmt] at h
    split_ifs at h
    simp only [Outcome.ok.injEq, Prod.mk.injEq] at h
    rw [← h.1, many _ _ _ _ rfl]
    simp only [target]
    rw [tgt, ex]; rfl
  | input t i =>
    simp only [readStmt, Outcome.ok.injEq, Prod.mk.injEq] at h
    rw [← h.1, base _ _ rfl]
    simp only [target]
    rw [tgt, ex]; simp [operands]
  | output o a =>
    simp only [readStmt, Outcome.ok.injEq, Prod.mk.injEq] at h
    rw [← h.1]
    simp only [target]
    by_cases e : k = V a
    · subst e; simp
    · rw [set_node_ne e]; simp
  | const t c => simp [readStmt] at h

theorem readProgram_edges {var : Variant} {P : List Stmt} {d : Dag} {c : ℕ} (h : readProgram var P = .ok (d, c))
    (hs : (P.filterMap target).Nodup)
    (ho : ∀ Q s, Q ++ [s] <+: P → ∀ x, Uses s x → (∃ s' ∈ Q, target s' = some x) ∧ ∀ t, target s = some t → x < t) :
    Edges P d := by
  have := foldlM_append_inv (f := readStmt var) (l := P) (b := (Dag.empty, 0)) (b' := (d, c))
    (motive := fun Q s => Q <+: P ∧ Edges Q s.1) ⟨List.nil_prefix, ⟨by simp, by simp [Dag.empty]⟩⟩ ?_ h
  · exact this.2
  · rintro Q s ⟨x, cx⟩ ⟨y, cy⟩ hpre ⟨hQ, he⟩ hxy
    have hout := readStmt_outputs hxy
    -- a line cannot define a variable that was defined or used before
    have hnew : ∀ t, target s = some t → ∀ s' ∈ Q, target s' ≠ some t := by
      intro t ht s' hs' e
      have hn := hs.sublist (hpre.sublist.filterMap target)
      rw [List.filterMap_append, List.nodup_append] at hn
      exact hn.2.2 t (List.mem_filterMap.2 ⟨s', hs', e⟩) t (by simp [ht]) rfl
    have hunused : ∀ t, target s = some t → ∀ s' ∈ Q, t ∉ operands s' := by
      intro t ht s' hs' hop
      obtain ⟨A, B, rfl⟩ := List.append_of_mem hs'
      have hp : A ++ [s'] <+: P := List.IsPrefix.trans ⟨B ++ [s], by simp⟩ hpre
      obtain ⟨⟨s'', h1, h2⟩, -⟩ := ho A s' hp t ((uses_iff _ _).2 hop)
      exact hnew t ht s'' (by simp [h1]) h2
    refine ⟨hpre, ⟨?_, ?_⟩⟩
    · intro s' hs' t ht a ha
      dsimp only
      rw [hout]
      rcases List.mem_append.1 hs' with hs' | hs'
      · refine .inr ⟨he.fwd s' hs' t ht a ha, fun t' ht' e => ?_⟩
        rw [V_inj] at e
        subst e
        exact hunused _ ht' s' hs' ha
      · rw [List.mem_singleton] at hs'
        subst hs'
        exact .inl ⟨t, ht, rfl, a, ha, rfl⟩
    · intro k z hz
      dsimp only at hz
      rw [hout] at hz
      rcases hz with ⟨t, ht, rfl, a, ha, rfl⟩ | ⟨hz, -⟩
      · exact ⟨s, by simp, a, ha, t, rfl, rfl, ht⟩
      · obtain ⟨s', hs', r⟩ := he.bwd k z hz
        exact ⟨s', by simp [hs'], r⟩

/-! ### Levels -/

theorem relax_fold {cur : Id} (l : List Id) (hcur : cur ∉ l) (s : LevelState) :
    (∀ x, ((l.foldl (relax cur) s).dag.node x).lvl =
      if x ∈ l then max (s.dag.node x).lvl ((s.dag.node cur).lvl + 1) else (s.dag.node x).lvl) ∧
    (l.foldl (relax cur) s).depth = s.depth ∧ ∃ more, (l.foldl (relax cur) s).q = s.q ++ more ∧ more ⊆ l := by
  induction l generalizing s with
  | nil => exact ⟨by simp, rfl, [], by simp, by simp⟩
  | cons y l ih =>
    obtain ⟨h1, h2, more, h3, h4⟩ := ih (fun h => hcur (by simp [h])) (relax cur s y)
    have hne : cur ≠ y := fun h => hcur (by simp [h])
    have e1 : ((relax cur s y).dag.node cur).lvl = (s.dag.node cur).lvl := by
      simp only [relax]; rw [set_node_ne hne]
    have e2 : ∀ x, ((relax cur s y).dag.node x).lvl =
        if x = y then max (s.dag.node x).lvl ((s.dag.node cur).lvl + 1) else (s.dag.node x).lvl := by
      intro x
      simp only [relax]
      split_ifs with h
      · subst h; rw [set_node_self]
      · rw [set_node_ne h]
    refine ⟨fun x => ?_, h2, ?_⟩
    · rw [List.foldl_cons, h1, e1, e2]
      simp only [List.mem_cons]
      by_cases hx : x = y <;> by_cases hl : x ∈ l <;> simp [hx, hl]
    · rw [List.foldl_cons, h3]
      simp only [relax]
      split_ifs with h
      · exact ⟨y :: more, by simp, by intro z hz; rcases List.mem_cons.1 hz with rfl | hz; exacts [by simp, by simp [h4 hz]]⟩
      · exact ⟨more, rfl, fun z hz => by simp [h4 hz]⟩

/-- The levels that the loop computes, when the numbers of the variables are a topological order. -/
theorem levels_lvl {d : Dag} (hd : Sorted d.keys) (hsucc : ∀ k, ∀ y ∈ (d.node k).outputs, y ∈ d.keys) {lv : Id → ℕ}
    (hedge : ∀ k ∈ d.keys, ∀ y ∈ (d.node k).outputs, Id.lt k y = true ∧ lv k + 1 ≤ lv y)
    (htop : ∀ y ∈ d.keys, lv y = 0 ∨ ∃ k ∈ d.keys, y ∈ (d.node k).outputs ∧ lv y = lv k + 1)
    {n : ℕ} {s s' : LevelState} {done rest more : List Id} (hs : Reshape d s.dag) (hk : d.keys = done ++ rest)
    (hq : s.q = rest ++ more) (hmore : more ⊆ d.keys) (hle : ∀ k ∈ d.keys, (s.dag.node k).lvl ≤ lv k)
    (hdone : ∀ k ∈ done, (s.dag.node k).lvl = lv k ∧ lv k < s.depth ∧
      ∀ y ∈ (d.node k).outputs, lv k + 1 ≤ (s.dag.node y).lvl)
    (h : levels n s = .ok s') : ∀ k ∈ d.keys, (s'.dag.node k).lvl = lv k ∧ lv k < s'.depth := by
  induction n generalizing s done rest more with
  | zero => cases h
  | succ n ih =>
    -- one step on a gate whose level is known
    have step : ∀ cur rest', cur ∈ d.keys → (s.dag.node cur).lvl = lv cur →
        (∀ x, ((levelStep s cur rest').dag.node x).lvl =
          if x ∈ (d.node cur).outputs then max (s.dag.node x).lvl (lv cur + 1) else (s.dag.node x).lvl) ∧
        (levelStep s cur rest').depth = max s.depth (lv cur + 1) ∧
        ∃ m, (levelStep s cur rest').q = rest' ++ m ∧ m ⊆ d.keys := by
      intro cur rest' hc hlv
      have hcur : cur ∉ (s.dag.node cur).outputs := by
        rw [(hs.2 cur).2]
        intro hm
        have := (hedge cur hc cur hm).1
        rw [lt_irrefl] at this
        cases this
      obtain ⟨h1, h2, m, h3, h4⟩ := relax_fold (s.dag.node cur).outputs hcur
        { s with q := rest', depth := max s.depth ((s.dag.node cur).lvl + 1) }
      dsimp only at h1 h2 h3
      rw [hlv] at h1 h2 h3
      rw [(hs.2 cur).2] at h1 h2 h3 h4
      refine ⟨fun x => ?_, ?_, m, ?_, fun y hy => hsucc cur y (h4 hy)⟩
      · rw [levelStep]; rw [(hs.2 cur).2, hlv]; exact h1 x
      · rw [levelStep]; rw [(hs.2 cur).2, hlv]; exact h2
      · rw [levelStep]; rw [(hs.2 cur).2, hlv]; exact h3
    rw [levels] at h
    cases rest with
    | nil =>
      rw [List.append_nil] at hk
      subst hk
      cases more with
      | nil =>
        rw [hq] at h
        cases h
        exact fun k hk => ⟨(hdone k hk).1, (hdone k hk).2.1⟩
      | cons cur more =>
        rw [List.nil_append] at hq
        rw [hq] at h
        have hc : cur ∈ d.keys := hmore (by simp)
        obtain ⟨e1, e2, m, e3, e4⟩ := step cur more hc (hdone cur hc).1
        have same : ∀ k ∈ d.keys, ((levelStep s cur more).dag.node k).lvl = lv k := by
          intro k hk
          rw [e1]
          split_ifs with hm
          · rw [(hdone k hk).1]
            exact max_eq_left (hedge cur hc k hm).2
          · exact (hdone k hk).1
        refine ih (done := d.keys) (rest := []) (more := more ++ m) (levelStep_shape hd hsucc hs cur more) (by simp)
          e3 ?_ (fun k hk => (same k hk).le) (fun k hk => ⟨same k hk, ?_, fun y hy => ?_⟩) h
        · intro y hy
          rcases List.mem_append.1 hy with hy | hy
          exacts [hmore (by simp [hy]), e4 hy]
        · rw [e2]; exact lt_max_of_lt_left (hdone k hk).2.1
        · rw [same y (hsucc k y hy)]; exact (hedge k hk y hy).2
    | cons cur rest =>
      rw [List.cons_append] at hq
      rw [hq] at h
      have hc : cur ∈ d.keys := by rw [hk]; simp
      have hlv : (s.dag.node cur).lvl = lv cur := by
        refine le_antisymm (hle cur hc) ?_
        rcases htop cur hc with h0 | ⟨k, hkk, hy, e⟩
        · omega
        · rw [e]
          have hlt := (hedge k hkk cur hy).1
          have hkd : k ∈ done := by
            rw [hk] at hkk hd
            rcases List.mem_append.1 hkk with h' | h'
            · exact h'
            · exfalso
              have hp := (List.pairwise_append.1 hd).2.1
              rcases List.mem_cons.1 h' with rfl | h'
              · rw [lt_irrefl] at hlt; cases hlt
              · have := lt_trans hlt ((List.pairwise_cons.1 hp).1 k h')
                rw [lt_irrefl] at this; cases this
          exact (hdone k hkd).2.2 cur hy
      obtain ⟨e1, e2, m, e3, e4⟩ := step cur (rest ++ more) hc hlv
      have mono : ∀ k, (s.dag.node k).lvl ≤ ((levelStep s cur (rest ++ more)).dag.node k).lvl := by
        intro k
        rw [e1]
        split_ifs
        exacts [le_max_left _ _, le_rfl]
      have hle' : ∀ k ∈ d.keys, ((levelStep s cur (rest ++ more)).dag.node k).lvl ≤ lv k := by
        intro k hk
        rw [e1]
        split_ifs with hm
        · exact max_le (hle k hk) (hedge cur hc k hm).2
        · exact hle k hk
      refine ih (done := done ++ [cur]) (rest := rest) (more := more ++ m) (levelStep_shape hd hsucc hs cur _)
        (by rw [hk]; simp) (by rw [e3]; simp) ?_ hle' ?_ h
      · intro y hy
        rcases List.mem_append.1 hy with hy | hy
        exacts [hmore hy, e4 hy]
      · intro k hk'
        have hkk : k ∈ d.keys := by
          rw [hk]
          rcases List.mem_append.1 hk' with h' | h'
          · simp [h']
          · rw [List.mem_singleton] at h'; simp [h']
        rcases List.mem_append.1 hk' with h' | h'
        · obtain ⟨a1, a2, a3⟩ := hdone k h'
          refine ⟨le_antisymm (hle' k hkk) (a1 ▸ mono k), ?_, fun y hy => (a3 y hy).trans (mono y)⟩
          rw [e2]; exact lt_max_of_lt_left a2
        · rw [List.mem_singleton] at h'
          subst h'
          refine ⟨le_antisymm (hle' k hkk) (hlv ▸ mono k), ?_, fun y hy => ?_⟩
          · rw [e2]; exact lt_max_of_lt_right (Nat.lt_succ_self _)
          · rw [e1, if_pos hy]; exact le_max_right _ _

end Libra.Compiler
