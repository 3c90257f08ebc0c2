import Verif.Proofs.CompilerSucceeds2

/-!
# The circuit compiler: the layers of a block are built
-/

namespace Libra.Compiler
open Libra Spec

theorem mem_prefix {P : List Stmt} {s : Stmt} (hs : s ∈ P) : ∃ Q, Q ++ [s] <+: P := by
  obtain ⟨A, B, rfl⟩ := List.append_of_mem hs
  exact ⟨A, B, by simp⟩

/-- where the keys come from -/
def KeyOf (P : List Stmt) (k : Id) : Prop := ∃ s ∈ P, ∃ n, k = V n ∧ (target s = some n ∨ n ∈ operands s)

theorem KeyOf.mono {P Q : List Stmt} (h : P ⊆ Q) {k : Id} : KeyOf P k → KeyOf Q k := fun ⟨s, hs, r⟩ => ⟨s, h hs, r⟩

theorem mem_addOutputs {d : Dag} {n a : ℕ} {x k : Id} (h : k ∈ (loop n (fun i d => d.addOutput (V (a + i)) x) d).keys) :
    k ∈ d.keys ∨ ∃ i < n, k = V (a + i) := by
  induction n with
  | zero => exact .inl h
  | succ n ih =>
    rw [loop] at h
    rcases mem_set.1 h with rfl | h
    · exact .inr ⟨n, by omega, rfl⟩
    · rcases ih h with h | ⟨i, hi, e⟩
      · exact .inl h
      · exact .inr ⟨i, by omega, e⟩

theorem readStmt_keys {var : Variant} {d d' : Dag} {c c' : ℕ} {s : Stmt} (h : readStmt var (d, c) s = .ok (d', c'))
    {k : Id} (hk : k ∈ d'.keys) : k ∈ d.keys ∨ KeyOf [s] k := by
  have sum : ∀ (g : DagGate) (t a b : ℕ), d' = loopFrom a (b + 1) (fun i d => d.addOutput (V i) (V t)) (d.set (V t) g) →
      target s = some t → operands s = (List.range (b + 1 - a)).map (a + ·) → k ∈ d.keys ∨ KeyOf [s] k := by
    rintro g t a b rfl ht ho
    unfold loopFrom at hk
    rcases mem_addOutputs hk with hk | ⟨i, hi, rfl⟩
    · rcases mem_set.1 hk with rfl | hk
      · exact .inr ⟨s, by simp, t, rfl, .inl ht⟩
      · exact .inl hk
    · exact .inr ⟨s, by simp, a + i, rfl, .inr (by rw [ho]; simpa using hi)⟩
  have two : ∀ (g : DagGate) (t a b : ℕ), d' = ((d.set (V t) g).addOutput (V a) (V t)).addOutput (V b) (V t) →
      target s = some t → operands s = [a, b] → k ∈ d.keys ∨ KeyOf [s] k := by
    rintro g t a b rfl ht ho
    rcases mem_set.1 hk with rfl | hk
    · exact .inr ⟨s, by simp, b, rfl, .inr (by rw [ho]; simp)⟩
    rcases mem_set.1 hk with rfl | hk
    · exact .inr ⟨s, by simp, a, rfl, .inr (by rw [ho]; simp)⟩
    rcases mem_set.1 hk with rfl | hk
    · exact .inr ⟨s, by simp, t, rfl, .inl ht⟩
    · exact .inl hk
  cases s with
  | gate op t a b => cases h; exact two _ t a b rfl rfl rfl
  | bit t a b =>
    simp only [readStmt] at h
    split_ifs at h
    cases h; exact two _ t a b rfl rfl rfl
  | sum t a b =>
    simp only [readStmt] at h
    split_ifs at h
    cases h; exact sum _ t a b rfl rfl rfl
  | expSum t a b =>
    simp only [readStmt] at h
    split_ifs at h
    cases h; exact sum _ t a b rfl rfl rfl
  | input t i =>
    cases h
    rcases mem_set.1 hk with rfl | hk
    · exact .inr ⟨.input t i, by simp, t, rfl, .inl rfl⟩
    · exact .inl hk
  | output o a =>
    cases h
    rcases mem_set.1 hk with rfl | hk
    · exact .inr ⟨.output o a, by simp, a, rfl, .inr (by simp [operands])⟩
    · exact .inl hk
  | const t x => cases h

theorem readProgram_keys {var : Variant} {P : List Stmt} {d : Dag} {c : ℕ} (h : readProgram var P = .ok (d, c)) :
    ∀ k ∈ d.keys, KeyOf P k := by
  refine foldlM_append_inv (f := readStmt var) (l := P) (b := (Dag.empty, 0)) (b' := (d, c))
    (motive := fun Q s => ∀ k ∈ s.1.keys, KeyOf Q k) (by simp [Dag.empty]) ?_ h
  rintro Q s ⟨x, cx⟩ ⟨y, cy⟩ - ih hxy k hk
  rcases readStmt_keys hxy hk with hk | hk
  · exact (ih k hk).mono (List.subset_append_left _ _)
  · exact hk.mono (List.subset_append_right _ _)

/-- with the definitions before the uses, all keys are defined -/
theorem readProgram_defined {var : Variant} {P : List Stmt} {d : Dag} {c : ℕ} (h : readProgram var P = .ok (d, c))
    (hA : Acceptable P) : ∀ k ∈ d.keys, ∃ n, k = V n ∧ ∃ s ∈ P, target s = some n := by
  intro k hk
  obtain ⟨s, hs, n, rfl, h | h⟩ := readProgram_keys h k hk
  · exact ⟨n, rfl, s, hs, h⟩
  · obtain ⟨Q, hQ⟩ := mem_prefix hs
    obtain ⟨⟨s', hs', e⟩, -⟩ := hA.order Q s hQ n ((uses_iff s n).2 h)
    exact ⟨n, rfl, s', hQ.subset (by simp [hs']), e⟩

theorem le_sum_of_mem {l : List ℕ} {x : ℕ} (h : x ∈ l) : x ≤ l.sum := by
  induction l with
  | nil => cases h
  | cons a l ih =>
    rw [List.sum_cons]
    rcases List.mem_cons.1 h with rfl | h
    · omega
    · have := ih h; omega

theorem startLevels_succeeds {d : Dag} {deg : Id → ℤ} (h : ∀ k ∈ d.keys, deg k ≠ 0 ∨ (d.node k).ty = 3) :
    ∃ d', startLevels d deg = .ok d' := by
  unfold startLevels
  have : ∀ (l : List Id) (d' : Dag), l ⊆ d.keys → (∀ k, (d'.node k).ty = (d.node k).ty) →
      ∃ d'', l.foldlM (fun (d' : Dag) k => (do
        Outcome.assert (decide (deg k ≠ 0) || (d'.node k).ty == 3)
        return d'.set k { d'.node k with lvl := 0 } : Outcome Dag)) d' = .ok d'' := by
    intro l
    induction l with
    | nil => exact fun d' _ _ => ⟨d', rfl⟩
    | cons k l ih =>
      intro d' hl ht
      rw [List.foldlM_cons]
      have e : Outcome.assert (decide (deg k ≠ 0) || (d'.node k).ty == 3) = .ok () := by
        apply assert_true
        rw [ht k]
        rcases h k (hl (by simp)) with h | h <;> simp [h]
      rw [e]
      exact ih (d'.set k { d'.node k with lvl := 0 }) (fun x hx => hl (by simp [hx])) fun x => by
        by_cases ex : x = k
        · subst ex; rw [set_node_self]; exact ht _
        · rw [set_node_ne ex]; exact ht x
  exact this d.keys d (fun _ h => h) fun _ => rfl

theorem countLevels_succeeds {d : Dag} {D : ℕ} (h : ∀ k ∈ d.keys, (d.node k).lvl < D) : ∃ c, countLevels d D = .ok c :=
  foldlM_succeeds (fun b k hk => ⟨_, if_pos (h k hk)⟩) _

theorem emitGates_succeeds {d : Dag} (h : ∀ k ∈ d.keys, Placed d k) : ∃ g, emitGates d = .ok g := by
  refine foldlM_succeeds (fun b k hk => ?_) _
  obtain ⟨h0, h1⟩ := h k hk
  dsimp only
  rw [assert_true (by rcases h0 with h | h <;> simp [h]), Outcome.ok_bind,
    assert_true (by rcases h1 with h | h | h | h <;> simp [h])]
  exact ⟨_, rfl⟩

/-- the level of a line that uses variables -/
theorem level_uses {lv : ℕ → ℕ} {s : Stmt} (h : LevelOk lv s) {t a : ℕ} (ht : target s = some t) (ha : a ∈ operands s) :
    lv a + 1 ≤ lv t := by
  rw [← uses_iff] at ha
  cases s with
  | gate op t' x y =>
    simp only [target, Option.some.injEq] at ht
    simp only [LevelOk] at h
    subst ht
    rcases ha with rfl | rfl <;> omega
  | bit t' x y =>
    simp only [target, Option.some.injEq] at ht
    simp only [LevelOk] at h
    obtain ⟨rfl, h⟩ := h
    subst ht
    rcases ha with rfl | rfl <;> omega
  | sum t' x y =>
    simp only [target, Option.some.injEq] at ht
    subst ht
    rw [h a ha.1 ha.2]
  | expSum t' x y =>
    simp only [target, Option.some.injEq] at ht
    subst ht
    rw [h a ha.1 ha.2]
  | input t' x => exact ha.elim
  | output o x => cases ht
  | const t' x => exact ha.elim

/-- and one of them is directly below -/
theorem level_top {lv : ℕ → ℕ} {s : Stmt} (h : LevelOk lv s) (hr : RangeOk s) {t : ℕ} (ht : target s = some t) :
    lv t = 0 ∧ (∃ i, s = .input t i) ∨ ∃ a ∈ operands s, lv t = lv a + 1 := by
  cases s with
  | gate op t' x y =>
    simp only [target, Option.some.injEq] at ht
    simp only [LevelOk] at h
    subst ht
    right
    rcases le_total (lv x) (lv y) with hxy | hxy
    · exact ⟨y, by simp [operands], by omega⟩
    · exact ⟨x, by simp [operands], by omega⟩
  | bit t' x y =>
    simp only [target, Option.some.injEq] at ht
    simp only [LevelOk] at h
    subst ht
    exact .inr ⟨x, by simp [operands], h.2⟩
  | sum t' x y =>
    simp only [target, Option.some.injEq] at ht
    subst ht
    have hxy : x ≤ y := hr
    exact .inr ⟨x, by rw [← uses_iff]; exact ⟨le_rfl, hxy⟩, h x le_rfl hxy⟩
  | expSum t' x y =>
    simp only [target, Option.some.injEq] at ht
    subst ht
    have hxy : x ≤ y := hr
    exact .inr ⟨x, by rw [← uses_iff]; exact ⟨le_rfl, hxy⟩, h x le_rfl hxy⟩
  | input t' x =>
    simp only [target, Option.some.injEq] at ht
    subst ht
    exact .inl ⟨h, x, rfl⟩
  | output o x => cases ht
  | const t' x => exact h.elim

theorem levelsOk_of {P : List Stmt} {copy : Dag} {D : ℕ} {lv : ℕ → ℕ} (hlv : ∀ s ∈ P, LevelOk lv s) (hr : ∀ s ∈ P, RangeOk s)
    (hline : ∀ k ∈ copy.keys, ∃ n, k = V n ∧ FromLine P n (copy.node k))
    (hl : ∀ k ∈ copy.keys, (copy.node k).lvl = lv k.2 ∧ lv k.2 < D)
    (hpresent : ∀ s ∈ P, ∀ a ∈ operands s, V a ∈ copy.keys) : LevelsOk copy D := by
  have hV : ∀ s ∈ P, ∀ a ∈ operands s, (copy.node (V a)).lvl = lv a := fun s hs a ha => (hl _ (hpresent s hs a ha)).1
  refine ⟨fun k hk => (hl k hk).1 ▸ (hl k hk).2, ?_, ?_, ?_, ?_, ?_⟩
  · intro k hk h3
    obtain ⟨n, rfl, s, hs, g, e, hg⟩ := hline k hk
    rw [(hl _ hk).1]
    rw [hg.1] at h3
    obtain ⟨i, rfl⟩ := input_of_gate e h3
    exact hlv _ hs
  · intro k hk h3
    obtain ⟨n, rfl, s, hs, g, e, hg⟩ := hline k hk
    rw [hg.1] at h3
    rw [(hl _ hk).1, hg.2.1, hg.2.2.1]
    have hu := fun a => level_uses (hlv s hs) (target_of_gate e) (a := a)
    have hv := hV s hs
    have hrs := hr s hs
    cases s with
    | gate op t a b =>
      simp [gateOfStmt] at e; obtain ⟨rfl, rfl⟩ := e
      dsimp only
      rw [hv a (by simp [operands]), hv b (by simp [operands])]
      exact ⟨hu a (by simp [operands]), hu b (by simp [operands])⟩
    | bit t a b =>
      simp [gateOfStmt] at e; obtain ⟨rfl, rfl⟩ := e
      dsimp only
      rw [hv a (by simp [operands]), hv b (by simp [operands])]
      exact ⟨hu a (by simp [operands]), hu b (by simp [operands])⟩
    | sum t a b =>
      simp [gateOfStmt] at e; obtain ⟨rfl, rfl⟩ := e
      have hab : a ≤ b := hrs
      have ma : a ∈ operands (.sum t a b) := (uses_iff _ _).1 ⟨le_rfl, hab⟩
      have mb : b ∈ operands (.sum t a b) := (uses_iff _ _).1 ⟨hab, le_rfl⟩
      dsimp only
      rw [hv a ma, hv b mb]
      exact ⟨hu a ma, hu b mb⟩
    | expSum t a b =>
      simp [gateOfStmt] at e; obtain ⟨rfl, rfl⟩ := e
      have hab : a ≤ b := hrs
      have ma : a ∈ operands (.expSum t a b) := (uses_iff _ _).1 ⟨le_rfl, hab⟩
      have mb : b ∈ operands (.expSum t a b) := (uses_iff _ _).1 ⟨hab, le_rfl⟩
      dsimp only
      rw [hv a ma, hv b mb]
      exact ⟨hu a ma, hu b mb⟩
    | input t i =>
      simp [gateOfStmt] at e; obtain ⟨rfl, rfl⟩ := e
      exact absurd rfl h3
    | output o a => simp [gateOfStmt] at e
    | const t c => simp [gateOfStmt] at e
  · intro k hk ht
    obtain ⟨n, rfl, s, hs, g, e, hg⟩ := hline k hk
    rw [hg.1] at ht
    rw [(hl _ hk).1, hg.2.1, hg.2.2.1]
    have hls := hlv s hs
    have hv := hV s hs
    have hrs := hr s hs
    cases s with
    | gate op t a b =>
      simp [gateOfStmt] at e; obtain ⟨rfl, rfl⟩ := e
      have := code_ne op
      dsimp only at ht
      omega
    | bit t a b =>
      simp [gateOfStmt] at e; obtain ⟨rfl, rfl⟩ := e
      simp at ht
    | sum t a b =>
      simp [gateOfStmt] at e; obtain ⟨rfl, rfl⟩ := e
      refine ⟨hrs, fun i hi => ?_⟩
      change i < b + 1 - a at hi
      change lv t = (copy.node (V (a + i))).lvl + 1
      rw [hv (a + i) ((uses_iff _ _).1 ⟨by omega, by omega⟩)]
      exact hls (a + i) (by omega) (by omega)
    | expSum t a b =>
      simp [gateOfStmt] at e; obtain ⟨rfl, rfl⟩ := e
      refine ⟨hrs, fun i hi => ?_⟩
      change i < b + 1 - a at hi
      change lv t = (copy.node (V (a + i))).lvl + 1
      rw [hv (a + i) ((uses_iff _ _).1 ⟨by omega, by omega⟩)]
      exact hls (a + i) (by omega) (by omega)
    | input t i =>
      simp [gateOfStmt] at e; obtain ⟨rfl, rfl⟩ := e
      simp at ht
    | output o a => simp [gateOfStmt] at e
    | const t c => simp [gateOfStmt] at e
  · intro k hk ht
    obtain ⟨n, rfl, s, hs, g, e, hg⟩ := hline k hk
    rw [hg.1] at ht
    rw [(hl _ hk).1, hg.2.1, hg.2.2.1]
    have hls := hlv s hs
    have hv := hV s hs
    cases s with
    | gate op t a b =>
      simp [gateOfStmt] at e; obtain ⟨rfl, rfl⟩ := e
      have := code_ne op
      dsimp only at ht
      omega
    | bit t a b =>
      simp [gateOfStmt] at e; obtain ⟨rfl, rfl⟩ := e
      obtain ⟨rfl, hls⟩ := hls
      dsimp only
      rw [hv a (by simp [operands])]
      exact ⟨rfl, hls.symm⟩
    | sum t a b =>
      simp [gateOfStmt] at e; obtain ⟨rfl, rfl⟩ := e
      simp at ht
    | expSum t a b =>
      simp [gateOfStmt] at e; obtain ⟨rfl, rfl⟩ := e
      simp at ht
    | input t i =>
      simp [gateOfStmt] at e; obtain ⟨rfl, rfl⟩ := e
      simp at ht
    | output o a => simp [gateOfStmt] at e
    | const t c => simp [gateOfStmt] at e
  · intro k hk
    obtain ⟨n, rfl, s, hs, g, e, hg⟩ := hline k hk
    rw [hg.1]
    cases s with
    | gate op t a b =>
      simp [gateOfStmt] at e; obtain ⟨rfl, rfl⟩ := e
      cases op <;> simp [Op.code]
    | _ => simp [gateOfStmt] at e <;> obtain ⟨rfl, rfl⟩ := e <;> simp

theorem dagToLayered_succeeds {var : Variant} {P : List Stmt} {d : Dag} {c : ℕ} (hd : readProgram var P = .ok (d, c))
    (hP : ProgramOk P) (hA : Acceptable P) : ∃ L, dagToLayered d = .ok L ∧ L.depth ≠ 0 := by
  have h : Reads P P d := (readProgram_reads hd).1
  have he := readProgram_edges hd hP.single hA.order
  have hr := ranges_of_ok hP
  obtain ⟨lv, hlv⟩ := hA.levels
  have hkeys := readProgram_defined hd hA
  have hsucc : ∀ k, ∀ y ∈ (d.node k).outputs, y ∈ d.keys := by
    intro k y hy
    obtain ⟨s', hs', n, rfl, hn⟩ := h.succs k y hy
    exact (h.defined s' hs' n hn).1
  have htop : ∀ y ∈ d.keys, (lv y.2 = 0 ∧ (d.node y).ty = 3) ∨ ∃ k ∈ d.keys, y ∈ (d.node k).outputs ∧ lv y.2 = lv k.2 + 1 := by
    intro y hy
    obtain ⟨n, rfl, s, hs, ht⟩ := hkeys y hy
    rcases level_top (hlv s hs) (hr s hs) ht with ⟨h0, i, rfl⟩ | ⟨a, ha, e⟩
    · refine .inl ⟨h0, ?_⟩
      obtain ⟨-, s', hs', g, e, hg⟩ := h.defined _ hs n ht
      have := single_unique hP.single hs hs' ht (target_of_gate e)
      subst this
      simp [gateOfStmt] at e
      rw [hg.1, ← e]
    · exact .inr ⟨V a, h.present s hs a ha, he.fwd s hs n ht a ha, e⟩
  have hedge : ∀ k ∈ d.keys, ∀ y ∈ (d.node k).outputs, Id.lt k y = true ∧ lv k.2 + 1 ≤ lv y.2 := by
    intro k hk y hy
    obtain ⟨s, hs, a, ha, t, rfl, rfl, ht⟩ := he.bwd k y hy
    obtain ⟨Q, hQ⟩ := mem_prefix hs
    refine ⟨?_, level_uses (hlv s hs) ht ha⟩
    rw [lt_V]
    exact .inr ⟨rfl, (hA.order Q s hQ a ((uses_iff s a).2 ha)).2 t ht⟩
  obtain ⟨d1, h1⟩ := startLevels_succeeds (d := d) (deg := inDegrees d) fun k hk => by
    rcases htop k hk with h | ⟨k', hk', hy, -⟩
    · exact .inr h.2
    · left
      rw [inDegrees_eq]
      have : 0 < (d.node k').outputs.count k := List.count_pos_iff.2 hy
      have := le_sum_of_mem (l := d.keys.map (fun k' => (d.node k').outputs.count k)) (List.mem_map.2 ⟨k', hk', rfl⟩)
      omega
  obtain ⟨r1, hstart, h10⟩ := startLevels_spec h.sorted h1
  obtain ⟨s, h2⟩ := levels_terminates h.sorted hsucc (n := 2 * d1.keys.length + 1) (s := ⟨d1, inDegrees d, d1.keys, 0⟩) r1 (by
    have : positive d (inDegrees d) ≤ d.keys.length := List.countP_le_length
    dsimp only
    rw [r1.1]
    omega)
  have r2 := levels_shape h.sorted hsucc (s := ⟨d1, inDegrees d, d1.keys, 0⟩) r1 h2
  have hlvl := levels_lvl h.sorted hsucc (lv := fun k => lv k.2) hedge
    (fun y hy => (htop y hy).imp (fun h => h.1) id) (s := ⟨d1, inDegrees d, d1.keys, 0⟩) (done := []) (rest := d1.keys) (more := [])
    r1 (by rw [r1.1]; rfl) (by simp) (by simp) (fun k hk => by dsimp only; rw [h10 k hk]; exact Nat.zero_le _) (by simp) h2
  have hdef := allDefined h hstart
  have hplain := plain_of_reads h hr hdef r2
  have hok : LevelsOk s.dag s.depth := by
    refine levelsOk_of hlv hr (fun k hk => ?_) (fun k hk => ?_) (fun s' hs' a ha => ?_)
    · rw [r2.1] at hk
      obtain ⟨n, rfl⟩ := h.vars k hk
      obtain ⟨s', hs', g, e, hg⟩ := hdef n hk
      exact ⟨n, rfl, s', hs', g, e, (r2.2 _).1.trans hg⟩
    · rw [r2.1] at hk
      exact hlvl k hk
    · rw [r2.1]
      exact h.present s' hs' a ha
  obtain ⟨t, h3, ht⟩ := relayAll_succeeds hplain hok
  obtain ⟨count, h4⟩ := countLevels_succeeds (d := t.1) (D := s.depth) fun k hk => (ht k hk).2
  obtain ⟨⟨src, hrel⟩, -⟩ := relayAll hplain h3
  obtain ⟨hren, -, -⟩ := assignIds_spec hrel.sorted
  obtain ⟨gates, h5⟩ := emitGates_succeeds (d := (assignIds t.1).1) fun k hk => by
    rw [hren.1] at hk
    have := (ht k hk).1
    unfold Placed at this ⊢
    rw [(hren.2 k).1.2.1, (hren.2 k).1.2.2.1, (hren.2 k).2, (hren.2 k).1.1, (hren.2 _).2, (hren.2 _).2]
    exact this
  refine ⟨⟨s.depth, fun i => pad (gates i) ((assignIds t.1).2 i) (fullCount (count i) - count i),
    fun i => if fullCount (count i) - count i = 0 then bitCount (count i) - 1 else bitCount (count i),
    fun i => fullCount (count i) - count i⟩, ?_, ?_⟩
  · unfold dagToLayered
    dsimp only
    rw [h1, Outcome.ok_bind, h2, Outcome.ok_bind, h3, Outcome.ok_bind, h4, Outcome.ok_bind, h5, Outcome.ok_bind]
    rfl
  · dsimp only
    obtain ⟨t, i, hi⟩ := hA.input
    have := (hlvl (V t) (h.defined _ hi t rfl).1).2
    omega

end Libra.Compiler
