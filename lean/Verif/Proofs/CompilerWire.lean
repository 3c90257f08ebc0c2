import Verif.Proofs.CompilerMerge

/-!
# The wiring layers
-/

namespace Libra.Compiler
open Libra Spec

theorem mem_insertNat {k x : ℕ} {l : List ℕ} : x ∈ insertNat k l ↔ x = k ∨ x ∈ l := by
  induction l with
  | nil => simp [insertNat]
  | cons a l ih =>
    rw [insertNat]
    split_ifs with h1 h2
    · subst h1; simp
    · simp
    · simp [ih, or_left_comm]

theorem sorted_insertNat {k : ℕ} {l : List ℕ} (h : l.Pairwise (· < ·)) : (insertNat k l).Pairwise (· < ·) := by
  induction l with
  | nil => simp [insertNat]
  | cons a l ih =>
    rw [List.pairwise_cons] at h
    rw [insertNat]
    split_ifs with h1 h2
    · exact List.pairwise_cons.2 h
    · refine List.pairwise_cons.2 ⟨?_, List.pairwise_cons.2 h⟩
      intro x hx
      rw [List.mem_cons] at hx
      rcases hx with rfl | hx
      · exact h2
      · exact _root_.lt_trans h2 (h.1 x hx)
    · refine List.pairwise_cons.2 ⟨?_, ih h.2⟩
      intro x hx
      rw [mem_insertNat] at hx
      rcases hx with rfl | hx
      · omega
      · exact h.1 x hx

/-- the node made from a line -/
def NodeOf (W : List RStmt) (k : ℕ) (g : RGate) : Prop :=
  (∃ c, .const k c ∈ W ∧ g = { value := c }) ∨ (∃ i x, .input k i x ∈ W ∧ g = { value := x }) ∨
    ∃ a b, .pass k a b ∈ W ∧ g = { lvl := 1, source := a }

theorem NodeOf.mono {W W' : List RStmt} {k : ℕ} {g : RGate} (h : NodeOf W k g) (hs : W ⊆ W') :
    NodeOf W' k g := by
  rcases h with ⟨c, h, e⟩ | ⟨i, x, h, e⟩ | ⟨a, b, h, e⟩
  exacts [.inl ⟨c, hs h, e⟩, .inr (.inl ⟨i, x, hs h, e⟩), .inr (.inr ⟨a, b, hs h, e⟩)]

/-- what is known after reading the lines `W` -/
structure RReads (W : List RStmt) (s : RState) : Prop where
  sorted : s.keys.Pairwise (· < ·)
  keys : ∀ k, k ∈ s.keys ↔ ∃ l ∈ W, rtarget l = some k
  node : ∀ k ∈ s.keys, NodeOf W k (s.node k)
  mapping : ∀ o a, .output o a ∈ W → .output (s.mapping a) a ∈ W
  outputs : s.outputs = outputCount W
  least : ∀ o a, .output o a ∈ W → s.minOutput ≤ o
  attained : s.minOutput = 0x3f3f3f3f ∨ ∃ a, .output s.minOutput a ∈ W

theorem outputCount_append (W : List RStmt) (l : RStmt) : outputCount (W ++ [l]) = outputCount W + outputCount [l] := by
  simp [outputCount]

theorem RReads.set {W : List RStmt} {s : RState} (h : RReads W s) {l : RStmt} {t : ℕ} {g : RGate}
    (ht : rtarget l = some t) (hg : NodeOf (W ++ [l]) t g) (ho : ∀ o a, l ≠ .output o a) :
    RReads (W ++ [l]) (s.set t g) := by
  have hsub : W ⊆ W ++ [l] := List.subset_append_left _ _
  have hout : ∀ o a, RStmt.output o a ∈ W ++ [l] ↔ .output o a ∈ W := by
    intro o a
    rw [List.mem_append, List.mem_singleton]
    exact ⟨fun h => h.resolve_right (fun e => ho o a e.symm), .inl⟩
  refine ⟨sorted_insertNat h.sorted, ?_, ?_, ?_, ?_, ?_, ?_⟩
  · intro k
    change k ∈ insertNat t s.keys ↔ _
    rw [mem_insertNat, h.keys]
    constructor
    · rintro (rfl | ⟨l', h1, h2⟩)
      · exact ⟨l, by simp, ht⟩
      · exact ⟨l', hsub h1, h2⟩
    · rintro ⟨l', h1, h2⟩
      rw [List.mem_append, List.mem_singleton] at h1
      rcases h1 with h1 | rfl
      · exact .inr ⟨l', h1, h2⟩
      · rw [ht] at h2; cases h2; exact .inl rfl
  · intro k hk
    change k ∈ insertNat t s.keys at hk
    change NodeOf _ k (Function.update s.node t g k)
    by_cases e : k = t
    · subst e; rw [Function.update_self]; exact hg
    · rw [Function.update_of_ne e]
      exact (h.node k ((mem_insertNat.1 hk).resolve_left e)).mono hsub
  · intro o a ho'
    rw [hout] at ho' ⊢
    exact h.mapping o a ho'
  · change s.outputs = _
    rw [outputCount_append, h.outputs]
    cases l <;> simp [outputCount] at ho ⊢
  · intro o a ho'
    rw [hout] at ho'
    exact h.least o a ho'
  · rcases h.attained with e | ⟨a, e⟩
    exacts [.inl e, .inr ⟨a, hsub e⟩]

theorem readR_reads (W : List RStmt) : RReads W (W.foldl readRStmt {}) := by
  refine foldl_append_inv (motive := fun P s => RReads P s) ?_ ?_
  · refine ⟨List.Pairwise.nil, ?_, ?_, ?_, rfl, ?_, .inl rfl⟩ <;> simp
  · rintro P l s - h
    cases l with
    | const t c => exact h.set rfl (.inl ⟨c, by simp, rfl⟩) (by simp)
    | input t i x => exact h.set rfl (.inr (.inl ⟨i, x, by simp, rfl⟩)) (by simp)
    | pass t a b => exact h.set rfl (.inr (.inr ⟨a, b, by simp, rfl⟩)) (by simp)
    | output o a =>
      have hsub : P ⊆ P ++ [.output o a] := List.subset_append_left _ _
      refine ⟨h.sorted, ?_, fun k hk => (h.node k hk).mono hsub, ?_, ?_, ?_, ?_⟩
      · intro k
        change k ∈ s.keys ↔ _
        rw [h.keys]
        constructor
        · rintro ⟨l', h1, h2⟩; exact ⟨l', hsub h1, h2⟩
        · rintro ⟨l', h1, h2⟩
          rw [List.mem_append, List.mem_singleton] at h1
          rcases h1 with h1 | rfl
          · exact ⟨l', h1, h2⟩
          · simp [rtarget] at h2
      · intro o' a' ho
        change RStmt.output (Function.update s.mapping a o a') a' ∈ _
        by_cases e : a' = a
        · subst e; simp
        · rw [Function.update_of_ne e]
          refine hsub (h.mapping o' a' ?_)
          rw [List.mem_append, List.mem_singleton] at ho
          exact ho.resolve_right (fun e' => e (by cases e'; rfl))
      · change s.outputs + 1 = _
        rw [outputCount_append, h.outputs]
        rfl
      · intro o' a' ho
        change min s.minOutput o ≤ o'
        rw [List.mem_append, List.mem_singleton] at ho
        rcases ho with ho | e
        · exact le_trans (min_le_left _ _) (h.least _ _ ho)
        · cases e; exact min_le_right _ _
      · change min s.minOutput o = _ ∨ ∃ a', RStmt.output (min s.minOutput o) a' ∈ _
        rcases le_total s.minOutput o with hle | hle
        · rw [min_eq_left hle]
          rcases h.attained with e | ⟨a', e⟩
          exacts [.inl e, .inr ⟨a', hsub e⟩]
        · rw [min_eq_right hle]
          exact .inr ⟨a, by simp⟩

/-- the gates of the wiring file at level 0 -/
def sources (s : RState) : List ℕ := s.keys.filter (fun k => decide ((s.node k).lvl = 0))

/-- the slot of a relay -/
def slotOf (s : RState) (ic size k : ℕ) : ℤ :=
  Int.tdiv ((s.mapping k : ℤ) - (s.minOutput : ℤ)) ic * size +
    Int.tmod ((s.mapping k : ℤ) - (s.minOutput : ℤ)) ic

theorem numberRdl_spec (s : RState) (ic size : ℕ) (hs : s.keys.Pairwise (· < ·)) :
    (numberRdl s ic size).keys = s.keys ∧
    (∀ k, ((numberRdl s ic size).node k).lvl = (s.node k).lvl ∧
      ((numberRdl s ic size).node k).value = (s.node k).value ∧
      ((numberRdl s ic size).node k).source = (s.node k).source) ∧
    (∀ k ∈ s.keys, (s.node k).lvl = 0 → ((numberRdl s ic size).node k).lid = ((sources s).idxOf k : ℕ)) ∧
    ∀ k ∈ s.keys, (s.node k).lvl ≠ 0 → ((numberRdl s ic size).node k).lid = slotOf s ic size k := by
  have hnd : s.keys.Nodup := hs.imp (fun h => ne_of_lt h)
  unfold numberRdl
  have := foldl_append_inv (l := s.keys) (b := (s, 0)) (f := fun (t : RState × ℕ) k =>
    let g := t.1.node k
    if g.lvl = 0 then
      ({ t.1 with node := Function.update t.1.node k { g with lid := (t.2 : ℤ) } }, t.2 + 1)
    else
      let x : ℤ := (t.1.mapping k : ℤ) - (t.1.minOutput : ℤ)
      let id := Int.tdiv x ic * size + Int.tmod x ic
      ({ t.1 with node := Function.update t.1.node k { g with lid := id } }, t.2))
    (motive := fun P t => t.1.keys = s.keys ∧ t.1.mapping = s.mapping ∧ t.1.minOutput = s.minOutput ∧
      t.2 = (P.filter (fun k => decide ((s.node k).lvl = 0))).length ∧
      (∀ k, (t.1.node k).lvl = (s.node k).lvl ∧ (t.1.node k).value = (s.node k).value ∧
        (t.1.node k).source = (s.node k).source) ∧
      (∀ k ∈ P, (s.node k).lvl = 0 →
        (t.1.node k).lid = ((P.filter (fun k => decide ((s.node k).lvl = 0))).idxOf k : ℕ)) ∧
      ∀ k ∈ P, (s.node k).lvl ≠ 0 → (t.1.node k).lid = slotOf s ic size k)
    (by simp) (by
      rintro P k ⟨t, c⟩ hpre ⟨h1, h2, h3, h4, h5, h6, h7⟩
      dsimp only at h1 h2 h3 h4 h5 h6 h7
      have hPk : (P ++ [k]).Nodup := hnd.sublist hpre.sublist
      have hkP : k ∉ P := by
        intro hk
        rw [List.nodup_append] at hPk
        exact hPk.2.2 k hk k (by simp) rfl
      have hne : ∀ x ∈ P, x ≠ k := fun x hx e => hkP (e ▸ hx)
      dsimp only
      by_cases hl : (s.node k).lvl = 0
      · rw [if_pos (by rw [(h5 k).1]; exact hl)]
        have hf : (P ++ [k]).filter (fun k => decide ((s.node k).lvl = 0)) =
            P.filter (fun k => decide ((s.node k).lvl = 0)) ++ [k] := by
          rw [List.filter_append]; simp [hl]
        refine ⟨h1, h2, h3, ?_, ?_, ?_, ?_⟩
        · rw [hf, List.length_append, h4]; rfl
        · intro x
          dsimp only
          by_cases e : x = k
          · subst e; rw [Function.update_self]; exact h5 x
          · rw [Function.update_of_ne e]; exact h5 x
        · intro x hx hx0
          dsimp only
          rw [hf]
          by_cases e : x = k
          · subst e
            rw [Function.update_self, List.idxOf_append_of_notMem (fun h => hkP (List.mem_of_mem_filter h))]
            simp [h4]
          · rw [Function.update_of_ne e]
            have hxP : x ∈ P := by
              rw [List.mem_append, List.mem_singleton] at hx
              exact hx.resolve_right e
            rw [List.idxOf_append_of_mem (List.mem_filter.2 ⟨hxP, by simpa using hx0⟩)]
            exact h6 x hxP hx0
        · intro x hx hx0
          have e : x ≠ k := fun e => hx0 (e ▸ hl)
          dsimp only
          rw [Function.update_of_ne e]
          rw [List.mem_append, List.mem_singleton] at hx
          exact h7 x (hx.resolve_right e) hx0
      · rw [if_neg (by rw [(h5 k).1]; exact hl)]
        have hf : (P ++ [k]).filter (fun k => decide ((s.node k).lvl = 0)) =
            P.filter (fun k => decide ((s.node k).lvl = 0)) := by
          rw [List.filter_append]; simp [hl]
        refine ⟨h1, h2, h3, ?_, ?_, ?_, ?_⟩
        · rw [hf, h4]
        · intro x
          dsimp only
          by_cases e : x = k
          · subst e; rw [Function.update_self]; exact h5 x
          · rw [Function.update_of_ne e]; exact h5 x
        · intro x hx hx0
          dsimp only
          rw [hf]
          have e : x ≠ k := fun e => hl (e ▸ hx0)
          rw [Function.update_of_ne e]
          rw [List.mem_append, List.mem_singleton] at hx
          exact h6 x (hx.resolve_right e) hx0
        · intro x hx hx0
          dsimp only
          by_cases e : x = k
          · subst e; rw [Function.update_self, h2, h3]; rfl
          · rw [Function.update_of_ne e]
            rw [List.mem_append, List.mem_singleton] at hx
            exact h7 x (hx.resolve_right e) hx0)
  exact ⟨this.1, this.2.2.2.2.1, this.2.2.2.2.2.1, this.2.2.2.2.2.2⟩

theorem putGate_ok {gs gs' : List (Option LGate)} {i : ℤ} {x : LGate} (h : putGate gs i x = .ok gs') :
    gs'.length = gs.length ∧ ∀ (p : ℕ) g, gs'[p]? = some (some g) → gs[p]? = some (some g) ∨ (p : ℤ) = i ∧ g = x := by
  unfold putGate at h
  split_ifs at h with hi
  cases h
  refine ⟨by simp, ?_⟩
  intro p g hp
  by_cases e : i.toNat = p
  · right
    subst e
    rw [List.getElem?_set_self (by omega)] at hp
    simp only [Option.some.injEq] at hp
    exact ⟨by omega, hp.symm⟩
  · left
    rwa [List.getElem?_set_ne e] at hp

/-- the layers of the wiring -/
structure Wired' (s : RState) (L : Layered) (ic : ℕ) (W : Wiring) : Prop where
  depth : L.depth ≠ 0
  positive : ic ≠ 0
  total : ic * W.repeatNum = s.outputs
  inputs : W.inputs = (sources s).map (fun k => ⟨3, ((sources s).idxOf k : ℕ), (s.node k).value, 0⟩) ++
    (List.range (fullCount (sources s).length - (sources s).length)).map
      (fun j => ⟨2, ((sources s).length + j : ℕ), 0, 0⟩)
  length : W.relays.length = (L.gates 0).length * W.repeatNum
  relays : ∀ (p : ℕ) g, W.relays[p]? = some (some g) →
    (∃ k ∈ s.keys, (s.node k).lvl = 1 ∧ slotOf s ic (L.gates 0).length k = p ∧
      g = ⟨10, p, ((numberRdl s ic (L.gates 0).length).node (s.node k).source).lid, 0⟩) ∨
    ∃ i < W.repeatNum, ∃ j < L.padding 0, p = i * (L.gates 0).length + j + ic ∧ g = ⟨2, p, 0, 0⟩

theorem loopFrom_pad (a b : ℕ) (gs : List LGate) :
    loopFrom a b (fun i gs => gs ++ [(⟨2, (i : ℤ), 0, 0⟩ : LGate)]) gs =
      gs ++ (List.range (b - a)).map (fun j => ⟨2, ((a + j : ℕ) : ℤ), 0, 0⟩) := by
  unfold loopFrom
  generalize b - a = n
  induction n with
  | zero => simp [loop]
  | succ n ih => rw [loop, ih, List.range_succ]; simp

theorem wire_ok {s : RState} {L : Layered} {ic : ℕ} {W : Wiring} (hs : s.keys.Pairwise (· < ·))
    (hl : ∀ k ∈ s.keys, (s.node k).lvl = 0 ∨ (s.node k).lvl = 1)
    (h : wire s L ic = .ok W) : Wired' s L ic W := by
  unfold wire at h
  by_cases h1 : L.depth = 0
  · rw [if_pos h1] at h; cases h
  by_cases h2 : ic = 0
  · rw [if_neg h1, if_pos h2] at h; cases h
  rw [if_neg h1, if_neg h2] at h
  obtain ⟨u, h3, h⟩ := Outcome.bind_eq_ok' h
  obtain ⟨r1, h4, h⟩ := Outcome.bind_eq_ok' h
  obtain ⟨r2, h5, h⟩ := Outcome.bind_eq_ok' h
  cases h
  obtain ⟨n1, n2, n3, n4⟩ := numberRdl_spec s ic (L.gates 0).length hs
  have h3 := assert_ok h3
  rw [beq_iff_eq] at h3
  have hin : ((numberRdl s ic (L.gates 0).length).keys.foldl (fun gs k =>
      let g := (numberRdl s ic (L.gates 0).length).node k
      if g.lvl = 0 then gs ++ [(⟨3, g.lid, g.value, 0⟩ : LGate)] else gs) []) =
      (sources s).map (fun k => ⟨3, ((sources s).idxOf k : ℕ), (s.node k).value, 0⟩) := by
    have hmap : (sources s).map (fun k => (⟨3, ((sources s).idxOf k : ℕ), (s.node k).value, 0⟩ : LGate)) =
        (sources s).map (fun k => ⟨3, ((numberRdl s ic (L.gates 0).length).node k).lid,
          ((numberRdl s ic (L.gates 0).length).node k).value, 0⟩) := by
      refine List.map_congr_left (fun k hk => ?_)
      rw [sources, List.mem_filter] at hk
      rw [n3 k hk.1 (by simpa using hk.2), (n2 k).2.1]
    rw [hmap, n1, sources]
    refine foldl_append_inv (motive := fun P (gs : List LGate) => gs =
      (P.filter (fun k => decide ((s.node k).lvl = 0))).map (fun k =>
        ⟨3, ((numberRdl s ic (L.gates 0).length).node k).lid,
          ((numberRdl s ic (L.gates 0).length).node k).value, 0⟩)) (by simp) ?_
    rintro P k gs - rfl
    dsimp only
    rw [(n2 k).1, List.filter_append]
    by_cases e : (s.node k).lvl = 0
    · rw [if_pos e]; simp [e]
    · rw [if_neg e]; simp [e]
  have hr1 := foldlM_append_inv (motive := fun (_ : List ℕ) (gs : List (Option LGate)) =>
    gs.length = (L.gates 0).length * (s.outputs / ic) ∧ ∀ (p : ℕ) g, gs[p]? = some (some g) →
    (∃ k ∈ s.keys, (s.node k).lvl = 1 ∧ slotOf s ic (L.gates 0).length k = p ∧
      g = ⟨10, p, ((numberRdl s ic (L.gates 0).length).node (s.node k).source).lid, 0⟩)) (by
      refine ⟨by simp, ?_⟩
      intro p g hp
      rw [List.getElem?_replicate] at hp
      split_ifs at hp
      cases hp) (by
      rintro P k gs gs' hpre ⟨a1, a2⟩ e
      have hk : k ∈ s.keys := by rw [← n1]; exact hpre.subset (by simp)
      dsimp only at e
      rw [(n2 k).1] at e
      split_ifs at e with hk1
      · obtain ⟨b1, b2⟩ := putGate_ok e
        refine ⟨b1.trans a1, ?_⟩
        intro p g hp
        rcases b2 p g hp with hp | ⟨c1, rfl⟩
        · exact a2 p g hp
        · have := n4 k hk (by omega)
          refine ⟨k, hk, hk1, by rw [← this, c1], ?_⟩
          rw [c1, (n2 k).2.2]
      · cases e
        exact ⟨a1, a2⟩) h4
  have hr2 := loopM_eq_ok h5 (fun _ (gs : List (Option LGate)) =>
    gs.length = (L.gates 0).length * (s.outputs / ic) ∧ ∀ (p : ℕ) g, gs[p]? = some (some g) →
    (∃ k ∈ s.keys, (s.node k).lvl = 1 ∧ slotOf s ic (L.gates 0).length k = p ∧
      g = ⟨10, p, ((numberRdl s ic (L.gates 0).length).node (s.node k).source).lid, 0⟩) ∨
    ∃ i < s.outputs / ic, ∃ j < L.padding 0, p = i * (L.gates 0).length + j + ic ∧ g = ⟨2, p, 0, 0⟩)
    ⟨hr1.1, fun p g hp => .inl (hr1.2 p g hp)⟩ (by
      intro i hi gs gs' hgs e
      refine loopM_eq_ok e (fun _ (gs : List (Option LGate)) =>
        gs.length = (L.gates 0).length * (s.outputs / ic) ∧ ∀ (p : ℕ) g, gs[p]? = some (some g) →
        (∃ k ∈ s.keys, (s.node k).lvl = 1 ∧ slotOf s ic (L.gates 0).length k = p ∧
          g = ⟨10, p, ((numberRdl s ic (L.gates 0).length).node (s.node k).source).lid, 0⟩) ∨
        ∃ i < s.outputs / ic, ∃ j < L.padding 0, p = i * (L.gates 0).length + j + ic ∧ g = ⟨2, p, 0, 0⟩)
        hgs ?_
      rintro j hj gs gs' ⟨a1, a2⟩ e
      obtain ⟨b1, b2⟩ := putGate_ok e
      refine ⟨b1.trans a1, ?_⟩
      intro p g hp
      rcases b2 p g hp with hp | ⟨c1, rfl⟩
      · exact a2 p g hp
      · exact .inr ⟨i, hi, j, hj, by exact_mod_cast c1, by rw [c1]⟩)
  refine ⟨h1, h2, h3, ?_, hr2.1, hr2.2⟩
  dsimp only
  rw [hin, loopFrom_pad]
  simp

end Libra.Compiler
