import Verif.Proofs.CompilerWire

/-!
# Positions of the gates of a compiled program
-/

namespace Libra.Compiler
open Libra Spec Matmul

/-! ### positions in sorted lists -/

theorem idxOf_eq_countP {l : List Id} (h : Sorted l) {k : Id} (hk : k ∈ l) :
    l.idxOf k = l.countP (fun x => Id.lt x k) := by
  induction l with
  | nil => cases hk
  | cons a l ih =>
    have h' := List.pairwise_cons.1 h
    by_cases e : a = k
    · subst e
      rw [List.idxOf_cons_self, List.countP_cons, lt_irrefl]
      have : l.countP (fun x => Id.lt x a) = 0 := by
        rw [List.countP_eq_zero]
        intro x hx hlt
        have := lt_trans hlt (h'.1 x hx)
        rw [lt_irrefl] at this
        cases this
      simp [this]
    · have hkl : k ∈ l := by
        rw [List.mem_cons] at hk
        exact hk.resolve_left (fun e' => e e'.symm)
      rw [List.idxOf_cons_ne _ e, List.countP_cons, ih h'.2 hkl, if_pos (h'.1 k hkl)]

theorem lt_V {x : Id} {a : ℕ} : Id.lt x (V a) = true ↔ x.1 < 86 ∨ x.1 = 86 ∧ x.2 < a := by
  unfold Id.lt V
  rw [Bool.or_eq_true, Bool.and_eq_true, decide_eq_true_iff, decide_eq_true_iff, beq_iff_eq]

theorem countP_lt_succ {l : List Id} (h : l.Nodup) {a : ℕ} (ha : V a ∈ l) :
    l.countP (fun x => Id.lt x (V (a + 1))) = l.countP (fun x => Id.lt x (V a)) + 1 := by
  induction l with
  | nil => cases ha
  | cons x l ih =>
    rw [List.nodup_cons] at h
    rw [List.countP_cons, List.countP_cons]
    have hiff : Id.lt x (V (a + 1)) = (Id.lt x (V a) || decide (x = V a)) := by
      obtain ⟨x1, x2⟩ := x
      rw [Bool.eq_iff_iff, Bool.or_eq_true, lt_V, lt_V, decide_eq_true_iff, V, Prod.mk.injEq]
      dsimp only
      omega
    by_cases e : x = V a
    · subst e
      have : l.countP (fun x => Id.lt x (V (a + 1))) = l.countP (fun x => Id.lt x (V a)) := by
        refine List.countP_congr (fun y hy => ?_)
        obtain ⟨y1, y2⟩ := y
        have hne : (y1, y2) ≠ V a := fun e => h.1 (e ▸ hy)
        rw [V, Ne, Prod.mk.injEq] at hne
        rw [lt_V, lt_V]
        dsimp only
        omega
      rw [this, hiff, lt_irrefl]
      simp
    · have hal : V a ∈ l := by
        rw [List.mem_cons] at ha
        exact ha.resolve_left (fun e' => e e'.symm)
      rw [ih h.2 hal, hiff]
      simp [e]
      omega

theorem idxOf_range {l : List Id} (h : Sorted l) {a n : ℕ} (hn : ∀ i ≤ n, V (a + i) ∈ l) :
    l.idxOf (V (a + n)) = l.idxOf (V a) + n := by
  induction n with
  | zero => rfl
  | succ n ih =>
    have h1 := hn n (by omega)
    rw [idxOf_eq_countP h (hn (n + 1) le_rfl), ← Nat.add_assoc, countP_lt_succ h.nodup h1, ← idxOf_eq_countP h h1,
      ih (fun i hi => hn i (by omega))]
    omega

/-! ### the gates of a level -/

variable {P : List Stmt} {d : Dag} {src : Id → Id} {L : Layered}

theorem sorted_levelKeys {d : Dag} (h : Sorted d.keys) (l : ℕ) : Sorted (levelKeys d l) := h.filter _

theorem lid_lt (h : Layout d L) {k : Id} {l : ℕ} (hk : k ∈ levelKeys d l) :
    (d.node k).lid < (levelKeys d l).length := by
  obtain ⟨h1, h2⟩ := mem_levelKeys.1 hk
  rw [h.lid k h1, h2]
  exact List.idxOf_lt_length_of_mem hk

theorem size_eq (h : Layout d L) (l : ℕ) : (L.gates l).length = fullCount (levelKeys d l).length := by
  rw [h.length, h.bitLen, fullCount_eq]

theorem lid_lt_size (h : Layout d L) {k : Id} {l : ℕ} (hk : k ∈ levelKeys d l) :
    (d.node k).lid < (L.gates l).length := by
  rw [size_eq h]
  exact _root_.lt_trans (lid_lt h hk) (lt_fullCount _)

theorem gate_lid (h : Layout d L) {k : Id} {l : ℕ} (hk : k ∈ levelKeys d l) :
    (L.gates l)[(d.node k).lid]? = some (layerGate d k) := by
  have h0 := lid_lt h hk
  obtain ⟨h1, h2⟩ := mem_levelKeys.1 hk
  rw [h.gates, List.getElem?_append_left (by simpa using h0)]
  rw [h.lid k h1, h2] at h0 ⊢
  rw [List.getElem?_map, List.getElem?_eq_getElem h0, List.getElem_idxOf]
  rfl

theorem target_of_gate {s : Stmt} {n : ℕ} {g : DagGate} (h : gateOfStmt s = some (n, g)) : target s = some n := by
  cases s <;> simp [gateOfStmt] at h <;> simp [target, h.1]

theorem single_unique {P : List Stmt} (h : (P.filterMap target).Nodup) {s s' : Stmt} (hs : s ∈ P) (hs' : s' ∈ P)
    {n : ℕ} (e : target s = some n) (e' : target s' = some n) : s = s' := by
  induction P with
  | nil => cases hs
  | cons a P ih =>
    rw [List.mem_cons] at hs hs'
    have hmem : ∀ x ∈ P, target x = some n → n ∈ P.filterMap target := fun x hx ex =>
      List.mem_filterMap.2 ⟨x, hx, ex⟩
    rcases hs with rfl | hs
    · rcases hs' with rfl | hs'
      · rfl
      · rw [List.filterMap_cons_some e, List.nodup_cons] at h
        exact absurd (hmem _ hs' e') h.1
    · rcases hs' with rfl | hs'
      · rw [List.filterMap_cons_some e', List.nodup_cons] at h
        exact absurd (hmem _ hs e) h.1
      · refine ih ?_ hs hs'
        cases ea : target a with
        | none => rwa [List.filterMap_cons_none ea] at h
        | some m =>
          rw [List.filterMap_cons_some ea, List.nodup_cons] at h
          exact h.2

theorem input_of_gate {s : Stmt} {n : ℕ} {g : DagGate} (h : gateOfStmt s = some (n, g)) (h3 : g.ty = 3) :
    ∃ i, s = .input n i := by
  cases s with
  | gate op t a b =>
    simp [gateOfStmt] at h
    obtain ⟨rfl, rfl⟩ := h
    exact absurd h3 (code_ne op).1
  | input t i =>
    simp [gateOfStmt] at h
    obtain ⟨rfl, rfl⟩ := h
    exact ⟨i, rfl⟩
  | sum t a b => simp [gateOfStmt] at h; obtain ⟨rfl, rfl⟩ := h; cases h3
  | expSum t a b => simp [gateOfStmt] at h; obtain ⟨rfl, rfl⟩ := h; cases h3
  | bit t a b => simp [gateOfStmt] at h; obtain ⟨rfl, rfl⟩ := h; cases h3
  | output o a => simp [gateOfStmt] at h
  | const t c => simp [gateOfStmt] at h

theorem mem_level0 (h : Compiled P d src L) (hP : (P.filterMap target).Nodup) {k : Id} :
    k ∈ levelKeys d 0 ↔ ∃ t i, .input t i ∈ P ∧ k = V t := by
  rw [mem_levelKeys]
  constructor
  · rintro ⟨hk, hl⟩
    have h3 : (d.node k).ty = 3 := (h.below0 k hk).resolve_left (by omega)
    rcases h.kinds k hk with ⟨j, rfl, h10, -⟩ | ⟨n, rfl, s, hs, g, e, hg, -⟩
    · omega
    · obtain ⟨i, rfl⟩ := input_of_gate e (hg ▸ h3)
      exact ⟨n, i, hs, rfl⟩
  · rintro ⟨t, i, hs, rfl⟩
    have hk := h.defined _ hs t rfl
    refine ⟨hk, ?_⟩
    rcases h.kinds _ hk with ⟨j, e, -⟩ | ⟨n, e, s, hs', g, e', hg, -, -, -, h3, -⟩
    · exact absurd e.symm (R_ne_V j t)
    · rw [V_inj] at e
      subst e
      have := single_unique hP hs hs' rfl (target_of_gate e')
      subst this
      simp [gateOfStmt] at e'
      subst e'
      exact h3 rfl

/-- the variables of the input lines -/
def inputTargets (P : List Stmt) : List ℕ :=
  P.filterMap (fun s => match s with | .input t _ => some t | _ => none)

theorem mem_inputTargets {P : List Stmt} {t : ℕ} : t ∈ inputTargets P ↔ ∃ i, .input t i ∈ P := by
  rw [inputTargets, List.mem_filterMap]
  constructor
  · rintro ⟨s, hs, e⟩
    cases s <;> simp at e
    subst e
    exact ⟨_, hs⟩
  · rintro ⟨i, hs⟩
    exact ⟨_, hs, rfl⟩

theorem inputTargets_nodup {P : List Stmt} (h : (P.filterMap target).Nodup) : (inputTargets P).Nodup := by
  induction P with
  | nil => exact List.nodup_nil
  | cons a P ih =>
    have hP : (P.filterMap target).Nodup := by
      cases ea : target a with
      | none => rwa [List.filterMap_cons_none ea] at h
      | some m => rw [List.filterMap_cons_some ea, List.nodup_cons] at h; exact h.2
    cases a with
    | input t i =>
      rw [List.filterMap_cons_some (b := t) (show target (.input t i) = some t from rfl), List.nodup_cons] at h
      change (t :: inputTargets P).Nodup
      refine List.nodup_cons.2 ⟨fun hm => h.1 ?_, ih hP⟩
      obtain ⟨j, hj⟩ := mem_inputTargets.1 hm
      exact List.mem_filterMap.2 ⟨_, hj, rfl⟩
    | _ => exact ih hP

theorem inputTargets_length (P : List Stmt) : (inputTargets P).length = inputCount P := by
  induction P with
  | nil => rfl
  | cons a P ih =>
    cases a <;> simp [inputTargets, inputCount] at ih ⊢ <;> exact ih

theorem inputTargets_countP (P : List Stmt) (t : ℕ) :
    (inputTargets P).countP (fun x => decide (x < t)) = P.countP (inputBefore t) := by
  induction P with
  | nil => rfl
  | cons a P ih =>
    cases a <;> simp [inputTargets, inputBefore, List.countP_cons] at ih ⊢ <;> simp [ih]

theorem level0_perm (h : Compiled P d src L) (hP : (P.filterMap target).Nodup) :
    (levelKeys d 0).Perm ((inputTargets P).map V) := by
  refine (List.perm_ext_iff_of_nodup (sorted_levelKeys h.sorted 0).nodup
    ((inputTargets_nodup hP).map (fun a b e => V_inj.1 e))).2 (fun k => ?_)
  rw [mem_level0 h hP, List.mem_map]
  constructor
  · rintro ⟨t, i, hs, rfl⟩
    exact ⟨t, mem_inputTargets.2 ⟨i, hs⟩, rfl⟩
  · rintro ⟨t, ht, rfl⟩
    obtain ⟨i, hs⟩ := mem_inputTargets.1 ht
    exact ⟨t, i, hs, rfl⟩

theorem level0_length (h : Compiled P d src L) (hP : (P.filterMap target).Nodup) :
    (levelKeys d 0).length = inputCount P := by
  rw [(level0_perm h hP).length_eq, List.length_map, inputTargets_length]

theorem level0_lid (h : Compiled P d src L) (hP : ProgramOk P) {t i : ℕ} (hs : .input t i ∈ P) :
    (d.node (V t)).lid = i := by
  have hk : V t ∈ levelKeys d 0 := (mem_level0 h hP.single).2 ⟨t, i, hs, rfl⟩
  obtain ⟨h1, h2⟩ := mem_levelKeys.1 hk
  rw [h.lid _ h1, h2, idxOf_eq_countP (sorted_levelKeys h.sorted 0) hk, (level0_perm h hP.single).countP_eq,
    hP.inputs t i hs, ← inputTargets_countP, List.countP_map]
  refine List.countP_congr (fun x _ => ?_)
  change Id.lt (V x) (V t) = true ↔ _
  rw [lt_V, decide_eq_true_iff]
  simp [V]

end Libra.Compiler
