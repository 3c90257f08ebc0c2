import Verif.Proofs.ParaUpdate
import Verif.Proofs.CmtComplete

/-!
# The initialisation of the two phases in the threaded prover

If every gate, its first and its second operand lie in the slice of the same thread, the threads have
disjoint footprints.
-/

namespace Libra.ParaTrack
open Spec Finset Threads Threads.Prog FastTrack
open Libra.Cmt (tab tyOf uOf vOf A1 B1 A2 B2 lin con LayerAM)
variable {F : Type} [CommRing F]

/-! ## the loops of a thread -/

theorem initEntry_run (V : ℕ → F) (i : ℕ) (m : Loc → F) :
    let m' := ((initEntry V i).run m).1
    entry false m' .vMultAdd i = ⟨0, V i⟩ ∧ entry false m' .addV i = ⟨0, 0⟩ ∧
    entry false m' .addMult i = ⟨0, 0⟩ ∧
    ∀ t j, j ≠ i → entry false m' t j = entry false m t j := by
  simp only [initEntry, run_bind', run_set]
  refine ⟨?_, ?_, ?_, fun t j hj => ?_⟩
  · simp [entry, Function.update_of_ne]
  · simp [entry, Function.update_of_ne]
  · simp [entry, Function.update_of_ne]
  · simp [entry, Function.update_of_ne, hj]

theorem initLoop_run (V : ℕ → F) (a b : ℕ) (m : Loc → F) :
    let m' := ((forRange a b (initEntry V)).run m).1
    (∀ i, a ≤ i → i < b → entry false m' .vMultAdd i = ⟨0, V i⟩ ∧ entry false m' .addV i = ⟨0, 0⟩ ∧
      entry false m' .addMult i = ⟨0, 0⟩) := by
  intro m'
  have key := loop_inv (n := b - a) (s := m)
    (b := fun k m => ((initEntry V (a + k)).run m).1)
    (fun n (M : Loc → F) => ∀ i, a ≤ i → i < a + n → entry false M .vMultAdd i = ⟨0, V i⟩ ∧
      entry false M .addV i = ⟨0, 0⟩ ∧ entry false M .addMult i = ⟨0, 0⟩)
    (fun j _ h => by omega) (by
      rintro n - M h1 i hi hi'
      obtain ⟨g1, g2, g3, g4⟩ := initEntry_run V (a + n) M
      by_cases e : i = a + n
      · subst e; exact ⟨g1, g2, g3⟩
      · rw [g4 _ _ e, g4 _ _ e, g4 _ _ e]
        exact h1 i hi (by omega))
  have e : m' = loop (b - a) (fun k m => ((initEntry V (a + k)).run m).1) m :=
    run_forRange a b _ m
  rw [e]
  exact fun i h1 h2 => key i h1 (by omega)

/-- the loop filling `beta_g_sum` or `beta_u` -/
theorem fillLoop_run (loc : ℕ → Loc) (hinj : Function.Injective loc) (f : ℕ → F) (a b : ℕ) (m : Loc → F) :
    let m' := ((forRange a b (fun i => set (loc i) (f i))).run m).1
    (∀ i, a ≤ i → i < b → m' (loc i) = f i) ∧ ∀ l, (∀ i, l ≠ loc i) → m' l = m l := by
  intro m'
  have key := loop_inv (n := b - a) (s := m)
    (b := fun k m => ((set (loc (a + k)) (f (a + k)) : Prog Loc F Unit).run m).1)
    (fun n (M : Loc → F) => (∀ i, a ≤ i → i < a + n → M (loc i) = f i) ∧
      ∀ l, (∀ i, l ≠ loc i) → M l = m l)
    ⟨fun j _ h => by omega, fun _ _ => rfl⟩ (by
      rintro n - M ⟨h1, h2⟩
      simp only [run_set]
      refine ⟨fun i hi hi' => ?_, fun l hl => ?_⟩
      · by_cases e : i = a + n
        · subst e; rw [Function.update_self]
        · rw [Function.update_of_ne (fun h => e (hinj h)), h1 i hi (by omega)]
      · rw [Function.update_of_ne (hl _), h2 l hl])
  have e : m' = loop (b - a) (fun k m => ((set (loc (a + k)) (f (a + k)) : Prog Loc F Unit).run m).1) m :=
    run_forRange a b _ m
  rw [e]
  exact ⟨fun i h1 h2 => key.1 i h1 (by omega), key.2⟩

/-- adding the gate of type `ty` with weight `c` and other operand `o` at position `x` -/
def addGate (x : ℕ) (c : F) (ty : ℤ) (o : F) (m : Loc → F) : Loc → F :=
  Function.update (Function.update m (.lin false .addV x false)
      (m (.lin false .addV x false) + c * con ty o))
    (.lin false .addMult x false) (m (.lin false .addMult x false) + c * lin ty o)

theorem addGate_other {ty : ℤ} (h0 : ty ≠ 0) (h1 : ty ≠ 1) (x : ℕ) (c o : F) (m : Loc → F) :
    addGate x c ty o m = m := by
  simp [addGate, con, lin, h0, h1]

theorem phase1Entry_run (V : ℕ → F) (u : ℕ) (e : ℤ × ℕ × ℕ) (m : Loc → F) :
    ((phase1Entry V u e).run m).1 = addGate u (m (.betaG e.2.1)) e.1 (V e.2.2) m := by
  by_cases h0 : e.1 = 0
  · simp [phase1Entry, h0, addGate, con, lin, Function.update_of_ne, mul_comm]
  · by_cases h1 : e.1 = 1
    · simp [phase1Entry, h1, addGate, con, lin, mul_comm]
    · rw [addGate_other h0 h1]; simp [phase1Entry, h0, h1]

theorem phase2Entry_run (vU : F) (v : ℕ) (e : ℤ × ℕ × ℕ) (m : Loc → F) :
    ((phase2Entry vU v e).run m).1 =
      addGate v (m (.betaG e.2.1) * m (.betaU e.2.2)) e.1 vU m := by
  by_cases h0 : e.1 = 0
  · simp only [phase2Entry, h0, addGate, con, lin]
    simp [Function.update_of_ne, mul_comm, add_comm]
    rw [Function.update_comm (by simp)]
  · by_cases h1 : e.1 = 1
    · simp [phase2Entry, h1, addGate, con, lin, mul_comm]
    · rw [addGate_other h0 h1]; simp [phase2Entry, h0, h1]

/-- not one of the two locations changed by the gates at position `x` -/
def Kept (x : ℕ) (l : Loc) : Prop := l ≠ .lin false .addV x false ∧ l ≠ .lin false .addMult x false

theorem addGate_kept {x : ℕ} {l : Loc} (h : Kept x l) (c : F) (ty : ℤ) (o : F) (m : Loc → F) :
    addGate x c ty o m l = m l := by
  rw [addGate, Function.update_of_ne h.2, Function.update_of_ne h.1]

/-- a list of gates at the same position -/
theorem gateList_run {γ : Type} (x : ℕ) (c : (Loc → F) → γ → F) (ty : γ → ℤ) (o : γ → F)
    (body : γ → Prog Loc F Unit)
    (hb : ∀ e m, ((body e).run m).1 = addGate x (c m e) (ty e) (o e) m)
    (hc : ∀ m m' e, (∀ l, Kept x l → m l = m' l) → c m e = c m' e) (L : List γ) (m : Loc → F) :
    let m' := ((forIn' L body).run m).1
    m' (.lin false .addV x false) =
      m (.lin false .addV x false) + (L.map fun e => c m e * con (ty e) (o e)).sum ∧
    m' (.lin false .addMult x false) =
      m (.lin false .addMult x false) + (L.map fun e => c m e * lin (ty e) (o e)).sum ∧
    ∀ l, Kept x l → m' l = m l := by
  rw [run_forIn']
  induction L using List.reverseRecOn with
  | nil => simp
  | append_singleton L e ih =>
    simp only [List.foldl_append, List.foldl_cons, List.foldl_nil, List.map_append, List.map_cons,
      List.map_nil, List.sum_append, List.sum_cons, List.sum_nil, add_zero]
    obtain ⟨h1, h2, h3⟩ := ih
    rw [hb]
    set M := L.foldl (fun m x => ((body x).run m).1) m with hM
    have hcM : c M e = c m e := hc _ _ _ h3
    refine ⟨?_, ?_, fun l hl => ?_⟩
    · rw [addGate, Function.update_of_ne (by simp), Function.update_self, h1, hcM, add_assoc]
    · rw [addGate, Function.update_self, h2, hcM, add_assoc]
    · rw [addGate_kept hl, h3 l hl]

/-- the loop over the positions -/
theorem gateLoop_run {γ : Type} (c : (Loc → F) → γ → F) (ty : γ → ℤ) (o : γ → F)
    (body : ℕ → γ → Prog Loc F Unit)
    (hb : ∀ x e m, ((body x e).run m).1 = addGate x (c m e) (ty e) (o e) m)
    (hc : ∀ m m' e, (∀ l, (∀ x, Kept x l) → m l = m' l) → c m e = c m' e) (L : ℕ → List γ)
    (a b : ℕ) (m : Loc → F) :
    let m' := ((forRange a b (fun i => forIn' (L i) (body i))).run m).1
    (∀ i, a ≤ i → i < b → m' (.lin false .addV i false) =
      m (.lin false .addV i false) + ((L i).map fun e => c m e * con (ty e) (o e)).sum) ∧
    (∀ i, a ≤ i → i < b → m' (.lin false .addMult i false) =
      m (.lin false .addMult i false) + ((L i).map fun e => c m e * lin (ty e) (o e)).sum) ∧
    (∀ l, (∀ x, Kept x l) → m' l = m l) := by
  intro m'
  have key := loop_inv (n := b - a) (s := m)
    (b := fun k m => ((forIn' (L (a + k)) (body (a + k))).run m).1)
    (fun n (M : Loc → F) =>
      (∀ i, M (.lin false .addV i false) = m (.lin false .addV i false) +
        if a ≤ i ∧ i < a + n then ((L i).map fun e => c m e * con (ty e) (o e)).sum else 0) ∧
      (∀ i, M (.lin false .addMult i false) = m (.lin false .addMult i false) +
        if a ≤ i ∧ i < a + n then ((L i).map fun e => c m e * lin (ty e) (o e)).sum else 0) ∧
      ∀ l, (∀ x, Kept x l) → M l = m l)
    ⟨fun i => by rw [if_neg (by omega), add_zero], fun i => by rw [if_neg (by omega), add_zero],
      fun _ _ => rfl⟩ (by
      rintro n - M ⟨h1, h2, h3⟩
      obtain ⟨g1, g2, g3⟩ := gateList_run (a + n) c ty o (body (a + n)) (hb (a + n))
        (fun m m' e h => hc m m' e (fun l hl => h l (hl _))) (L (a + n)) M
      have hcM : ∀ e, c M e = c m e := fun e => hc _ _ _ h3
      simp only [hcM] at g1 g2
      refine ⟨fun i => ?_, fun i => ?_, fun l hl => (g3 l (hl _)).trans (h3 l hl)⟩
      · by_cases e : i = a + n
        · subst e
          rw [g1, h1, if_neg (by omega), if_pos (by omega), add_zero]
        · rw [g3 _ ⟨by simpa using e, by simp⟩, h1]
          congr 1
          exact if_congr (by omega) rfl rfl
      · by_cases e : i = a + n
        · subst e
          rw [g2, h2, if_neg (by omega), if_pos (by omega), add_zero]
        · rw [g3 _ ⟨by simp, by simpa using e⟩, h2]
          congr 1
          exact if_congr (by omega) rfl rfl)
  have e : m' = loop (b - a) (fun k m => ((forIn' (L (a + k)) (body (a + k))).run m).1) m :=
    run_forRange a b _ m
  rw [e]
  refine ⟨fun i h1 h2 => ?_, fun i h1 h2 => ?_, key.2.2⟩
  · rw [key.1 i, if_pos (by omega)]
  · rw [key.2.1 i, if_pos (by omega)]

/-- the gates at a position as a sum over all gates -/
theorem filter_sum (N : ℕ) (p : ℕ → Prop) [DecidablePred p] (f : ℕ → F) :
    (((List.range N).filter (fun g => p g)).map f).sum = ∑ g ∈ range N, if p g then f g else 0 := by
  induction N with
  | zero => simp
  | succ N ih =>
    rw [List.range_succ, List.filter_append, List.map_append, List.sum_append, ih, sum_range_succ]
    congr 1
    by_cases h : p N <;> simp [h]

/-! ## all threads -/

/-- in layer `l` every gate, its first and its second operand lie in the slice of the same thread -/
def LocalLayer (C : Circuit) (l : ℕ) : Prop := ∀ g < 2 ^ C.bl l, tyOf C l g ≠ 2 →
  sliceOf (2 ^ C.bl l) g = sliceOf (2 ^ C.bl (l - 1)) (uOf C l g) ∧
  sliceOf (2 ^ C.bl (l - 1)) (uOf C l g) = sliceOf (2 ^ C.bl (l - 1)) (vOf C l g)

theorem mem_uGates {C : Circuit} {l i : ℕ} {e : ℤ × ℕ × ℕ} (h : e ∈ uGates C l i) :
    e.2.1 < 2 ^ C.bl l ∧ e.1 = tyOf C l e.2.1 ∧ uOf C l e.2.1 = i ∧ e.2.2 = vOf C l e.2.1 := by
  simp only [uGates, List.mem_map, List.mem_filter, List.mem_range, decide_eq_true_eq] at h
  obtain ⟨g, ⟨hg, hu⟩, rfl⟩ := h
  exact ⟨hg, rfl, by rw [uOf, hu]; rfl, rfl⟩

theorem mem_vGates {C : Circuit} {l i : ℕ} {e : ℤ × ℕ × ℕ} (h : e ∈ vGates C l i) :
    e.2.1 < 2 ^ C.bl l ∧ e.1 = tyOf C l e.2.1 ∧ vOf C l e.2.1 = i ∧ e.2.2 = uOf C l e.2.1 := by
  simp only [vGates, List.mem_map, List.mem_filter, List.mem_range, decide_eq_true_eq] at h
  obtain ⟨g, ⟨hg, hu⟩, rfl⟩ := h
  exact ⟨hg, rfl, by rw [vOf, hu]; rfl, rfl⟩

/-- what thread `id` accesses in the initialisation of phase 1 -/
def own1 (total sizeG : ℕ) (id : Fin numThreads) : Loc → Prop
  | .lin false _ i _ => sliceOf total i = id
  | .betaG i => sliceOf sizeG i = id
  | _ => False

/-- what thread `id` writes in the initialisation of phase 2 -/
def own2 (total sizeU : ℕ) (id : Fin numThreads) : Loc → Prop
  | .lin false _ i _ => sliceOf total i = id
  | .betaU i => sliceOf sizeU i = id
  | _ => False

/-- what thread `id` reads in the initialisation of phase 2 -/
def read2 (total sizeU : ℕ) (id : Fin numThreads) : Loc → Prop
  | .betaG _ => True
  | l => own2 total sizeU id l

theorem initEntry_within {R W : Loc → Prop} {i : ℕ} (h : ∀ t a, W (.lin false t i a)) (V : ℕ → F) :
    (initEntry V i).Within R W :=
  .bind' (.set (h _ _)) fun _ => .bind' (.set (h _ _)) fun _ => .bind' (.set (h _ _)) fun _ =>
    .bind' (.set (h _ _)) fun _ => .bind' (.set (h _ _)) fun _ => .set (h _ _)

theorem phase1_disjoint {C : Circuit} {l : ℕ} (hl : LocalLayer C l) (V tmpG : ℕ → F) :
    Threads.Disjoint (own1 (2 ^ C.bl (l - 1)) (2 ^ C.bl l)) (own1 (2 ^ C.bl (l - 1)) (2 ^ C.bl l))
      (fun id : Fin numThreads =>
        phase1InitThread C l V tmpG (2 ^ C.bl (l - 1)) (2 ^ C.bl l) id) := by
  have hne : ∀ i j : Fin numThreads, i ≠ j → ∀ l', own1 (2 ^ C.bl (l - 1)) (2 ^ C.bl l) i l' →
      ¬ own1 (2 ^ C.bl (l - 1)) (2 ^ C.bl l) j l' := by
    intro i j hij l' hi hj
    rcases l' with ⟨_ | _, t, k, a⟩ | k | k | ⟨k, c⟩
    · exact hij (Fin.ext (hi.symm.trans hj))
    · exact hi
    · exact hij (Fin.ext (hi.symm.trans hj))
    · exact hi
    · exact hi
  refine ⟨fun id => ?_, hne, hne⟩
  refine .bind' (.forRange fun i h1 h2 => initEntry_within (fun t a => sliceOf_last h1 h2) V) fun _ =>
    .bind' (.forRange fun i h1 h2 => .set (sliceOf_last h1 h2)) fun _ =>
    .forRange fun i h1 h2 => .forIn' fun e he => ?_
  obtain ⟨hg, hty, hu, -⟩ := mem_uGates he
  have hi : sliceOf (2 ^ C.bl (l - 1)) i = id := sliceOf_eq h1 h2
  have hi' : ∀ t a, own1 (2 ^ C.bl (l - 1)) (2 ^ C.bl l) id (.lin false t i a) := fun _ _ => hi
  have hgs : tyOf C l e.2.1 ≠ 2 → own1 (2 ^ C.bl (l - 1)) (2 ^ C.bl l) id (.betaG e.2.1) := by
    intro h
    change sliceOf _ _ = _
    rw [(hl _ hg h).1, hu, hi]
  unfold phase1Entry
  split_ifs with h0 h1
  · have hgs := hgs (by omega)
    exact .bind' (.get (hi' _ _)) fun _ => .bind' (.get hgs) fun _ => .bind' (.set (hi' _ _)) fun _ =>
      .bind' (.get (hi' _ _)) fun _ => .bind' (.get hgs) fun _ => .set (hi' _ _)
  · have hgs := hgs (by omega)
    exact .bind' (.get (hi' _ _)) fun _ => .bind' (.get hgs) fun _ => .set (hi' _ _)
  · exact .ret _

theorem phase2_disjoint {C : Circuit} {l : ℕ} (hl : LocalLayer C l) (V tmpU : ℕ → F) (vU : F) :
    Threads.Disjoint (read2 (2 ^ C.bl (l - 1)) (2 ^ C.bl (l - 1)))
      (own2 (2 ^ C.bl (l - 1)) (2 ^ C.bl (l - 1))) (fun id : Fin numThreads =>
        phase2InitThread C l V tmpU vU (2 ^ C.bl (l - 1)) (2 ^ C.bl (l - 1)) id) := by
  refine ⟨fun id => ?_, fun i j hij l' hi hj => ?_, fun i j hij l' hi hj => ?_⟩
  · refine .bind' (.forRange fun i h1 h2 => .set (sliceOf_last h1 h2)) fun _ =>
      .bind' (.forRange fun i h1 h2 => initEntry_within (fun t a => sliceOf_last h1 h2) V) fun _ =>
      .forRange fun i h1 h2 => .forIn' fun e he => ?_
    obtain ⟨hg, hty, hv, hu⟩ := mem_vGates he
    have hi : sliceOf (2 ^ C.bl (l - 1)) i = id := sliceOf_last h1 h2
    have hw : ∀ t a, own2 (2 ^ C.bl (l - 1)) (2 ^ C.bl (l - 1)) id (.lin false t i a) := fun _ _ => hi
    have hr : ∀ t a, read2 (2 ^ C.bl (l - 1)) (2 ^ C.bl (l - 1)) id (.lin false t i a) := fun _ _ => hi
    have hgs : ∀ g, read2 (2 ^ C.bl (l - 1)) (2 ^ C.bl (l - 1)) id (.betaG g) := fun _ => trivial
    have hus : tyOf C l e.2.1 ≠ 2 →
        read2 (2 ^ C.bl (l - 1)) (2 ^ C.bl (l - 1)) id (.betaU e.2.2) := by
      intro h
      change sliceOf _ _ = _
      rw [hu, (hl _ hg h).2, hv, hi]
    unfold phase2Entry
    split_ifs with h0 h1
    · have hus := hus (by omega)
      exact .bind' (.get (hr _ _)) fun _ => .bind' (.get (hgs _)) fun _ => .bind' (.get hus) fun _ =>
        .set (hw _ _)
    · have hus := hus (by omega)
      exact .bind' (.get (hr _ _)) fun _ => .bind' (.get (hgs _)) fun _ => .bind' (.get hus) fun _ =>
        .bind' (.set (hw _ _)) fun _ =>
        .bind' (.get (hgs _)) fun _ => .bind' (.get hus) fun _ => .bind' (.get (hr _ _)) fun _ =>
        .set (hw _ _)
    · exact .ret _
  · rcases l' with ⟨_ | _, t, k, a⟩ | k | k | ⟨k, c⟩
    · exact hij (Fin.ext (hi.symm.trans hj))
    · exact hi
    · exact hi
    · exact hij (Fin.ext (hi.symm.trans hj))
    · exact hi
  · rcases l' with ⟨_ | _, t, k, a⟩ | k | k | ⟨k, c⟩
    · exact hij (Fin.ext (hi.symm.trans hj))
    · exact hi
    · exact hi
    · exact hij (Fin.ext (hi.symm.trans hj))
    · exact hi

/-- the gates at position `i` as the tables of the protocol -/
theorem sum_uGates {C : Circuit} {l i : ℕ} (h : ∀ g < 2 ^ C.bl l, tyOf C l g ≠ 2 → 0 ≤ (C.gate l g).u)
    (f : ℤ × ℕ × ℕ → F) (hf : ∀ e, e.1 = 2 → f e = 0) :
    ((uGates C l i).map f).sum =
      ∑ g ∈ range (2 ^ C.bl l), if uOf C l g = i then f (tyOf C l g, g, vOf C l g) else 0 := by
  rw [uGates, List.map_map, filter_sum]
  refine sum_congr rfl (fun g hg => ?_)
  by_cases h2 : tyOf C l g = 2
  · have : (f ∘ fun g => ((C.gate l g).ty, g, (C.gate l g).v.toNat)) g = 0 := hf _ h2
    rw [this, hf _ h2, ite_self, ite_self]
  · have := h g (mem_range.1 hg) h2
    refine if_congr ?_ rfl rfl
    rw [uOf]; omega

theorem sum_vGates {C : Circuit} {l i : ℕ} (h : ∀ g < 2 ^ C.bl l, tyOf C l g ≠ 2 → 0 ≤ (C.gate l g).v)
    (f : ℤ × ℕ × ℕ → F) (hf : ∀ e, e.1 = 2 → f e = 0) :
    ((vGates C l i).map f).sum =
      ∑ g ∈ range (2 ^ C.bl l), if vOf C l g = i then f (tyOf C l g, g, uOf C l g) else 0 := by
  rw [vGates, List.map_map, filter_sum]
  refine sum_congr rfl (fun g hg => ?_)
  by_cases h2 : tyOf C l g = 2
  · have : (f ∘ fun g => ((C.gate l g).ty, g, (C.gate l g).u.toNat)) g = 0 := hf _ h2
    rw [this, hf _ h2, ite_self, ite_self]
  · have := h g (mem_range.1 hg) h2
    refine if_congr ?_ rfl rfl
    rw [vOf]; omega

/-- the operands of the gates of layer `l` are not negative -/
structure Signs (C : Circuit) (l : ℕ) : Prop where
  u : ∀ g < 2 ^ C.bl l, tyOf C l g ≠ 2 → 0 ≤ (C.gate l g).u
  v : ∀ g < 2 ^ C.bl l, tyOf C l g ≠ 2 → 0 ≤ (C.gate l g).v

theorem con_two (o : F) : con 2 o = 0 := by simp [con]
theorem lin_two (o : F) : lin 2 o = 0 := by simp [lin]

/-- **phase 1, local layer: every schedule gives the tables of the protocol** -/
theorem phase1_joins {C : Circuit} {l : ℕ} (hl : LocalLayer C l) (hs : Signs C l)
    {V tmpG : ℕ → F} {m m' : Loc → F}
    (h : Joins m (fun id : Fin numThreads =>
        phase1InitThread C l V tmpG (2 ^ C.bl (l - 1)) (2 ^ C.bl l) id) m') :
    (∀ i < 2 ^ C.bl (l - 1), entry false m' .vMultAdd i = ⟨0, V i⟩ ∧
      (entry false m' .addV i).b = B1 C l tmpG V i ∧
      (entry false m' .addMult i).b = A1 C l tmpG V i) ∧
    ∀ g < 2 ^ C.bl l, m' (.betaG g) = tmpG g := by
  obtain ⟨j1, -⟩ := (phase1_disjoint hl V tmpG).joins h
  have inj : Function.Injective Loc.betaG := fun _ _ h => by simpa using h
  have step : ∀ id : ℕ, ∃ m2 : Loc → F,
      (∀ i, first (2 ^ C.bl (l - 1)) id ≤ i → i < last (2 ^ C.bl (l - 1)) id →
        entry false m2 .vMultAdd i = ⟨0, V i⟩ ∧ entry false m2 .addV i = ⟨0, 0⟩ ∧
        entry false m2 .addMult i = ⟨0, 0⟩) ∧
      (∀ i, first (2 ^ C.bl l) id ≤ i → i < last (2 ^ C.bl l) id → m2 (.betaG i) = tmpG i) ∧
      ((phase1InitThread C l V tmpG (2 ^ C.bl (l - 1)) (2 ^ C.bl l) id).run m).1 =
        ((forRange (first (2 ^ C.bl (l - 1)) id) ((id + 1) * blockSize (2 ^ C.bl (l - 1))) (fun i =>
          forIn' (uGates C l i) (phase1Entry V i))).run m2).1 := by
    intro id
    refine ⟨((forRange (first (2 ^ C.bl l) id) (last (2 ^ C.bl l) id) (fun i => set (.betaG i) (tmpG i))).run
        ((forRange (first (2 ^ C.bl (l - 1)) id) (last (2 ^ C.bl (l - 1)) id) (initEntry V)).run m).1).1,
      ?_, ?_, by simp only [phase1InitThread, run_bind']⟩
    · intro i h1 h2
      have a := initLoop_run V (first (2 ^ C.bl (l - 1)) id) (last (2 ^ C.bl (l - 1)) id) m i h1 h2
      have b := (fillLoop_run Loc.betaG inj tmpG (first (2 ^ C.bl l) id) (last (2 ^ C.bl l) id)
        ((forRange (first (2 ^ C.bl (l - 1)) id) (last (2 ^ C.bl (l - 1)) id) (initEntry V)).run m).1).2
      have b' : ∀ t, entry false ((forRange (first (2 ^ C.bl l) id) (last (2 ^ C.bl l) id)
          (fun i => set (.betaG i) (tmpG i))).run ((forRange (first (2 ^ C.bl (l - 1)) id)
          (last (2 ^ C.bl (l - 1)) id) (initEntry V)).run m).1).1 t i = entry false
          ((forRange (first (2 ^ C.bl (l - 1)) id) (last (2 ^ C.bl (l - 1)) id) (initEntry V)).run m).1
          t i := fun t => by
        rw [entry, b _ (by simp), b _ (by simp), entry]
      rw [b', b', b']
      exact a
    · exact (fillLoop_run Loc.betaG inj tmpG (first (2 ^ C.bl l) id) (last (2 ^ C.bl l) id) _).1
  have keptV : ∀ i a, ∀ x, Kept x (.lin false .vMultAdd i a) := fun i a x => ⟨by simp, by simp⟩
  have keptG : ∀ g, ∀ x, Kept x (.betaG g) := fun g x => ⟨by simp, by simp⟩
  refine ⟨fun i hi => ?_, fun g hg => ?_⟩
  · obtain ⟨c1, c2, c3⟩ := slice_cover hi
    set id := sliceOf (2 ^ C.bl (l - 1)) i with hid
    obtain ⟨m2, s1, s2, e⟩ := step id
    obtain ⟨g1, g2, g3⟩ := gateLoop_run (fun m (e : ℤ × ℕ × ℕ) => m (.betaG e.2.1)) (fun e => e.1)
      (fun e => V e.2.2) (phase1Entry V) (phase1Entry_run V) (fun m m' e h => h _ (keptG _))
      (uGates C l) (first (2 ^ C.bl (l - 1)) id) ((id + 1) * blockSize (2 ^ C.bl (l - 1))) m2
    rw [← e] at g1 g2 g3
    obtain ⟨t1, t2, t3⟩ := s1 i c2 c3
    have c3' : i < (id + 1) * blockSize (2 ^ C.bl (l - 1)) := lt_of_lt_of_le c3 (min_le_left _ _)
    have hbeta : ∀ g < 2 ^ C.bl l, uOf C l g = i → tyOf C l g ≠ 2 → m2 (.betaG g) = tmpG g := by
      intro g hg hu h2
      have hgid : sliceOf (2 ^ C.bl l) g = id := by rw [(hl g hg h2).1, hu]
      obtain ⟨-, d2, d3⟩ := slice_cover hg
      rw [hgid] at d2 d3
      exact s2 g d2 d3
    have hm' : ∀ t a, m' (.lin false t i a) =
        ((phase1InitThread C l V tmpG (2 ^ C.bl (l - 1)) (2 ^ C.bl l) id).run m).1 (.lin false t i a) :=
      fun t a => j1 ⟨id, c1⟩ (.lin false t i a) rfl
    have tb2 : m2 (.lin false .addV i false) = 0 := congrArg LinearPoly.b t2
    have tb3 : m2 (.lin false .addMult i false) = 0 := congrArg LinearPoly.b t3
    refine ⟨?_, ?_, ?_⟩
    · rw [entry, hm', hm', g3 _ (keptV _ _), g3 _ (keptV _ _)]
      exact t1
    · change m' (.lin false .addV i false) = _
      rw [hm', g1 i c2 c3', tb2, zero_add,
        sum_uGates hs.u _ (fun e he => by rw [he, con_two, mul_zero])]
      refine sum_congr rfl (fun g hg => ?_)
      by_cases hu : uOf C l g = i
      · rw [if_pos hu, if_pos hu]
        by_cases h2 : tyOf C l g = 2
        · simp only [h2, con_two, mul_zero]
        · simp only [hbeta g (mem_range.1 hg) hu h2]
      · rw [if_neg hu, if_neg hu]
    · change m' (.lin false .addMult i false) = _
      rw [hm', g2 i c2 c3', tb3, zero_add,
        sum_uGates hs.u _ (fun e he => by rw [he, lin_two, mul_zero])]
      refine sum_congr rfl (fun g hg => ?_)
      by_cases hu : uOf C l g = i
      · rw [if_pos hu, if_pos hu]
        by_cases h2 : tyOf C l g = 2
        · simp only [h2, lin_two, mul_zero]
        · simp only [hbeta g (mem_range.1 hg) hu h2]
      · rw [if_neg hu, if_neg hu]
  · obtain ⟨c1, c2, c3⟩ := slice_cover hg
    obtain ⟨m2, s1, s2, e⟩ := step (sliceOf (2 ^ C.bl l) g)
    obtain ⟨-, -, g3⟩ := gateLoop_run (fun m (e : ℤ × ℕ × ℕ) => m (.betaG e.2.1)) (fun e => e.1)
      (fun e => V e.2.2) (phase1Entry V) (phase1Entry_run V) (fun m m' e h => h _ (keptG _))
      (uGates C l) (first (2 ^ C.bl (l - 1)) (sliceOf (2 ^ C.bl l) g))
      ((sliceOf (2 ^ C.bl l) g + 1) * blockSize (2 ^ C.bl (l - 1))) m2
    rw [j1 ⟨_, c1⟩ (.betaG g) rfl, e, g3 _ (keptG _), s2 g c2 c3]

/-- **phase 2, local layer: every schedule gives the tables of the protocol** -/
theorem phase2_joins {C : Circuit} {l : ℕ} (hl : LocalLayer C l) (hs : Signs C l)
    (hu : ∀ g < 2 ^ C.bl l, tyOf C l g ≠ 2 → uOf C l g < 2 ^ C.bl (l - 1))
    {V tmpU : ℕ → F} {vU : F} {m m' : Loc → F}
    (h : Joins m (fun id : Fin numThreads =>
        phase2InitThread C l V tmpU vU (2 ^ C.bl (l - 1)) (2 ^ C.bl (l - 1)) id) m') :
    ∀ i < 2 ^ C.bl (l - 1), entry false m' .vMultAdd i = ⟨0, V i⟩ ∧
      (entry false m' .addV i).b = B2 C l (fun g => m (.betaG g)) tmpU vU i ∧
      (entry false m' .addMult i).b = A2 C l (fun g => m (.betaG g)) tmpU vU i := by
  obtain ⟨j1, -⟩ := (phase2_disjoint hl V tmpU vU).joins h
  have inj : Function.Injective Loc.betaU := fun _ _ h => by simpa using h
  have keptV : ∀ i a, ∀ x, Kept x (.lin false .vMultAdd i a) := fun i a x => ⟨by simp, by simp⟩
  have keptG : ∀ g, ∀ x, Kept x (.betaG g) := fun g x => ⟨by simp, by simp⟩
  have keptU : ∀ g, ∀ x, Kept x (.betaU g) := fun g x => ⟨by simp, by simp⟩
  intro i hi
  obtain ⟨c1, c2, c3⟩ := slice_cover hi
  set id := sliceOf (2 ^ C.bl (l - 1)) i with hid
  set a := first (2 ^ C.bl (l - 1)) id with ha
  set b := last (2 ^ C.bl (l - 1)) id with hb
  set m1 := ((forRange a b (fun i => set (.betaU i) (tmpU i))).run m).1 with hm1
  set m2 := ((forRange a b (initEntry V)).run m1).1 with hm2
  have e : ((phase2InitThread C l V tmpU vU (2 ^ C.bl (l - 1)) (2 ^ C.bl (l - 1)) id).run m).1 =
      ((forRange a b (fun i => forIn' (vGates C l i) (phase2Entry vU i))).run m2).1 := by
    simp only [phase2InitThread, run_bind']
    rfl
  obtain ⟨f1, f2⟩ := fillLoop_run Loc.betaU inj tmpU a b m
  obtain ⟨t1, t2, t3⟩ := initLoop_run V a b m1 i c2 c3
  have hin : ∀ l', (∀ t i a, l' ≠ .lin false t i a) → m2 l' = m1 l' := by
    intro l' hl'
    have hw : (forRange a b (initEntry V)).Within (fun _ => False)
        (fun l' => ∃ t i a, l' = .lin false t i a) :=
      .forRange fun i _ _ => initEntry_within (fun t a => ⟨t, i, a, rfl⟩) V
    exact hw.frame m1 (fun ⟨t, i, a, h⟩ => hl' t i a h)
  obtain ⟨g1, g2, g3⟩ := gateLoop_run
    (fun m (e : ℤ × ℕ × ℕ) => m (.betaG e.2.1) * m (.betaU e.2.2)) (fun e => e.1)
    (fun _ => vU) (phase2Entry vU) (phase2Entry_run vU)
    (fun m m' e h => by rw [h _ (keptG _), h _ (keptU _)]) (vGates C l) a b m2
  rw [← e] at g1 g2 g3
  have hbG : ∀ g, m2 (.betaG g) = m (.betaG g) := fun g => by
    rw [hin _ (by simp)]; exact f2 _ (by simp)
  have hbU : ∀ g < 2 ^ C.bl l, vOf C l g = i → tyOf C l g ≠ 2 →
      m2 (.betaU (uOf C l g)) = tmpU (uOf C l g) := by
    intro g hg hv h2
    obtain ⟨-, d2, d3⟩ := slice_cover (hu g hg h2)
    rw [(hl g hg h2).2, hv] at d2 d3
    rw [hin _ (by simp)]
    exact f1 _ d2 d3
  have hm' : ∀ t a, m' (.lin false t i a) =
      ((phase2InitThread C l V tmpU vU (2 ^ C.bl (l - 1)) (2 ^ C.bl (l - 1)) id).run m).1
        (.lin false t i a) := fun t a => j1 ⟨id, c1⟩ (.lin false t i a) rfl
  have tb2 : m2 (.lin false .addV i false) = 0 := congrArg LinearPoly.b t2
  have tb3 : m2 (.lin false .addMult i false) = 0 := congrArg LinearPoly.b t3
  refine ⟨?_, ?_, ?_⟩
  · rw [entry, hm', hm', g3 _ (keptV _ _), g3 _ (keptV _ _)]
    exact t1
  · change m' (.lin false .addV i false) = _
    rw [hm', g1 i c2 c3, tb2, zero_add,
      sum_vGates hs.v _ (fun e he => by rw [he, con_two, mul_zero])]
    refine sum_congr rfl (fun g hg => ?_)
    by_cases hv : vOf C l g = i
    · rw [if_pos hv, if_pos hv]
      by_cases h2 : tyOf C l g = 2
      · simp only [h2, con_two, mul_zero]
      · simp only [hbU g (mem_range.1 hg) hv h2, hbG]
    · rw [if_neg hv, if_neg hv]
  · change m' (.lin false .addMult i false) = _
    rw [hm', g2 i c2 c3, tb3, zero_add,
      sum_vGates hs.v _ (fun e he => by rw [he, lin_two, mul_zero])]
    refine sum_congr rfl (fun g hg => ?_)
    by_cases hv : vOf C l g = i
    · rw [if_pos hv, if_pos hv]
      by_cases h2 : tyOf C l g = 2
      · simp only [h2, lin_two, mul_zero]
      · simp only [hbU g (mem_range.1 hg) hv h2, hbG]
    · rw [if_neg hv, if_neg hv]

end Libra.ParaTrack
