import Verif.Model.Stats
import Verif.Proofs.Text
import Verif.Spec.Text
import Mathlib.Data.Finset.Card
import Mathlib.Data.Finset.Range
import Mathlib.Tactic.Common

/-! Lemmas on the statistics program. -/

namespace Libra.StatsProg
open Compiler Spec

/-! ## The search -/

/-- the vertices that are not yet marked -/
def todo (s : Search) : ℕ := ((Finset.range maxn).filter (fun i => s.visit i = 0)).card

/-- the marks hold lengths of paths (`Q`), and the maximum is the greatest mark -/
structure Inv (Q : ℕ → ℕ → Prop) (s : Search) : Prop where
  marks : ∀ y, s.visit y ≠ 0 → Q y (s.visit y) ∧ s.visit y ≤ s.mx
  top : s.mx = 0 ∨ ∃ y, s.visit y = s.mx ∧ s.visit y ≠ 0

/-- what a search adds: marks stay, and the successors of a new mark are marked -/
structure Grows (edges : List (ℕ × ℕ)) (s s' : Search) : Prop where
  keep : ∀ y, s.visit y ≠ 0 → s'.visit y = s.visit y
  closed : ∀ y, s.visit y = 0 → s'.visit y ≠ 0 → ∀ z ∈ succs edges y, s'.visit z ≠ 0

theorem Grows.refl (edges : List (ℕ × ℕ)) (s : Search) : Grows edges s s :=
  ⟨fun _ _ => rfl, fun _ h h' => absurd h h'⟩

theorem Grows.trans {edges : List (ℕ × ℕ)} {s s' s'' : Search} (h : Grows edges s s') (h' : Grows edges s' s'') :
    Grows edges s s'' := by
  refine ⟨fun y hy => ?_, fun y hy hy' z hz => ?_⟩
  · rw [h'.keep y (by rw [h.keep y hy]; exact hy), h.keep y hy]
  · by_cases h1 : s'.visit y = 0
    · exact h'.closed y h1 hy' z hz
    · have := h.closed y hy h1 z hz
      rwa [h'.keep z this]

theorem Grows.todo_le {edges : List (ℕ × ℕ)} {s s' : Search} (h : Grows edges s s') : todo s' ≤ todo s := by
  apply Finset.card_le_card
  intro i hi
  rw [Finset.mem_filter] at hi ⊢
  refine ⟨hi.1, ?_⟩
  by_contra h0
  rw [h.keep i h0] at hi
  exact h0 hi.2

theorem todo_mark {s : Search} {x d m : ℕ} (hx : x < maxn) (h0 : s.visit x = 0) (hd : d ≠ 0) :
    todo { visit := Function.update s.visit x d, mx := m } < todo s := by
  apply Finset.card_lt_card
  rw [Finset.ssubset_iff_of_subset]
  · exact ⟨x, by simp [hx, h0], by simp [hd]⟩
  · intro i hi
    rw [Finset.mem_filter] at hi ⊢
    refine ⟨hi.1, ?_⟩
    have := hi.2
    dsimp only at this
    by_cases e : i = x
    · rw [e]; exact h0
    · rwa [Function.update_of_ne e] at this

theorem dfs_spec {edges : List (ℕ × ℕ)} {Q : ℕ → ℕ → Prop} (hr : ∀ x, ∀ y ∈ succs edges x, y < maxn)
    (hQ : ∀ x k, Q x k → ∀ y ∈ succs edges x, Q y (k + 1)) :
    ∀ (fuel x d : ℕ) (s : Search), x < maxn → d ≠ 0 → Q x d → todo s < fuel → Inv Q s →
      ∃ s', dfs edges fuel x d s = .ok s' ∧ Inv Q s' ∧ Grows edges s s' ∧ s'.visit x ≠ 0 := by
  intro fuel
  induction fuel with
  | zero => intro x d s _ _ _ h; omega
  | succ fuel ih =>
    intro x d s hx hd hq hf hI
    rw [dfs, if_neg (by omega)]
    by_cases hv : s.visit x = 0
    swap
    · rw [if_pos hv]
      exact ⟨s, rfl, hI, Grows.refl _ _, hv⟩
    rw [if_neg (by simpa using hv)]
    have fold : ∀ (ys : List ℕ) (s : Search), (∀ y ∈ ys, y < maxn ∧ Q y (d + 1)) → todo s < fuel → Inv Q s →
        ∃ s', ys.foldlM (fun s y => dfs edges fuel y (d + 1) s) s = .ok s' ∧ Inv Q s' ∧ Grows edges s s' ∧
          ∀ y ∈ ys, s'.visit y ≠ 0 := by
      intro ys
      induction ys with
      | nil => intro s _ _ h; exact ⟨s, rfl, h, Grows.refl _ _, by simp⟩
      | cons y ys ihy =>
        intro s hy ht h
        obtain ⟨s1, e1, h1, g1, v1⟩ := ih y (d + 1) s (hy y (by simp)).1 (by omega) (hy y (by simp)).2 ht h
        obtain ⟨s2, e2, h2, g2, v2⟩ := ihy s1 (fun z hz => hy z (by simp [hz])) (lt_of_le_of_lt g1.todo_le ht) h1
        refine ⟨s2, by rw [List.foldlM_cons, e1, Outcome.ok_bind, e2], h2, g1.trans g2, ?_⟩
        intro z hz
        rcases List.mem_cons.1 hz with rfl | hz
        · rwa [g2.keep z v1]
        · exact v2 z hz
    obtain ⟨s', e, hI', g, hv'⟩ := fold (succs edges x)
      { visit := Function.update s.visit x d, mx := if s.mx < d then d else s.mx }
      (fun y hy => ⟨hr x y hy, hQ x d hq y hy⟩) (by have := todo_mark (s := s) (m := if s.mx < d then d else s.mx) hx hv hd; omega)
      (by
        constructor
        · intro y hy
          dsimp only at hy ⊢
          by_cases e : y = x
          · subst e
            rw [Function.update_self]
            refine ⟨hq, ?_⟩
            split <;> omega
          · rw [Function.update_of_ne e] at hy ⊢
            obtain ⟨h1, h2⟩ := hI.marks y hy
            refine ⟨h1, ?_⟩
            split <;> omega
        · right
          dsimp only
          by_cases hm : s.mx < d
          · exact ⟨x, by rw [Function.update_self, if_pos hm], by rw [Function.update_self]; exact hd⟩
          · rw [if_neg hm]
            rcases hI.top with h0 | ⟨y, h1, h2⟩
            · omega
            · have hne : y ≠ x := fun e => h2 (e ▸ hv)
              exact ⟨y, by rw [Function.update_of_ne hne, h1], by rw [Function.update_of_ne hne]; exact h2⟩)
    have hx' : s'.visit x = d := by
      have := g.keep x (by simpa using hd)
      simpa using this
    refine ⟨s', e, hI', ⟨fun y hy => ?_, fun y hy hy' z hz => ?_⟩, by omega⟩
    · have hne : y ≠ x := fun e => hy (e ▸ hv)
      have := g.keep y (by simpa [Function.update_of_ne hne] using hy)
      simpa [Function.update_of_ne hne] using this
    · by_cases e : y = x
      · subst e; exact hv' z hz
      · exact g.closed y (by simpa [Function.update_of_ne e] using hy) hy' z hz

theorem todo_le (s : Search) : todo s ≤ maxn := by
  have := Finset.card_filter_le (Finset.range maxn) (fun i => s.visit i = 0)
  rwa [Finset.card_range] at this

/-- the searches from all inputs -/
theorem search_spec {edges : List (ℕ × ℕ)} {Q : ℕ → ℕ → Prop} (hr : ∀ x, ∀ y ∈ succs edges x, y < maxn)
    (hQ : ∀ x k, Q x k → ∀ y ∈ succs edges x, Q y (k + 1)) :
    ∀ (xs : List ℕ) (s : Search), (∀ x ∈ xs, x < maxn ∧ Q x 1) → Inv Q s →
      ∃ s', xs.foldlM (fun t x => dfs edges (maxn + 1) x 1 t) s = .ok s' ∧ Inv Q s' ∧ Grows edges s s' ∧
        ∀ x ∈ xs, s'.visit x ≠ 0 := by
  intro xs
  induction xs with
  | nil => intro s _ h; exact ⟨s, rfl, h, Grows.refl _ _, by simp⟩
  | cons x xs ih =>
    intro s hx h
    obtain ⟨s1, e1, h1, g1, v1⟩ := dfs_spec hr hQ (maxn + 1) x 1 s (hx x (by simp)).1 (by omega) (hx x (by simp)).2
      (Nat.lt_succ_of_le (todo_le s)) h
    obtain ⟨s2, e2, h2, g2, v2⟩ := ih s1 (fun z hz => hx z (by simp [hz])) h1
    refine ⟨s2, by rw [List.foldlM_cons, e1, Outcome.ok_bind, e2], h2, g1.trans g2, ?_⟩
    intro z hz
    rcases List.mem_cons.1 hz with rfl | hz
    · rwa [g2.keep z v1]
    · exact v2 z hz

/-! ## Reading -/

theorem add_ok {x y : ℕ} {s s' : Stats} (h : add x y s = .ok s') : s' = { s with edges := (x, y) :: s.edges } := by
  unfold add at h
  split at h
  · exact (Outcome.ok.inj h).symm
  · cases h

/-- the counters after reading -/
theorem readLine_counts {s s' : Stats} {l : SLine} (h : readLine s l = .ok s') :
    s'.total = s.total + 1 ∧ s'.deg2 = s.deg2 + if l.isDeg2 then 1 else 0 := by
  cases l with
  | gate op t a b =>
    obtain ⟨s1, h1, h⟩ := Outcome.bind_eq_ok' h
    obtain ⟨s2, h2, h⟩ := Outcome.bind_eq_ok' h
    cases Outcome.ok.inj h
    rw [add_ok h2, add_ok h1]
    cases op <;> exact ⟨rfl, rfl⟩
  | const t c => cases Outcome.ok.inj h; exact ⟨rfl, rfl⟩
  | sum t a b => cases Outcome.ok.inj h; exact ⟨rfl, rfl⟩
  | _ =>
    obtain ⟨s1, h1, h⟩ := Outcome.bind_eq_ok' h
    cases Outcome.ok.inj h
    rw [add_ok h1]
    exact ⟨rfl, rfl⟩

theorem read_counts {P : List SLine} {s s' : Stats} (h : P.foldlM readLine s = .ok s') :
    s'.total = s.total + P.length ∧ s'.deg2 = s.deg2 + P.countP SLine.isDeg2 := by
  induction P generalizing s with
  | nil => cases Outcome.ok.inj h; exact ⟨rfl, rfl⟩
  | cons l P ih =>
    rw [List.foldlM_cons] at h
    obtain ⟨s1, h1, h⟩ := Outcome.bind_eq_ok' h
    obtain ⟨e1, e2⟩ := ih h
    obtain ⟨e3, e4⟩ := readLine_counts h1
    rw [e1, e2, e3, e4, List.length_cons, List.countP_cons]
    exact ⟨by omega, by omega⟩

/-- the number of a place in the arrays -/
def enc : Place → ℕ
  | .inp i => i + 500000
  | .var t => t
  | .out o => o + 1000000

/-- a place whose number is not that of another place -/
def Fine : Place → Prop
  | .inp i => i < 500000
  | .var t => t < 500000
  | .out o => o < 2000000

theorem enc_inj {u v : Place} (hu : Fine u) (hv : Fine v) (h : enc u = enc v) : u = v := by
  cases u <;> cases v <;> simp only [enc, Fine] at hu hv h <;> first | (exact congrArg _ (by omega)) | omega

theorem enc_lt {u : Place} (hu : Fine u) : enc u < maxn := by
  cases u <;> simp only [enc, Fine, maxn] at * <;> omega

/-- the edges of a line, the newest first -/
def lineEdges : SLine → List (ℕ × ℕ)
  | .gate _ t a b => [(b, t), (a, t)]
  | .input t i => [(i + 500000, t)]
  | .output o a => [(a, o + 1000000)]
  | _ => []

/-- the inputs of a line -/
def lineInputs : SLine → List ℕ
  | .input _ i => [i + 500000]
  | _ => []

theorem add_run {x y : ℕ} {s : Stats} (hx : x < maxn) (h : s.edges.length + 2 < maxn) :
    add x y s = .ok { s with edges := (x, y) :: s.edges } := if_pos ⟨hx, h⟩

theorem readLine_run {l : SLine} (hl : LineFine l) {s : Stats} (h : s.edges.length + 2 + (lineEdges l).length ≤ maxn) :
    ∃ s', readLine s l = .ok s' ∧ s'.edges = lineEdges l ++ s.edges ∧ s'.inputs = s.inputs ++ lineInputs l := by
  cases l with
  | gate op t a b =>
    simp only [lineEdges, List.length_cons, List.length_nil] at h
    obtain ⟨_, h2, h3⟩ := hl
    have e1 := add_run (x := a) (y := t) (s := { s with src1 := b }) (by simp only [maxn]; omega) (by show s.edges.length + 2 < maxn; omega)
    have e2 := add_run (x := b) (y := t) (s := { s with src1 := b, edges := (a, t) :: s.edges }) (by simp only [maxn]; omega)
      (by show (_ :: s.edges).length + 2 < maxn; rw [List.length_cons]; omega)
    refine ⟨_, by rw [readLine, e1, Outcome.ok_bind, e2, Outcome.ok_bind]; rfl, ?_, ?_⟩
    · rfl
    · simp [lineInputs]
  | const t c => exact ⟨_, rfl, rfl, by simp [lineInputs]⟩
  | input t i =>
    simp only [lineEdges, List.length_cons, List.length_nil] at h
    have e1 := add_run (x := i + 500000) (y := t) (s := s) (by have := hl.2; simp only [maxn]; omega) (by omega)
    exact ⟨_, by rw [readLine, e1, Outcome.ok_bind]; rfl, rfl, rfl⟩
  | output o a =>
    simp only [lineEdges, List.length_cons, List.length_nil] at h
    have e1 := add_run (x := a) (y := o + 1000000) (s := s) (by have := hl.2; simp only [maxn]; omega) (by omega)
    exact ⟨_, by rw [readLine, e1, Outcome.ok_bind]; rfl, rfl, by simp [lineInputs]⟩
  | mulConst => exact hl.elim
  | pass => exact hl.elim
  | sum => exact hl.elim

/-- all edges, the newest first -/
def allEdges (P : List SLine) : List (ℕ × ℕ) := P.reverse.flatMap lineEdges

theorem allEdges_cons (l : SLine) (P : List SLine) : allEdges (l :: P) = allEdges P ++ lineEdges l := by
  simp [allEdges]

theorem read_run {P : List SLine} (hP : ∀ l ∈ P, LineFine l) (s : Stats)
    (h : s.edges.length + 2 + (allEdges P).length ≤ maxn) :
    ∃ s', P.foldlM readLine s = .ok s' ∧ s'.edges = allEdges P ++ s.edges ∧ s'.inputs = s.inputs ++ P.flatMap lineInputs := by
  induction P generalizing s with
  | nil => exact ⟨s, rfl, rfl, by simp⟩
  | cons l P ih =>
    rw [allEdges_cons, List.length_append] at h
    obtain ⟨s1, e1, h1, h1'⟩ := readLine_run (hP l (by simp)) (s := s) (by omega)
    obtain ⟨s2, e2, h2, h2'⟩ := ih (fun x hx => hP x (by simp [hx])) s1 (by rw [h1, List.length_append]; omega)
    refine ⟨s2, by rw [List.foldlM_cons, e1, Outcome.ok_bind, e2], ?_, ?_⟩
    · rw [h2, h1, allEdges_cons, List.append_assoc]
    · rw [h2', h1', List.flatMap_cons, List.append_assoc]

theorem allEdges_length (P : List SLine) : (allEdges P).length ≤ 2 * P.length := by
  induction P with
  | nil => simp [allEdges]
  | cons l P ih =>
    rw [allEdges_cons, List.length_append, List.length_cons]
    have : (lineEdges l).length ≤ 2 := by cases l <;> simp [lineEdges]
    omega

theorem mem_succs {edges : List (ℕ × ℕ)} {x y : ℕ} : y ∈ succs edges x ↔ (x, y) ∈ edges := by
  simp only [succs, List.mem_map, List.mem_filter, decide_eq_true_eq]
  constructor
  · rintro ⟨⟨a, b⟩, ⟨h, rfl⟩, rfl⟩; exact h
  · intro h; exact ⟨(x, y), ⟨h, rfl⟩, rfl⟩

theorem fine_reads {l : SLine} (h : LineFine l) : (∀ u ∈ l.reads, Fine u) ∧ (l.reads ≠ [] → Fine l.writes) := by
  cases l <;> simp_all [LineFine, SLine.reads, SLine.writes, Fine]

theorem mem_lineEdges {l : SLine} (h : LineFine l) {x y : ℕ} :
    (x, y) ∈ lineEdges l ↔ ∃ u ∈ l.reads, enc u = x ∧ enc l.writes = y := by
  cases l with
  | gate op t a b =>
    simp only [lineEdges, SLine.reads, SLine.writes, List.mem_cons, List.not_mem_nil, or_false, Prod.mk.injEq]
    constructor
    · rintro (⟨rfl, rfl⟩ | ⟨rfl, rfl⟩)
      · exact ⟨_, Or.inr rfl, rfl, rfl⟩
      · exact ⟨_, Or.inl rfl, rfl, rfl⟩
    · rintro ⟨u, rfl | rfl, rfl, rfl⟩
      · exact Or.inr ⟨rfl, rfl⟩
      · exact Or.inl ⟨rfl, rfl⟩
  | const => simp [lineEdges, SLine.reads]
  | input t i => simp [lineEdges, SLine.reads, SLine.writes, enc, eq_comm]
  | output o a => simp [lineEdges, SLine.reads, SLine.writes, enc, eq_comm]
  | mulConst => exact h.elim
  | pass => exact h.elim
  | sum => exact h.elim

/-- the edges are the pairs of places of which one feeds the other -/
theorem mem_edges {P : List SLine} (hP : ∀ l ∈ P, LineFine l) {x y : ℕ} :
    y ∈ succs (allEdges P) x ↔ ∃ u v, Feeds P u v ∧ Fine u ∧ Fine v ∧ enc u = x ∧ enc v = y := by
  rw [mem_succs, allEdges, List.mem_flatMap]
  constructor
  · rintro ⟨l, hl, h⟩
    rw [List.mem_reverse] at hl
    obtain ⟨u, hu, e1, e2⟩ := (mem_lineEdges (hP l hl)).1 h
    have hf := fine_reads (hP l hl)
    exact ⟨u, l.writes, ⟨l, hl, hu, rfl⟩, hf.1 u hu, hf.2 (List.ne_nil_of_mem hu), e1, e2⟩
  · rintro ⟨u, v, ⟨l, hl, hu, rfl⟩, -, -, e1, e2⟩
    exact ⟨l, List.mem_reverse.2 hl, (mem_lineEdges (hP l hl)).2 ⟨u, hu, e1, e2⟩⟩

theorem mem_inputs {P : List SLine} {x : ℕ} : x ∈ P.flatMap lineInputs ↔ ∃ t i, .input t i ∈ P ∧ x = i + 500000 := by
  rw [List.mem_flatMap]
  constructor
  · rintro ⟨l, hl, h⟩
    cases l with
    | input t i => exact ⟨t, i, hl, by simpa [lineInputs] using h⟩
    | _ => simp [lineInputs] at h
  · rintro ⟨t, i, h, rfl⟩
    exact ⟨_, h, by simp [lineInputs]⟩

theorem path_fine {P : List SLine} (hP : ∀ l ∈ P, LineFine l) {v : Place} {k : ℕ} (h : PathTo P v k) : Fine v ∧ k ≠ 0 := by
  cases h with
  | input h => exact ⟨(hP _ h).2, by omega⟩
  | step h hf =>
    obtain ⟨l, hl, hu, rfl⟩ := hf
    exact ⟨(fine_reads (hP l hl)).2 (List.ne_nil_of_mem hu), by omega⟩

/-- the marks after the search: every place that can be reached has the length of a path to it, and the printed depth is the greatest mark -/
theorem run_spec {P : List SLine} (hP : ∀ l ∈ P, LineFine l) (hlen : (allEdges P).length + 2 ≤ maxn) :
    ∃ d, run P = .ok (d, P.length, P.countP SLine.isDeg2) ∧
      ∃ m : Place → ℕ, (∀ v k, PathTo P v k → PathTo P v (m v) ∧ m v ≤ d) ∧
        (d = 0 ∨ ∃ v, PathTo P v d ∧ m v = d) := by
  obtain ⟨s, e, he, hi⟩ := read_run hP {} (by show 0 + 2 + _ ≤ _; omega)
  obtain ⟨c1, c2⟩ := read_counts e
  rw [show ({} : Stats).edges = [] from rfl, List.append_nil] at he
  rw [show ({} : Stats).inputs = [] from rfl, List.nil_append] at hi
  obtain ⟨t, et, hI, hg, hv⟩ := search_spec (edges := s.edges) (Q := fun y k => ∃ v, PathTo P v k ∧ enc v = y)
    (by
      intro x y hy
      rw [he, mem_edges hP] at hy
      obtain ⟨u, v, -, -, hv, -, rfl⟩ := hy
      exact enc_lt hv)
    (by
      rintro x k ⟨v, hv, rfl⟩ y hy
      rw [he, mem_edges hP] at hy
      obtain ⟨u, w, hf, hu, -, e1, e2⟩ := hy
      have := enc_inj hu (path_fine hP hv).1 e1
      subst this
      exact ⟨w, hv.step hf, e2⟩)
    s.inputs {} (by
      intro x hx
      rw [hi, mem_inputs] at hx
      obtain ⟨t, i, h, rfl⟩ := hx
      exact ⟨enc_lt (u := .inp i) (hP _ h).2, .inp i, .input h, rfl⟩)
    ⟨fun y hy => absurd rfl hy, Or.inl rfl⟩
  have reach : ∀ v k, PathTo P v k → t.visit (enc v) ≠ 0 := by
    intro v k h
    induction h with
    | input h => exact hv _ (by rw [hi, mem_inputs]; exact ⟨_, _, h, rfl⟩)
    | @step u v k h hf ih =>
      obtain ⟨l, hl, hu, rfl⟩ := hf
      have hfl := fine_reads (hP l hl)
      exact hg.closed (enc u) rfl ih (enc l.writes) (by
        rw [he, mem_edges hP]
        exact ⟨u, _, ⟨l, hl, hu, rfl⟩, hfl.1 u hu, hfl.2 (List.ne_nil_of_mem hu), rfl, rfl⟩)
  have marks : ∀ v k, PathTo P v k → PathTo P v (t.visit (enc v)) ∧ t.visit (enc v) ≤ t.mx := by
    intro v k h
    obtain ⟨⟨w, hw, hww⟩, hle⟩ := hI.marks _ (reach v k h)
    have := enc_inj (path_fine hP hw).1 (path_fine hP h).1 hww
    exact ⟨this ▸ hw, hle⟩
  refine ⟨t.mx, ?_, fun v => t.visit (enc v), marks, ?_⟩
  · rw [run, e, Outcome.ok_bind, et, Outcome.ok_bind, c1, c2]
    simp
  · rcases hI.top with h | ⟨y, h, h0⟩
    · exact Or.inl h
    · obtain ⟨⟨v, hv, rfl⟩, -⟩ := hI.marks y h0
      exact Or.inr ⟨v, h ▸ hv, h⟩

end Libra.StatsProg
