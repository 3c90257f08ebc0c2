import Verif.Model.Threads
import Mathlib.Data.Finset.Basic
import Mathlib.Data.Fintype.Basic
import Mathlib.Logic.Hydra

/-!
# Threads with disjoint footprints

If no thread writes what another one accesses, there is no data race, and every interleaving leaves
the memory each thread would produce on its own.
-/

namespace Libra.Threads
open Function

namespace Prog
variable {L F α β : Type} [DecidableEq L]

@[simp] theorem run_ret (a : α) (m : L → F) : (ret a : Prog L F α).run m = (m, a) := rfl
@[simp] theorem run_pure (a : α) (m : L → F) : (pure a : Prog L F α).run m = (m, a) := rfl
@[simp] theorem run_get (l : L) (m : L → F) : (get l : Prog L F F).run m = (m, m l) := rfl
@[simp] theorem run_set (l : L) (x : F) (m : L → F) :
    (set l x : Prog L F Unit).run m = (update m l x, ()) := rfl

theorem run_bind (p : Prog L F α) (f : α → Prog L F β) :
    ∀ m : L → F, (p.bind f).run m = (f (p.run m).2).run (p.run m).1 := by
  induction p with
  | ret a => intro m; rfl
  | load l k ih => intro m; exact ih (m l) m
  | store l x k ih => intro m; exact ih _

@[simp] theorem run_bind' (p : Prog L F α) (f : α → Prog L F β) (m : L → F) :
    (p >>= f).run m = (f (p.run m).2).run (p.run m).1 := run_bind p f m

theorem run_forRange (a b : ℕ) (body : ℕ → Prog L F Unit) (m : L → F) :
    ((forRange a b body).run m).1 = loopFrom a b (fun i m => ((body i).run m).1) m := by
  rw [forRange, loopFrom]
  induction b - a with
  | zero => rfl
  | succ n ih => rw [loop, loop, run_bind, ← ih]

theorem run_forIn' {γ : Type} (l : List γ) (body : γ → Prog L F Unit) (m : L → F) :
    ((forIn' l body).run m).1 = l.foldl (fun m x => ((body x).run m).1) m := by
  induction l using List.reverseRecOn with
  | nil => rfl
  | append_singleton l x ih =>
    rw [forIn'] at ih ⊢
    rw [List.foldl_append, List.foldl_append, List.foldl_cons, List.foldl_nil, List.foldl_cons,
      List.foldl_nil, run_bind, ← ih]

/-- every path of the program loads from `R` and stores to `W` only -/
inductive Within (R W : L → Prop) : Prog L F α → Prop
  | ret (a) : Within R W (.ret a)
  | load {l k} (hl : R l) (h : ∀ x, Within R W (k x)) : Within R W (.load l k)
  | store {l x k} (hl : W l) (h : Within R W k) : Within R W (.store l x k)

variable {R W : L → Prop}

omit [DecidableEq L] in
theorem Within.bind {p : Prog L F α} {f : α → Prog L F β} (hp : Within R W p)
    (hf : ∀ a, Within R W (f a)) : Within R W (p.bind f) := by
  induction hp with
  | ret a => exact hf a
  | load hl _ ih => exact .load hl ih
  | store hl _ ih => exact .store hl ih

omit [DecidableEq L] in
theorem Within.bind' {p : Prog L F α} {f : α → Prog L F β} (hp : Within R W p)
    (hf : ∀ a, Within R W (f a)) : Within R W (p >>= f) := hp.bind hf

omit [DecidableEq L] in
theorem Within.get {l : L} (h : R l) : Within R W (get l : Prog L F F) := .load h (fun x => .ret x)

omit [DecidableEq L] in
theorem Within.set {l : L} {x : F} (h : W l) : Within R W (set l x : Prog L F Unit) :=
  .store h (.ret ())

omit [DecidableEq L] in
theorem Within.forRange {a b : ℕ} {body : ℕ → Prog L F Unit}
    (h : ∀ i, a ≤ i → i < b → Within R W (body i)) : Within R W (forRange a b body) := by
  have : ∀ n ≤ b - a, Within R W (loop n (fun k p => p.bind fun _ => body (a + k))
      (.ret () : Prog L F Unit)) := by
    intro n
    induction n with
    | zero => intro _; exact .ret ()
    | succ n ih =>
      intro hn
      exact (ih (by omega)).bind (fun _ => h _ (by omega) (by omega))
  exact this _ le_rfl

omit [DecidableEq L] in
theorem Within.forIn' {γ : Type} {l : List γ} {body : γ → Prog L F Unit}
    (h : ∀ x ∈ l, Within R W (body x)) : Within R W (forIn' l body) := by
  induction l using List.reverseRecOn with
  | nil => exact .ret ()
  | append_singleton l x ih =>
    rw [Prog.forIn'] at ih ⊢
    rw [List.foldl_append, List.foldl_cons, List.foldl_nil]
    exact (ih (fun y hy => h y (List.mem_append_left _ hy))).bind
      (fun _ => h x (List.mem_append_right _ (List.mem_singleton_self x)))

omit [DecidableEq L] in
theorem Within.mono {R' W' : L → Prop} {p : Prog L F α} (hp : Within R W p)
    (hR : ∀ l, R l → R' l) (hW : ∀ l, W l → W' l) : Within R' W' p := by
  induction hp with
  | ret a => exact .ret a
  | load hl _ ih => exact .load (hR _ hl) ih
  | store hl _ ih => exact .store (hW _ hl) ih

/-- a location outside `W` is not changed -/
theorem Within.frame {p : Prog L F α} (hp : Within R W p) :
    ∀ (m : L → F) {l : L}, ¬ W l → (p.run m).1 l = m l := by
  induction hp with
  | ret a => intro m l _; rfl
  | load hl _ ih => intro m l h; exact ih _ m h
  | store hl _ ih =>
    intro m l h
    rw [Prog.run, ih _ h, update_of_ne]
    rintro rfl
    exact h hl

/-- the outcome depends on the locations in `R` only -/
theorem Within.congr {p : Prog L F α} (hp : Within R W p) :
    ∀ (m m' : L → F), (∀ l, R l → m l = m' l) → (p.run m).2 = (p.run m').2 ∧
      ∀ l, m l = m' l → (p.run m).1 l = (p.run m').1 l := by
  induction hp with
  | ret a => intro m m' _; exact ⟨rfl, fun l h => h⟩
  | @load l k hl _ ih =>
    intro m m' h
    have := ih (m l) m m' h
    simp only [Prog.run]
    rw [← h l hl]
    exact this
  | @store l x k hl _ ih =>
    intro m m' h
    have hag : ∀ l', m l' = m' l' → update m l x l' = update m' l x l' := fun l' h' => by
      by_cases e : l' = l
      · subst e; simp
      · rw [update_of_ne e, update_of_ne e, h']
    obtain ⟨h1, h2⟩ := ih (update m l x) (update m' l x) (fun l' h' => hag l' (h l' h'))
    exact ⟨h1, fun l' h' => h2 l' (hag l' h')⟩

/-- a written location does not depend on its old content unless the program reads it -/
theorem Within.congrW {p : Prog L F α} (hp : Within R W p) (m m' : L → F)
    (h : ∀ l, R l ∨ W l → m l = m' l) : ∀ l, W l → (p.run m).1 l = (p.run m').1 l := fun l hl =>
  (hp.congr m m' (fun l' h' => h l' (.inl h'))).2 l (h l (.inr hl))

end Prog

variable {ι L F : Type} [DecidableEq ι] [DecidableEq L]

/-- thread `i` loads from `R i` and stores to `W i`; nobody else touches `W i` -/
structure Disjoint (R W : ι → L → Prop) (ts : ι → Prog L F Unit) : Prop where
  within : ∀ i, (ts i).Within (R i) (W i)
  reads : ∀ i j, i ≠ j → ∀ l, W i l → ¬ R j l
  writes : ∀ i j, i ≠ j → ∀ l, W i l → ¬ W j l

variable {R W : ι → L → Prop} {ts : ι → Prog L F Unit}

theorem Disjoint.step {c c' : Config ι L F} (h : Disjoint R W c.2) (hs : Step c c') :
    Disjoint R W c'.2 ∧ (∀ i l, W i l → ((c'.2 i).run c'.1).1 l = ((c.2 i).run c.1).1 l) ∧
      ∀ l, (∀ i, ¬ W i l) → c'.1 l = c.1 l := by
  cases hs with
  | @load m ts i l k e =>
    have hw := h.within i
    dsimp only at hw e
    rw [e] at hw
    cases hw with
    | load hl hk =>
      refine ⟨⟨fun j => ?_, h.reads, h.writes⟩, fun j l' hl' => ?_, fun l' _ => rfl⟩
      · by_cases ej : j = i
        · subst ej; simpa using hk _
        · simpa [update_of_ne ej] using h.within j
      · by_cases ej : j = i
        · subst ej; simp [e, Prog.run]
        · simp [update_of_ne ej]
  | @store m ts i l x k e =>
    have hw := h.within i
    dsimp only at hw e
    rw [e] at hw
    cases hw with
    | store hl hk =>
      refine ⟨⟨fun j => ?_, h.reads, h.writes⟩, fun j l' hl' => ?_, fun l' hl' => ?_⟩
      · by_cases ej : j = i
        · subst ej; simpa using hk
        · simpa [update_of_ne ej] using h.within j
      · by_cases ej : j = i
        · subst ej; simp [e, Prog.run]
        · simp only [update_of_ne ej]
          refine (h.within j).congrW _ _ (fun l₂ h₂ => update_of_ne ?_ _ _) l' hl'
          rintro rfl
          rcases h₂ with h₂ | h₂
          · exact h.reads i j (Ne.symm ej) _ hl h₂
          · exact h.writes i j (Ne.symm ej) _ hl h₂
      · refine update_of_ne ?_ _ _
        rintro rfl
        exact hl' i hl

theorem Disjoint.reaches {m : L → F} {c : Config ι L F} (h : Disjoint R W ts)
    (hr : Reaches (m, ts) c) :
    Disjoint R W c.2 ∧ (∀ i l, W i l → ((c.2 i).run c.1).1 l = ((ts i).run m).1 l) ∧
      ∀ l, (∀ i, ¬ W i l) → c.1 l = m l := by
  induction hr with
  | refl => exact ⟨h, fun _ _ _ => rfl, fun _ _ => rfl⟩
  | tail _ hs ih =>
    obtain ⟨h1, h2, h3⟩ := ih
    obtain ⟨g1, g2, g3⟩ := h1.step hs
    exact ⟨g1, fun i l hl => (g2 i l hl).trans (h2 i l hl), fun l hl => (g3 l hl).trans (h3 l hl)⟩

/-- Every interleaving gives the same memory. -/
theorem Disjoint.joins {m m' : L → F} (h : Disjoint R W ts) (hj : Joins m ts m') :
    (∀ i l, W i l → m' l = ((ts i).run m).1 l) ∧ ∀ l, (∀ i, ¬ W i l) → m' l = m l := by
  obtain ⟨ts', hr, hf⟩ := hj
  obtain ⟨_, h2, h3⟩ := h.reaches hr
  refine ⟨fun i l hl => ?_, h3⟩
  have := h2 i l hl
  dsimp only at this
  rw [← this, hf i]
  rfl

theorem Disjoint.raceFree (h : Disjoint R W ts) (m : L → F) : ¬ DataRace m ts := by
  rintro ⟨c, hr, i, j, hij, l, a, b, hi, hj, hab⟩
  obtain ⟨h1, _, _⟩ := h.reaches hr
  have acc : ∀ k (b : Bool), (c.2 k).next = some (l, b) → (b = true → W k l) ∧ (b = false → R k l) := by
    intro k b hk
    have hw := h1.within k
    cases hp : c.2 k with
    | ret => rw [hp] at hk; cases hk
    | load l' k' =>
      rw [hp] at hk hw
      cases hk
      cases hw with
      | load hl _ => exact ⟨fun h => (Bool.noConfusion h), fun _ => hl⟩
    | store l' x k' =>
      rw [hp] at hk hw
      cases hk
      cases hw with
      | store hl _ => exact ⟨fun _ => hl, fun h => (Bool.noConfusion h)⟩
  have hi := acc i a hi
  have hj := acc j b hj
  rcases hab with rfl | rfl
  · have hwi := hi.1 rfl
    cases b
    · exact h.reads i j hij l hwi (hj.2 rfl)
    · exact h.writes i j hij l hwi (hj.1 rfl)
  · have hwj := hj.1 rfl
    cases a
    · exact h.reads j i (Ne.symm hij) l hwj (hi.2 rfl)
    · exact h.writes j i (Ne.symm hij) l hwj (hi.1 rfl)

/-! ## Termination and sequential schedules -/

/-- one thread runs to its end -/
theorem reaches_run (i : ι) : ∀ (p : Prog L F Unit) (m : L → F) (ts : ι → Prog L F Unit),
    ts i = p → Reaches (m, ts) ((p.run m).1, update ts i (.ret ())) := by
  intro p
  induction p with
  | ret a =>
    intro m ts e
    rw [show update ts i (.ret ()) = ts by rw [← e]; exact update_eq_self i ts]
    exact .refl
  | load l k ih =>
    intro m ts e
    refine .head (.load i e) ?_
    have := ih (m l) m (update ts i (k (m l))) (update_self ..)
    rwa [update_idem] at this
  | store l x k ih =>
    intro m ts e
    refine .head (.store i e) ?_
    have := ih (update m l x) (update ts i k) (update_self ..)
    rwa [update_idem] at this

theorem inOrder_congr {ts ts' : ι → Prog L F Unit} (order : List ι) (h : ∀ i ∈ order, ts i = ts' i)
    (m : L → F) : inOrder ts order m = inOrder ts' order m := by
  induction order generalizing m with
  | nil => rfl
  | cons i order ih =>
    simp only [inOrder, List.foldl_cons] at ih ⊢
    rw [h i List.mem_cons_self]
    exact ih (fun j hj => h j (List.mem_cons_of_mem _ hj)) _

theorem reaches_inOrder : ∀ (order : List ι) (m : L → F) (ts : ι → Prog L F Unit), order.Nodup →
    ∃ ts', Reaches (m, ts) (inOrder ts order m, ts') ∧ (∀ i ∈ order, ts' i = .ret ()) ∧
      ∀ i ∉ order, ts' i = ts i := by
  intro order
  induction order with
  | nil => intro m ts _; exact ⟨ts, .refl, by simp, fun _ _ => rfl⟩
  | cons i order ih =>
    intro m ts hn
    obtain ⟨hi, hn⟩ := List.nodup_cons.1 hn
    obtain ⟨ts', h1, h2, h3⟩ := ih ((ts i).run m).1 (update ts i (.ret ())) hn
    rw [inOrder_congr (ts' := ts) order (fun j hj =>
      update_of_ne (fun e : j = i => hi (e ▸ hj)) _ _)] at h1
    refine ⟨ts', (reaches_run i (ts i) m ts rfl).trans h1, fun j hj => ?_, fun j hj => ?_⟩
    · rcases List.mem_cons.1 hj with rfl | hj
      · rw [h3 _ hi, update_self]
      · exact h2 j hj
    · rw [List.mem_cons, not_or] at hj
      rw [h3 j hj.2, update_of_ne hj.1]

/-- One thread after the other, in any order, is one of the interleavings. -/
theorem joins_inOrder {order : List ι} (hn : order.Nodup) (hall : ∀ i, i ∈ order) (m : L → F)
    (ts : ι → Prog L F Unit) : Joins m ts (inOrder ts order m) := by
  obtain ⟨ts', h1, h2, _⟩ := reaches_inOrder order m ts hn
  exact ⟨ts', h1, fun i => h2 i (hall i)⟩

/-- As long as a thread has not returned, something can happen. -/
theorem exists_step {m : L → F} {ts : ι → Prog L F Unit} (h : ¬ Finished ts) :
    ∃ c, Step (m, ts) c := by
  rw [Finished, not_forall] at h
  obtain ⟨i, hi⟩ := h
  cases e : ts i with
  | ret a => exact absurd e hi
  | load l k => exact ⟨_, .load i e⟩
  | store l x k => exact ⟨_, .store i e⟩

/-- what is left after one access of a thread -/
inductive After : Prog L F Unit → Prog L F Unit → Prop
  | load (l : L) (k : F → Prog L F Unit) (x : F) : After (k x) (.load l k)
  | store (l : L) (x : F) (k : Prog L F Unit) : After k (.store l x k)

omit [DecidableEq L] in
theorem after_wf : WellFounded (After (L := L) (F := F)) := by
  refine ⟨fun p => ?_⟩
  induction p with
  | ret a => exact ⟨_, fun q h => by cases h⟩
  | load l k ih => exact ⟨_, fun q h => by cases h; exact ih _⟩
  | store l x k ih => exact ⟨_, fun q h => by cases h; exact ih⟩

/-- There is no infinite interleaving. -/
theorem terminates [Fintype ι] : WellFounded (fun c c' : Config ι L F => Step c' c) := by
  have key : ∀ c c' : Config ι L F, Step c' c →
      Relation.CutExpand After (Finset.univ.val.map c.2) (Finset.univ.val.map c'.2) := by
    intro c c' h
    have cut : ∀ (ts : ι → Prog L F Unit) (i : ι) (q : Prog L F Unit), After q (ts i) →
        Relation.CutExpand After (Finset.univ.val.map (update ts i q)) (Finset.univ.val.map ts) := by
      intro ts i q hq
      refine ⟨{q}, ts i, fun a ha => by rw [Multiset.mem_singleton.1 ha]; exact hq, ?_⟩
      have hu : (Finset.univ : Finset ι).val = i ::ₘ (Finset.univ.erase i).val := by
        rw [← Finset.insert_val_of_notMem (Finset.notMem_erase i _), Finset.insert_erase (Finset.mem_univ i)]
      rw [hu, Multiset.map_cons, Multiset.map_cons, update_self]
      have hm : (Finset.univ.erase i).val.map (update ts i q) = (Finset.univ.erase i).val.map ts :=
        Multiset.map_congr rfl (fun j hj => update_of_ne (Finset.ne_of_mem_erase hj) _ _)
      rw [hm]
      simp only [← Multiset.singleton_add]
      ac_rfl
    cases h with
    | @load m ts i l k e => exact cut ts i _ (by rw [e]; exact .load l k _)
    | @store m ts i l x k e => exact cut ts i _ (by rw [e]; exact .store l x k)
  exact Subrelation.wf (fun {c c'} h => key c c' h) (InvImage.wf _ after_wf.cutExpand)

end Libra.Threads
