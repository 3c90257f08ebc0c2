import Verif.Proofs.ParaInit
import Verif.Spec.Local

/-!
# Data races of the threaded prover
-/

namespace Libra.Threads
open Prog Function

namespace Prog
variable {L F α β : Type} [DecidableEq L]

/-- Running alone from memory `m`, the thread comes to a point where its next access is `(l, w)`. -/
def Visits (l : L) (w : Bool) : Prog L F α → (L → F) → Prop
  | ret _, _ => False
  | load l' k, m => (l' = l ∧ w = false) ∨ Visits l w (k (m l')) m
  | store l' x k, m => (l' = l ∧ w = true) ∨ Visits l w k (update m l' x)

variable {l : L} {w : Bool}

theorem visits_bind (p : Prog L F α) (f : α → Prog L F β) : ∀ m : L → F,
    Visits l w (p.bind f) m ↔ Visits l w p m ∨ Visits l w (f (p.run m).2) (p.run m).1 := by
  induction p with
  | ret a => intro m; simp [Prog.bind, Visits, run]
  | load l' k ih =>
    intro m
    simp only [Prog.bind, Visits, run]
    rw [ih (m l') m, or_assoc]
  | store l' x k ih =>
    intro m
    simp only [Prog.bind, Visits, run]
    rw [ih, or_assoc]

theorem visits_bind' (p : Prog L F α) (f : α → Prog L F β) (m : L → F) :
    Visits l w (p >>= f) m ↔ Visits l w p m ∨ Visits l w (f (p.run m).2) (p.run m).1 :=
  visits_bind p f m

theorem visits_forRange {a b i : ℕ} {body : ℕ → Prog L F Unit} (h1 : a ≤ i) (h2 : i < b)
    (h : ∀ m, Visits l w (body i) m) (m : L → F) : Visits l w (forRange a b body) m := by
  have : ∀ n, i < a + n → Visits l w (loop n (fun k p => p.bind fun _ => body (a + k))
      (.ret () : Prog L F Unit)) m := by
    intro n
    induction n with
    | zero => intro h; omega
    | succ n ih =>
      intro hn
      rw [loop, visits_bind]
      by_cases e : i = a + n
      · right; rw [← e]; exact h _
      · left; exact ih (by omega)
  exact this (b - a) (by omega)

theorem visits_forIn' {γ : Type} {xs : List γ} {x : γ} {body : γ → Prog L F Unit} (hx : x ∈ xs)
    (h : ∀ m, Visits l w (body x) m) (m : L → F) : Visits l w (forIn' xs body) m := by
  induction xs using List.reverseRecOn with
  | nil => cases hx
  | append_singleton xs y ih =>
    rw [forIn'] at ih ⊢
    rw [List.foldl_append, List.foldl_cons, List.foldl_nil, visits_bind]
    rcases List.mem_append.1 hx with hx | hx
    · exact .inl (ih hx)
    · rw [List.mem_singleton.1 hx] at h
      exact .inr (h _)

end Prog

variable {ι L F : Type} [DecidableEq ι] [DecidableEq L]

theorem reaches_visit (i : ι) {l : L} {w : Bool} : ∀ (p : Prog L F Unit) (m : L → F)
    (ts : ι → Prog L F Unit), ts i = p → Visits l w p m →
    ∃ m' q, Reaches (m, ts) (m', update ts i q) ∧ q.next = some (l, w) := by
  intro p
  induction p with
  | ret a => intro m ts _ h; exact h.elim
  | load l' k ih =>
    intro m ts e h
    rcases h with ⟨rfl, rfl⟩ | h
    · exact ⟨m, .load l' k, by rw [← e, update_eq_self]; exact .refl, rfl⟩
    · obtain ⟨m', q, hr, hq⟩ := ih (m l') m (update ts i (k (m l'))) (update_self ..) h
      rw [update_idem] at hr
      exact ⟨m', q, Relation.ReflTransGen.head (.load i e) hr, hq⟩
  | store l' x k ih =>
    intro m ts e h
    rcases h with ⟨rfl, rfl⟩ | h
    · exact ⟨m, .store l' x k, by rw [← e, update_eq_self]; exact .refl, rfl⟩
    · obtain ⟨m', q, hr, hq⟩ := ih _ (update ts i k) (update_self ..) h
      rw [update_idem] at hr
      exact ⟨m', q, Relation.ReflTransGen.head (.store i e) hr, hq⟩

/-- A thread that stores to a location another thread reads, both whatever the memory contains: a
data race. -/
theorem race_of_visits {ts : ι → Prog L F Unit} {i j : ι} (hij : i ≠ j) {l : L} {w : Bool}
    (hi : ∀ m, Visits l true (ts i) m) (hj : ∀ m, Visits l w (ts j) m) (m : L → F) :
    DataRace m ts := by
  obtain ⟨m1, q1, hr1, hq1⟩ := reaches_visit i (ts i) m ts rfl (hi m)
  obtain ⟨m2, q2, hr2, hq2⟩ := reaches_visit j (ts j) m1 (update ts i q1)
    (update_of_ne hij.symm _ _) (hj m1)
  refine ⟨_, hr1.trans hr2, i, j, hij, l, true, w, ?_, ?_, .inl rfl⟩
  · dsimp only
    rw [update_of_ne hij, update_self, hq1]
  · dsimp only
    rw [update_self, hq2]

end Libra.Threads

namespace Libra.ParaTrack
open Spec Threads Threads.Prog FastTrack
variable {F : Type} [CommRing F]

theorem part_eq (n i : ℕ) : part n i = sliceOf (2 ^ n) i := by
  unfold part sliceOf blockSize numThreads
  rcases n with _ | _ | n
  · simp
  · simp
  · have : 2 ^ (n + 2) / 4 = 2 ^ n := by rw [pow_add]; omega
    rw [show n + 1 + 1 = n + 2 from rfl, this, if_neg (pow_ne_zero n two_ne_zero), Nat.add_sub_cancel]
    split_ifs with h
    · obtain rfl : n = 0 := by omega
      simp
    · rfl

theorem local_iff {C : Circuit} : Local C ↔ ∀ i, 1 ≤ i → i < C.depth → LocalLayer C i := by
  constructor
  · intro h i h1 hd
    obtain ⟨i, rfl⟩ : ∃ k, i = k + 1 := ⟨i - 1, by omega⟩
    have := h i hd
    simp only [part_eq] at this
    exact this
  · intro h l hl g hg ht
    simp only [part_eq]
    exact h (l + 1) (by omega) hl g hg ht

theorem phase1Entry_visits (V : ℕ → F) (u : ℕ) {e : ℤ × ℕ × ℕ} (he : e.1 = 0 ∨ e.1 = 1)
    (m : Loc → F) : Visits (.betaG e.2.1) false (phase1Entry V u e) m := by
  unfold phase1Entry
  rcases he with he | he
  · rw [if_pos he]
    exact .inr (.inl ⟨rfl, rfl⟩)
  · rw [if_neg (by omega), if_pos he]
    exact .inr (.inl ⟨rfl, rfl⟩)

theorem phase2Entry_visits (vU : F) (v : ℕ) {e : ℤ × ℕ × ℕ} (he : e.1 = 0 ∨ e.1 = 1)
    (m : Loc → F) : Visits (.betaU e.2.2) false (phase2Entry vU v e) m := by
  unfold phase2Entry
  rcases he with he | he
  · rw [if_neg (by omega), if_pos he]
    exact .inr (.inr (.inl ⟨rfl, rfl⟩))
  · rw [if_pos he]
    exact .inr (.inr (.inl ⟨rfl, rfl⟩))

/-- phase 1: the thread of the first operand reads `beta_g_sum[g]` while the thread of the gate
writes it -/
theorem phase1_race {C : Circuit} {l g n : ℕ} (V tmpG : ℕ → F) (hg : g < 2 ^ C.bl l)
    (ht : (C.gate l g).ty = 0 ∨ (C.gate l g).ty = 1) (hu0 : 0 ≤ (C.gate l g).u)
    (hu : (C.gate l g).u < 2 ^ n)
    (hne : sliceOf (2 ^ C.bl l) g ≠ sliceOf (2 ^ n) (C.gate l g).u.toNat) (m : Loc → F) :
    DataRace m (fun id : Fin numThreads => phase1InitThread C l V tmpG (2 ^ n) (2 ^ C.bl l) id) := by
  have hu' : (C.gate l g).u.toNat < 2 ^ n := by zify; rw [Int.toNat_of_nonneg hu0]; exact_mod_cast hu
  obtain ⟨a1, a2, a3⟩ := slice_cover hg
  obtain ⟨b1, b2, b3⟩ := slice_cover hu'
  refine race_of_visits (i := ⟨_, a1⟩) (j := ⟨_, b1⟩) (by simpa [Fin.ext_iff] using hne)
    (l := .betaG g) (w := false) (fun m => ?_) (fun m => ?_) m
  · unfold phase1InitThread
    rw [visits_bind']
    right
    rw [visits_bind']
    left
    refine visits_forRange a2 a3 (fun m => ?_) _
    exact Or.inl ⟨rfl, rfl⟩
  · unfold phase1InitThread
    rw [visits_bind']
    right
    rw [visits_bind']
    right
    refine visits_forRange b2 (lt_of_lt_of_le b3 (min_le_left _ _)) (fun m => ?_) _
    refine visits_forIn' (x := ((C.gate l g).ty, g, (C.gate l g).v.toNat)) ?_
      (fun m => phase1Entry_visits V _ ht m) m
    rw [uGates, List.mem_map]
    exact ⟨g, List.mem_filter.2 ⟨List.mem_range.2 hg, by simp [Int.toNat_of_nonneg hu0]⟩, rfl⟩

/-- phase 2: the thread of the second operand reads `beta_u[u]` while the thread of the first operand
writes it -/
theorem phase2_race {C : Circuit} {l g n : ℕ} (V tmpU : ℕ → F) (vU : F) (hg : g < 2 ^ C.bl l)
    (ht : (C.gate l g).ty = 0 ∨ (C.gate l g).ty = 1) (hu0 : 0 ≤ (C.gate l g).u)
    (hu : (C.gate l g).u < 2 ^ n) (hv0 : 0 ≤ (C.gate l g).v) (hv : (C.gate l g).v < 2 ^ n)
    (hne : sliceOf (2 ^ n) (C.gate l g).u.toNat ≠ sliceOf (2 ^ n) (C.gate l g).v.toNat) (m : Loc → F) :
    DataRace m (fun id : Fin numThreads => phase2InitThread C l V tmpU vU (2 ^ n) (2 ^ n) id) := by
  have hu' : (C.gate l g).u.toNat < 2 ^ n := by zify; rw [Int.toNat_of_nonneg hu0]; exact_mod_cast hu
  have hv' : (C.gate l g).v.toNat < 2 ^ n := by zify; rw [Int.toNat_of_nonneg hv0]; exact_mod_cast hv
  obtain ⟨a1, a2, a3⟩ := slice_cover hu'
  obtain ⟨b1, b2, b3⟩ := slice_cover hv'
  refine race_of_visits (i := ⟨_, a1⟩) (j := ⟨_, b1⟩) (by simpa [Fin.ext_iff] using hne)
    (l := .betaU (C.gate l g).u.toNat) (w := false) (fun m => ?_) (fun m => ?_) m
  · unfold phase2InitThread
    rw [visits_bind']
    left
    refine visits_forRange a2 a3 (fun m => ?_) _
    exact Or.inl ⟨rfl, rfl⟩
  · unfold phase2InitThread
    rw [visits_bind']
    right
    rw [visits_bind']
    right
    refine visits_forRange b2 b3 (fun m => ?_) _
    refine visits_forIn' (x := ((C.gate l g).ty, g, (C.gate l g).u.toNat)) ?_
      (fun m => phase2Entry_visits vU _ ht m) m
    rw [vGates, List.mem_map]
    exact ⟨g, List.mem_filter.2 ⟨List.mem_range.2 hg, by simp [Int.toNat_of_nonneg hv0]⟩, rfl⟩

end Libra.ParaTrack
