import Verif.Model.ParaTrack
import Verif.Proofs.Threads
import Verif.Proofs.Gates
import Mathlib.Tactic.IntervalCases

/-!
# The rounds of the threaded prover
-/

namespace Libra.ParaTrack
open Libra Spec Finset Threads Threads.Prog FastTrack
variable {F : Type} [CommRing F]

/-! ## slices -/

theorem blockSize_pos (total : ℕ) : 0 < blockSize total := by
  unfold blockSize
  split_ifs with h
  · exact Nat.one_pos
  · exact Nat.pos_of_ne_zero h

/-- the thread in whose slice the index `i` lies -/
def sliceOf (total i : ℕ) : ℕ := i / blockSize total

theorem sliceOf_eq {total id i : ℕ} (h1 : first total id ≤ i) (h2 : i < (id + 1) * blockSize total) :
    sliceOf total i = id := by
  unfold sliceOf
  unfold first at h1
  rw [Nat.div_eq_iff (blockSize_pos total)]
  rw [Nat.add_mul, one_mul] at h2
  constructor <;> omega

theorem sliceOf_last {total id i : ℕ} (h1 : first total id ≤ i) (h2 : i < last total id) :
    sliceOf total i = id := sliceOf_eq h1 (lt_of_lt_of_le h2 (min_le_left _ _))

/-- the slices cover everything if the size is a power of two -/
theorem slice_cover {n i : ℕ} (h : i < 2 ^ n) :
    sliceOf (2 ^ n) i < numThreads ∧ first (2 ^ n) (sliceOf (2 ^ n) i) ≤ i ∧
      i < last (2 ^ n) (sliceOf (2 ^ n) i) := by
  have hpos := blockSize_pos (2 ^ n)
  refine ⟨?_, Nat.div_mul_le_self i _, lt_min ?_ h⟩
  · rw [sliceOf, Nat.div_lt_iff_lt_mul hpos]
    refine lt_of_lt_of_le h ?_
    unfold blockSize numThreads
    rcases n with _ | _ | n
    · norm_num
    · norm_num
    · rw [show 2 ^ (n + 1 + 1) = 4 * 2 ^ n by ring, Nat.mul_div_cancel_left _ (by norm_num)]
      have := Nat.two_pow_pos n
      rw [if_neg (by omega)]
  · rw [sliceOf, mul_comm]
    exact Nat.lt_mul_div_succ i hpos

theorem slice_sum (n : ℕ) (f : ℕ → F) :
    ∑ id ∈ range numThreads, ∑ i ∈ Ico (first (2 ^ n) id) (last (2 ^ n) id), f i =
      ∑ i ∈ range (2 ^ n), f i := by
  rw [← sum_fiberwise_of_maps_to (s := range (2 ^ n)) (t := range numThreads)
    (g := sliceOf (2 ^ n)) (fun i hi => mem_range.2 (slice_cover (mem_range.1 hi)).1)]
  refine sum_congr rfl (fun id _ => sum_congr ?_ (fun _ _ => rfl))
  ext i
  rw [mem_Ico, mem_filter, mem_range]
  constructor
  · rintro ⟨h1, h2⟩
    exact ⟨lt_of_lt_of_le h2 (min_le_right _ _), sliceOf_last h1 h2⟩
  · rintro ⟨h, rfl⟩
    exact (slice_cover h).2

/-! ## one index -/

/-- an entry of a table -/
def entry (fresh : Bool) (m : Loc → F) (t : Tab) (i : ℕ) : LinearPoly F :=
  ⟨m (.lin fresh t i true), m (.lin fresh t i false)⟩

/-- the new entry -/
def bound (isFirst : Bool) (prev : F) (m : Loc → F) (t : Tab) (i : ℕ) : LinearPoly F :=
  bindF isFirst prev (entry false m t (2 * i)) (entry false m t (2 * i + 1))

/-- what index `i` adds to `rets[id]` -/
def contrib (isFirst : Bool) (prev : F) (m : Loc → F) (i : ℕ) : QuadraticPoly F :=
  accumulate (bound isFirst prev m .addMult i) (bound isFirst prev m .vMultAdd i)
    (bound isFirst prev m .addV i) ⟨0, 0, 0⟩

/-- coefficient `k` of a message -/
def coef (q : QuadraticPoly F) : ℕ → F
  | 0 => q.a
  | 1 => q.b
  | _ => q.c

theorem bindEntry_run (isFirst : Bool) (prev : F) (t : Tab) (i : ℕ) (m : Loc → F) :
    ((bindEntry isFirst prev t i).run m).1 =
      Function.update (Function.update m (.lin true t i false) (bound isFirst prev m t i).b)
        (.lin true t i true) (bound isFirst prev m t i).a := by
  cases isFirst <;>
    simp [bindEntry, bound, bindF, entry, LinearPoly.eval, shl_one, two_mul_or_one,
      Function.update_of_ne]

theorem accEntry_run (id i : ℕ) (m : Loc → F) :
    let q := accumulate (entry true m .addMult i) (entry true m .vMultAdd i) (entry true m .addV i)
      ⟨m (.ret id 0), m (.ret id 1), m (.ret id 2)⟩
    ((accEntry id i).run m).1 = Function.update (Function.update (Function.update m
      (.ret id 0) q.a) (.ret id 1) q.b) (.ret id 2) q.c := by
  simp [accEntry, entry, accumulate, Function.update_of_ne]

/-- effect of the loop body -/
theorem updateEntry_run (isFirst : Bool) (prev : F) (id i : ℕ) (m : Loc → F) :
    let m' := ((updateEntry isFirst prev id i).run m).1
    (∀ t, entry true m' t i = bound isFirst prev m t i) ∧
    (∀ k < 3, m' (.ret id k) = m (.ret id k) + coef (contrib isFirst prev m i) k) ∧
    (∀ t j, j ≠ i → entry true m' t j = entry true m t j) ∧
    (∀ t j, entry false m' t j = entry false m t j) := by
  simp only [updateEntry, run_bind', bindEntry_run, accEntry_run]
  set X := bound isFirst prev m .vMultAdd i with hX
  refine ⟨fun t => ?_, fun k hk => ?_, fun t j hj => ?_, fun t j => ?_⟩
  · cases t <;> simp [entry, bound, Function.update_of_ne, hX]
  · have : k = 0 ∨ k = 1 ∨ k = 2 := by omega
    rcases this with rfl | rfl | rfl <;>
      simp [entry, bound, contrib, accumulate, coef, Function.update_of_ne, hX, add_assoc]
  · cases t <;> simp [entry, Function.update_of_ne, hj]
  · cases t <;> simp [entry, Function.update_of_ne]

/-! ## one thread -/

theorem bound_congr {isFirst : Bool} {prev : F} {m m' : Loc → F}
    (h : ∀ t j, entry false m t j = entry false m' t j) (t : Tab) (i : ℕ) :
    bound isFirst prev m t i = bound isFirst prev m' t i := by
  rw [bound, bound, h, h]

theorem contrib_congr {isFirst : Bool} {prev : F} {m m' : Loc → F}
    (h : ∀ t j, entry false m t j = entry false m' t j) (i : ℕ) :
    contrib isFirst prev m i = contrib isFirst prev m' i := by
  rw [contrib, contrib, bound_congr h, bound_congr h, bound_congr h]

/-- effect of the loop of a thread -/
theorem updateLoop_run (isFirst : Bool) (prev : F) (id a b : ℕ) (m : Loc → F) :
    let m' := ((forRange a b (updateEntry isFirst prev id)).run m).1
    (∀ t, ∀ i ∈ Ico a b, entry true m' t i = bound isFirst prev m t i) ∧
    (∀ k < 3, m' (.ret id k) = m (.ret id k) + ∑ i ∈ Ico a b, coef (contrib isFirst prev m i) k) := by
  intro m'
  have key := loop_inv (n := b - a) (s := m)
    (b := fun k m => ((updateEntry isFirst prev id (a + k)).run m).1)
    (fun n (M : Loc → F) =>
      (∀ t, ∀ i ∈ Ico a (a + n), entry true M t i = bound isFirst prev m t i) ∧
      (∀ k < 3, M (.ret id k) =
        m (.ret id k) + ∑ i ∈ Ico a (a + n), coef (contrib isFirst prev m i) k) ∧
      ∀ t j, entry false M t j = entry false m t j)
    ⟨fun t i hi => by simp at hi, fun k _ => by simp, fun _ _ => rfl⟩ (by
      rintro n - M ⟨h1, h2, h3⟩
      obtain ⟨g1, g2, g3, g4⟩ := updateEntry_run isFirst prev id (a + n) M
      refine ⟨fun t i hi => ?_, fun k hk => ?_, fun t j => (g4 t j).trans (h3 t j)⟩
      · rw [mem_Ico] at hi
        by_cases e : i = a + n
        · subst e; rw [g1, bound_congr h3]
        · rw [g3 t i e, h1 t i (mem_Ico.2 (by omega))]
      · rw [g2 k hk, h2 k hk, contrib_congr h3, ← add_assoc a,
          sum_Ico_succ_top (Nat.le_add_right a n), add_assoc])
  have e : m' = loop (b - a) (fun k m => ((updateEntry isFirst prev id (a + k)).run m).1) m :=
    run_forRange a b _ m
  rw [e]
  by_cases hab : a ≤ b
  · rw [Nat.add_sub_cancel' hab] at key
    exact ⟨key.1, key.2.1⟩
  · rw [Ico_eq_empty_of_le (by omega)]
    rw [Ico_eq_empty_of_le (a := a) (b := a + (b - a)) (by omega)] at key
    exact ⟨key.1, key.2.1⟩

/-- effect of a thread -/
theorem updateThread_run (zero isFirst : Bool) (prev : F) (half id : ℕ) (m : Loc → F)
    (hz : zero = false → ∀ k < 3, m (.ret id k) = 0) :
    let m' := ((updateThread zero isFirst prev half id).run m).1
    (∀ t i, first half id ≤ i → i < last half id →
      entry true m' t i = bound isFirst prev m t i) ∧
    (∀ k < 3, m' (.ret id k) =
      ∑ i ∈ Ico (first half id) (last half id), coef (contrib isFirst prev m i) k) := by
  set m0 : Loc → F := if zero then Function.update (Function.update (Function.update m
    (.ret id 0) 0) (.ret id 1) 0) (.ret id 2) 0 else m with hm0
  have hret : ∀ k < 3, m0 (.ret id k) = 0 := by
    intro k hk
    cases zero with
    | false => exact hz rfl k hk
    | true =>
      have : k = 0 ∨ k = 1 ∨ k = 2 := by omega
      rcases this with rfl | rfl | rfl <;> simp [hm0, Function.update_of_ne]
  have hent : ∀ t j, entry false m0 t j = entry false m t j := by
    intro t j
    cases zero <;> simp [hm0, entry, Function.update_of_ne]
  have e : ((updateThread zero isFirst prev half id).run m).1 =
      ((forRange (first half id) (last half id) (updateEntry isFirst prev id)).run m0).1 := by
    cases zero <;> simp [updateThread, zeroRet, hm0]
  intro m'
  obtain ⟨h1, h2⟩ := updateLoop_run isFirst prev id (first half id) (last half id) m0
  rw [← e] at h1 h2
  refine ⟨fun t i ha hb => ?_, fun k hk => ?_⟩
  · rw [← bound_congr hent]; exact h1 t i (mem_Ico.2 ⟨ha, hb⟩)
  · refine (h2 k hk).trans ?_
    rw [hret k hk, zero_add]
    exact sum_congr rfl (fun i _ => by rw [contrib_congr hent])

/-! ## all threads -/

/-- the locations thread `id` writes in an update -/
def updW (half : ℕ) (id : Fin numThreads) : Loc → Prop
  | .lin true _ i _ => sliceOf half i = id
  | .ret j _ => j = id
  | _ => False

/-- the locations thread `id` reads in an update -/
def updR (half : ℕ) (id : Fin numThreads) : Loc → Prop
  | .lin false _ _ _ => True
  | l => updW half id l

theorem bindEntry_within {isFirst : Bool} {prev : F} {half i : ℕ} {id : Fin numThreads}
    (h : sliceOf half i = id) (t : Tab) :
    (bindEntry isFirst prev t i).Within (updR half id) (updW half id) := by
  unfold bindEntry
  split_ifs
  · exact .bind' (.get trivial) fun _ => .bind' (.set h) fun _ => .bind' (.get trivial) fun _ =>
      .bind' (.get h) fun _ => .set h
  · exact .bind' (.get trivial) fun _ => .bind' (.get trivial) fun _ => .bind' (.set h) fun _ =>
      .bind' (.get trivial) fun _ => .bind' (.get trivial) fun _ => .bind' (.get h) fun _ => .set h

theorem accEntry_within {half i : ℕ} {id : Fin numThreads} (h : sliceOf half i = id) :
    (accEntry (F := F) id i).Within (updR half id) (updW half id) := by
  have hr : ∀ k, updW half id (.ret id k) := fun k => rfl
  have hr' : ∀ k, updR half id (.ret id k) := fun k => rfl
  have hl : ∀ t a, updR half id (.lin true t i a) := fun t a => h
  unfold accEntry
  exact .bind' (.get (hr' _)) fun _ => .bind' (.get (hl _ _)) fun _ => .bind' (.get (hl _ _)) fun _ =>
    .bind' (.set (hr _)) fun _ =>
    .bind' (.get (hr' _)) fun _ => .bind' (.get (hl _ _)) fun _ => .bind' (.get (hl _ _)) fun _ =>
    .bind' (.get (hl _ _)) fun _ => .bind' (.get (hl _ _)) fun _ => .bind' (.get (hl _ _)) fun _ =>
    .bind' (.set (hr _)) fun _ =>
    .bind' (.get (hr' _)) fun _ => .bind' (.get (hl _ _)) fun _ => .bind' (.get (hl _ _)) fun _ =>
    .bind' (.get (hl _ _)) fun _ => .set (hr _)

theorem update_disjoint (zero isFirst : Bool) (prev : F) (half : ℕ) :
    Threads.Disjoint (updR half) (updW half)
      (fun id : Fin numThreads => updateThread zero isFirst prev half id) := by
  refine ⟨fun id => ?_, fun i j hij l hi hj => ?_, fun i j hij l hi hj => ?_⟩
  · have hr : ∀ k, updW half id (.ret id k) := fun k => rfl
    have hr' : ∀ k, updR half id (.ret id k) := fun k => rfl
    unfold updateThread
    refine .bind' (by
      cases zero
      · exact .ret _
      · exact .bind' (.set (hr _)) fun _ => .bind' (.set (hr _)) fun _ => .set (hr _)) fun _ =>
      .bind' (.forRange fun i h1 h2 => ?_) fun _ =>
      .bind' (.get (hr' _)) fun _ => .bind' (.set (hr _)) fun _ =>
      .bind' (.get (hr' _)) fun _ => .bind' (.set (hr _)) fun _ =>
      .bind' (.get (hr' _)) fun _ => .set (hr _)
    have h := sliceOf_last h1 h2
    exact .bind' (bindEntry_within h _) fun _ => .bind' (bindEntry_within h _) fun _ =>
      .bind' (bindEntry_within h _) fun _ => accEntry_within h
  · rcases l with ⟨_ | _, t, k, a⟩ | k | k | ⟨k, c⟩
    · exact hi
    · exact hij (Fin.ext (hi.symm.trans hj))
    · exact hi
    · exact hi
    · exact hij (Fin.ext (hi.symm.trans hj))
  · rcases l with ⟨_ | _, t, k, a⟩ | k | k | ⟨k, c⟩
    · exact hi
    · exact hij (Fin.ext (hi.symm.trans hj))
    · exact hi
    · exact hi
    · exact hij (Fin.ext (hi.symm.trans hj))

/-- the tables as the sequential prover has them -/
def tabsOf (m : Loc → F) : Tabs F := ⟨entry false m .vMultAdd, entry false m .addV, entry false m .addMult⟩

theorem collect_coef (m : Loc → F) : collect m =
    ⟨∑ id ∈ range numThreads, m (.ret id 0), ∑ id ∈ range numThreads, m (.ret id 1),
      ∑ id ∈ range numThreads, m (.ret id 2)⟩ := by
  simp [collect, loop, sum_range_succ, QuadraticPoly.add, numThreads]

/-- the message of the sequential prover, coefficient by coefficient -/
theorem round_coef (isFirst : Bool) (prev : F) (half : ℕ) (m : Loc → F) :
    ((tabsOf m).round isFirst prev half).2 =
      ⟨∑ i ∈ range half, coef (contrib isFirst prev m i) 0,
        ∑ i ∈ range half, coef (contrib isFirst prev m i) 1,
        ∑ i ∈ range half, coef (contrib isFirst prev m i) 2⟩ := by
  have key : ∀ k, ∀ s, s = loop k (fun i (s : Tabs F × QuadraticPoly F) =>
      let V := bindStep isFirst prev i s.1.vMultAdd
      let B := bindStep isFirst prev i s.1.addVArray
      let A := bindStep isFirst prev i s.1.addMultSum
      ((⟨V, B, A⟩ : Tabs F), accumulate (A i) (V i) (B i) s.2)) (tabsOf m, ⟨0, 0, 0⟩) →
      s.1 = ⟨loop k (bindStep isFirst prev) (tabsOf m).vMultAdd,
        loop k (bindStep isFirst prev) (tabsOf m).addVArray,
        loop k (bindStep isFirst prev) (tabsOf m).addMultSum⟩ ∧
      s.2 = ⟨∑ i ∈ range k, coef (contrib isFirst prev m i) 0,
        ∑ i ∈ range k, coef (contrib isFirst prev m i) 1,
        ∑ i ∈ range k, coef (contrib isFirst prev m i) 2⟩ := by
    intro k
    induction k with
    | zero => rintro s rfl; exact ⟨rfl, rfl⟩
    | succ k ih =>
      rintro s rfl
      obtain ⟨h1, h2⟩ := ih _ rfl
      rw [loop_succ]
      generalize loop k _ (tabsOf m, (⟨0, 0, 0⟩ : QuadraticPoly F)) = s at h1 h2 ⊢
      refine ⟨by rw [h1]; rfl, ?_⟩
      have hb : ∀ T : ℕ → LinearPoly F, bindStep isFirst prev k (loop k (bindStep isFirst prev) T) k =
          bindF isFirst prev (T (2 * k)) (T (2 * k + 1)) := by
        intro T
        rw [← loop_succ k (bindStep isFirst prev) T, bindLoop, if_pos (Nat.lt_succ_self k)]
      rw [h2, h1]
      simp only [hb, sum_range_succ, accumulate, coef, contrib, bound, tabsOf, zero_add]
      simp only [add_assoc]
  exact (key half _ rfl).2

/-- **the threads of a round compute what the sequential prover computes** -/
theorem update_joins {zero isFirst : Bool} {prev : F} {n : ℕ} {m m' : Loc → F}
    (hz : zero = false → ∀ id < numThreads, ∀ k < 3, m (.ret id k) = 0)
    (h : Joins m (fun id : Fin numThreads => updateThread zero isFirst prev (2 ^ n) id) m') :
    (∀ t, ∀ i < 2 ^ n, entry true m' t i = bound isFirst prev m t i) ∧
    collect m' = ((tabsOf m).round isFirst prev (2 ^ n)).2 ∧
    (∀ i, m' (.betaG i) = m (.betaG i)) ∧ ∀ i, m' (.betaU i) = m (.betaU i) := by
  obtain ⟨h1, h2⟩ := (update_disjoint zero isFirst prev (2 ^ n)).joins h
  refine ⟨fun t i hi => ?_, ?_, fun i => h2 _ (fun _ => id), fun i => h2 _ (fun _ => id)⟩
  · obtain ⟨c1, c2, c3⟩ := slice_cover hi
    have hr := (updateThread_run zero isFirst prev (2 ^ n) (sliceOf (2 ^ n) i) m
      (fun e k hk => hz e _ c1 k hk)).1 t i c2 c3
    rw [← hr, entry, entry, h1 ⟨_, c1⟩ (.lin true t i true) rfl, h1 ⟨_, c1⟩ (.lin true t i false) rfl]
  · have : ∀ k < 3, ∑ id ∈ range numThreads, m' (.ret id k) =
        ∑ i ∈ range (2 ^ n), coef (contrib isFirst prev m i) k := by
      intro k hk
      rw [← slice_sum]
      refine sum_congr rfl (fun id hid => ?_)
      have hid := mem_range.1 hid
      rw [h1 ⟨id, hid⟩ (.ret id k) rfl]
      exact (updateThread_run zero isFirst prev (2 ^ n) id m (fun e k hk => hz e _ hid k hk)).2 k hk
    rw [collect_coef, round_coef, this 0 (by omega), this 1 (by omega), this 2 (by omega)]

end Libra.ParaTrack
