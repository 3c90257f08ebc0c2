import Verif.Proofs.Sha256FourProgram
import Mathlib.Data.Fintype.BigOperators
import Mathlib.Data.Fintype.Pi
import Mathlib.Algebra.BigOperators.Fin

/-!
# The random combination of the tests that bits are bits
-/

namespace Libra.Sha256Gen
open Compiler Spec

/-! ### Counting -/

open Classical in
/-- a linear form that is not zero has few zeros -/
theorem card_zeros_le {ι α F : Type} [Fintype ι] [DecidableEq ι] [Field F] (f : α → F) (S : Finset α) (hf : Set.InjOn f S) (c : ι → F) {i0 : ι}
    (h : c i0 ≠ 0) :
    ((Fintype.piFinset fun _ : ι => S).filter fun r => ∑ i, f (r i) * c i = 0).card ≤ S.card ^ (Fintype.card ι - 1) := by
  have hc : (Fintype.piFinset fun _ : {i // i ≠ i0} => S).card = S.card ^ (Fintype.card ι - 1) := by
    rw [Fintype.card_piFinset, Finset.prod_const, Finset.card_univ]
    congr 1
    rw [Fintype.card_subtype_compl, Fintype.card_subtype_eq]
  rw [← hc]
  refine Finset.card_le_card_of_injOn (fun r i => r i.1) (fun r hr => ?_) fun r hr s hs e => ?_
  · have hr := Fintype.mem_piFinset.1 (Finset.mem_filter.1 hr).1
    exact Finset.mem_coe.2 (Fintype.mem_piFinset.2 fun i => hr i.1)
  · obtain ⟨r1, r2⟩ := Finset.mem_filter.1 (Finset.mem_coe.1 hr)
    obtain ⟨s1, s2⟩ := Finset.mem_filter.1 (Finset.mem_coe.1 hs)
    have he : ∀ i, i ≠ i0 → r i = s i := fun i hi => congrFun e ⟨i, hi⟩
    have h0 : r i0 = s i0 := by
      refine hf (Fintype.mem_piFinset.1 r1 i0) (Fintype.mem_piFinset.1 s1 i0) (mul_right_cancel₀ h ?_)
      rw [← Finset.add_sum_erase _ _ (Finset.mem_univ i0)] at r2 s2
      have : ∑ i ∈ Finset.univ.erase i0, f (r i) * c i = ∑ i ∈ Finset.univ.erase i0, f (s i) * c i :=
        Finset.sum_congr rfl fun i hi => by rw [he i (Finset.ne_of_mem_erase hi)]
      rw [this] at r2
      exact add_right_cancel (r2.trans s2.symm)
    funext i
    by_cases hi : i = i0
    · rw [hi, h0]
    · exact he i hi

open Classical in
theorem card_filter_mono {β : Type} (A : Finset β) {p q : β → Prop} (h : ∀ r, p r → q r) : (A.filter p).card ≤ (A.filter q).card :=
  Finset.card_le_card fun r hr => Finset.mem_filter.2 ⟨(Finset.mem_filter.1 hr).1, h r (Finset.mem_filter.1 hr).2⟩

open Classical in
theorem card_filter_zero {β : Type} (A : Finset β) {p : β → Prop} (h : ∀ r, ¬p r) : (A.filter p).card = 0 := by
  rw [Finset.filter_false_of_mem fun r _ => h r, Finset.card_empty]

/-! ### The lines of the random combination -/

/-- the lines of the loop of `randMuls` -/
def mulLines : ℕ → List ℕ → List Stmt
  | _, [] => []
  | v, t :: ts => .gate .mult (v + 1) v t :: mulLines (v + 2) ts

theorem mapG_randMul : ∀ (ts : List ℕ) (v : ℕ), mapG randMul ts v =
    .ok (List.range' (v + 1) ts.length 2, v + 2 * ts.length, { inVals := List.range' v ts.length 2, lines := mulLines v ts })
  | [], v => rfl
  | t :: ts, v => by
    have e : randMul t v = .ok (v + 1, v + 2, { inVals := [v], lines := [.gate .mult (v + 1) v t] }) := rfl
    rw [mapG, Gen.bind, e]
    simp only [Outcome.bind, Gen.bind, mapG_randMul ts (v + 2), Gen.pure, Log.append, List.append_nil]
    rw [List.length_cons, List.range'_succ, List.range'_succ, mulLines, show v + 2 + 2 * ts.length = v + 2 * (ts.length + 1) by omega,
      show v + 1 + 2 = v + 2 + 1 by omega]
    rfl

theorem addPairs_emits : ∀ (l : List ℕ) {v : ℕ}, (∀ i ∈ l, i < v) →
    Emits v (addPairs l) fun ys v' => (∀ y ∈ ys, y < v') ∧ 2 * ys.length ≤ l.length + 1 ∧ (l ≠ [] → ys ≠ [])
  | [], v, h => Emits.pure ⟨by simp, by simp, fun h => absurd rfl h⟩
  | [a], v, h => Emits.pure ⟨h, by simp, fun h => h⟩
  | a :: b :: l, v, h => by
    refine Emits.bind (Emits.gate (h a (by simp)) (h b (by simp)) ?_)
    refine Emits.bind ((addPairs_emits l fun i hi => (h i (by simp [hi])).trans (Nat.lt_succ_self v)).mono ?_)
    rintro ys v' hv ⟨h1, h2, -⟩
    refine Emits.pure ⟨fun y hy => ?_, by simp only [List.length_cons]; omega, fun _ => List.cons_ne_nil _ _⟩
    rcases List.mem_cons.1 hy with rfl | hy
    · omega
    · exact h1 y hy

theorem addTree_emits : ∀ (fuel : ℕ) (l : List ℕ) {v : ℕ}, (∀ i ∈ l, i < v) → l ≠ [] → l.length ≤ fuel →
    Emits v (addTree fuel l) fun t v' => t < v'
  | 0, l, v, _, h0, hf => absurd (List.length_eq_zero_iff.1 (Nat.le_zero.1 hf)) h0
  | fuel + 1, l, v, h, h0, hf => by
    unfold addTree
    split
    · rename_i hl
      refine Emits.bind ((addPairs_emits l h).mono ?_)
      rintro ys v' - ⟨h1, h2, h3⟩
      exact addTree_emits fuel ys h1 (h3 h0) (by omega)
    · match l, h0 with
      | a :: l, _ => exact Emits.pure (h a List.mem_cons_self)

section
variable {F : Type} [CommRing F] {w : ℕ → F}

theorem addPairs_run : ∀ l : List ℕ, Run w (addPairs l) fun ys _ => (ys.map w).sum = (l.map w).sum
  | [] => Run.pure rfl
  | [a] => Run.pure rfl
  | a :: b :: l => by
    refine Run.bind (Run.gate fun t ht => Run.bind ((addPairs_run l).mono fun ys z hz => Run.pure ?_))
    simp only [List.map_cons, List.sum_cons, ht, hz, opValue, add_assoc]

theorem addTree_run : ∀ (fuel : ℕ) (l : List ℕ), Run w (addTree fuel l) fun t _ => w t = (l.map w).sum
  | 0, l => fun v a v' L e => by cases e
  | fuel + 1, l => by
    unfold addTree
    split
    · exact Run.bind ((addPairs_run l).mono fun ys z hz => (addTree_run fuel ys).mono fun t z' ht => ht.trans hz)
    · rename_i hl
      match l, hl with
      | [], _ => exact fun v a v' L e => by cases e
      | [a], _ => exact Run.pure (by simp)
      | a :: b :: l, hl => exact absurd (by simp) hl

theorem mulLines_sum : ∀ (ts : List ℕ) {v : ℕ}, Sat w (mulLines v ts) →
    ((List.range' (v + 1) ts.length 2).map w).sum = ∑ j : Fin ts.length, w (v + 2 * j) * w ts[j]
  | [], v, _ => by simp
  | t :: ts, v, h => by
    have h1 : w (v + 1) = w v * w t := h _ List.mem_cons_self
    have h2 := mulLines_sum ts (v := v + 2) fun s hs => h s (List.mem_cons_of_mem _ hs)
    simp only [List.length_cons, List.range'_succ, List.map_cons, List.sum_cons]
    rw [show v + 1 + 2 = v + 2 + 1 by omega, h2, h1, Fin.sum_univ_succ]
    simp only [Fin.val_zero, Nat.mul_zero, Nat.add_zero, Fin.val_succ, Fin.getElem_fin, List.getElem_cons_zero, List.getElem_cons_succ]
    congr 1
    refine Finset.sum_congr rfl fun j _ => ?_
    rw [show v + 2 + 2 * (j : ℕ) = v + 2 * (j + 1) by omega]

theorem sat_mulLines : ∀ (ts : List ℕ) {v : ℕ}, (∀ j (h : j < ts.length), w (v + 2 * j + 1) = w (v + 2 * j) * w ts[j]) → Sat w (mulLines v ts)
  | [], v, _ => fun s hs => by simp [mulLines] at hs
  | t :: ts, v, h => by
    intro s hs
    rcases List.mem_cons.1 hs with rfl | hs
    · exact h 0 (by simp)
    · refine sat_mulLines ts (fun j hj => ?_) s hs
      have := h (j + 1) (by simpa using hj)
      rw [show v + 2 + 2 * j = v + 2 * (j + 1) by omega]
      exact this

theorem sat_congr : ∀ {v : ℕ} {l : List Stmt}, Straight v l → ∀ {w w' : ℕ → F}, (∀ k < v + l.length, w k = w' k) → Sat w l → Sat w' l
  | _, [], _, _, _, _, _ => fun s hs => by simp at hs
  | v, s :: l, h, w, w', e, hw => by
    intro s' hs'
    rcases List.mem_cons.1 hs' with rfl | hs'
    · exact (holds_congr h.1 fun k hk => e k (by rw [List.length_cons]; omega)).1 (hw _ List.mem_cons_self)
    · exact sat_congr h.2 (fun k hk => e k (by rw [List.length_cons]; omega)) (fun s hs => hw s (List.mem_cons_of_mem _ hs)) s' hs'

/-- the values are determined by the inputs -/
theorem sat_unique : ∀ {v : ℕ} {l : List Stmt}, Straight v l → ∀ {w w' : ℕ → F}, (∀ k < v, w k = w' k) → Sat w l → Sat w' l →
    ∀ k < v + l.length, w k = w' k
  | v, [], _, _, _, e, _, _ => fun k hk => e k hk
  | v, s :: l, h, w, w', e, hw, hw' => by
    have hv : w v = w' v := by
      have a := hw _ List.mem_cons_self
      have b := hw' _ List.mem_cons_self
      have hs := h.1
      cases s with
      | gate op t x y =>
        obtain ⟨rfl, hx, hy⟩ := hs
        simp only [Spec.Holds] at a b
        rw [a, b, e x hx, e y hy]
      | expSum t x y =>
        obtain ⟨rfl, hy, -, -⟩ := hs
        simp only [Spec.Holds] at a b
        rw [a, b]
        exact Finset.sum_congr rfl fun k hk => by rw [e k ((Finset.mem_Icc.1 hk).2.trans_lt hy)]
      | bit t x y =>
        obtain ⟨rfl, hx, hy⟩ := hs
        simp only [Spec.Holds] at a b
        rw [a, b, e x hx, e y hy]
      | _ => exact hs.elim
    intro k hk
    refine sat_unique h.2 (fun k hk => ?_) (fun s hs => hw s (List.mem_cons_of_mem _ hs)) (fun s hs => hw' s (List.mem_cons_of_mem _ hs)) k
      (by rw [List.length_cons] at hk; omega)
    rcases Nat.lt_succ_iff_lt_or_eq.1 hk with hk | rfl
    · exact e k hk
    · exact hv

end

/-! ### The program -/

/-- the program with the random combination -/
theorem write4_true_eq : ∃ (L : Log) (T : List Stmt) (tmp : ℕ) , writeBody4 theInputs4 1137 = .ok ((), 1137 + L.lines.length, L) ∧
    Straight 1137 L.lines ∧ (∀ t ∈ L.roundTests ++ L.bitTests, t < 1137 + L.lines.length) ∧ L.bitTests.length = 1064 ∧
    Straight (1137 + L.lines.length + 2 * 1064) T ∧
    (∀ {F : Type} [CommRing F] (w : ℕ → F), Sat w T → w tmp = ((List.range' (1137 + L.lines.length + 1) 1064 2).map w).sum) ∧
    ∃ m, write4 true = .ok ((List.range 34).map (fun i => .input i i) ++
      ((List.range' 34 1103 ++ List.range' (1137 + L.lines.length) 1064 2).zipIdx 34).map (fun p => .input p.1 p.2) ++
      (L.lines ++ (mulLines (1137 + L.lines.length) L.bitTests ++ T)) ++
      ((L.roundTests ++ [tmp]).zipIdx m).map (fun p => .output p.2 p.1)) := by
  obtain ⟨L, h1, h2, h3, h4, h5⟩ := writeBody4_eq
  have hm := mapG_randMul L.bitTests (1137 + L.lines.length)
  rw [h5] at hm
  obtain ⟨tmp, T, t1, t2, t3, -, -⟩ := addTree_emits (1064 + 1) (List.range' (1137 + L.lines.length + 1) 1064 2)
    (v := 1137 + L.lines.length + 2 * 1064) (fun i hi => by
      obtain ⟨j, hj, rfl⟩ := List.mem_range'.1 hi
      omega) (by simp) (by simp)
  refine ⟨L, T.lines, tmp, h1, h3, h4, h5, t3, fun w hw => addTree_run _ _ _ _ _ _ t1 hw, 1137 + L.lines.length + 2 * 1064 + T.lines.length, ?_⟩
  have hr : randMuls L.bitTests (1137 + L.lines.length) = .ok (tmp, 1137 + L.lines.length + 2 * 1064 + T.lines.length,
      { inVals := List.range' (1137 + L.lines.length) 1064 2, lines := mulLines (1137 + L.lines.length) L.bitTests ++ T.lines,
        bitTests := T.bitTests, roundTests := T.roundTests }) := by
    rw [randMuls, Gen.bind, hm]
    simp only [Outcome.bind]
    rw [List.length_range', t1]
    simp only [Log.append, t2, List.append_nil, List.nil_append]
  unfold write4
  rw [bind_ok allocInputs4_eq h1]
  simp only [Outcome.bind, if_true, Log.append, h2, List.append_nil, List.nil_append]
  rw [hr]
  simp only [program, List.append_nil]

section
variable {F : Type} [CommRing F]

/-- A run with random numbers `inp 1137`, `inp 1138`, ... -/
theorem accepts_true {P P' : List Stmt} (hP : write4 false = .ok P) (hP' : write4 true = .ok P') :
    ∃ (L : Log), L.bitTests.length = 1064 ∧ Straight 1137 L.lines ∧ (∀ t ∈ L.roundTests ++ L.bitTests, t < 1137 + L.lines.length) ∧
      (∀ inp : ℕ → F, (∃ w : ℕ → F, (∀ s ∈ P, Spec.Holds inp w s) ∧ ∀ o t, .output o t ∈ P → w t = 0) ↔
        ∃ w : ℕ → F, (∀ i < 1137, w i = inp i) ∧ Sat w L.lines ∧ (∀ t ∈ L.roundTests, w t = 0) ∧ ∀ t ∈ L.bitTests, w t = 0) ∧
      ∀ inp : ℕ → F, (∃ w : ℕ → F, (∀ s ∈ P', Spec.Holds inp w s) ∧ ∀ o t, .output o t ∈ P' → w t = 0) ↔
        ∃ w : ℕ → F, (∀ i < 1137, w i = inp i) ∧ Sat w L.lines ∧ (∀ t ∈ L.roundTests, w t = 0) ∧
          ∑ j : Fin 1064, inp (1137 + j) * w (L.bitTests.getD j 0) = 0 := by
  obtain ⟨L, T, tmp, h1, h2, h3, h4, h5, h6, m, h7⟩ := write4_true_eq
  obtain ⟨L', k1, k2, -, -, k5⟩ := write4_eq
  obtain rfl : L' = L := by
    have := h1.symm.trans k1
    exact (Prod.mk.inj (Prod.mk.inj (Outcome.ok.inj this)).2).2.symm
  rw [k5] at hP
  obtain rfl := Outcome.ok.inj hP
  rw [h7] at hP'
  obtain rfl := Outcome.ok.inj hP'
  refine ⟨L', h4, h2, h3, fun inp => ?_, fun inp => ?_⟩
  · refine exists_congr fun w => ?_
    rw [holds_lines h2, outputs_lines h2, Zero, and_assoc, and_comm (a := ∀ t ∈ L'.bitTests, _)]
  · set n := 1137 + L'.lines.length with hn
    have hsum : ∀ w : ℕ → F, Sat w (mulLines n L'.bitTests) → ((List.range' (n + 1) 1064 2).map w).sum =
        ∑ j : Fin 1064, w (n + 2 * j) * w (L'.bitTests.getD j 0) := by
      intro w hw
      refine (congrArg (fun k => ((List.range' (n + 1) k 2).map w).sum) h4.symm).trans ((mulLines_sum L'.bitTests hw).trans ?_)
      have hc : ∀ (k : ℕ) (hk : L'.bitTests.length = k), ∑ j : Fin L'.bitTests.length, w (n + 2 * j) * w L'.bitTests[j] =
          ∑ j : Fin k, w (n + 2 * j) * w (L'.bitTests.getD j 0) := by
        rintro k rfl
        refine Finset.sum_congr rfl fun j _ => ?_
        rw [List.getD_eq_getElem _ _ j.2]
        rfl
      exact hc 1064 h4
    have hin : ∀ w : ℕ → F, ((∀ s ∈ (List.range 34).map (fun i => Stmt.input i i) ++
          ((List.range' 34 1103 ++ List.range' n 1064 2).zipIdx 34).map (fun p => Stmt.input p.1 p.2), Spec.Holds inp w s) ↔
        (∀ i < 1137, w i = inp i) ∧ ∀ j < 1064, w (n + 2 * j) = inp (1137 + j)) := by
      intro w
      simp only [List.forall_mem_append, List.forall_mem_map, List.mem_range]
      constructor
      · rintro ⟨a, b⟩
        have b' : ∀ k (h : k < (List.range' 34 1103 ++ List.range' n 1064 2).length),
            w (List.range' 34 1103 ++ List.range' n 1064 2)[k] = inp (34 + k) := fun k hk =>
          b (_, 34 + k) (List.mem_iff_getElem?.2 ⟨k, by rw [List.getElem?_zipIdx, List.getElem?_eq_getElem hk]; rfl⟩)
        refine ⟨fun i hi => ?_, fun j hj => ?_⟩
        · rcases Nat.lt_or_ge i 34 with h | h
          · exact a i h
          · obtain ⟨k, rfl⟩ := Nat.exists_eq_add_of_le h
            have := b' k (by simp only [List.length_append, List.length_range']; omega)
            rw [List.getElem_append_left (by rw [List.length_range']; omega), List.getElem_range', one_mul] at this
            exact this
        · have := b' (1103 + j) (by simp only [List.length_append, List.length_range']; omega)
          rw [List.getElem_append_right (by rw [List.length_range']; omega), List.getElem_range'] at this
          rw [List.length_range', Nat.add_sub_cancel_left] at this
          rw [this, show 34 + (1103 + j) = 1137 + j by omega]
      · rintro ⟨a, b⟩
        refine ⟨fun i hi => a i (by omega), fun p hp => ?_⟩
        obtain ⟨k, hk⟩ := List.mem_iff_getElem?.1 hp
        rw [List.getElem?_zipIdx, Option.map_eq_some_iff] at hk
        obtain ⟨x, hx, rfl⟩ := hk
        obtain ⟨hk, rfl⟩ := List.getElem?_eq_some_iff.1 hx
        have hk' : k < 1103 + 1064 := by simpa only [List.length_append, List.length_range'] using hk
        show w _ = inp (34 + k)
        rcases Nat.lt_or_ge k 1103 with h | h
        · rw [List.getElem_append_left (by rw [List.length_range']; omega), List.getElem_range', one_mul]
          exact a _ (by omega)
        · rw [List.getElem_append_right (by rw [List.length_range']; omega), List.getElem_range', List.length_range', b _ (by omega),
            show 1137 + (k - 1103) = 34 + k by omega]
    have hno : ∀ {v : ℕ} {l : List Stmt}, Straight v l → ∀ o t, Stmt.output o t ∉ l := by
      intro v l h o t ht
      induction l generalizing v with
      | nil => simp at ht
      | cons s l ih =>
        rcases List.mem_cons.1 ht with rfl | ht
        · exact h.1
        · exact ih h.2 ht
    have hmo : ∀ (ts : List ℕ) (v : ℕ) o t, Stmt.output o t ∉ mulLines v ts := by
      intro ts
      induction ts with
      | nil => intro v o t h; simp [mulLines] at h
      | cons a ts ih =>
        intro v o t h
        rcases List.mem_cons.1 h with h | h
        · cases h
        · exact ih _ _ _ h
    have hc : ∀ {w : ℕ → F} {v : ℕ} {l : List Stmt}, Straight v l → ((∀ s ∈ l, Spec.Holds inp w s) ↔ Sat w l) := by
      intro w v l h
      induction l generalizing v with
      | nil => simp [Sat]
      | cons s l ih =>
        rw [Sat, List.forall_mem_cons, List.forall_mem_cons, ih h.2]
        exact and_congr (holds_congr h.1 fun _ _ => rfl) Iff.rfl
    have hmc : ∀ (w : ℕ → F) (ts : List ℕ) (v : ℕ), ((∀ s ∈ mulLines v ts, Spec.Holds inp w s) ↔ Sat w (mulLines v ts)) := by
      intro w ts
      induction ts with
      | nil => intro v; simp [Sat, mulLines]
      | cons a ts ih =>
        intro v
        rw [mulLines, Sat, List.forall_mem_cons, List.forall_mem_cons, ih]
        exact Iff.rfl
    have hout : ∀ w : ℕ → F, (∀ o t, Stmt.output o t ∈ (List.range 34).map (fun i => Stmt.input i i) ++
          ((List.range' 34 1103 ++ List.range' n 1064 2).zipIdx 34).map (fun p => Stmt.input p.1 p.2) ++
          (L'.lines ++ (mulLines n L'.bitTests ++ T)) ++ ((L'.roundTests ++ [tmp]).zipIdx m).map (fun p => .output p.2 p.1) → w t = 0) ↔
        (∀ t ∈ L'.roundTests, w t = 0) ∧ w tmp = 0 := by
      intro w
      have hz : ∀ t ∈ L'.roundTests ++ [tmp], ∃ o, Stmt.output o t ∈ ((L'.roundTests ++ [tmp]).zipIdx m).map (fun p => .output p.2 p.1) := by
        intro t ht
        obtain ⟨i, hi, rfl⟩ := List.mem_iff_getElem.1 ht
        exact ⟨_, mem_zipIdx_map.2 ⟨i, hi, rfl⟩⟩
      constructor
      · intro h
        refine ⟨fun t ht => ?_, ?_⟩
        · obtain ⟨o, ho⟩ := hz t (List.mem_append_left _ ht)
          exact h o t (List.mem_append_right _ ho)
        · obtain ⟨o, ho⟩ := hz tmp (List.mem_append_right _ (List.mem_singleton.2 rfl))
          exact h o tmp (List.mem_append_right _ ho)
      · rintro ⟨a, b⟩ o t ht
        simp only [List.mem_append] at ht
        rcases ht with ((ht | ht) | ht | ht | ht) | ht
        · obtain ⟨_, -, e⟩ := List.mem_map.1 ht
          cases e
        · obtain ⟨_, -, e⟩ := List.mem_map.1 ht
          cases e
        · exact absurd ht (hno h2 o t)
        · exact absurd ht (hmo _ _ o t)
        · exact absurd ht (hno h5 o t)
        · obtain ⟨p, hp, e⟩ := List.mem_map.1 ht
          obtain ⟨-, rfl⟩ := Stmt.output.inj e
          rcases List.mem_append.1 (List.fst_mem_of_mem_zipIdx hp) with h | h
          · exact a _ h
          · rw [List.mem_singleton.1 h]; exact b
    constructor
    · rintro ⟨w, hw, hz⟩
      rw [List.forall_mem_append, List.forall_mem_append, hin, List.forall_mem_append, List.forall_mem_append, hc h2, hmc, hc h5] at hw
      obtain ⟨⟨⟨a, b⟩, c, d, e⟩, -⟩ := hw
      obtain ⟨z1, z2⟩ := (hout w).1 hz
      refine ⟨w, a, c, z1, ?_⟩
      rw [h6 w e, hsum w d] at z2
      rw [← z2]
      exact Finset.sum_congr rfl fun j _ => by rw [b j j.2]
    · rintro ⟨w, a, c, z1, z2⟩
      let w1 : ℕ → F := fun k => if k < n then w k else
        if (k - n) % 2 = 0 then inp (1137 + (k - n) / 2) else inp (1137 + (k - n) / 2) * w (L'.bitTests.getD ((k - n) / 2) 0)
      obtain ⟨w2, e1, e2⟩ := exists_values h5 w1
      have lo : ∀ k < n, w2 k = w k := fun k hk => by rw [e1 k (by omega)]; exact if_pos hk
      have hr : ∀ j < 1064, w2 (n + 2 * j) = inp (1137 + j) := fun j hj => by
        rw [e1 _ (by omega)]
        show (if n + 2 * j < n then _ else if (n + 2 * j - n) % 2 = 0 then inp (1137 + (n + 2 * j - n) / 2) else _) = _
        rw [if_neg (by omega), if_pos (by omega), show (n + 2 * j - n) / 2 = j by omega]
      have hbt : ∀ j < 1064, L'.bitTests.getD j 0 < n := fun j hj => by
        rw [List.getD_eq_getElem _ _ (by omega)]
        exact h3 _ (List.mem_append_right _ (List.getElem_mem _))
      have hmul : ∀ j < 1064, w2 (n + 2 * j + 1) = w2 (n + 2 * j) * w2 (L'.bitTests.getD j 0) := fun j hj => by
        rw [hr j hj, lo _ (hbt j hj), e1 _ (by omega)]
        show (if n + 2 * j + 1 < n then _ else if (n + 2 * j + 1 - n) % 2 = 0 then _ else
          inp (1137 + (n + 2 * j + 1 - n) / 2) * w (L'.bitTests.getD ((n + 2 * j + 1 - n) / 2) 0)) = _
        rw [if_neg (by omega), if_neg (by omega), show (n + 2 * j + 1 - n) / 2 = j by omega]
      have hms : Sat w2 (mulLines n L'.bitTests) := sat_mulLines _ fun j hj => by
        rw [hmul j (by omega), List.getD_eq_getElem _ _ hj]
      refine ⟨w2, ?_, (hout w2).2 ⟨fun t ht => ?_, ?_⟩⟩
      · rw [List.forall_mem_append, List.forall_mem_append, hin, List.forall_mem_append, List.forall_mem_append, hc h2, hmc, hc h5]
        refine ⟨⟨⟨fun i hi => (lo i (by omega)).trans (a i hi), hr⟩, sat_congr h2 (fun k hk => (lo k hk).symm) c, hms, e2⟩, ?_⟩
        rw [List.forall_mem_map]
        exact fun _ _ => True.intro
      · rw [lo _ (h3 t (List.mem_append_left _ ht))]
        exact z1 t ht
      · rw [h6 w2 e2, hsum w2 hms, ← z2]
        exact Finset.sum_congr rfl fun j _ => by rw [hr j j.2, lo _ (hbt j j.2)]

end

/-! ### The wiring file with random numbers -/

/-- the variables of block `b` with random numbers -/
def bor (b : ℕ) : List ℕ := bo b ++ List.range' 7261 1064

theorem blockOut_r (w : Wires) (l : List ℕ) (b : ℕ) : blockOut { w with r := l } b = blockOut { w with r := [] } b ++ l := by
  unfold blockOut
  simp only [List.append_nil]

theorem blockOut_true (b : ℕ) : blockOut (theWires true) b = bor b := blockOut_r (theWires true) _ b

theorem bor_length (b : ℕ) (hb : b < 16) : (bor b).length = 2201 := by
  rw [bor, List.length_append, bo_length b hb, List.length_range']

/-- the variables that are passed to the blocks -/
def valsr : List ℕ := ((List.range 16).map bor).flatten

theorem valsr_length : valsr.length = 35216 := by
  rw [valsr, List.length_flatten, flatten_lengths bor_length, List.sum_replicate, smul_eq_mul]

theorem valsr_lo {b i : ℕ} (hb : b < 16) (hi : i < 1137) : valsr.getD (b * 2201 + i) 0 = (bo b).getD i 0 := by
  rw [valsr, flatten_at bor_length hb (by omega), bor, List.getD_append _ _ _ _ (by rw [bo_length b hb]; exact hi)]

theorem valsr_hi {b j : ℕ} (hb : b < 16) (hj : j < 1064) : valsr.getD (b * 2201 + (1137 + j)) 0 = 7261 + j := by
  rw [valsr, flatten_at bor_length hb (by omega), bor, List.getD_append_right _ _ _ _ (by rw [bo_length b hb]; omega), bo_length b hb,
    Nat.add_sub_cancel_left, List.getD_eq_getElem _ _ (by rw [List.length_range']; exact hj), List.getElem_range', one_mul]

theorem valsr_lt : ∀ a ∈ valsr, a < 8325 := by
  intro a ha
  obtain ⟨l, hl, hal⟩ := List.mem_flatten.1 ha
  obtain ⟨b, hb, e⟩ := List.mem_map.1 hl
  rw [← e, bor, List.mem_append] at hal
  rcases hal with h | h
  · have := of_decide_eq_true ((List.all_eq_true.1 ((List.all_eq_true.1 valsOk_true) b hb)) a h)
    omega
  · rw [List.mem_range'_1] at h
    omega

/-- the lines `write4Rdl` returns -/
def rdlr (x : ℕ → ℤ) : List RStmt :=
  (RStmt.const 0 0 :: .const 1 1 :: (List.range' 2 33).map (fun i => .const i (4 * 2 ^ (i - 2)))) ++
  ((List.range' 35 8290).zipIdx 35).map (fun p => RStmt.input p.1 p.2 (x p.2)) ++
  (valsr.zipIdx 8325).map (fun p => RStmt.pass p.2 p.1 p.1) ++
  ((List.range' 8325 valsr.length).zipIdx 8325).map (fun p => RStmt.output p.2 p.1)

theorem write4Rdl_true (x : ℕ → ℤ) : write4Rdl true x = .ok (rdlr x) := by
  unfold write4Rdl
  rw [allocWires_eq]
  simp only [Outcome.bind]
  have e : (List.range 16).map (blockOut (theWires true)) = (List.range 16).map bor := List.map_congr_left fun b _ => blockOut_true b
  rw [e, if_pos]
  · simp only [if_true, List.length_range']
    rfl
  · rw [List.all_eq_true]
    intro l hl
    obtain ⟨b, hb, rfl⟩ := List.mem_map.1 hl
    rw [decide_eq_true_iff]
    exact bor_length b (List.mem_range.1 hb)

theorem mem_rdlr {x : ℕ → ℤ} {l : RStmt} : l ∈ rdlr x ↔
    l = .const 0 0 ∨ (∃ i < 34, l = .const (1 + i) (2 ^ (i + if i = 0 then 0 else 1))) ∨
    (∃ i < 8290, l = .input (35 + i) (35 + i) (x (35 + i))) ∨
    (∃ n < 35216, l = .pass (8325 + n) (valsr.getD n 0) (valsr.getD n 0)) ∨
    (∃ n < 35216, l = .output (8325 + n) (8325 + n)) := by
  unfold rdlr
  rw [List.mem_append, List.mem_append, List.mem_append, mem_zipIdx_map, mem_zipIdx_map, mem_zipIdx_map, or_assoc, or_assoc]
  simp only [List.length_range', List.getElem_range', valsr_length, one_mul, exists_prop]
  have hc : l ∈ RStmt.const 0 0 :: .const 1 1 :: (List.range' 2 33).map (fun i => RStmt.const i (4 * 2 ^ (i - 2))) ↔
      l = .const 0 0 ∨ ∃ i < 34, l = .const (1 + i) (2 ^ (i + if i = 0 then 0 else 1)) := by
    rw [List.mem_cons, List.mem_cons]
    refine or_congr_right ?_
    simp only [List.mem_map, List.mem_range'_1]
    have e : ∀ j, (2 : ℤ) ^ (j + 1 + 1) = 4 * 2 ^ j := fun j => by rw [pow_succ, pow_succ]; omega
    constructor
    · rintro (rfl | ⟨i, hi, rfl⟩)
      · exact ⟨0, by decide, rfl⟩
      · obtain ⟨j, rfl⟩ := Nat.exists_eq_add_of_le hi.1
        refine ⟨1 + j, by omega, ?_⟩
        rw [if_neg (by omega), Nat.add_sub_cancel_left, Nat.add_comm 1 j, e, show 1 + (j + 1) = 2 + j by omega]
    · rintro ⟨i, hi, rfl⟩
      rcases Nat.eq_zero_or_pos i with rfl | h
      · exact .inl rfl
      · obtain ⟨j, rfl⟩ := Nat.exists_eq_add_of_le' h
        refine .inr ⟨2 + j, by omega, ?_⟩
        rw [if_neg (by omega), Nat.add_sub_cancel_left, e, show 1 + (j + 1) = 2 + j by omega]
  rw [hc, or_assoc]
  refine or_congr_right (or_congr_right (or_congr_right (or_congr_left ?_)))
  constructor
  · rintro ⟨n, h, e⟩
    exact ⟨n, h, by rw [e, List.getD_eq_getElem]⟩
  · rintro ⟨n, h, e⟩
    exact ⟨n, h, by rw [e, List.getD_eq_getElem]⟩

theorem rdlr_least (x : ℕ → ℤ) : IsLeast {o | ∃ a, .output o a ∈ rdlr x} 8325 := by
  refine ⟨⟨_, mem_rdlr.2 (.inr (.inr (.inr (.inr ⟨0, by decide, rfl⟩))))⟩, ?_⟩
  rintro o ⟨a, ha⟩
  rcases mem_rdlr.1 ha with e | ⟨_, _, e⟩ | ⟨_, _, e⟩ | ⟨_, _, e⟩ | ⟨n, -, e⟩
  · cases e
  · cases e
  · cases e
  · cases e
  · obtain ⟨rfl, -⟩ := RStmt.output.inj e
    omega

end Libra.Sha256Gen
