import Verif.Proofs.OldCompilerRead
import Mathlib.Algebra.BigOperators.Intervals
import Mathlib.Algebra.Order.BigOperators.Group.Finset

/-!
# The older circuit compilers: levels
-/

namespace Libra.OldCompiler
open Spec Compiler Finset

theorem foldl_countZ (l : List ℤ) (m : ℤ → ℤ) (x : ℤ) :
    l.foldl (fun m y => Function.update m y (m y + 1)) m x = m x + (l.count x : ℤ) := by
  induction l generalizing m with
  | nil => simp
  | cons y ys ih =>
    rw [List.foldl_cons, ih, List.count_cons]
    by_cases e : y = x
    · subst e; simp; ring
    · have : ¬ x = y := fun h => e h.symm
      simp [e, this]

theorem inDegrees_sum (s : St) (x : ℤ) : inDegrees s x = ∑ a ∈ range s.size, ((s.outs a).count x : ℤ) := by
  have : ∀ n, loop n (fun i m => (s.outs i).foldl (fun m x => Function.update m x (m x + 1)) m) (fun _ => (0 : ℤ)) x =
      ∑ a ∈ range n, ((s.outs a).count x : ℤ) := by
    intro n
    induction n with
    | zero => rfl
    | succ n ih => rw [loop, foldl_countZ, ih, sum_range_succ]
  exact this _

/-- the state of the search when the gates in `D` have been treated -/
structure TInv (s : St) (D : Finset ℕ) (t : Levels) : Prop where
  sub : D ⊆ range s.size
  deg : ∀ x, t.inDeg x = ∑ a ∈ range s.size \ D, ((s.outs a).count x : ℤ)
  nodup : t.q.Nodup
  mem : ∀ a, (a ∈ t.q ∨ a ∈ D) ↔ a < s.size ∧ t.inDeg (s.node a).id = 0
  disj : ∀ a ∈ t.q, a ∉ D
  nonneg : ∀ a, a ∈ t.q ∨ a ∈ D → 0 ≤ t.lvl a
  edge : ∀ a ∈ D, ∀ x ∈ s.outs a, t.lvl a + 1 ≤ t.lvl (s.addr x)
  leaf : ∀ a < s.size, (∀ b < s.size, (s.node a).id ∉ s.outs b) → t.lvl a = 0

theorem startSort_inv {s : St} {n : ℕ} (_h : Graph s n) : TInv s ∅ (startSort s) := by
  have key : ∀ m, m ≤ s.size → ∃ t : Levels, loop m (fun i (t : Levels) =>
      if t.inDeg (s.node i).id = 0 then { t with q := t.q ++ [i], lvl := Function.update t.lvl i 0 } else t)
      ⟨s.lvl, inDegrees s, []⟩ = t ∧ t.inDeg = inDegrees s ∧ t.q.Nodup ∧
      (∀ a, a ∈ t.q ↔ a < m ∧ inDegrees s (s.node a).id = 0) ∧ ∀ a ∈ t.q, t.lvl a = 0 := by
    intro m
    induction m with
    | zero => exact fun _ => ⟨⟨s.lvl, inDegrees s, []⟩, rfl, rfl, List.nodup_nil, by simp, by simp⟩
    | succ m ih =>
      intro hm
      obtain ⟨t, e, h1, h2, h3, h4⟩ := ih (by omega)
      rw [loop, e, h1]
      split
      · next hz =>
        refine ⟨_, rfl, rfl, ?_, fun a => ?_, fun a ha => ?_⟩
        · refine List.nodup_append.2 ⟨h2, List.nodup_singleton _, fun a ha b hb e => ?_⟩
          rw [List.mem_singleton] at hb
          have := ((h3 a).1 ha).1
          omega
        · dsimp only
          rw [List.mem_append, List.mem_singleton, h3]
          constructor
          · rintro (⟨p, q⟩ | rfl)
            · exact ⟨by omega, q⟩
            · exact ⟨by omega, hz⟩
          · rintro ⟨p, q⟩
            by_cases e : a = m
            · exact Or.inr e
            · exact Or.inl ⟨by omega, q⟩
        · dsimp only at ha ⊢
          rw [List.mem_append, List.mem_singleton] at ha
          by_cases e : a = m
          · rw [e, Function.update_self]
          · rw [Function.update_of_ne e]; exact h4 a (ha.resolve_right e)
      · next hz =>
        refine ⟨t, rfl, h1, h2, fun a => ?_, h4⟩
        rw [h3]
        constructor
        · rintro ⟨p, q⟩; exact ⟨by omega, q⟩
        · rintro ⟨p, q⟩
          refine ⟨?_, q⟩
          by_contra hc
          have : a = m := by omega
          subst this
          exact hz q
  obtain ⟨t, e, h1, h2, h3, h4⟩ := key s.size le_rfl
  have e' : startSort s = t := e
  rw [e']
  refine ⟨empty_subset _, fun x => ?_, h2, fun a => ?_, fun a _ => by simp, fun a ha => ?_, fun a ha => by simp at ha, fun a ha hl => ?_⟩
  · rw [h1, sdiff_empty, inDegrees_sum]
  · rw [h1, h3]; simp
  · rw [h4 a (ha.resolve_right (by simp))]
  · refine h4 a ((h3 a).2 ⟨ha, ?_⟩)
    rw [inDegrees_sum]
    refine sum_eq_zero (fun b hb => ?_)
    rw [List.count_eq_zero_of_not_mem (hl b (mem_range.1 hb))]; rfl

/-- the successors of a gate -/
theorem sortOutputs {s : St} {cur : ℕ} (l : List ℤ) (t : Levels) (hcur : ∀ x ∈ l, s.addr x ≠ cur)
    (hinj : ∀ x ∈ l, ∀ y ∈ l, s.addr x = s.addr y → x = y) (hdeg : ∀ x ∈ l, (l.count x : ℤ) ≤ t.inDeg x) :
    (∀ x, (l.foldl (sortOutput s cur) t).inDeg x = t.inDeg x - l.count x) ∧
    (∀ a, (∀ x ∈ l, s.addr x ≠ a) → (l.foldl (sortOutput s cur) t).lvl a = t.lvl a) ∧
    (∀ a, t.lvl a ≤ (l.foldl (sortOutput s cur) t).lvl a) ∧
    (∀ x ∈ l, t.lvl cur + 1 ≤ (l.foldl (sortOutput s cur) t).lvl (s.addr x)) ∧
    ∃ ns : List ℕ, (l.foldl (sortOutput s cur) t).q = t.q ++ ns ∧ ns.Nodup ∧
      ∀ a, a ∈ ns ↔ ∃ x ∈ l, s.addr x = a ∧ t.inDeg x = l.count x := by
  induction l generalizing t with
  | nil => exact ⟨by simp, by simp, by simp, by simp, [], by simp, List.nodup_nil, by simp⟩
  | cons y ys ih =>
    have e1 : (sortOutput s cur t y).inDeg = Function.update t.inDeg y (t.inDeg y - 1) := rfl
    have e2 : (sortOutput s cur t y).lvl = Function.update t.lvl (s.addr y) (max (t.lvl (s.addr y)) (t.lvl cur + 1)) := rfl
    have e3 : (sortOutput s cur t y).q = if t.inDeg y - 1 = 0 then t.q ++ [s.addr y] else t.q := by
      simp [sortOutput]
    have hy := hdeg y (by simp)
    rw [List.count_cons_self] at hy
    push_cast at hy
    have hmono : ∀ a, t.lvl a ≤ (sortOutput s cur t y).lvl a := by
      intro a
      rw [e2, Function.update_apply]
      split
      · next h => subst h; exact le_max_left _ _
      · exact le_rfl
    have hc : (sortOutput s cur t y).lvl cur = t.lvl cur := by
      rw [e2, Function.update_of_ne (hcur y (by simp)).symm]
    obtain ⟨i1, i2, i3, i4, ns, i5, i6, i7⟩ := ih (sortOutput s cur t y) (fun x hx => hcur x (by simp [hx]))
      (fun x hx z hz => hinj x (by simp [hx]) z (by simp [hz])) (fun x hx => by
        rw [e1, Function.update_apply]
        split
        · next h => subst h; linarith
        · next h =>
          have := hdeg x (by simp [hx])
          rwa [List.count_cons_of_ne (fun h' => h h'.symm)] at this)
    rw [List.foldl_cons]
    refine ⟨fun x => ?_, fun a ha => ?_, fun a => (hmono a).trans (i3 a), fun x hx => ?_, ?_⟩
    · rw [i1, e1, Function.update_apply]
      split
      · next h => subst h; rw [List.count_cons_self]; push_cast; ring
      · next h => rw [List.count_cons_of_ne (fun h' => h h'.symm)]
    · rw [i2 a (fun x hx => ha x (by simp [hx])), e2, Function.update_of_ne (ha y (by simp)).symm]
    · rcases List.mem_cons.1 hx with rfl | hx
      · refine le_trans ?_ (i3 _)
        rw [e2, Function.update_self]; exact le_max_right _ _
      · rw [← hc]; exact i4 x hx
    · by_cases hz : t.inDeg y - 1 = 0
      · have hny : y ∉ ys := fun h => by
          have := List.count_pos_iff.2 h
          have : (1 : ℤ) ≤ (ys.count y : ℤ) := by exact_mod_cast this
          linarith
        have hnot : s.addr y ∉ ns := by
          intro h
          obtain ⟨x, hx, hxa, -⟩ := (i7 _).1 h
          exact hny (hinj x (by simp [hx]) y (by simp) hxa ▸ hx)
        refine ⟨s.addr y :: ns, by rw [i5, e3, if_pos hz]; simp, List.nodup_cons.2 ⟨hnot, i6⟩, fun a => ?_⟩
        rw [List.mem_cons, i7]
        constructor
        · rintro (rfl | ⟨x, hx, hxa, hxd⟩)
          · refine ⟨y, by simp, rfl, ?_⟩
            rw [List.count_cons_self, List.count_eq_zero_of_not_mem hny]; push_cast; linarith
          · have hxy : x ≠ y := fun h => hny (h ▸ hx)
            refine ⟨x, by simp [hx], hxa, ?_⟩
            rw [e1, Function.update_of_ne hxy] at hxd
            rw [hxd, List.count_cons_of_ne (fun h => hxy h.symm)]
        · rintro ⟨x, hx, hxa, hxd⟩
          by_cases hxy : x = y
          · subst hxy; exact Or.inl hxa.symm
          · refine Or.inr ⟨x, (List.mem_cons.1 hx).resolve_left hxy, hxa, ?_⟩
            rw [e1, Function.update_of_ne hxy, hxd, List.count_cons_of_ne (fun h => hxy h.symm)]
      · refine ⟨ns, by rw [i5, e3, if_neg hz], i6, fun a => ?_⟩
        rw [i7]
        constructor
        · rintro ⟨x, hx, hxa, hxd⟩
          refine ⟨x, by simp [hx], hxa, ?_⟩
          rw [e1, Function.update_apply] at hxd
          split at hxd
          · next h => subst h; rw [List.count_cons_self]; push_cast; linarith
          · next h => rw [hxd, List.count_cons_of_ne (fun h' => h h'.symm)]
        · rintro ⟨x, hx, hxa, hxd⟩
          by_cases hxy : x = y
          · subst hxy
            rw [List.count_cons_self] at hxd
            push_cast at hxd
            have hpos : 0 < ys.count x := by
              by_contra hc
              have : ys.count x = 0 := by omega
              rw [this] at hxd
              exact hz (by rw [hxd]; simp)
            refine ⟨x, List.count_pos_iff.1 hpos, hxa, ?_⟩
            rw [e1, Function.update_self]; linarith
          · refine ⟨x, (List.mem_cons.1 hx).resolve_left hxy, hxa, ?_⟩
            rw [e1, Function.update_of_ne hxy, hxd, List.count_cons_of_ne (fun h => hxy h.symm)]

theorem Graph.addr_out {s : St} {n : ℕ} (h : Graph s n) {a : ℕ} (ha : a < s.size) {x : ℤ} (hx : x ∈ s.outs a) :
    s.addr x < s.size ∧ (s.node (s.addr x)).id = x := by
  obtain ⟨b, hb, -, e, -⟩ := h.out a ha x hx
  rw [← e, h.addr b hb]
  exact ⟨hb, rfl⟩

/-- one round of the search -/
theorem TInv.step {s : St} {n : ℕ} (h : Graph s n) {D : Finset ℕ} {t : Levels} (ht : TInv s D t) {cur : ℕ} {rest : List ℕ}
    (hq : t.q = cur :: rest) :
    cur ∉ D ∧ TInv s (insert cur D) ((s.outs cur).foldl (sortOutput s cur) { t with q := rest }) := by
  have hcq : cur ∈ t.q := by rw [hq]; simp
  have hcD := ht.disj cur hcq
  obtain ⟨hcs, hc0⟩ := (ht.mem cur).1 (Or.inl hcq)
  have hcount : ∀ x, ((s.outs cur).count x : ℤ) ≤ t.inDeg x := by
    intro x
    rw [ht.deg]
    exact single_le_sum (f := fun a => ((s.outs a).count x : ℤ)) (fun _ _ => Int.natCast_nonneg _)
      (mem_sdiff.2 ⟨mem_range.2 hcs, hcD⟩)
  have hnot : ∀ a, t.inDeg (s.node a).id = 0 → (s.node a).id ∉ s.outs cur := by
    intro a ha hx
    have h1 := hcount (s.node a).id
    have : (0 : ℤ) < ((s.outs cur).count (s.node a).id : ℤ) := by exact_mod_cast List.count_pos_iff.2 hx
    omega
  have hout : ∀ x ∈ s.outs cur, ∀ a, s.addr x = a → x = (s.node a).id := by
    intro x hx a e
    rw [← e]; exact (h.addr_out hcs hx).2.symm
  obtain ⟨i1, i2, i3, i4, ns, i5, i6, i7⟩ := sortOutputs (s := s) (cur := cur) (s.outs cur) { t with q := rest }
    (fun x hx e => hnot cur hc0 (hout x hx cur e ▸ hx))
    (fun x hx y hy e => by rw [hout x hx _ rfl, e, ← hout y hy _ rfl])
    (fun x _ => hcount x)
  have hsum : ∀ x, ∑ a ∈ range s.size \ insert cur D, ((s.outs a).count x : ℤ) = t.inDeg x - (s.outs cur).count x := by
    intro x
    have e : range s.size \ D = insert cur (range s.size \ insert cur D) := by
      ext a
      simp only [mem_sdiff, mem_insert, mem_range, not_or]
      constructor
      · rintro ⟨p, q⟩
        by_cases e : a = cur
        · exact Or.inl e
        · exact Or.inr ⟨p, e, q⟩
      · rintro (rfl | ⟨p, -, q⟩)
        · exact ⟨hcs, hcD⟩
        · exact ⟨p, q⟩
    rw [ht.deg, e, sum_insert (by simp)]
    ring
  have hns : ∀ a ∈ ns, a < s.size ∧ t.inDeg (s.node a).id ≠ 0 ∧ t.inDeg (s.node a).id = ((s.outs cur).count (s.node a).id : ℤ) ∧
      (s.node a).id ∈ s.outs cur := by
    intro a ha
    obtain ⟨x, hx, hxa, hxd⟩ := (i7 a).1 ha
    have e := hout x hx a hxa
    have hlt := (h.addr_out hcs hx).1
    rw [hxa] at hlt
    have hpos := List.count_pos_iff.2 hx
    rw [e] at hxd hpos hx
    dsimp only at hxd
    exact ⟨hlt, by rw [hxd]; exact_mod_cast Nat.pos_iff_ne_zero.1 hpos, hxd, hx⟩
  have hcr : cur ∉ rest := (List.nodup_cons.1 (hq ▸ ht.nodup)).1
  have old : ∀ a, a ∈ rest ∨ a ∈ insert cur D → a ∈ t.q ∨ a ∈ D := by
    rintro a (ha | ha)
    · exact Or.inl (by rw [hq]; simp [ha])
    · rcases mem_insert.1 ha with rfl | ha
      · exact Or.inl hcq
      · exact Or.inr ha
  have zero_old : ∀ a, a ∈ t.q ∨ a ∈ D → ((s.outs cur).foldl (sortOutput s cur) { t with q := rest }).lvl a = t.lvl a := by
    intro a ha
    refine i2 a (fun x hx e => ?_)
    have := hout x hx a e
    exact hnot a ((ht.mem a).1 ha).2 (this ▸ hx)
  refine ⟨hcD, ?_, fun x => ?_, ?_, fun a => ?_, fun a ha => ?_, fun a ha => ?_, fun a ha x hx => ?_, fun a ha hl => ?_⟩
  · exact insert_subset (mem_range.2 hcs) ht.sub
  · rw [i1, hsum]
  · rw [i5]
    refine List.nodup_append.2 ⟨(List.nodup_cons.1 (hq ▸ ht.nodup)).2, i6, fun a ha b hb e => ?_⟩
    subst e
    exact (hns a hb).2.1 ((ht.mem a).1 (Or.inl (by rw [hq]; simp [ha]))).2
  · rw [i5, List.mem_append, i1]
    dsimp only
    constructor
    · intro ha
      have ha' : (a ∈ rest ∨ a ∈ insert cur D) ∨ a ∈ ns := by tauto
      rcases ha' with ha | ha
      · obtain ⟨p1, p2⟩ := (ht.mem a).1 (old a ha)
        refine ⟨p1, ?_⟩
        rw [p2, List.count_eq_zero_of_not_mem (hnot a p2)]; rfl
      · obtain ⟨p1, -, p3, -⟩ := hns a ha
        exact ⟨p1, by rw [p3]; ring⟩
    · rintro ⟨ha, hz⟩
      by_cases h0 : t.inDeg (s.node a).id = 0
      · rcases (ht.mem a).2 ⟨ha, h0⟩ with p | p
        · rw [hq, List.mem_cons] at p
          rcases p with rfl | p
          · exact Or.inr (mem_insert_self _ _)
          · exact Or.inl (Or.inl p)
        · exact Or.inr (mem_insert_of_mem p)
      · have e : t.inDeg (s.node a).id = ((s.outs cur).count (s.node a).id : ℤ) := by linarith
        have hx : (s.node a).id ∈ s.outs cur := by
          rw [← List.count_pos_iff]
          by_contra hc
          have : (s.outs cur).count (s.node a).id = 0 := by omega
          rw [this] at e
          exact h0 e
        exact Or.inl (Or.inr ((i7 a).2 ⟨_, hx, h.addr a ha, e⟩))
  · rw [i5, List.mem_append] at ha
    rw [mem_insert, not_or]
    rcases ha with ha | ha
    · exact ⟨fun e => hcr (e ▸ ha), ht.disj a (by rw [hq]; simp [ha])⟩
    · have h0 := (hns a ha).2.1
      exact ⟨fun e => h0 (e ▸ hc0), fun hD => h0 ((ht.mem a).1 (Or.inr hD)).2⟩
  · rw [i5, List.mem_append] at ha
    by_cases hn : a ∈ ns
    · have hx := (hns a hn).2.2.2
      have h1 := i4 _ hx
      rw [h.addr a (hns a hn).1] at h1
      have := ht.nonneg cur (Or.inl hcq)
      dsimp only at h1
      omega
    · exact (ht.nonneg a (old a (by tauto))).trans (i3 a)
  · rcases mem_insert.1 ha with rfl | ha
    · rw [zero_old a (Or.inl hcq)]
      exact i4 x hx
    · rw [zero_old a (Or.inr ha)]
      exact (ht.edge a ha x hx).trans (i3 _)
  · rw [i2 a (fun x hx e => hl cur hcs (hout x hx a e ▸ hx))]
    exact ht.leaf a ha hl

theorem sortLoop_ok {s : St} {n : ℕ} (h : Graph s n) (fuel : ℕ) (D : Finset ℕ) (t : Levels) (ht : TInv s D t)
    (hf : s.size + 1 ≤ D.card + fuel) : ∃ D' t', sortLoop s fuel t = .ok t' ∧ TInv s D' t' ∧ t'.q = [] := by
  induction fuel generalizing D t with
  | zero =>
    exfalso
    have := card_le_card ht.sub
    rw [card_range] at this
    omega
  | succ fuel ih =>
    rw [sortLoop]
    split
    · next hq => exact ⟨D, t, rfl, ht, hq⟩
    · next cur rest hq =>
      obtain ⟨hc, ht'⟩ := ht.step h hq
      refine ih (insert cur D) _ ht' ?_
      rw [card_insert_of_notMem hc]; omega

/-- at the end, all gates have been treated -/
theorem TInv.all {s : St} {n : ℕ} (h : Graph s n) {D : Finset ℕ} {t : Levels} (ht : TInv s D t) (hq : t.q = []) :
    ∀ a < s.size, a ∈ D := by
  intro a
  induction a using Nat.strong_induction_on with
  | _ a ih =>
    intro ha
    have h0 : t.inDeg (s.node a).id = 0 := by
      rw [ht.deg]
      refine sum_eq_zero (fun b hb => ?_)
      obtain ⟨hb, hbD⟩ := mem_sdiff.1 hb
      rw [mem_range] at hb
      rw [List.count_eq_zero_of_not_mem]; · rfl
      intro hx
      obtain ⟨c, hc, hbc, e, -⟩ := h.out b hb _ hx
      have := h.inj hc ha e
      subst this
      exact hbD (ih b hbc hb)
    rcases (ht.mem a).2 ⟨ha, h0⟩ with p | p
    · rw [hq] at p; cases p
    · exact p

/-- the levels found -/
structure Leveled (s : St) (m : ℤ) : Prop where
  nonneg : ∀ a < s.size, 0 ≤ s.lvl a
  le : ∀ a < s.size, s.lvl a ≤ m
  edge : ∀ a < s.size, ∀ b < s.size, (s.node b).id ∈ s.outs a → s.lvl a < s.lvl b
  leaf : ∀ a < s.size, (s.node a).ty = 3 → s.lvl a = 0

theorem topSort_ok {s : St} (h : Graph s s.size) :
    ∃ (lvl : ℕ → ℤ) (m : ℤ), topSort s = .ok ({ s with lvl := lvl }, m) ∧ 0 ≤ m ∧ Leveled { s with lvl := lvl } m := by
  obtain ⟨D, t, e, ht, hq⟩ := sortLoop_ok h (s.size + loop s.size (fun i n => n + (s.outs i).length) 0 + 1) ∅ (startSort s)
    (startSort_inv h) (by rw [card_empty]; omega)
  have hall := ht.all h hq
  have hnn : ∀ a < s.size, 0 ≤ t.lvl a := fun a ha => ht.nonneg a (Or.inr (hall a ha))
  have key : ∀ n, n ≤ s.size → ∃ m : ℤ, loopM n (fun i (m : ℤ) => (do
      Outcome.assert (decide (t.lvl i ≠ -1))
      return max m (t.lvl i) : Outcome ℤ)) (-1) = .ok m ∧ (∀ a < n, t.lvl a ≤ m) := by
    intro n
    induction n with
    | zero => exact fun _ => ⟨-1, rfl, by simp⟩
    | succ n ih =>
      intro hn
      obtain ⟨m, e, hm⟩ := ih (by omega)
      refine ⟨max m (t.lvl n), ?_, fun a ha => ?_⟩
      · rw [loopM, e, Outcome.bind]
        have : decide (t.lvl n ≠ -1) = true := decide_eq_true (by have := hnn n (by omega); omega)
        rw [this]; rfl
      · by_cases ea : a = n
        · subst ea; exact le_max_right _ _
        · exact (hm a (by omega)).trans (le_max_left _ _)
  obtain ⟨m, em, hm⟩ := key s.size le_rfl
  refine ⟨t.lvl, m, ?_, (hnn 0 h.pos).trans (hm 0 h.pos), hnn, hm, fun a ha b hb hx => ?_, fun a ha hty => ?_⟩
  · unfold topSort
    dsimp only
    rw [e, Outcome.ok_bind, em]
    rfl
  · have := ht.edge a (hall a ha) _ hx
    rw [h.addr b hb] at this
    change t.lvl a < t.lvl b
    omega
  · refine ht.leaf a ha (fun b hb hx => ?_)
    obtain ⟨c, hc, -, e, hc3⟩ := h.out b hb _ hx
    rw [h.inj hc ha e] at hc3
    exact hc3 hty

end Libra.OldCompiler
