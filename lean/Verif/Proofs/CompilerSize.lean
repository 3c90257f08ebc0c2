import Verif.Proofs.CompilerSucceeds4
import Verif.Proofs.CompilerValue

/-!
# The size of compiled circuits

Every operand of a gate gets relays of its own, one for each level in between, so a level has at most three gates for each
line of the program, and is then filled up to a power of two.
-/

namespace Libra.Compiler
open Libra Spec

/-! ### Relays -/

/-- the number of relays at a level -/
def relayCount (s : Dag × ℕ) (l : ℕ) : ℕ := (List.range s.2).countP (fun j => decide ((s.1.node (R j)).lvl = l))

theorem chain_nodes (b n : ℕ) (t : Dag × ℕ × Id) :
    (loop n (fun j (t : Dag × ℕ × Id) =>
      (t.1.set (R t.2.1) { ty := 10, id := R t.2.1, lvl := b + j, input0 := t.2.2, input1 := N },
        t.2.1 + 1, R t.2.1)) t).2.1 = t.2.1 + n ∧
    ∀ i, ((loop n (fun j (t : Dag × ℕ × Id) =>
      (t.1.set (R t.2.1) { ty := 10, id := R t.2.1, lvl := b + j, input0 := t.2.2, input1 := N },
        t.2.1 + 1, R t.2.1)) t).1.node (R i)).lvl =
      if t.2.1 ≤ i ∧ i < t.2.1 + n then b + (i - t.2.1) else (t.1.node (R i)).lvl := by
  induction n with
  | zero => exact ⟨rfl, fun i => by rw [if_neg (by omega)]; rfl⟩
  | succ n ih =>
    obtain ⟨h1, h2⟩ := ih
    rw [loop]
    refine ⟨by dsimp only; rw [h1]; omega, fun i => ?_⟩
    dsimp only
    rw [h1]
    by_cases e : i = t.2.1 + n
    · subst e
      rw [set_node_self, if_pos (by omega)]
      dsimp only
      omega
    · rw [set_node_ne (fun h => e (R_inj.1 h)), h2 i]
      by_cases hi : t.2.1 ≤ i ∧ i < t.2.1 + n
      · rw [if_pos hi, if_pos (by omega)]
      · rw [if_neg hi, if_neg (by omega)]

theorem countP_shift (n c b l : ℕ) (f : ℕ → ℕ) (h : ∀ j < n, f (c + j) = b + j) :
    (List.range (c + n)).countP (fun j => decide (f j = l)) ≤ (List.range c).countP (fun j => decide (f j = l)) + 1 := by
  rw [List.range_add, List.countP_append, List.countP_map]
  have : (List.range n).countP ((fun j => decide (f j = l)) ∘ (c + ·)) ≤ 1 := by
    have e : (List.range n).countP ((fun j => decide (f j = l)) ∘ (c + ·)) = (List.range n).countP (fun j => decide (b + j = l)) := by
      refine List.countP_congr (fun j hj => ?_)
      simp only [Function.comp, h j (List.mem_range.1 hj)]
    rw [e]
    by_cases hl : b ≤ l
    · have e' : (List.range n).countP (fun j => decide (b + j = l)) = (List.range n).count (l - b) := by
        rw [List.count]
        refine List.countP_congr (fun j _ => ?_)
        simp only [decide_eq_true_eq, beq_iff_eq]
        omega
      rw [e']
      exact List.nodup_iff_count_le_one.1 List.nodup_range _
    · have : (List.range n).countP (fun j => decide (b + j = l)) = 0 := by
        rw [List.countP_eq_zero]
        intro j _
        simp only [decide_eq_true_eq]
        omega
      omega
  omega

theorem addRelay_count {copy : Dag} (id0 id1 : Id) (left : Bool) (s : Dag × ℕ) {m : ℕ} (hid : (copy.node id0).id = V m) (l : ℕ) :
    relayCount (addRelay copy id0 id1 left s) l ≤ relayCount s l + 1 := by
  unfold addRelay
  dsimp only
  by_cases h : (copy.node id0).lvl = (copy.node id1).lvl + 1
  · rw [if_pos h]
    omega
  · rw [if_neg h]
    obtain ⟨h1, h2⟩ := chain_nodes ((copy.node id1).lvl + 1) ((copy.node id0).lvl - ((copy.node id1).lvl + 1)) (s.1, s.2, (copy.node id1).id)
    generalize loop ((copy.node id0).lvl - ((copy.node id1).lvl + 1)) (fun j (t : Dag × ℕ × Id) =>
      (t.1.set (R t.2.1) { ty := 10, id := R t.2.1, lvl := (copy.node id1).lvl + 1 + j, input0 := t.2.2, input1 := N },
        t.2.1 + 1, R t.2.1)) (s.1, s.2, (copy.node id1).id) = t at h1 h2 ⊢
    unfold relayCount
    dsimp only at h1 h2 ⊢
    simp only [hid, set_node_ne (R_ne_V _ _)]
    rw [h1]
    refine (countP_shift _ _ ((copy.node id1).lvl + 1) l (fun j => (t.1.node (R j)).lvl) (fun j hj => ?_)).trans (Nat.add_le_add_right (le_of_eq ?_) 1)
    · rw [h2, if_pos (by omega)]
      omega
    · refine List.countP_congr (fun j hj => ?_)
      rw [h2, if_neg (by have := List.mem_range.1 hj; omega)]

theorem relayGate_count {copy : Dag} {s s' : Dag × ℕ} {k : Id} {m : ℕ} (hid : (copy.node k).id = V m)
    (h : relayGate copy s k = .ok s') (l : ℕ) : relayCount s' l ≤ relayCount s l + 2 := by
  unfold relayGate at h
  dsimp only at h
  split_ifs at h
  · obtain rfl := Outcome.ok.inj h
    have := addRelay_count k (copy.node k).input0 true s hid l
    have := addRelay_count k (copy.node k).input1 false (addRelay copy k (copy.node k).input0 true s) hid l
    omega
  · obtain ⟨_, -, h⟩ := Outcome.bind_eq_ok' h
    obtain rfl := Outcome.ok.inj h
    omega
  · obtain rfl := Outcome.ok.inj h
    have := addRelay_count k (copy.node k).input0 true s hid l
    omega
  · have : s' = s := by
      generalize (copy.node k).input1.2 + 1 - (copy.node k).input0.2 = n at h
      induction n generalizing s' with
      | zero => exact (Outcome.ok.inj h).symm
      | succ n ih =>
        rw [loopM] at h
        obtain ⟨x, hx, h⟩ := Outcome.bind_eq_ok' h
        obtain ⟨_, -, h⟩ := Outcome.bind_eq_ok' h
        rw [← ih hx]
        exact (Outcome.ok.inj h).symm
    rw [this]
    omega
  · obtain ⟨_, -, h⟩ := Outcome.bind_eq_ok' h
    obtain rfl := Outcome.ok.inj h
    have := addRelay_count k (copy.node k).input0 true s hid l
    omega
  · obtain rfl := Outcome.ok.inj h
    omega

theorem relayAll_count {copy : Dag} (hc : Plain copy) {s : Dag × ℕ}
    (hs : copy.keys.foldlM (relayGate copy) (copy, 0) = .ok s) (l : ℕ) : relayCount s l ≤ 2 * copy.keys.length := by
  refine foldlM_append_inv (motive := fun Q s => relayCount s l ≤ 2 * Q.length) (Nat.le_of_eq rfl) ?_ hs
  intro Q k x y hpre hx hxy
  have hk : k ∈ copy.keys := hpre.subset (by simp)
  obtain ⟨n, hn⟩ := hc.vars k hk
  have := relayGate_count ((hc.ids k hk).trans hn) hxy l
  rw [List.length_append, List.length_singleton]
  omega

/-- a level has at most three gates for each gate of the program -/
theorem levelKeys_length {copy : Dag} {src : Id → Id} {s : Dag × ℕ} (hc : Plain copy) (h : Relayed copy src s)
    (hs : copy.keys.foldlM (relayGate copy) (copy, 0) = .ok s) (l : ℕ) :
    (levelKeys s.1 l).length ≤ 3 * copy.keys.length := by
  have hsub : levelKeys s.1 l ⊆ copy.keys ++ ((List.range s.2).filter (fun j => decide ((s.1.node (R j)).lvl = l))).map R := by
    intro k hk
    obtain ⟨h1, h2⟩ := mem_levelKeys.1 hk
    rcases (h.keys k).1 h1 with h1 | ⟨j, hj, rfl⟩
    · exact List.mem_append_left _ h1
    · exact List.mem_append_right _ (List.mem_map.2 ⟨j, List.mem_filter.2 ⟨List.mem_range.2 hj, by simpa using h2⟩, rfl⟩)
  have hnd : (levelKeys s.1 l).Nodup := h.sorted.nodup.filter _
  have := (hnd.subperm hsub).length_le
  rw [List.length_append, List.length_map, ← List.countP_eq_length_filter] at this
  have h2 := relayAll_count hc hs l
  unfold relayCount at h2
  omega

/-! ### Depth -/

/-- every level below a level that occurs occurs -/
theorem levels_occur {α : Type} {keys : List α} {lv : α → ℕ} (h : ∀ y ∈ keys, lv y = 0 ∨ ∃ k ∈ keys, lv y = lv k + 1) :
    ∀ n, ∀ y ∈ keys, lv y = n → n + 1 ≤ keys.length := by
  have key : ∀ n, ∀ y ∈ keys, lv y = n → ∀ i ≤ n, ∃ k ∈ keys, lv k = i := by
    intro n
    induction n with
    | zero => exact fun y hy e i hi => ⟨y, hy, by omega⟩
    | succ n ih =>
      intro y hy e i hi
      rcases Nat.lt_or_ge n i with hlt | hle
      · exact ⟨y, hy, by omega⟩
      · rcases h y hy with h0 | ⟨k, hk, h1⟩
        · omega
        · exact ih k hk (by omega) i hle
  intro n y hy e
  have hsub : List.range (n + 1) ⊆ keys.map lv := by
    intro i hi
    obtain ⟨k, hk, e⟩ := key n y hy e i (by have := List.mem_range.1 hi; omega)
    exact List.mem_map.2 ⟨k, hk, e⟩
  have := (List.nodup_range.subperm hsub).length_le
  rwa [List.length_range, List.length_map] at this

/-- the keys of the graph are the variables that lines define -/
theorem keys_length {P Q : List Stmt} {d : Dag} (h : Reads P Q d) (hdef : ∀ n, V n ∈ d.keys → FromLine P n (d.node (V n))) :
    d.keys.length ≤ P.length := by
  have hsub : d.keys ⊆ (P.filterMap target).map V := by
    intro k hk
    obtain ⟨n, rfl⟩ := h.vars k hk
    obtain ⟨s, hs, g, e, -⟩ := hdef n hk
    exact List.mem_map.2 ⟨n, List.mem_filterMap.2 ⟨s, hs, target_of_gate e⟩, rfl⟩
  have := (h.sorted.nodup.subperm hsub).length_le
  rw [List.length_map] at this
  exact this.trans (List.length_filterMap_le _ _)

/-- The layers of a compiled block. -/
theorem layered_size {var : Variant} {P : List Stmt} {d : Dag} {c : ℕ} (hd : readProgram var P = .ok (d, c))
    (hP : ProgramOk P) (hA : Acceptable P) {L : Layered} (hL : dagToLayered d = .ok L) :
    L.depth ≤ P.length ∧ ∀ l, (L.gates l).length ≤ 6 * P.length := by
  have h : Reads P P d := (readProgram_reads hd).1
  have he := readProgram_edges hd hP.single hA.order
  have hr := ranges_of_ok hP
  obtain ⟨lv, hlv⟩ := hA.levels
  have hkeys := readProgram_defined hd hA
  have hsucc : ∀ k, ∀ y ∈ (d.node k).outputs, y ∈ d.keys := by
    intro k y hy
    obtain ⟨s', hs', n, rfl, hn⟩ := h.succs k y hy
    exact (h.defined s' hs' n hn).1
  have htop : ∀ y ∈ d.keys, lv y.2 = 0 ∨ ∃ k ∈ d.keys, y ∈ (d.node k).outputs ∧ lv y.2 = lv k.2 + 1 := by
    intro y hy
    obtain ⟨n, rfl, s, hs, ht⟩ := hkeys y hy
    rcases level_top (hlv s hs) (hr s hs) ht with ⟨h0, i, rfl⟩ | ⟨a, ha, e⟩
    · exact .inl h0
    · exact .inr ⟨V a, h.present s hs a ha, he.fwd s hs n ht a ha, e⟩
  have hedge : ∀ k ∈ d.keys, ∀ y ∈ (d.node k).outputs, Id.lt k y = true ∧ lv k.2 + 1 ≤ lv y.2 := by
    intro k hk y hy
    obtain ⟨s, hs, a, ha, t, rfl, rfl, ht⟩ := he.bwd k y hy
    obtain ⟨Q, hQ⟩ := mem_prefix hs
    refine ⟨?_, level_uses (hlv s hs) ht ha⟩
    rw [lt_V]
    exact .inr ⟨rfl, (hA.order Q s hQ a ((uses_iff s a).2 ha)).2 t ht⟩
  unfold dagToLayered at hL
  obtain ⟨d1, h1, hL⟩ := Outcome.bind_eq_ok' hL
  obtain ⟨s, h2, hL⟩ := Outcome.bind_eq_ok' hL
  obtain ⟨⟨d2, c'⟩, h3, hL⟩ := Outcome.bind_eq_ok' hL
  obtain ⟨count, h4, hL⟩ := Outcome.bind_eq_ok' hL
  obtain ⟨gates, h5, hL⟩ := Outcome.bind_eq_ok' hL
  dsimp only at h2 h3 h4 h5 hL
  obtain ⟨r1, hstart, h10⟩ := startLevels_spec h.sorted h1
  have hdef := allDefined h hstart
  have r2 := levels_shape h.sorted hsucc (s := ⟨d1, inDegrees d, d1.keys, 0⟩) r1 h2
  have hplain := plain_of_reads h hr hdef r2
  have hlvl := levels_lvl h.sorted hsucc (lv := fun k => lv k.2) hedge htop
    (s := ⟨d1, inDegrees d, d1.keys, 0⟩) (done := []) (rest := d1.keys) (more := [])
    r1 (by rw [r1.1]; rfl) (by simp) (by simp) (fun k hk => by dsimp only; rw [h10 k hk]; exact Nat.zero_le _) (by simp) h2
  have hreach := levels_reached (s := ⟨d1, inDegrees d, d1.keys, 0⟩) ⟨.inl rfl, fun x hx => hx⟩ h2
  have hlen := keys_length h hdef
  obtain ⟨⟨src, hrel⟩, -⟩ := relayAll hplain h3
  obtain ⟨hcount, -⟩ := countLevels_ok h4
  obtain ⟨hren, hcnt, -⟩ := assignIds_spec hrel.sorted
  obtain ⟨hgates, -⟩ := emitGates_ok h5
  obtain ⟨t, i, hi⟩ := hA.input
  have hpos : 0 < P.length := List.length_pos_of_mem hi
  cases hL
  refine ⟨?_, fun l => ?_⟩
  · dsimp only
    rcases hreach.1 with h0 | ⟨k, hk, hle⟩
    · omega
    · rw [r2.1] at hk
      have := levels_occur (keys := d.keys) (lv := fun k => lv k.2) (fun y hy => (htop y hy).imp id (fun ⟨k, a, _, b⟩ => ⟨k, a, b⟩)) _ k hk rfl
      rw [(hlvl k hk).1] at hle
      omega
  · dsimp only
    have hk3 := levelKeys_length hplain hrel h3 l
    dsimp only at hk3
    rw [r2.1] at hk3
    have hlk : (levelKeys (assignIds d2).1 l).length = (levelKeys d2 l).length := by
      unfold levelKeys
      rw [hren.1]
      congr 2
      funext k
      rw [(hren.2 k).2]
    rw [pad_eq, List.length_append, List.length_map, List.length_range, hgates, List.length_map, hcount, hlk]
    have hlt := lt_fullCount (levelKeys d2 l).length
    by_cases h0 : (levelKeys d2 l).length = 0
    · rw [h0, fullCount, dif_pos rfl]
      omega
    · have := fullCount_le _ h0
      omega

/-! ### The input layer -/

theorem sources_length {W : List RStmt} {s : RState} (h : RReads W s) : (sources s).length ≤ W.length := by
  have h1 : (sources s).length ≤ s.keys.length := List.length_filter_le _ _
  have hsub : s.keys ⊆ W.filterMap rtarget := by
    intro k hk
    obtain ⟨l, hl, e⟩ := (h.keys k).1 hk
    exact List.mem_filterMap.2 ⟨l, hl, e⟩
  have hnd : s.keys.Nodup := h.sorted.imp (fun h => ne_of_lt h)
  have h2 := (hnd.subperm hsub).length_le
  exact h1.trans (h2.trans (List.length_filterMap_le _ _))

end Libra.Compiler
