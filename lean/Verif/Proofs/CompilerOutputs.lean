import Verif.Proofs.CompilerSize
import Mathlib.Data.List.Sort

/-!
# The last layer of compiled circuits
-/

namespace Libra.Compiler
open Libra Spec

/-! ### Relays are below a variable -/

/-- all relays are on a level below some variable -/
def RelaysLow (copy : Dag) (s : Dag × ℕ) : Prop := ∀ j < s.2, ∃ k ∈ copy.keys, (s.1.node (R j)).lvl < (copy.node k).lvl

theorem addRelay_low {copy : Dag} {id0 id1 : Id} (left : Bool) {s : Dag × ℕ} {m : ℕ} (hid : (copy.node id0).id = V m)
    (hk : id0 ∈ copy.keys) (hs : RelaysLow copy s) : RelaysLow copy (addRelay copy id0 id1 left s) := by
  unfold addRelay
  dsimp only
  by_cases h : (copy.node id0).lvl = (copy.node id1).lvl + 1
  · rw [if_pos h]
    exact hs
  · rw [if_neg h]
    obtain ⟨h1, h2⟩ := chain_nodes ((copy.node id1).lvl + 1) ((copy.node id0).lvl - ((copy.node id1).lvl + 1)) (s.1, s.2, (copy.node id1).id)
    generalize loop ((copy.node id0).lvl - ((copy.node id1).lvl + 1)) (fun j (t : Dag × ℕ × Id) =>
      (t.1.set (R t.2.1) { ty := 10, id := R t.2.1, lvl := (copy.node id1).lvl + 1 + j, input0 := t.2.2, input1 := N },
        t.2.1 + 1, R t.2.1)) (s.1, s.2, (copy.node id1).id) = t at h1 h2 ⊢
    intro j hj
    dsimp only at h1 h2 hj ⊢
    simp only [hid, set_node_ne (R_ne_V _ _)]
    rw [h2]
    by_cases hc : s.2 ≤ j ∧ j < s.2 + ((copy.node id0).lvl - ((copy.node id1).lvl + 1))
    · rw [if_pos hc]
      exact ⟨id0, hk, by omega⟩
    · rw [if_neg hc]
      exact hs j (by omega)

theorem relayGate_low {copy : Dag} {s s' : Dag × ℕ} {k : Id} {m : ℕ} (hid : (copy.node k).id = V m) (hk : k ∈ copy.keys)
    (hs : RelaysLow copy s) (h : relayGate copy s k = .ok s') : RelaysLow copy s' := by
  unfold relayGate at h
  dsimp only at h
  split_ifs at h
  · obtain rfl := Outcome.ok.inj h
    exact addRelay_low false hid hk (addRelay_low true hid hk hs)
  · obtain ⟨_, -, h⟩ := Outcome.bind_eq_ok' h
    obtain rfl := Outcome.ok.inj h
    exact hs
  · obtain rfl := Outcome.ok.inj h
    exact addRelay_low true hid hk hs
  · have : s' = s := by
      generalize (copy.node k).input1.2 + 1 - (copy.node k).input0.2 = n at h
      induction n generalizing s' with
      | zero => exact (Outcome.ok.inj h).symm
      | succ n ih =>
        rw [loopM] at h
        obtain ⟨x, hx, h⟩ := Outcome.bind_eq_ok' h
        obtain ⟨_, -, h⟩ := Outcome.bind_eq_ok' h
        rw [← ih hx]
        exact (Outcome.ok.inj h).symm
    rw [this]
    exact hs
  · obtain ⟨_, -, h⟩ := Outcome.bind_eq_ok' h
    obtain rfl := Outcome.ok.inj h
    exact addRelay_low true hid hk hs
  · obtain rfl := Outcome.ok.inj h
    exact hs

theorem relayAll_low {copy : Dag} (hc : Plain copy) {s : Dag × ℕ}
    (hs : copy.keys.foldlM (relayGate copy) (copy, 0) = .ok s) : RelaysLow copy s := by
  refine foldlM_append_inv (motive := fun _ s => RelaysLow copy s) (fun j hj => absurd hj (by simp)) ?_ hs
  intro Q k x y hpre hx hxy
  have hk : k ∈ copy.keys := hpre.subset (by simp)
  obtain ⟨n, hn⟩ := hc.vars k hk
  exact relayGate_low ((hc.ids k hk).trans hn) hk hx hxy

/-! ### Levels -/

/-- the variables are on the level that is their depth, the relays are below a variable -/
theorem steps_levels {var : Variant} {P : List Stmt} {d0 d : Dag} {c : ℕ} (hd : readProgram var P = .ok (d0, c))
    (hP : ProgramOk P) (hA : Acceptable P) {lv : ℕ → ℕ} (hlv : ∀ s ∈ P, LevelOk lv s) {L : Layered} (S : Steps d0 d L) :
    (∀ n, V n ∈ d.keys → (d.node (V n)).lvl = lv n ∧ ∃ s ∈ P, target s = some n) ∧
      ∀ j, R j ∈ d.keys → ∃ n, V n ∈ d.keys ∧ (d.node (R j)).lvl < (d.node (V n)).lvl := by
  have h : Reads P P d0 := (readProgram_reads hd).1
  have he := readProgram_edges hd hP.single hA.order
  have hr := ranges_of_ok hP
  have hkeys := readProgram_defined hd hA
  have hsucc : ∀ k, ∀ y ∈ (d0.node k).outputs, y ∈ d0.keys := by
    intro k y hy
    obtain ⟨s', hs', n, rfl, hn⟩ := h.succs k y hy
    exact (h.defined s' hs' n hn).1
  have htop : ∀ y ∈ d0.keys, lv y.2 = 0 ∨ ∃ k ∈ d0.keys, y ∈ (d0.node k).outputs ∧ lv y.2 = lv k.2 + 1 := by
    intro y hy
    obtain ⟨n, rfl, s, hs, ht⟩ := hkeys y hy
    rcases level_top (hlv s hs) (hr s hs) ht with ⟨h0, i, rfl⟩ | ⟨a, ha, e⟩
    · exact .inl h0
    · exact .inr ⟨V a, h.present s hs a ha, he.fwd s hs n ht a ha, e⟩
  have hedge : ∀ k ∈ d0.keys, ∀ y ∈ (d0.node k).outputs, Id.lt k y = true ∧ lv k.2 + 1 ≤ lv y.2 := by
    intro k hk y hy
    obtain ⟨s, hs, a, ha, t, rfl, rfl, ht⟩ := he.bwd k y hy
    obtain ⟨Q, hQ⟩ := mem_prefix hs
    refine ⟨?_, level_uses (hlv s hs) ht ha⟩
    rw [lt_V]
    exact .inr ⟨rfl, (hA.order Q s hQ a ((uses_iff s a).2 ha)).2 t ht⟩
  obtain ⟨d1, s, d2, src, h1, h2, h3, hrel, rfl, -⟩ := S
  obtain ⟨r1, hstart, h10⟩ := startLevels_spec h.sorted h1
  have hdef := allDefined h hstart
  have r2 := levels_shape h.sorted hsucc (s := ⟨d1, inDegrees d0, d1.keys, 0⟩) r1 h2
  have hplain := plain_of_reads h hr hdef r2
  have hlvl := levels_lvl h.sorted hsucc (lv := fun k => lv k.2) hedge htop
    (s := ⟨d1, inDegrees d0, d1.keys, 0⟩) (done := []) (rest := d1.keys) (more := [])
    r1 (by rw [r1.1]; rfl) (by simp) (by simp) (fun k hk => by dsimp only; rw [h10 k hk]; exact Nat.zero_le _) (by simp) h2
  have hlow := relayAll_low hplain h3
  obtain ⟨hren, -, -⟩ := assignIds_spec hrel.sorted
  have hV : ∀ k ∈ s.dag.keys, ((assignIds d2.1).1.node k).lvl = (s.dag.node k).lvl := fun k hk => by
    rw [(hren.2 k).2]; exact (hrel.gates k hk).2.1
  refine ⟨fun n hn => ?_, fun j hj => ?_⟩
  · rw [hren.1] at hn
    rcases (hrel.keys _).1 hn with hn | ⟨j, -, e⟩
    · rw [hV _ hn]
      rw [r2.1] at hn
      obtain ⟨n', e, s', hs', ht'⟩ := hkeys _ hn
      rw [V_inj] at e
      subst e
      exact ⟨(hlvl _ hn).1, s', hs', ht'⟩
    · exact absurd e.symm (R_ne_V j n)
  · rw [hren.1] at hj
    rcases (hrel.keys _).1 hj with hj | ⟨j', hj', e⟩
    · obtain ⟨n, e⟩ := hplain.vars _ hj
      exact absurd e (R_ne_V j n)
    · rw [R_inj] at e
      subst e
      obtain ⟨k, hk, hlt⟩ := hlow j hj'
      obtain ⟨n, rfl⟩ := hplain.vars k hk
      refine ⟨n, ?_, ?_⟩
      · rw [hren.1]
        exact (hrel.keys _).2 (.inl hk)
      · rw [hV _ hk, (hren.2 _).2]
        exact hlt

/-- the gates of the last level are the deepest variables, in order -/
theorem top_level {var : Variant} {P : List Stmt} {d0 d : Dag} {c : ℕ} (hd : readProgram var P = .ok (d0, c))
    (hP : ProgramOk P) (hA : Acceptable P) {lv : ℕ → ℕ} (hlv : ∀ s ∈ P, LevelOk lv s) {L : Layered} {src : Id → Id}
    (S : Steps d0 d L) (hc : Compiled P d src L) (hdep : L.depth ≠ 0) {deepest : List ℕ} (hs : deepest.SortedLT)
    (hm : ∀ t, t ∈ deepest ↔ (∃ s ∈ P, target s = some t) ∧ ∀ s ∈ P, ∀ t', target s = some t' → lv t' ≤ lv t) :
    levelKeys d (L.depth - 1) = deepest.map V := by
  obtain ⟨h1, h2⟩ := steps_levels hd hP hA hlv S
  obtain ⟨n, hn, htop⟩ : ∃ n, V n ∈ d.keys ∧ L.depth ≤ lv n + 1 := by
    rcases hc.top with h | ⟨k, hk, h⟩
    · exact absurd h hdep
    rcases hc.kinds k hk with ⟨j, rfl, -⟩ | ⟨n, rfl, -⟩
    · obtain ⟨n, hn, hlt⟩ := h2 j hk
      have := hc.low _ hn
      omega
    · exact ⟨n, hk, by rw [← (h1 n hk).1]; exact h⟩
  have hmem : ∀ k, k ∈ levelKeys d (L.depth - 1) ↔ k ∈ deepest.map V := by
    intro k
    rw [mem_levelKeys, List.mem_map]
    constructor
    · rintro ⟨hk, e⟩
      rcases hc.kinds k hk with ⟨j, rfl, -⟩ | ⟨t, rfl, -⟩
      · obtain ⟨n, hn, hlt⟩ := h2 j hk
        have := hc.low _ hn
        omega
      · refine ⟨t, (hm t).2 ⟨(h1 t hk).2, fun s hs t' ht' => ?_⟩, rfl⟩
        have hk' := hc.defined s hs t' ht'
        have := hc.low _ hk'
        rw [(h1 t' hk').1] at this
        rw [(h1 t hk).1] at e
        omega
    · rintro ⟨t, ht, rfl⟩
      obtain ⟨⟨s, hs, e⟩, hmax⟩ := (hm t).1 ht
      have hk := hc.defined s hs t e
      refine ⟨hk, ?_⟩
      have := hc.low _ hk
      obtain ⟨s', hs', e'⟩ := (h1 n hn).2
      have := hmax s' hs' n e'
      rw [(h1 t hk).1] at *
      omega
  have hsort : (levelKeys d (L.depth - 1)).Pairwise (fun a b => Id.lt a b = true) := hc.sorted.filter _
  have hsort' : (deepest.map V).Pairwise (fun a b => Id.lt a b = true) := by
    rw [List.pairwise_map]
    refine hs.pairwise.imp fun {a b} hab => ?_
    rw [lt_V]
    exact .inr ⟨rfl, hab⟩
  haveI : Std.Irrefl (fun a b : Id => Id.lt a b = true) := ⟨fun a h => by
    unfold Id.lt at h
    simp at h⟩
  haveI : Std.Asymm (fun a b : Id => Id.lt a b = true) := ⟨fun a b h h' => by
    unfold Id.lt at h h'
    simp at h h'
    omega⟩
  exact hsort.eq_of_mem_iff hsort' hmem

end Libra.Compiler
