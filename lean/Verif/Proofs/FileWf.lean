import Verif.Proofs.ReaderEval

/-!
# The circuit of a good file is well formed
-/

namespace Libra.Reader
open Libra Spec

theorem gate_of_gates {L : Layer} {gs : List Gate} (h : L.gates = gs.map some) {g : ℕ}
    (hg : g < gs.length) : L.gate g = gs[g] ∧ L.gates[g]? = some (some gs[g]) := by
  have : L.gates[g]? = some (some gs[g]) := by
    rw [h, List.getElem?_map, List.getElem?_eq_getElem hg]; rfl
  exact ⟨by simp [Layer.gate, this], this⟩

theorem relay_gate {n g : ℕ} (hg : g < positions n) :
    (relayLayer n).gates[g]? = some (some ⟨4, (g : ℤ), 0⟩) := by
  simp [relayLayer, hg]

theorem goodFile_wf {zk : Bool} {f : File} (h : GoodFile zk f) {C : Circuit}
    (hC : SameLayers C (circuitOf zk f)) : WellFormed zk C := by
  obtain ⟨hr, hnum, hpow, hinp, hsh, hgate⟩ := h
  have hne := hr.1
  have hd := circuitOf_depth zk hne
  have hpos : ∀ L ∈ f, 1 ≤ L.length := fun L h => List.length_pos_iff.2 (hr.2.2 L h).1
  obtain ⟨L0, f', rfl⟩ : ∃ L f', f = L :: f' := by
    cases f with
    | nil => exact absurd rfl hne
    | cons L f => exact ⟨L, f, rfl⟩
  have hbl : ∀ i, C.bl i = (circuitOf zk (L0 :: f')).bl i := hC.bl
  have hgt : ∀ i, (C.layer i).gates = ((circuitOf zk (L0 :: f')).layer i).gates := hC.gates
  have hgg : ∀ i g, C.gate i g = (circuitOf zk (L0 :: f')).gate i g := by
    intro i g; rw [Circuit.gate, Circuit.gate, Layer.gate, Layer.gate, hgt]
  have hp : ∀ L ∈ L0 :: f', positions L.length = 2 ^ width L.length := fun L h =>
    (positions_full (hpos L h)).2 (hpow L h)
  have hm0 : L0 ∈ L0 :: f' := List.mem_cons_self
  have hb0 : C.bl 0 = width L0.length := hbl 0
  have hb1 : C.bl 1 = width L0.length := hbl 1
  have hbs : ∀ i (h : i < (L0 :: f').length), C.bl (i + 1) = width (L0 :: f')[i].length := by
    intro i h; rw [hbl, circuitOf_bl zk _ i h]
  have hlay : ∀ L : List Line, L ∈ L0 :: f' → ∀ g < 2 ^ width L.length,
      (layerOf zk L).gates[g]? = some (some ((layerOf zk L).gate g)) ∧
      ((∃ l ∈ L, (layerOf zk L).gate g = gateOf zk l) ∨ (layerOf zk L).gate g = ⟨2, 0, 0⟩) := by
    intro L hL g hg
    obtain ⟨gs, h1, h2, h3⟩ := layerOf_gates zk L
    rw [← hp L hL, ← h2] at hg
    obtain ⟨a, b⟩ := gate_of_gates h1 hg
    exact ⟨by rw [a, b], by rw [a]; exact h3 _ (List.getElem_mem hg)⟩
  have hll : ∀ L : List Line, L ∈ L0 :: f' → (layerOf zk L).gates.length = 2 ^ width L.length := by
    intro L hL
    obtain ⟨gs, h1, h2, -⟩ := layerOf_gates zk L
    rw [h1, List.length_map, h2, hp L hL]
  have hrel : ∀ g < 2 ^ width L0.length, C.gate 1 g = ⟨4, (g : ℤ), 0⟩ := by
    intro g hg
    rw [hgg, Circuit.gate, circuitOf_layer_one, Layer.gate, relay_gate (by rw [hp L0 hm0]; exact hg)]
    rfl
  constructor
  · constructor
    · rw [hC.depth, hd]; omega
    · rw [hC.depth, hd]; exact hsh
    · intro i hi
      rw [hC.depth, hd] at hi
      rw [hgt, hbl]
      simp only [hgg]
      rcases i with _ | _ | i
      · exact ⟨hll L0 hm0, fun g hg => (hlay L0 hm0 g hg).1⟩
      · refine ⟨?_, fun g hg => ?_⟩
        · rw [circuitOf_layer_one, relayLayer, List.length_map, List.length_range]; exact hp L0 hm0
        rw [← hgg, hrel g hg, circuitOf_layer_one, relay_gate (by rw [hp L0 hm0]; exact hg)]
      · have hi' : i + 1 < (L0 :: f').length := by omega
        simp only [Circuit.bl, Circuit.gate, circuitOf_layer_succ zk _ i hi']
        have hm : (L0 :: f')[i + 1] ∈ L0 :: f' := List.getElem_mem hi'
        exact ⟨hll _ hm, fun g hg => (hlay _ hm g hg).1⟩
    · intro g hg
      rw [hb0] at hg
      rw [hgg]
      obtain ⟨-, ⟨l, hl, e⟩ | e⟩ := hlay L0 hm0 g hg
      · rw [Circuit.gate, circuitOf_layer_zero, e]
        have := hinp l hl
        unfold gateOf int32
        simp only []
        rcases this with a | ⟨a, b⟩
        · left; exact ⟨a, by omega, by omega⟩
        · right; exact ⟨a, by rw [b]; rfl⟩
      · rw [Circuit.gate, circuitOf_layer_zero, e]
        right; exact ⟨rfl, rfl⟩
    · intro i hi g hg
      rw [hC.depth, hd] at hi
      rcases i with _ | i
      · rw [hb1] at hg
        rw [hrel g hg, hb0]
        right; right; right; left
        have : (g : ℤ) < 2 ^ width L0.length := by exact_mod_cast hg
        exact ⟨Or.inl rfl, ⟨by simp, this⟩⟩
      · have hi' : i + 1 < (L0 :: f').length := by omega
        rw [hbs (i + 1) hi'] at hg
        rw [hbs i (by omega), hgg, Circuit.gate, circuitOf_layer_succ zk _ i hi']
        have hm : (L0 :: f')[i + 1] ∈ L0 :: f' := List.getElem_mem hi'
        obtain ⟨-, ⟨l, hl, e⟩ | e⟩ := hlay _ hm g hg
        · rw [e]; exact (hgate i hi' l hl).1
        · rw [e]; right; left; rfl
  · rw [hb0, hb1]
  · intro g hg; rw [hb1] at hg; exact hrel g hg
  · intro i hi g hg
    rw [hC.depth, hd] at hi
    have hi' : i + 1 < (L0 :: f').length := by omega
    rw [hbs (i + 1) hi'] at hg
    rw [hgg, Circuit.gate, circuitOf_layer_succ zk _ i hi']
    have hm : (L0 :: f')[i + 1] ∈ L0 :: f' := List.getElem_mem hi'
    obtain ⟨-, ⟨l, hl, e⟩ | e⟩ := hlay _ hm g hg
    · rw [e]; exact (hgate i hi' l hl).2
    · rw [e]; exact ⟨by decide, by decide, fun _ => rfl⟩
  · rw [hC.depth, hd]; simp

end Libra.Reader
