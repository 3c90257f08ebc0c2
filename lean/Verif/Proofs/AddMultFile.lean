import Verif.Proofs.TradReader
import Verif.Proofs.FileWf
import Verif.Proofs.Matmul

/-!
# Files that both families of programs accept
-/

namespace Libra.TradReader
open Libra Spec Reader

theorem gateOf_eq {zk : Bool} {l : Line} (h : l.Ints) (h6 : l.ty ≠ 6) (h10 : l.ty ≠ 10) :
    gateOf zk l = gate l := by
  obtain ⟨-, -, hu, hv⟩ := h
  rw [gateOf, gate, if_neg (by tauto), int32_id hu, int32_id hv]

/-- the type of a line -/
theorem line_ty {f : File} (hf : AddMultFile f) (i : ℕ) (hi : i < f.length) :
    ∀ l ∈ f[i], l.ty ≠ 6 ∧ l.ty ≠ 10 := by
  intro l hl
  cases i with
  | zero =>
    have := hf.inputs l (by
      cases f with
      | nil => simp at hi
      | cons L f => simpa using hl)
    rcases this with h | ⟨h, -⟩ <;> rw [h] <;> decide
  | succ i =>
    rcases hf.gates i hi l hl with ⟨h | h, -⟩ | h <;> rw [h] <;> decide

theorem layerOf_eq {f : File} (zk : Bool) (hf : AddMultFile f) (i : ℕ) (hi : i < f.length) :
    layerOf zk f[i] = tradLayerOf f[i] := by
  unfold layerOf tradLayerOf
  congr 2
  refine List.map_congr_left (fun l hl => ?_)
  obtain ⟨h6, h10⟩ := line_ty hf i hi l hl
  rw [gateOf_eq ((hf.readable.2.2 f[i] (List.getElem_mem _)).2.2 l hl) h6 h10]
  rfl

/-- A file of the traditional protocols is one of the others. -/
theorem addMult_good {zk : Bool} {f : File} (hf : AddMultFile f) (hd : f.length + 1 < 1000000) :
    GoodFile zk f where
  readable := by
    refine ⟨hf.readable.1, hf.readable.2.1, fun L hL => ?_⟩
    obtain ⟨h1, h2, h3⟩ := hf.readable.2.2 L hL
    refine ⟨h1, h2, fun l hl => ?_⟩
    obtain ⟨a, b, c, d⟩ := h3 l hl
    exact ⟨a, b, ⟨by omega, by omega⟩, ⟨by omega, by omega⟩⟩
  numbered := hf.numbered
  full := hf.full
  inputs := hf.inputs
  shallow := hd
  gates := by
    intro i h l hl
    obtain ⟨h6, h10⟩ := line_ty hf (i + 1) h l hl
    rw [gateOf_eq ((hf.readable.2.2 f[i + 1] (List.getElem_mem _)).2.2 l hl) h6 h10]
    rcases hf.gates i h l hl with ⟨hty, hu, hv⟩ | hty
    · refine ⟨.inl ⟨?_, hu, hv⟩, ?_⟩
      · rcases hty with h | h
        · exact .inl h
        · exact .inr (.inl h)
      · rcases hty with h | h <;> simp [GateProvable, gate, h]
    · exact ⟨.inr (.inl hty), by simp [GateProvable, gate, hty]⟩

variable {F : Type} [CommRing F]

/-- The circuits the two readers make of the same file compute the same values, one layer shifted. -/
theorem value_eq {zk : Bool} {f : File} (hf : AddMultFile f) {C : Circuit} (hC : SameLayers C (circuitOf zk f)) :
    ∀ i (h : i < f.length), ∀ g < positions f[i].length,
      (value C (i + 1) g : F) = value (tradCircuitOf f) i g := by
  obtain ⟨L, f', rfl⟩ : ∃ L f', f = L :: f' := by
    cases f with
    | nil => exact absurd rfl hf.readable.1
    | cons L f' => exact ⟨L, f', rfl⟩
  have hlay : ∀ i (h : i < (L :: f').length), layerOf zk (L :: f')[i] = tradLayerOf (L :: f')[i] :=
    fun i h => layerOf_eq zk hf i h
  have hg0 : ∀ g, C.gate 0 g = (tradCircuitOf (L :: f')).gate 0 g := by
    intro g
    rw [Circuit.gate, Layer.gate, hC.gates, Circuit.gate, Layer.gate,
      tradCircuitOf_layer (L :: f') 0 (by simp), ← hlay 0 (by simp)]
    rfl
  have hg1 : ∀ g < positions L.length, C.gate 1 g = ⟨4, (g : ℤ), 0⟩ := by
    intro g hg
    rw [Circuit.gate, Layer.gate, hC.gates]
    simp [circuitOf, layersOf, Circuit.layer, relayLayer, hg]
  have hg2 : ∀ i (h : i + 1 < (L :: f').length) g, C.gate (i + 2) g =
      (tradCircuitOf (L :: f')).gate (i + 1) g := by
    intro i h g
    rw [Circuit.gate, Layer.gate, hC.gates, Circuit.gate, Layer.gate,
      tradCircuitOf_layer (L :: f') (i + 1) h, ← hlay (i + 1) h]
    have : i < f'.length := by simpa using h
    simp [circuitOf, layersOf, Circuit.layer, this]
  have hwire : ∀ i (h : i < (L :: f').length) (x : ℤ), Wire (width (L :: f')[i].length) x →
      x.toNat < positions (L :: f')[i].length := by
    intro i h x hx
    have hm : (L :: f')[i] ∈ L :: f' := List.getElem_mem _
    rw [(positions_full (List.length_pos_iff.2 (hf.readable.2.2 _ hm).1)).2 (hf.full _ hm)]
    obtain ⟨h0, h1⟩ := hx
    have : (x.toNat : ℤ) < ((2 ^ width (L :: f')[i].length : ℕ) : ℤ) := by
      rw [Int.toNat_of_nonneg h0]; push_cast; exact h1
    exact_mod_cast this
  intro i
  induction i with
  | zero =>
    intro h g hg
    rw [show value C (0 + 1) g = gateValue (C.gate 1 g) (fun k => value C 0 k.toNat) from rfl, hg1 g hg, gateValue]
    simp [value, hg0]
  | succ i ih =>
    intro h g hg
    rw [value, hg2 i h, value]
    have hgate : (tradCircuitOf (L :: f')).gate (i + 1) g = ⟨2, 0, 0⟩ ∨
        ∃ hg : g < (L :: f')[i + 1].length, (tradCircuitOf (L :: f')).gate (i + 1) g =
          gate (L :: f')[i + 1][g] := by
      by_cases hlt : g < (L :: f')[i + 1].length
      · exact .inr ⟨hlt, tradCircuitOf_gate _ _ h _ hlt⟩
      · have h1 : (L :: f')[i + 1].length = 1 := by
          by_contra hc
          rw [positions, if_neg hc] at hg
          exact hlt hg
        rw [h1] at hg hlt
        have : g = 1 := by simp [positions] at hg; omega
        subst this
        exact .inl (tradCircuitOf_dummy _ _ h h1)
    rcases hgate with e | ⟨hlt, e⟩
    · rw [e]; simp [gateValue]
    · rw [e]
      have hm : (L :: f')[i + 1][g] ∈ (L :: f')[i + 1] := List.getElem_mem _
      have hgt := hf.gates i h _ hm
      revert hgt
      generalize (L :: f')[i + 1][g] = l
      intro hgt
      rcases hgt with ⟨hty, hu, hv⟩ | hty
      · have e1 := ih (by omega) _ (hwire i (by omega) _ hu)
        have e2 := ih (by omega) _ (hwire i (by omega) _ hv)
        rcases hty with hty | hty <;> simp [gateValue, gate, hty, e1, e2]
      · simp [gateValue, gate, hty]

/-! ## files given by a formula -/

/-- the file with `d` layers, `m i` gates in layer `i`, and the lines `line i g` -/
def grid (d : ℕ) (m : ℕ → ℕ) (line : ℕ → ℕ → Line) : File :=
  (List.range d).map (fun i => (List.range (m i)).map (line i))

variable {d : ℕ} {m : ℕ → ℕ} {line : ℕ → ℕ → Line}

theorem grid_length : (grid d m line).length = d := by simp [grid]

theorem grid_get (i : ℕ) (h : i < (grid d m line).length) :
    (grid d m line)[i] = (List.range (m i)).map (line i) := by simp [grid]

theorem grid_mem {L : List Line} (h : L ∈ grid d m line) :
    ∃ i < d, L = (List.range (m i)).map (line i) := by
  simp only [grid, List.mem_map, List.mem_range] at h
  obtain ⟨i, hi, rfl⟩ := h
  exact ⟨i, hi, rfl⟩

theorem wire_width {n x : ℕ} (h : x < n) : Wire (width n) (x : ℤ) := by
  refine ⟨by positivity, ?_⟩
  have : x < 2 ^ width n := lt_of_lt_of_le h (le_trans (Nat.le_pow_clog (by norm_num) n)
    (Nat.pow_le_pow_right (by norm_num) (le_max_right _ _)))
  exact_mod_cast this

/-- a grid of additions and multiplications -/
theorem grid_addMult (hd : 1 ≤ d) (hd' : d < 1000000) {e : ℕ → ℕ} (hm : ∀ i < d, m i = 2 ^ e i)
    (he : ∀ i < d, e i ≤ 30)
    (hin : ∀ g < m 0, ∃ x : ℤ, line 0 g = ⟨3, g, x, 0⟩ ∧ 0 ≤ x ∧ x < 2 ^ 31)
    (hg : ∀ i, i + 1 < d → ∀ g < m (i + 1), ∃ ty : ℤ, ∃ u < m i, ∃ v < m i,
      line (i + 1) g = ⟨ty, g, (u : ℕ), (v : ℕ)⟩ ∧ (ty = 0 ∨ ty = 1)) :
    AddMultFile (grid d m line) := by
  have hpos : ∀ i < d, 1 ≤ m i := fun i hi => by rw [hm i hi]; exact Nat.one_le_two_pow
  have hle : ∀ i < d, m i ≤ 2 ^ 30 := fun i hi => by
    rw [hm i hi]; exact Nat.pow_le_pow_right (by norm_num) (he i hi)
  have hnum : ∀ i < d, ∀ g < m i, (line i g).g = g := by
    intro i hi g hlt
    cases i with
    | zero => obtain ⟨x, e, -⟩ := hin g hlt; rw [e]
    | succ i => obtain ⟨ty, u, -, v, -, e, -⟩ := hg i hi g hlt; rw [e]
  constructor
  · refine ⟨?_, by rw [grid_length]; omega, ?_⟩
    · intro h
      have := congrArg List.length h
      rw [grid_length] at this
      simp at this
      omega
    · intro L hL
      obtain ⟨i, hi, rfl⟩ := grid_mem hL
      have h1 := hpos i hi
      have h2 := hle i hi
      refine ⟨by simp; omega, by simpa using h2, fun l hl => ?_⟩
      simp only [List.mem_map, List.mem_range] at hl
      obtain ⟨g, hlt, rfl⟩ := hl
      cases i with
      | zero =>
        obtain ⟨x, e, hx, hx'⟩ := hin g hlt
        rw [e]
        refine ⟨?_, ?_, ?_, ?_⟩ <;> dsimp only <;> omega
      | succ i =>
        obtain ⟨ty, u, hu, v, hv, e, ht⟩ := hg i hi g hlt
        have h3 := hle i (by omega)
        rw [e]
        refine ⟨?_, ?_, ?_, ?_⟩ <;> dsimp only <;> omega
  · intro L hL
    obtain ⟨i, hi, rfl⟩ := grid_mem hL
    intro j hj
    simp only [List.length_map, List.length_range] at hj
    simp only [List.getElem_map, List.getElem_range]
    exact hnum i hi j hj
  · intro L hL
    obtain ⟨i, hi, rfl⟩ := grid_mem hL
    exact ⟨e i, by simpa using hm i hi⟩
  · intro l hl
    have h0 : (grid d m line).headD [] = (List.range (m 0)).map (line 0) := by
      rw [grid, show d = (d - 1) + 1 by omega, List.range_succ_eq_map]
      rfl
    rw [h0] at hl
    simp only [List.mem_map, List.mem_range] at hl
    obtain ⟨g, hlt, rfl⟩ := hl
    obtain ⟨x, e, -⟩ := hin g hlt
    rw [e]
    exact .inl rfl
  · rw [grid_length]; exact hd'
  · intro i h l hl
    rw [grid_get] at hl
    simp only [List.mem_map, List.mem_range] at hl
    obtain ⟨g, hlt, rfl⟩ := hl
    rw [grid_length] at h
    obtain ⟨ty, u, hu, v, hv, e, ht⟩ := hg i h g hlt
    rw [e, grid_get, List.length_map, List.length_range]
    exact .inl ⟨ht, wire_width hu, wire_width hv⟩

theorem grid_dummyWires (hg : ∀ i, i + 1 < d → ∀ g < m (i + 1), (line (i + 1) g).ty ≠ 2) :
    DummyWires (grid d m line) := by
  intro i h l hl hty
  rw [grid_get] at hl
  simp only [List.mem_map, List.mem_range] at hl
  obtain ⟨g, hlt, rfl⟩ := hl
  rw [grid_length] at h
  exact absurd hty (hg i h g hlt)

theorem grid_gate (i : ℕ) (h : i < d) (g : ℕ) (hg : g < m i) :
    (tradCircuitOf (grid d m line)).gate i g = gate (line i g) := by
  have h' : i < (grid d m line).length := by rw [grid_length]; exact h
  rw [tradCircuitOf_gate _ i h' g (by rw [grid_get]; simpa using hg)]
  congr 1
  simp only [grid_get, List.getElem_map, List.getElem_range]

theorem grid_input {g : ℕ} (hd : 1 ≤ d) (hg : g < m 0) {x : ℤ} (e : line 0 g = ⟨3, g, x, 0⟩) (hx : 0 ≤ x) :
    (value (tradCircuitOf (grid d m line)) 0 g : F) = (x : F) := by
  rw [value, grid_gate 0 hd g hg, e, gate]
  simp [inputValue, inputNumber_eq hx]

theorem grid_add {i g u v : ℕ} (h : i + 1 < d) (hg : g < m (i + 1)) {g' : ℤ}
    (e : line (i + 1) g = ⟨0, g', (u : ℕ), (v : ℕ)⟩) :
    (value (tradCircuitOf (grid d m line)) (i + 1) g : F) =
      value (tradCircuitOf (grid d m line)) i u + value (tradCircuitOf (grid d m line)) i v := by
  rw [value, grid_gate (i + 1) h g hg, e, gate]
  simp [gateValue]

theorem grid_mul {i g u v : ℕ} (h : i + 1 < d) (hg : g < m (i + 1)) {g' : ℤ}
    (e : line (i + 1) g = ⟨1, g', (u : ℕ), (v : ℕ)⟩) :
    (value (tradCircuitOf (grid d m line)) (i + 1) g : F) =
      value (tradCircuitOf (grid d m line)) i u * value (tradCircuitOf (grid d m line)) i v := by
  rw [value, grid_gate (i + 1) h g hg, e, gate]
  simp [gateValue]

end Libra.TradReader
