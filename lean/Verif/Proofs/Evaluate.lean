import Verif.Proofs.Outcome
import Verif.Proofs.Mle
import Verif.Spec.Circuit
import Verif.Model.FastTrack

namespace Libra
open Spec Finset
variable {F : Type} [CommRing F]

/-- a block of `m` cells holding the values of `x` -/
def block {α : Type} (m : ℕ) (x : ℕ → α) : List α := (List.range m).map x

theorem block_succ {α : Type} (m : ℕ) (x : ℕ → α) : block (m + 1) x = block m x ++ [x m] := by
  simp [block, List.range_succ]

theorem block_getElem? {α : Type} (m : ℕ) (x : ℕ → α) (i : ℕ) (h : i < m) :
    (block m x)[i]? = some (x i) := by
  simp [block, h]

theorem block_length {α : Type} (m : ℕ) (x : ℕ → α) : (block m x).length = m := by
  simp [block]

theorem readAt_block {α : Type} (m : ℕ) (x : ℕ → α) (w : ℤ) (h0 : 0 ≤ w) (h : w < m) :
    readAt (block m x) w = .ok (x w.toNat) := by
  rw [readAt, if_pos h0, block_getElem? _ _ _ (by omega)]; rfl

theorem readAt_wire {n : ℕ} (x : ℕ → F) {w : ℤ} (h : Wire n w) :
    readAt (block (2 ^ n) x) w = .ok (x w.toNat) :=
  readAt_block _ _ _ h.1 (by have := h.2; push_cast; exact this)

theorem ofCInt_eq {x : ℤ} (h0 : 0 ≤ x) (h : x < 2 ^ 64) : (ofCInt x : F) = (x : F) := by
  obtain ⟨n, rfl⟩ := Int.eq_ofNat_of_zero_le h0
  rw [ofCInt, Int.emod_eq_of_lt h0 h]
  simp

theorem inputNumber_eq {x : ℤ} (h : 0 ≤ x) : inputNumber x = x := if_pos h

theorem ofCInt_input {x : ℤ} (h0 : -2 ^ 31 ≤ x) (h : x < 2 ^ 31) : (ofCInt x : F) = (inputNumber x : F) := by
  unfold inputNumber
  split_ifs with h1
  · exact ofCInt_eq h1 (lt_trans h (by norm_num))
  · have e : x % 2 ^ 64 = x + 2 ^ 64 := by omega
    obtain ⟨n, hn⟩ := Int.eq_ofNat_of_zero_le (show 0 ≤ x + 2 ^ 64 by omega)
    rw [ofCInt, e, hn]
    simp

theorem evalGate_ok {var : Variant} {n : ℕ} {g : Gate} (x : ℕ → F)
    (h : GateOk (var = .zk) n g) :
    evalGate var (block (2 ^ n) x) g = .ok (gateValue g (fun k => x k.toNat)) := by
  rcases h with ⟨h, hu, hv⟩ | h | ⟨h, h0, h1⟩ | ⟨h, hu⟩ | ⟨h, hu, hv⟩ | ⟨hz, h, hu, hv, hs⟩ |
    ⟨hz, h, hu, hv⟩
  · rcases h with h | h | h | h | h <;>
      simp [evalGate, gateValue, h, readAt_wire x hu, readAt_wire x hv]
  · simp [evalGate, gateValue, h]
  · simp [evalGate, gateValue, h, ofCInt_eq h0 (lt_trans h1 (by norm_num))]
  · rcases h with h | h | h <;> simp [evalGate, gateValue, h, readAt_wire x hu]
  · simp only [evalGate, gateValue, h]
    norm_num
    rw [loopM_pure (b' := fun k s => s + x (g.u + k).toNat)]
    · rw [loop_add_sum, zero_add]
    · intro i hi s
      rw [readAt_block _ _ _ (by omega) (by push_cast; omega)]
      rfl
  · simp only [decide_eq_true_eq] at hz
    simp only [evalGate, gateValue, h, hz]
    norm_num
    rw [decide_eq_true hs]
    simp only [Outcome.assert_true, Outcome.ok_bind]
    rw [loopM_pure (b' := fun k s => s + x (g.u + k).toNat * ((2 ^ k % 2 ^ 64 : ℕ) : F))]
    · rw [loop_add_sum, zero_add]
      congr 1
      refine sum_congr rfl (fun k hk => ?_)
      rw [mem_range] at hk
      have : (2 : ℕ) ^ k < 2 ^ 64 := Nat.pow_lt_pow_right (by norm_num) (by omega)
      rw [Nat.mod_eq_of_lt this]
      push_cast; ring
    · intro i hi s
      rw [readAt_block _ _ _ (by omega) (by push_cast; omega)]
      rfl
  · simp only [decide_eq_true_eq] at hz
    simp [evalGate, gateValue, h, hz, hv, readAt_wire x hu]

theorem evalLayer_ok {L : Layer} {f : Gate → Outcome F} (val : ℕ → F)
    (h : ∀ j < 2 ^ L.bitLength, ∃ g, L.gates[j]? = some (some g) ∧ f g = .ok (val j)) :
    evalLayer L f = .ok (block (2 ^ L.bitLength) val) := by
  obtain ⟨s, hs, e⟩ := loopM_ok (n := 2 ^ L.bitLength) (s := ([] : List F))
    (b := fun j vals => do
      let g ← L.readGate j
      let x ← f g
      return vals ++ [x])
    (fun i vals => vals = block i val) rfl (by
      rintro i hi vals rfl
      obtain ⟨g, h1, h2⟩ := h i hi
      refine ⟨_, ?_, (block_succ i val).symm⟩
      rw [Layer.readGate, h1]
      simp [h2, Outcome.read])
  rw [evalLayer, hs, e]

theorem layer_eq (C : Circuit) {i : ℕ} (h : i < C.depth) : C.layers[i]? = some (C.layer i) := by
  have h' : i < C.layers.length := h
  rw [Circuit.layer, List.getElem?_eq_getElem h']
  rfl

/-- all layers evaluated -/
def allValues (C : Circuit) (i : ℕ) : List (List F) :=
  block i (fun i => block (2 ^ C.bl i) (value C i))

theorem evaluate_ok {var : Variant} {C : Circuit} (h : Evaluable (var = .zk) C) :
    evaluate var C = .ok (allValues C C.depth : List (List F)) := by
  have hin : evalInput (C.layer 0) = .ok (block (2 ^ C.bl 0) (value C 0 : ℕ → F)) := by
    refine evalLayer_ok _ (fun j hj => ⟨C.gate 0 j, (h.full 0 h.nonempty).2 j hj, ?_⟩)
    rcases h.inputs j hj with ⟨h1, h2, h3⟩ | ⟨h1, h2⟩
    · simp [h1, value, inputValue, ofCInt_input h2 h3]
    · simp [h1, value, inputValue, h2, ofCInt]
  unfold evaluate
  rw [layer_eq C h.nonempty]
  simp only [Outcome.read_some, Outcome.ok_bind, hin, h.shallow, decide_true, Outcome.assert_true]
  obtain ⟨s, hs, e⟩ := loopM_ok (n := C.depth - 1) (s := [block (2 ^ C.bl 0) (value C 0 : ℕ → F)])
    (b := fun k vals => do
      let L ← Outcome.read (C.layers[k + 1]?)
      let prev ← Outcome.read (vals[k]?)
      let v ← evalLayer L (evalGate var prev)
      return vals ++ [v])
    (fun i vals => vals = allValues C (i + 1)) rfl (by
      rintro i hi vals rfl
      refine ⟨_, ?_, (block_succ (i + 1) _).symm⟩
      rw [layer_eq C (i := i + 1) (by omega), allValues, block_getElem? _ _ _ (by omega)]
      have : evalLayer (C.layer (i + 1)) (evalGate var (block (2 ^ C.bl i) (value C i)))
          = .ok (block (2 ^ C.bl (i + 1)) (value C (i + 1) : ℕ → F)) := by
        refine evalLayer_ok _ (fun j hj => ⟨C.gate (i + 1) j, (h.full _ (by omega)).2 j hj, ?_⟩)
        exact evalGate_ok _ (h.gates i (by omega) j hj)
      simp only [Outcome.read_some, Outcome.ok_bind, this]
      rfl)
  rw [hs, e, Nat.sub_add_cancel h.nonempty]

theorem valueFn_allValues (C : Circuit) {i j : ℕ} (hi : i < C.depth) (hj : j < 2 ^ C.bl i) :
    FastTrack.valueFn (allValues C C.depth : List (List F)) i j = value C i j := by
  rw [FastTrack.valueFn, allValues, block_getElem? _ _ _ hi]
  simp only [Option.getD_some]
  rw [block_getElem? _ _ _ hj]
  rfl

end Libra
