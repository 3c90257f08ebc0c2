import Verif.Spec.Circuit

/-!
# A concrete circuit

Used beside the theorems to show that their hypotheses can be met.
-/

namespace Libra.Props
open Spec

/-- Four inputs (one of them a dummy), a layer with an addition, a multiplication, a range sum and
an XOR, and a layer with a subtraction, a NOT, a NAAB and a relay. -/
def exampleCircuit : Circuit := ⟨[
  { gates := [some ⟨3, 5, 0⟩, some ⟨3, 7, 0⟩, some ⟨2, 0, 0⟩, some ⟨3, 2147483647, 0⟩], bitLength := 2 },
  { gates := [some ⟨4, 0, 0⟩, some ⟨4, 1, 0⟩, some ⟨4, 2, 0⟩, some ⟨4, 3, 0⟩], bitLength := 2 },
  { gates := [some ⟨0, 0, 1⟩, some ⟨1, 1, 3⟩, some ⟨5, 0, 4⟩, some ⟨8, 2, 1⟩, some ⟨2, 0, 0⟩,
      some ⟨2, 0, 0⟩, some ⟨10, 3, 0⟩, some ⟨2, 0, 0⟩], bitLength := 3 },
  { gates := [some ⟨7, 0, 6⟩, some ⟨6, 2, 0⟩, some ⟨9, 7, 3⟩, some ⟨10, 6, 0⟩], bitLength := 2 }]⟩

/-- The same with the gate types of the zero-knowledge version. -/
def exampleZkCircuit : Circuit := ⟨[
  { gates := [some ⟨3, 1, 0⟩, some ⟨3, 0, 0⟩, some ⟨3, 1, 0⟩, some ⟨3, 9, 0⟩], bitLength := 2 },
  { gates := [some ⟨4, 0, 0⟩, some ⟨4, 1, 0⟩, some ⟨4, 2, 0⟩, some ⟨4, 3, 0⟩], bitLength := 2 },
  { gates := [some ⟨12, 0, 2⟩, some ⟨13, 2, 2⟩, some ⟨5, 1, 4⟩, some ⟨8, 2, 1⟩], bitLength := 2 },
  { gates := [some ⟨7, 0, 3⟩, some ⟨1, 2, 0⟩], bitLength := 1 }]⟩

theorem wellFormed_of_check {zk : Bool} {C : Circuit} (h1 : 2 ≤ C.depth) (h2 : C.depth < 1000000)
    (h3 : ∀ i < C.depth, (C.layer i).gates.length = 2 ^ C.bl i ∧
      ∀ g < 2 ^ C.bl i, (C.layer i).gates[g]? = some (some (C.gate i g)))
    (h4 : ∀ g < 2 ^ C.bl 0, (C.gate 0 g).ty = 3 ∧ -2 ^ 31 ≤ (C.gate 0 g).u ∧ (C.gate 0 g).u < 2 ^ 31 ∨
      (C.gate 0 g).ty = 2 ∧ (C.gate 0 g).u = 0)
    (h5 : ∀ i < C.depth - 1, ∀ g < 2 ^ C.bl (i + 1), GateOk zk (C.bl i) (C.gate (i + 1) g))
    (h6 : C.bl 1 = C.bl 0) (h7 : ∀ g < 2 ^ C.bl 1, C.gate 1 g = ⟨4, g, 0⟩)
    (h8 : ∀ i < C.depth - 2, ∀ g < 2 ^ C.bl (i + 2), GateProvable (C.gate (i + 2) g)) :
    WellFormed zk C where
  nonempty := by omega
  shallow := h2
  full := h3
  inputs := h4
  gates i hi := h5 i (by omega)
  relayLength := h6
  relay := h7
  provable i hi := h8 i (by omega)
  deep := h1

instance (n : ℕ) (w : ℤ) : Decidable (Wire n w) := by unfold Wire; infer_instance
instance (zk : Bool) (n : ℕ) (g : Gate) : Decidable (GateOk zk n g) := by
  unfold GateOk; infer_instance
instance (g : Gate) : Decidable (GateProvable g) := by unfold GateProvable; infer_instance

theorem exampleCircuit_wf : WellFormed false exampleCircuit := by
  apply wellFormed_of_check <;> decide +kernel

theorem exampleZkCircuit_wf : WellFormed true exampleZkCircuit := by
  apply wellFormed_of_check <;> decide +kernel

end Libra.Props
