import Verif.Model.FastTrack
import Verif.Spec.Circuit
import Verif.Spec.Mle

/-!
# Specification: constants above the input layer
-/

namespace Libra.Spec
variable {F : Type} [CommRing F]

/-- As `WellFormed`, but gates above the relays of the inputs may be constants; no layer has a single gate. -/
structure WellFormedUpToConstants (zk : Bool) (C : Circuit) : Prop extends Evaluable zk C where
  relayLength : C.bl 1 = C.bl 0
  relay : ∀ g < 2 ^ C.bl 1, C.gate 1 g = ⟨4, g, 0⟩
  provable : ∀ i, i + 2 < C.depth → ∀ g < 2 ^ C.bl (i + 2), (C.gate (i + 2) g).ty ≠ 4 ∧
    ((C.gate (i + 2) g).ty = 6 ∨ (C.gate (i + 2) g).ty = 10 → (C.gate (i + 2) g).v = 0)
  deep : 2 ≤ C.depth
  wide : ∀ i < C.depth, 1 ≤ C.bl i

/-- the constants of layer `i`, zero for all other gates -/
def constants (C : Circuit) (i g : ℕ) : F := if (C.gate i g).ty = 3 then ((C.gate i g).u : F) else 0

/-- What the claim about layer `i` gets from the constants: the last layer has one point, every other layer the two points of the layer
above it. -/
def runWeight (C : Circuit) (ch : FastTrack.Challenges F) (i : ℕ) : F :=
  if i + 1 = C.depth then mle (C.bl i) (constants C i) ch.r0
  else ch.alpha (i + 1) * mle (C.bl i) (constants C i) (ch.ru (i + 1)) + ch.beta (i + 1) * mle (C.bl i) (constants C i) (ch.rv (i + 1))

end Libra.Spec
