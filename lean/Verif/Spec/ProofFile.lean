import Verif.Spec.Transcript
import Verif.Spec.Circuit

/-!
# What a proof file should contain

The sequence of messages of a proof for a given circuit: it depends only on the depth and on the number of address
bits of the layers.
-/

namespace Libra.Spec

/-- the coefficients of the polynomials of one phase with `n` rounds: three in every round, and three more in the
last one -/
def phaseNumbers (n : ℕ) : ℕ := if n = 0 then 0 else 3 * n + 3

/-- the messages of a layer whose gates read a layer with `n` address bits: two commitments of two points, the
polynomials of both phases, and three openings with 3, 3 and `2 n + 2` pairs of points -/
def layerShape (n : ℕ) : List Kind :=
  List.replicate 4 .point ++ List.replicate (phaseNumbers n) .number ++ List.replicate (phaseNumbers n) .number ++
    List.replicate (2 * 3 + 2 * 3 + 2 * (2 * n + 2)) .point

/-- the messages of the layers `n`, ..., 1 -/
def layersShape (C : Circuit) : ℕ → List Kind
  | 0 => []
  | i + 1 => layerShape (C.bl i) ++ layersShape C i

/-- the messages of a proof: the commitment to the input (four points), the layers from the last one down, and the
opening of the input with `bl 0 + 1` pairs of points -/
def proofShape (C : Circuit) : List Kind :=
  List.replicate 4 .point ++ layersShape C (C.depth - 1) ++ List.replicate (2 * (C.bl 0 + 1)) .point

/-- the number of bytes of a message of a given kind, for points of `B` bytes -/
def Kind.size (B : ℕ) : Kind → ℕ
  | .number => 32
  | .point => B

end Libra.Spec
