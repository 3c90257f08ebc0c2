import Verif.Spec.Program
import Mathlib.Algebra.Ring.Int.Defs

/-!
# Specification: the circuit of `bin/gen_lanczos.py`

The sizes and numbers that the readers can handle, and the factors that the circuit uses in place of the weights of the filter. The image has
`ratio * (n + 3)` rows and columns, and `n * n` windows.
-/

namespace Libra.LanczosDirect
open Spec

/-- the sizes that the readers can handle -/
def Fits (ratio n : ℕ) : Prop := (ratio * (n + 3)) ^ 2 + 2 * ratio < 2 ^ 30 ∧ n * n * (4 * ratio) ^ 2 < 2 ^ 30

/-- the numbers fit the variables they are read into -/
def Words (ratio n : ℕ) (coeffs : List ℤ) (x : ℕ → ℤ) : Prop :=
  (∀ c ∈ coeffs, -2 ^ 63 ≤ c ∧ c < 2 ^ 63) ∧ ∀ i < (ratio * (n + 3)) ^ 2, -2 ^ 63 ≤ x i ∧ x i < 2 ^ 63

/-- what the `k`-th pixel of a row of the window is multiplied with: the coefficients in ascending, then in descending order; the last pixel
of the row is multiplied with the last pixel of the image -/
def directFactor {F : Type} [CommRing F] (ratio n : ℕ) (coeffs : List ℤ) (x : ℕ → ℤ) (k : ℕ) : F :=
  if k < 2 * ratio then (readNumber (coeffs.getD k 0) : F)
  else if k < 4 * ratio - 1 then (readNumber (coeffs.getD (4 * ratio - 2 - k) 0) : F)
  else (readNumber (x ((ratio * (n + 3)) ^ 2 - 1)) : F)

end Libra.LanczosDirect
