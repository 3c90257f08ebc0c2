import Mathlib.Algebra.BigOperators.Intervals

/-!
# Specification: scaling an image with a symmetric filter
-/

namespace Libra.Spec.Lanczos
open Finset
variable {F : Type} [CommRing F]

/-- The weights of the `4 * ratio` pixels of a row of the window: coefficient `k` belongs to the two pixels `k` steps away from the middle,
one on each side. -/
def weight (ratio : ℕ) (coeff : ℕ → F) (i : ℕ) : F :=
  if i < 2 * ratio then coeff (2 * ratio - 1 - i) else coeff (i - 2 * ratio)

/-- A pixel of the result: the weighted sum of the `4 * ratio` by `4 * ratio` pixels of a window, which moves by `ratio` pixels. -/
def scaled (ratio : ℕ) (coeff : ℕ → F) (pixel : ℕ → ℕ → F) (row col : ℕ) : F :=
  ∑ i ∈ range (4 * ratio), ∑ j ∈ range (4 * ratio),
    weight ratio coeff i * weight ratio coeff j * pixel (ratio * row + i) (ratio * col + j)

end Libra.Spec.Lanczos
