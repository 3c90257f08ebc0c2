import Verif.Spec.Mle
import Verif.Spec.Field

/-!
# Specification: the polynomials that are committed to
-/

namespace Libra.Spec
variable {R : Type} [CommRing R]

/-- the mask polynomial `R(x, c) = a0 + a1 x + a2 x² + a3 c + a4 c² + a5 x c` of one layer -/
def maskRPoly (a : ℕ → R) (x c : R) : R :=
  a 0 + a 1 * x + a 2 * x ^ 2 + a 3 * c + a 4 * c ^ 2 + a 5 * (x * c)

/-- The sum-check mask in `d` variables: `a_{2d} + Σ_i (a_{2i} x_i² + a_{2i+1} x_i)` plus terms of
degree 5, 4, 3 in variable `d/2 - 1` (coefficients `2d+1, 2d+2, 2d+3`) and in variable `d - 2`
(coefficients `2d+4, 2d+5, 2d+6`). -/
def sumMaskPoly (d : ℕ) (a : ℕ → R) (x : ℕ → R) : R :=
  a (2 * d) + ∑ i ∈ Finset.range d, (a (2 * i) * x i ^ 2 + a (2 * i + 1) * x i)
    + (a (2 * d + 1) * x (d / 2 - 1) ^ 5 + a (2 * d + 2) * x (d / 2 - 1) ^ 4
      + a (2 * d + 3) * x (d / 2 - 1) ^ 3)
    + (a (2 * d + 4) * x (d - 2) ^ 5 + a (2 * d + 5) * x (d - 2) ^ 4
      + a (2 * d + 6) * x (d - 2) ^ 3)

/-- the monomial `∏_{bit i of j is set} x_i` -/
def monomial (n : ℕ) (j : ℕ) (x : ℕ → R) : R :=
  ∏ i ∈ Finset.range n, if j.testBit i then x i else 1

/-- the multilinear polynomial with coefficient `c j` at the monomial `j` -/
def coeffPoly (n : ℕ) (c : ℕ → R) (x : ℕ → R) : R :=
  ∑ j ∈ Finset.range (2 ^ n), c j * monomial n j x

end Libra.Spec
