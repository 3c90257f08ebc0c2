import Mathlib.Algebra.BigOperators.Group.Finset.Basic
import Mathlib.Algebra.Ring.Defs
import Mathlib.Data.Nat.Bitwise

/-!
# Specification: equality polynomial and multilinear extension

Bit `j` of an index `i < 2^n` is the value of variable `j` (least significant bit = variable 0).
A point is a function `ℕ → F` of which only the first `n` coordinates matter.
-/

namespace Libra.Spec
variable {F : Type} [CommRing F]

/-- `eq(r, i) = ∏_{j<n} (r_j if bit j of i is set, else 1 - r_j)` -/
def eqPoly (n : ℕ) (r : ℕ → F) (i : ℕ) : F :=
  ∏ j ∈ Finset.range n, if i.testBit j then r j else 1 - r j

/-- the multilinear extension of the table `V` of `2^n` values, at the point `r` -/
def mle (n : ℕ) (V : ℕ → F) (r : ℕ → F) : F :=
  ∑ i ∈ Finset.range (2 ^ n), eqPoly n r i * V i

/-- the corner of the hypercube with index `i` -/
def corner (i : ℕ) : ℕ → F := fun j => if i.testBit j then 1 else 0

/-- `f` is a polynomial function of degree at most one in each of the first `n` coordinates and
does not depend on the others. -/
structure Multilinear (n : ℕ) (f : (ℕ → F) → F) : Prop where
  local_ : ∀ r s, (∀ j < n, r j = s j) → f r = f s
  affine : ∀ r, ∀ j < n, ∀ x, f (Function.update r j x) =
    (1 - x) * f (Function.update r j 0) + x * f (Function.update r j 1)

end Libra.Spec
