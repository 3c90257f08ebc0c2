import Verif.Spec.Mle
import Verif.Spec.Field
import Mathlib.Data.List.Basic

/-!
# Specification: the product of a matrix with the transpose of another, given as one list
-/

namespace Libra.Spec

/-- `x` and `y` are the same number modulo `p` -/
def Same (x : ℤ) (y : ZMod p) : Prop := (x : ZMod p) = y

/-- entry `(i, k)` of the first matrix; the matrices have `2^d` rows and columns and are stored row by row,
one after the other -/
def entryA (d : ℕ) (inputs : List ℤ) (i k : ℕ) : ℤ := inputs.getD (i * 2 ^ d + k) 0

/-- entry `(j, k)` of the second matrix -/
def entryB (d : ℕ) (inputs : List ℤ) (j k : ℕ) : ℤ := inputs.getD (2 ^ d * 2 ^ d + (j * 2 ^ d + k)) 0

/-- the multilinear extension modulo `p` of a list of `2^m` numbers at the point `z`, whose first coordinate
belongs to the highest bit of the index -/
def listMle (m : ℕ) (V : List ℤ) (z : List ℤ) : ZMod p :=
  mle m (fun i => ((V.getD i 0 : ℤ) : ZMod p)) (fun j => ((z.getD (m - 1 - j) 0 : ℤ) : ZMod p))

/-- `eq(z, x)` for two points of `n` coordinates -/
def eqOf (n : ℕ) (z x : ℕ → ZMod p) : ZMod p := ∏ j ∈ Finset.range n, (z j * x j + (1 - z j) * (1 - x j))

/-- The multilinear extension of the first matrix, at the coordinates of `x` that belong to its columns
(`0, …, d - 1`) and its rows (`2d, …, 3d - 1`). -/
def matA (d : ℕ) (inputs : List ℤ) (x : ℕ → ZMod p) : ZMod p :=
  mle (2 * d) (fun q => ((entryA d inputs (q / 2 ^ d) (q % 2 ^ d) : ℤ) : ZMod p))
    (fun b => if b < d then x b else x (b + d))

/-- The multilinear extension of the second matrix, at the coordinates of `x` that belong to its columns
(`0, …, d - 1`) and its rows (`d, …, 2d - 1`). -/
def matB (d : ℕ) (inputs : List ℤ) (x : ℕ → ZMod p) : ZMod p :=
  mle (2 * d) (fun q => ((entryB d inputs (q / 2 ^ d) (q % 2 ^ d) : ℤ) : ZMod p)) x

/-- the polynomial in `3d` variables that the sum-check of the level of products is about -/
def mmPoly (d : ℕ) (inputs : List ℤ) (z x : ℕ → ZMod p) : ZMod p :=
  eqOf (3 * d) z x * matA d inputs x * matB d inputs x

/-- The message of the sum-check in which variable `m` is free and the variables above it are bound to `r`:
the sum over the corners of the variables below. -/
def mmMessage (d : ℕ) (inputs : List ℤ) (z r : ℕ → ZMod p) (m : ℕ) (t : ZMod p) : ZMod p :=
  ∑ q ∈ Finset.range (2 ^ m), mmPoly d inputs z (fun b => if b < m then corner q b else if b = m then t else r b)

end Libra.Spec
