import Verif.Spec.Gkr
import Verif.Spec.Vpd
import Verif.Model.Poly

/-!
# Specification: the masked polynomial of a layer

The zero-knowledge sum-check of a layer runs over `(u, v, c)`: the two operands and one more
variable.
-/

namespace Libra.Spec
variable {F : Type} [CommRing F]
open Finset

/-- `layerPoly` with the values of the layer below at `x` and `y` given as `a` and `b` -/
def layerPolyAt (C : Circuit) (i : ℕ) (α β : F) (r0 r1 x y : ℕ → F) (a b : F) : F :=
  ∑ g ∈ range (2 ^ C.bl i), comb (C.bl i) α β r0 r1 g *
    gatePoly (C.gate i g) (eqPoly (C.bl (i - 1)) x) (eqPoly (C.bl (i - 1)) y) a b

/-- `relayPoly` with the value of the layer below at `x` given as `a` -/
def relayPolyAt (C : Circuit) (i : ℕ) (α β : F) (r0 r1 x : ℕ → F) (a : F) : F :=
  if i = 1 then
    (∑ g ∈ range (2 ^ C.bl 1), comb (C.bl 1) α β r0 r1 g * eqPoly (C.bl 0) x g) * a
  else 0

/-- the masks that take part in the sum-check of one layer -/
structure Masks (F : Type) where
  /-- coefficients of the mask `R` of this layer's values -/
  R : ℕ → F
  /-- last coordinate of the first claimed point, and `∏ z_j (1 - z_j)` over its coordinates -/
  x0 : F
  Z0 : F
  /-- the same for the second claimed point -/
  x1 : F
  Z1 : F
  /-- `Σ_{c ∈ {0,1}} R'(x, c)` for the mask `R'` of the layer below -/
  S : F → F
  /-- coefficients of the sum-check mask -/
  g : ℕ → F
  rho : F

/-- the extension of the layer below at `u` plus its mask, which vanishes on the hypercube -/
def maskedValue (n : ℕ) (V : ℕ → F) (M : Masks F) (u : ℕ → F) : F :=
  mle n V u + (∏ j ∈ range n, (1 - u j) * u j) * M.S (u (n - 1))

/-- the point `(u, v, c)` -/
def joinPoint (n : ℕ) (u v : ℕ → F) (c : F) : ℕ → F := fun k =>
  if k < n then u k else if k < n + n then v (k - n) else c

/-- The polynomial of the masked sum-check of layer `i` (without the direct relays):
`∏ (1 - u_j) (1 - v_j) · (α Z0 R(x0, c) + β Z1 R(x1, c)) + c · f(u, v) + ρ g(u, v, c)`. -/
def maskedPoly (C : Circuit) (i : ℕ) (α β : F) (r0 r1 V : ℕ → F) (M : Masks F) (u v : ℕ → F) (c : F) : F :=
  let n := C.bl (i - 1)
  (∏ j ∈ range n, (1 - u j)) * (∏ j ∈ range n, (1 - v j)) *
      (α * M.Z0 * maskRPoly M.R M.x0 c + β * M.Z1 * maskRPoly M.R M.x1 c)
    + c * layerPolyAt C i α β r0 r1 u v (maskedValue n V M u) (maskedValue n V M v)
    + M.rho * sumMaskPoly (2 * n + 1) M.g (joinPoint n u v c)

/-- A list of round messages that the verifier's round checks accept: degree 2 except in the last
round of each phase, the first message adds up to the claim plus the announced sum `S` of the mask,
each later message adds up to the value of the one before at its challenge. The part `rel` of the
claim (the direct relays) is not in the messages of the second phase. -/
structure Consistent (n : ℕ) (claim rel S : F) (ru rv : ℕ → F)
    (t : Fin (2 * n + 1) → QuintuplePoly F) : Prop where
  degree : ∀ k : Fin (2 * n + 1), (k : ℕ) + 1 ≠ n → (k : ℕ) + 1 ≠ 2 * n →
    (t k).a = 0 ∧ (t k).b = 0 ∧ (t k).c = 0
  first : (t 0).eval 0 + (t 0).eval 1 = claim + S
  next : ∀ k (h : k + 1 < 2 * n + 1),
    (t ⟨k + 1, h⟩).eval 0 + (t ⟨k + 1, h⟩).eval 1 + (if k + 1 = n then rel else 0) =
      (t ⟨k, by omega⟩).eval (joinPoint n ru rv 0 k)

end Libra.Spec
