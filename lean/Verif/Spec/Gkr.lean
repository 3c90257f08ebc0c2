import Verif.Spec.Circuit

/-!
# Specification: the polynomial of a layer

`layerPoly` is the polynomial whose sum over all boolean `(x, y)` is the claim about a layer.
-/

namespace Libra.Spec
variable {F : Type} [CommRing F]
open Finset

/-- Contribution of one gate at the point `(x, y)`: `ex j = eq(x, j)`, `ey j = eq(y, j)`, and
`a`, `b` are the values of the previous layer's extension at `x` and `y`. One-input gates use
operand position `v = 0` for `y`; range sums use position 0. -/
def gatePoly (g : Gate) (ex ey : ℕ → F) (a b : F) : F :=
  let u := g.u.toNat
  let v := g.v.toNat
  if g.ty = 0 then ex u * ey v * (a + b)
  else if g.ty = 1 then ex u * ey v * (a * b)
  else if g.ty = 5 then (∑ j ∈ Ico u v, ex j) * ey 0 * a
  else if g.ty = 6 then ex u * ey v * (1 - a)
  else if g.ty = 7 then ex u * ey v * (a - b)
  else if g.ty = 8 then ex u * ey v * (a + b - 2 * a * b)
  else if g.ty = 9 then ex u * ey v * (b - a * b)
  else if g.ty = 10 then ex u * ey v * a
  else if g.ty = 12 then (∑ j ∈ Ico u (g.v + 1).toNat, 2 ^ (j - u) * ex j) * ey 0 * a
  else if g.ty = 13 then ex u * ey v * (a * (1 - b))
  else 0

/-- `(α eq(r0, g) + β eq(r1, g))`: the combination of the two claims about a layer with `2^m` gates -/
def comb (m : ℕ) (α β : F) (r0 r1 : ℕ → F) (g : ℕ) : F :=
  α * eqPoly m r0 g + β * eqPoly m r1 g

/-- the polynomial of layer `i` at `(x, y)`, without the direct relays of layer 1 -/
def layerPoly (C : Circuit) (i : ℕ) (α β : F) (r0 r1 : ℕ → F) (V x y : ℕ → F) : F :=
  ∑ g ∈ range (2 ^ C.bl i), comb (C.bl i) α β r0 r1 g *
    gatePoly (C.gate i g) (eqPoly (C.bl (i - 1)) x) (eqPoly (C.bl (i - 1)) y)
      (mle (C.bl (i - 1)) V x) (mle (C.bl (i - 1)) V y)

/-- the direct relays of layer 1: gate `g` copies gate `g` of layer 0 -/
def relayPoly (C : Circuit) (i : ℕ) (α β : F) (r0 r1 : ℕ → F) (V x : ℕ → F) : F :=
  if i = 1 then
    (∑ g ∈ range (2 ^ C.bl 1), comb (C.bl 1) α β r0 r1 g * eqPoly (C.bl 0) x g) * mle (C.bl 0) V x
  else 0

/-- the point that agrees with `r` on the first `k` coordinates, has `x` at coordinate `k` and the
bits of `b` afterwards -/
def splice (r : ℕ → F) (k : ℕ) (x : F) (b : ℕ) : ℕ → F := fun j =>
  if j < k then r j else if j = k then x else corner b (j - (k + 1))

end Libra.Spec
