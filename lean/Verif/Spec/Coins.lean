import Verif.Model.FastTrack
import Mathlib.Data.Fintype.Sigma
import Mathlib.Data.Sigma.Basic
import Mathlib.Data.Fintype.Sum
import Mathlib.Data.Fintype.BigOperators

/-!
# Specification: the random coins of the plain verifier

The verifier draws field elements independently and uniformly. A coin is the name of one draw; an
assignment `Coin C → F` is one outcome of all the draws, all assignments are equally likely.
-/

namespace Libra.Spec
open FastTrack Finset

/-- The draws of `verify()` for the circuit `C`: the two initial points, and for each layer the two
points and the two coefficients. (Draws for the indices that are not used are included, they do
no harm.) -/
abbrev Coin (C : Circuit) : Type :=
  Fin (C.bl (C.depth - 1)) ⊕ Fin (C.bl (C.depth - 1)) ⊕
  (Σ i : Fin C.depth, Fin (C.bl (i - 1))) ⊕ (Σ i : Fin C.depth, Fin (C.bl (i - 1))) ⊕
  Fin C.depth ⊕ Fin C.depth

set_option synthInstance.maxSize 512 in
instance (C : Circuit) : DecidableEq (Coin C) := inferInstance

set_option synthInstance.maxSize 512 in
instance (C : Circuit) : Fintype (Coin C) := inferInstance

namespace Coin
variable {C : Circuit}
abbrev r0 (j : Fin (C.bl (C.depth - 1))) : Coin C := .inl j
abbrev r1 (j : Fin (C.bl (C.depth - 1))) : Coin C := .inr (.inl j)
abbrev ru (i : Fin C.depth) (j : Fin (C.bl (i - 1))) : Coin C := .inr (.inr (.inl ⟨i, j⟩))
abbrev rv (i : Fin C.depth) (j : Fin (C.bl (i - 1))) : Coin C := .inr (.inr (.inr (.inl ⟨i, j⟩)))
abbrev alpha (i : Fin C.depth) : Coin C := .inr (.inr (.inr (.inr (.inl i))))
abbrev beta (i : Fin C.depth) : Coin C := .inr (.inr (.inr (.inr (.inr i))))
end Coin

/-- the challenges made of an outcome of the draws -/
def challenges {F : Type} [CommRing F] (C : Circuit) (ω : Coin C → F) : Challenges F where
  r0 j := if h : j < C.bl (C.depth - 1) then ω (.r0 ⟨j, h⟩) else 0
  r1 j := if h : j < C.bl (C.depth - 1) then ω (.r1 ⟨j, h⟩) else 0
  ru i j := if hi : i < C.depth then
    if hj : j < C.bl (i - 1) then ω (.ru ⟨i, hi⟩ ⟨j, hj⟩) else 0 else 0
  rv i j := if hi : i < C.depth then
    if hj : j < C.bl (i - 1) then ω (.rv ⟨i, hi⟩ ⟨j, hj⟩) else 0 else 0
  alpha i := if hi : i < C.depth then ω (.alpha ⟨i, hi⟩) else 0
  beta i := if hi : i < C.depth then ω (.beta ⟨i, hi⟩) else 0

/-- The sum of the degrees: 1 for every variable of the output, 2 for every round of phase 1 and (above
layer 1) phase 2, and 2 for every combination of two claims. -/
def soundnessError (C : Circuit) : ℕ :=
  C.bl (C.depth - 1) + ∑ i ∈ range C.depth,
    if i = 0 then 0 else if i = 1 then 2 * C.bl 0 else 4 * C.bl (i - 1) + 2

/-- The same for the traditional verifier, which treats layer 1 like the others. -/
def cmtSoundnessError (C : Circuit) : ℕ :=
  C.bl (C.depth - 1) + ∑ i ∈ range C.depth, if i = 0 then 0 else 4 * C.bl (i - 1) + 2

end Libra.Spec
