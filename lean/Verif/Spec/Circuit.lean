import Verif.Model.CircuitTypes
import Verif.Spec.Mle
import Mathlib.Algebra.BigOperators.Intervals

/-!
# Specification: what a circuit computes

The meaning of the gate types, and what it means for a circuit to be well formed.
Only the data structures of `Model/CircuitTypes` are used.
-/

namespace Libra.Spec
variable {F : Type} [CommRing F]
open Finset

/-- The value of a gate when the previous layer has the values `x`. -/
def gateValue (g : Gate) (x : ℤ → F) : F :=
  if g.ty = 0 then x g.u + x g.v
  else if g.ty = 1 then x g.u * x g.v
  else if g.ty = 2 then 0
  else if g.ty = 3 then (g.u : F)
  else if g.ty = 4 then x g.u
  else if g.ty = 5 then ∑ k ∈ range (g.v - g.u).toNat, x (g.u + k)
  else if g.ty = 6 then 1 - x g.u
  else if g.ty = 7 then x g.u - x g.v
  else if g.ty = 8 then x g.u + x g.v - 2 * x g.u * x g.v
  else if g.ty = 9 then x g.v - x g.u * x g.v
  else if g.ty = 10 then x g.u
  else if g.ty = 12 then ∑ k ∈ range (g.v - g.u + 1).toNat, 2 ^ k * x (g.u + k)
  else if g.ty = 13 then x g.u * (1 - x g.u)
  else 0

/-- The number an input gate with the operand `u` stands for: the operand is an `int`; if it is negative, its conversion to `unsigned
long long`. -/
def inputNumber (u : ℤ) : ℤ := if 0 ≤ u then u else u + 2 ^ 64

/-- an input gate denotes its operand, a dummy gate zero -/
def inputValue (g : Gate) : F := if g.ty = 3 then (inputNumber g.u : F) else 0

/-- value of gate `g` of layer `i` -/
def value (C : Circuit) : ℕ → ℕ → F
  | 0, g => inputValue (C.gate 0 g)
  | i + 1, g => gateValue (C.gate (i + 1) g) (fun k => value C i k.toNat)

/-- `w` is the position of an existing gate of a layer with `2^n` gates -/
def Wire (n : ℕ) (w : ℤ) : Prop := 0 ≤ w ∧ w < 2 ^ n

/-- Conditions under which a gate above a layer of `2^n` gates can be evaluated. `zk` says whether
the gate types 12 and 13 are available. -/
def GateOk (zk : Bool) (n : ℕ) (g : Gate) : Prop :=
  (g.ty = 0 ∨ g.ty = 1 ∨ g.ty = 7 ∨ g.ty = 8 ∨ g.ty = 9) ∧ Wire n g.u ∧ Wire n g.v ∨
  g.ty = 2 ∨
  g.ty = 3 ∧ 0 ≤ g.u ∧ g.u < 2 ^ 31 ∨
  (g.ty = 4 ∨ g.ty = 6 ∨ g.ty = 10) ∧ Wire n g.u ∨
  g.ty = 5 ∧ 0 ≤ g.u ∧ g.v ≤ 2 ^ n ∨
  zk = true ∧ g.ty = 12 ∧ 0 ≤ g.u ∧ g.v < 2 ^ n ∧ g.v - g.u + 1 ≤ 63 ∨
  zk = true ∧ g.ty = 13 ∧ Wire n g.u ∧ g.v = g.u

/-- Additional conditions under which the interactive proof treats the gate: constants and direct
relays do not occur above layer 1, and the unused operand of one-input gates is 0. -/
def GateProvable (g : Gate) : Prop :=
  g.ty ≠ 3 ∧ g.ty ≠ 4 ∧ (g.ty = 6 ∨ g.ty = 10 → g.v = 0)

/-- A circuit that can be evaluated: every layer has exactly `2^bit_length` gates, all written,
inputs are `int`s or dummies with operand 0, and all wires exist. -/
structure Evaluable (zk : Bool) (C : Circuit) : Prop where
  nonempty : 0 < C.depth
  shallow : C.depth < 1000000
  full : ∀ i < C.depth, (C.layer i).gates.length = 2 ^ C.bl i ∧
    ∀ g < 2 ^ C.bl i, (C.layer i).gates[g]? = some (some (C.gate i g))
  inputs : ∀ g < 2 ^ C.bl 0, (C.gate 0 g).ty = 3 ∧ -2 ^ 31 ≤ (C.gate 0 g).u ∧ (C.gate 0 g).u < 2 ^ 31 ∨
    (C.gate 0 g).ty = 2 ∧ (C.gate 0 g).u = 0
  gates : ∀ i, i + 1 < C.depth → ∀ g < 2 ^ C.bl (i + 1), GateOk zk (C.bl i) (C.gate (i + 1) g)

/-- A circuit as produced by the reader from a well-formed file: evaluable, layer 1 relays the
inputs, and all later gates are of provable types. -/
structure WellFormed (zk : Bool) (C : Circuit) : Prop extends Evaluable zk C where
  relayLength : C.bl 1 = C.bl 0
  relay : ∀ g < 2 ^ C.bl 1, C.gate 1 g = ⟨4, g, 0⟩
  provable : ∀ i, i + 2 < C.depth → ∀ g < 2 ^ C.bl (i + 2), GateProvable (C.gate (i + 2) g)
  deep : 2 ≤ C.depth

end Libra.Spec
