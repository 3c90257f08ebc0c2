import Verif.Model.Loop
import Verif.Model.CircuitTypes
import Mathlib.Algebra.Ring.Defs

/-!
# Circuit evaluation

Model of `prover::evaluate`
(`/repo/src/linear_gkr/prover_fast_track.cpp:35-116`) and `zk_prover::evaluate`
(`/repo/src/linear_gkr/zk_prover.cpp`).
-/

namespace Libra

/-- Conversion of a C `int` (or `long long`) to a field element: `field_element(const int)`
(prime_field.cpp) stores `(unsigned long long)x`, i.e. `x mod 2^64`. -/
def ofCInt {F : Type} [CommRing F] (x : ℤ) : F := ((x % 2 ^ 64).toNat : F)

section evaluate
variable {F : Type} [CommRing F]

/-- Reading `a[i]` where `i` is a C `int` and `a` a block of initialised cells. -/
def readAt {α : Type} (a : List α) (i : ℤ) : Outcome α :=
  if 0 ≤ i then Outcome.read (a[i.toNat]?) else .undefined

/-- `gates[g]`: outside the block, or never written, is undefined behaviour. -/
def Layer.readGate (L : Layer) (g : ℕ) : Outcome Gate :=
  Outcome.read (L.gates[g]?.getD none)

/-- Which evaluation function: `zk_prover::evaluate` knows the gate types 12 and 13,
`prover::evaluate` does not. -/
inductive Variant | fastTrack | zk
deriving DecidableEq, Repr

/-- The body of the loop of `prover::evaluate` for a gate of layer `i >= 1`
(prover_fast_track.cpp:53-110; zk_prover.cpp:60-139 adds the types 12 and 13). `prev` is
`circuit_value[i - 1]`. -/
def evalGate (var : Variant) (prev : List F) (g : Gate) : Outcome F :=
  if g.ty = 0 then do
    let x ← readAt prev g.u
    let y ← readAt prev g.v
    return x + y
  else if g.ty = 1 then do
    let x ← readAt prev g.u
    let y ← readAt prev g.v
    return x * y
  else if g.ty = 2 then return 0
  else if g.ty = 3 then return ofCInt g.u
  else if g.ty = 4 then readAt prev g.u
  else if g.ty = 5 then
    loopM (g.v - g.u).toNat (fun k s => do
      let x ← readAt prev (g.u + k)
      return s + x) 0
  else if g.ty = 6 then do
    let x ← readAt prev g.u
    return 1 - x
  else if g.ty = 7 then do
    let x ← readAt prev g.u
    let y ← readAt prev g.v
    return x - y
  else if g.ty = 8 then do
    let x ← readAt prev g.u
    let y ← readAt prev g.v
    return x + y - 2 * x * y
  else if g.ty = 9 then do
    let x ← readAt prev g.u
    let y ← readAt prev g.v
    return y - x * y
  else if g.ty = 10 then readAt prev g.u
  else if var = .zk ∧ g.ty = 12 then do
    Outcome.assert (g.v - g.u + 1 ≤ 63)
    loopM (g.v - g.u + 1).toNat (fun k s => do
      let x ← readAt prev (g.u + k)
      return s + x * ((2 ^ k % 2 ^ 64 : ℕ) : F)) 0
  else if var = .zk ∧ g.ty = 13 then do
    Outcome.assert (g.u == g.v)
    let x ← readAt prev g.u
    let y ← readAt prev g.v
    return x * (1 - y)
  else .assertFail

/-- `circuit_value[i] = new field_element[1 << bit_length]` and the loop over its gates: the values
are computed in the order of the gates and stored (so the list grows by one per iteration). -/
def evalLayer (L : Layer) (f : Gate → Outcome F) : Outcome (List F) :=
  loopM (2 ^ L.bitLength) (fun j vals => do
    let g ← L.readGate j
    let x ← f g
    return vals ++ [x]) []

/-- layer 0 (prover_fast_track.cpp:38-48, zk_prover.cpp:57-66): the inputs. A dummy gate
(type 2) is evaluated like an input. -/
def evalInput (L : Layer) : Outcome (List F) :=
  evalLayer L (fun g => do
    Outcome.assert (g.ty == 3 || g.ty == 2)
    return ofCInt g.u)

/-- `evaluate()` (prover_fast_track.cpp:35-116, zk_prover.cpp:54-160): all of
`circuit_value[0..total_depth-1]`; the value returned by the C++ is the last one. -/
def evaluate (var : Variant) (C : Circuit) : Outcome (List (List F)) := do
  let L0 ← Outcome.read (C.layers[0]?)
  let v0 ← evalInput L0
  Outcome.assert (C.depth < 1000000)
  loopM (C.depth - 1) (fun k vals => do
    let L ← Outcome.read (C.layers[k + 1]?)
    let prev ← Outcome.read (vals[k]?)
    let v ← evalLayer L (evalGate var prev)
    return vals ++ [v]) [v0]

end evaluate
end Libra
