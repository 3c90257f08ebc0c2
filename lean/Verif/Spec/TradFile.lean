import Verif.Spec.File
import Verif.Spec.Cmt
import Verif.Spec.Blocked

/-!
# Specification: circuit files of the traditional protocols

The first layer of the file is the input layer of the circuit; there is no layer of relays.
-/

namespace Libra.Spec
open Blocked

/-- the four numbers of a line are `int`s -/
def Line.Ints (l : Line) : Prop :=
  (-2 ^ 31 ≤ l.ty ∧ l.ty < 2 ^ 31) ∧ (-2 ^ 31 ≤ l.g ∧ l.g < 2 ^ 31) ∧
  (-2 ^ 31 ≤ l.u ∧ l.u < 2 ^ 31) ∧ (-2 ^ 31 ≤ l.v ∧ l.v < 2 ^ 31)

/-- at least one layer, no empty layer, and sizes and numbers within the ranges of the program -/
def TradReadable (f : File) : Prop :=
  f ≠ [] ∧ f.length < 2 ^ 31 ∧ ∀ L ∈ f, L ≠ [] ∧ L.length ≤ 2 ^ 30 ∧ ∀ l ∈ L, l.Ints

/-- A layer of the circuit: the gates of the file, plus a dummy gate if there is just one. -/
def tradLayerOf (L : List Line) : Layer :=
  { gates := L.map (fun l => some ⟨l.ty, l.u, l.v⟩) ++ (if L.length = 1 then [some ⟨2, 0, 0⟩] else [])
    bitLength := width L.length }

/-- the circuit described by a file -/
def tradCircuitOf (f : File) : Circuit := ⟨f.map tradLayerOf⟩

/-- A file for the traditional protocols: every layer has a power of two of gates, numbered from 0;
the first layer holds inputs, the others additions, multiplications and dummies on existing wires. -/
structure AddMultFile (f : File) : Prop where
  readable : TradReadable f
  numbered : ∀ L ∈ f, Numbered L
  full : ∀ L ∈ f, ∃ k, L.length = 2 ^ k
  inputs : ∀ l ∈ f.headD [], l.ty = 3 ∨ l.ty = 2 ∧ l.u = 0
  shallow : f.length < 1000000
  gates : ∀ i (h : i + 1 < f.length), ∀ l ∈ f[i + 1],
    (l.ty = 0 ∨ l.ty = 1) ∧ Wire (width f[i].length) l.u ∧ Wire (width f[i].length) l.v ∨ l.ty = 2

/-- the operands of dummies above the inputs are wires too -/
def DummyWires (f : File) : Prop :=
  ∀ i (h : i + 1 < f.length), ∀ l ∈ f[i + 1], l.ty = 2 →
    Wire (width f[i].length) l.u ∧ Wire (width f[i].length) l.v

end Libra.Spec
