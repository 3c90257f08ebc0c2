import Verif.Model.ProgramTypes
import Mathlib.Data.List.Range

/-!
# Specification: the size and the depth of a straight-line program

The lines `parser.cpp` knows, which places a line reads and which it writes, and the number of places on a path.
-/

namespace Libra.Spec

open Compiler

/-- A line of a program, as matched by the regular expressions of `parser.cpp` (parser.cpp:60-71): `P Vt = Va op Vb E`,
`P Vt = c * Va E`, `P Vt = c E`, `P Vt = Ii E`, `P Oo = Va E`, `P Vt = Va PASS Vb E`, `P Vt = Va SS Vb E` -/
inductive SLine where
  | gate (op : Op) (t a b : ℕ)
  | mulConst (t c a : ℕ)
  | const (t c : ℕ)
  | input (t i : ℕ)
  | output (o a : ℕ)
  | pass (t a b : ℕ)
  | sum (t a b : ℕ)
deriving DecidableEq, Repr

/-- an input, a variable or an output -/
inductive Place where
  | inp (i : ℕ)
  | var (t : ℕ)
  | out (o : ℕ)
deriving DecidableEq, Repr

/-- what the line reads; `SS` is the sum of the variables from `Va` to `Vb` -/
def SLine.reads : SLine → List Place
  | .gate _ _ a b => [.var a, .var b]
  | .mulConst _ _ a => [.var a]
  | .const _ _ => []
  | .input _ i => [.inp i]
  | .output _ a => [.var a]
  | .pass _ a _ => [.var a]
  | .sum _ a b => (List.range (b + 1 - a)).map (fun k => .var (a + k))

/-- what the line writes -/
def SLine.writes : SLine → Place
  | .gate _ t _ _ | .mulConst t _ _ | .const t _ | .input t _ | .pass t _ _ | .sum t _ _ => .var t
  | .output o _ => .out o

/-- the operations of degree 2 in the operands -/
def SLine.isDeg2 : SLine → Bool
  | .gate .mult _ _ _ | .gate .xor _ _ _ | .gate .naab _ _ _ => true
  | _ => false

/-- some line of the program reads `u` and writes `v` -/
def Feeds (P : List SLine) (u v : Place) : Prop := ∃ l ∈ P, u ∈ l.reads ∧ l.writes = v

/-- there is a path of `k` places from an input of the program to the place -/
inductive PathTo (P : List SLine) : Place → ℕ → Prop where
  | input {t i : ℕ} : .input t i ∈ P → PathTo P (.inp i) 1
  | step {u v : Place} {k : ℕ} : PathTo P u k → Feeds P u v → PathTo P v (k + 1)

/-- the longest path from an input has `d` places -/
def LongestPath (P : List SLine) (d : ℕ) : Prop :=
  (∃ v, PathTo P v d) ∧ ∀ v k, PathTo P v k → k ≤ d

/-- an input, gate, constant or output with numbers in the ranges that `parser.cpp` keeps apart: inputs from 500000 on, outputs from 1000000
to 3000000 -/
def LineFine : SLine → Prop
  | .gate _ t a b => t < 500000 ∧ a < 500000 ∧ b < 500000
  | .const _ _ => True
  | .input t i => t < 500000 ∧ i < 500000
  | .output o a => o < 2000000 ∧ a < 500000
  | .mulConst _ _ _ | .pass _ _ _ | .sum _ _ _ => False

end Libra.Spec
