import Verif.Spec.Stats
import Verif.Model.Text
import Mathlib.Logic.Function.Basic

/-!
# The statistics program

Model of `/repo/parser.cpp`, which reads a straight-line program and prints its depth, its number of gates and the number of gates of degree 2.

Simplifications.
* A source line is its parsed form; its numbers fit an `int`. What `sscanf` does with the format of a line `c * Va` is `mulConstFmt`.
* The lists in the arrays `head`, `Next`, `No` are one list of edges, the newest first.
* The stack is large enough for the recursion.
-/

namespace Libra.StatsProg
open Compiler Spec

/-- `Maxn` and `Maxm` (parser.cpp:9-10) -/
def maxn : ℕ := 3000000

/-- the regular expression of a line `c * Va` (parser.cpp:62) -/
def mulConstPat : List Txt.Piece :=
  Txt.lits ['P', ' ', 'V'] ++ .digits :: (Txt.lits [' ', '=', ' '] ++ .digits ::
    (Txt.lits [' ', '*', ' ', 'V'] ++ .digits :: Txt.lits [' ', 'E']))

/-- the format `P V%d = %d + V%d E` with which a line `c * Va` is read (parser.cpp:99) -/
def mulConstFmt : List Txt.Conv :=
  [.lit 'P', .space, .lit 'V', .d, .space, .lit '=', .space, .d, .space, .lit '+', .space, .lit 'V', .d, .space, .lit 'E']

/-- The variables of `main`: `src1`, the edges of `G`, `input_gates`, `tot_gates`, `deg2_gates` (parser.cpp:30-37, 75-76) -/
structure Stats where
  src1 : ℕ := 0
  edges : List (ℕ × ℕ) := []
  inputs : List ℕ := []
  total : ℕ := 0
  deg2 : ℕ := 0
deriving DecidableEq, Repr

/-- `G.add(x, y)` (parser.cpp:22-28); `tot` starts at 2 -/
def add (x y : ℕ) (s : Stats) : Outcome Stats :=
  if x < maxn ∧ s.edges.length + 2 < maxn then .ok { s with edges := (x, y) :: s.edges } else .undefined

/-- one line (parser.cpp:77-163); after a line `c * Va` the variable `src1` has the value it had before -/
def readLine (s : Stats) : SLine → Outcome Stats
  | .gate op t a b => do
    let s ← add a t { s with src1 := b }
    let s ← add b t s
    return { s with total := s.total + 1, deg2 := if op = .mult ∨ op = .xor ∨ op = .naab then s.deg2 + 1 else s.deg2 }
  | .mulConst t _ _ => do
    let s ← add s.src1 t s
    return { s with total := s.total + 1 }
  | .const _ _ => .ok { s with total := s.total + 1 }
  | .input t i => do
    let s ← add (i + 500000) t s
    return { s with inputs := s.inputs ++ [i + 500000], total := s.total + 1 }
  | .output o a => do
    let s ← add a (o + 1000000) s
    return { s with total := s.total + 1 }
  | .pass t a b => do
    let s ← add a (t + 1000000) { s with src1 := b }
    return { s with total := s.total + 1 }
  | .sum _ _ _ => .ok { s with total := s.total + 1 }

/-- the edges from `x` (parser.cpp:49) -/
def succs (edges : List (ℕ × ℕ)) (x : ℕ) : List ℕ := (edges.filter (·.1 = x)).map (·.2)

/-- `visit` and `mx_depth` (parser.cpp:33-37) -/
structure Search where
  visit : ℕ → ℕ := fun _ => 0
  mx : ℕ := 0

/-- `dfs(x, depth)` (parser.cpp:39-54); the first argument bounds the depth of the recursion. Every call inside a call marks another
vertex, so `Maxn + 1` is enough. -/
def dfs (edges : List (ℕ × ℕ)) : ℕ → ℕ → ℕ → Search → Outcome Search
  | 0, _, _, _ => .diverges
  | fuel + 1, x, depth, s =>
    if maxn ≤ x then .undefined
    else if s.visit x ≠ 0 then .ok s
    else (succs edges x).foldlM (fun s y => dfs edges fuel y (depth + 1) s)
      { visit := Function.update s.visit x depth, mx := if s.mx < depth then depth else s.mx }

/-- `main` (parser.cpp:56-176): the three numbers that are printed, `max depth`, `Total gates`, `Deg2 gates` -/
def run (P : List SLine) : Outcome (ℕ × ℕ × ℕ) := do
  let s ← P.foldlM readLine {}
  let t ← s.inputs.foldlM (fun t x => dfs s.edges (maxn + 1) x 1 t) {}
  return (t.mx, s.total, s.deg2)

end Libra.StatsProg
