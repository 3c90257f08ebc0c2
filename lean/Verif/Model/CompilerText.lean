import Verif.Model.Text
import Verif.Model.Compiler

/-!
# The circuit compiler as a program from texts to texts

`/repo/parser_sha_data_parallel.cpp` and its copies: the recognition of the lines, and the text of the two files it
writes. The rest is `Model/Compiler`.
-/

namespace Libra.Compiler

open Txt

/-- the global variables `tgt`, `src0`, `src1` (parser_sha_data_parallel.cpp:14-16), which keep their values from line to line -/
structure Vars where
  tgt : ℤ := 0
  src0 : ℤ := 0
  src1 : ℤ := 0
deriving DecidableEq, Repr

/-- the assignments of one `sscanf(..., &tgt, &src0, &src1)` -/
def Vars.assign (v : Vars) : List ℤ → Vars
  | [] => v
  | [x] => { v with tgt := x }
  | [x, y] => { v with tgt := x, src0 := y }
  | x :: y :: z :: _ => ⟨x, y, z⟩

/-- the pattern `P V[0-9]+ = V[0-9]+ op V[0-9]+ E` (parser_sha_data_parallel.cpp:19-29) -/
def binPat (op : Text) : List Piece :=
  lits ['P', ' ', 'V'] ++ .digits :: (lits [' ', '=', ' ', 'V'] ++ .digits ::
    (lits (' ' :: (op ++ [' ', 'V'])) ++ .digits :: lits [' ', 'E']))

/-- the format `P V%d = V%lld op V%lld E` (parser_sha_data_parallel.cpp:340-440) -/
def binFmt (op : Text) : List Conv :=
  [.lit 'P', .space, .lit 'V', .d, .space, .lit '=', .space, .lit 'V', .lld, .space] ++
    op.map .lit ++ [.space, .lit 'V', .lld, .space, .lit 'E']

/-- `P V[0-9]+ = [\-]*[0-9]+ E` (parser_sha_data_parallel.cpp:21) -/
def constPat : List Piece :=
  lits ['P', ' ', 'V'] ++ .digits :: (lits [' ', '=', ' '] ++ .dashes :: .digits :: lits [' ', 'E'])

/-- `P V%d = %lld E` (parser_sha_data_parallel.cpp:367, 476) -/
def constFmt : List Conv :=
  [.lit 'P', .space, .lit 'V', .d, .space, .lit '=', .space, .lld, .space, .lit 'E']

/-- `P V[0-9]+ = I[0-9]+ E` and `P O[0-9]+ = V[0-9]+ E` (parser_sha_data_parallel.cpp:22-23) -/
def unPat (x y : Char) : List Piece :=
  lits ['P', ' ', x] ++ .digits :: (lits [' ', '=', ' ', y] ++ .digits :: lits [' ', 'E'])

/-- `P V%d = I%lld E` and `P O%d = V%lld E` (parser_sha_data_parallel.cpp:371, 383, 486, 498) -/
def unFmt (x y : Char) : List Conv :=
  [.lit 'P', .space, .lit x, .d, .space, .lit '=', .space, .lit y, .lld, .space, .lit 'E']

/-- `(int)x` for a `long long` -/
def toInt (x : ℤ) : ℤ := (x + 2 ^ 31) % 2 ^ 32 - 2 ^ 31

/-- The number of a variable. Simplification: a negative number, which needs an operand of `2^31` or more, is a key
like any other in the code; here such a run is not followed any further. -/
def varNum (x : ℤ) : Outcome ℕ := if 0 ≤ x then .ok x.toNat else .undefined

/-- a line with two operands: `sscanf`, then the statement with the numbers converted to `int` -/
def binLine (op : Text) (mk : ℕ → ℕ → ℕ → Stmt) (v : Vars) (s : Text) : Outcome (Stmt × Vars) := do
  let v := v.assign (← sscanf (binFmt op) s)
  return (mk (← varNum v.tgt) (← varNum (toInt v.src0)) (← varNum (toInt v.src1)), v)

/-- The recognition of one line of `read_circuit` (parser_sha_data_parallel.cpp:336-457; `EXPSUM` and `BIT`:
tests/SHA256/parser_sha_data_parallel.cpp:451-478). -/
def lexLine (var : Variant) (v : Vars) (s : Text) : Outcome (Stmt × Vars) :=
  if regexMatch (binPat ['+']) s then binLine ['+'] (.gate .add) v s
  else if regexMatch (binPat ['*']) s then binLine ['*'] (.gate .mult) v s
  else if regexMatch constPat s then .assertFail
  else if regexMatch (unPat 'V' 'I') s then do
    let v := v.assign (← sscanf (unFmt 'V' 'I') s)
    return (.input (← varNum v.tgt) (← varNum (toInt v.src0)), v)
  else if regexMatch (unPat 'O' 'V') s then do
    let v := v.assign (← sscanf (unFmt 'O' 'V') s)
    return (.output (← varNum v.tgt) (← varNum (toInt v.src0)), v)
  else if regexMatch (binPat ['X', 'O', 'R']) s then binLine ['X', 'O', 'R'] (.gate .xor) v s
  else if regexMatch (binPat ['N', 'A', 'A', 'B']) s then binLine ['N', 'A', 'A', 'B'] (.gate .naab) v s
  else if regexMatch (binPat ['m', 'i', 'n', 'u', 's']) s then binLine ['m', 'i', 'n', 'u', 's'] (.gate .minus) v s
  else if regexMatch (binPat ['N', 'O', 'T']) s then binLine ['N', 'O', 'T'] (.gate .not) v s
  else if var = .root ∧ regexMatch (binPat ['S', 'S']) s then binLine ['S', 'S'] .sum v s
  else if var = .sha256 ∧ regexMatch (binPat ['E', 'X', 'P', 'S', 'U', 'M']) s then
    binLine ['E', 'X', 'P', 'S', 'U', 'M'] .expSum v s
  else if var = .sha256 ∧ regexMatch (binPat ['B', 'I', 'T']) s then binLine ['B', 'I', 'T'] .bit v s
  else .assertFail

/-- the loop of `read_circuit` (parser_sha_data_parallel.cpp:336-457) -/
def readProgramText (var : Variant) (src : Text) : Outcome (Vars × Dag × ℕ) :=
  (lines src).foldlM (fun (s : Vars × Dag × ℕ) line => do
    let (stmt, v) ← lexLine var s.1 line
    return (v, ← readStmt var s.2 stmt)) ({}, Dag.empty, 0)

/-- The recognition of one line of `read_rdl` (parser_sha_data_parallel.cpp:472-517); `rand` are the results of `rand()`,
`k` counts the calls. The numbers of `PASS` lines and constants stay `long long`; keys of `output_gate_mapping` are `int`. -/
def lexRLine (rand : ℕ → ℤ) (v : Vars) (k : ℕ) (s : Text) : Outcome (RStmt × Vars × ℕ) :=
  if regexMatch constPat s then do
    let v := v.assign (← sscanf constFmt s)
    return (.const (← varNum v.tgt) v.src0, v, k)
  else if regexMatch (unPat 'V' 'I') s then do
    let v := v.assign (← sscanf (unFmt 'V' 'I') s)
    return (.input (← varNum v.tgt) (← varNum v.src0) (rand k), v, k + 1)
  else if regexMatch (unPat 'O' 'V') s then do
    let v := v.assign (← sscanf (unFmt 'O' 'V') s)
    return (.output (← varNum v.tgt) (← varNum (toInt v.src0)), v, k)
  else if regexMatch (binPat ['P', 'A', 'S', 'S']) s then do
    let v := v.assign (← sscanf (binFmt ['P', 'A', 'S', 'S']) s)
    return (.pass (← varNum v.tgt) (← varNum v.src0) (← varNum v.src1), v, k)
  else .assertFail

/-- the loop of `read_rdl` (parser_sha_data_parallel.cpp:472-517) -/
def readRdlText (rand : ℕ → ℤ) (v : Vars) (rdl : Text) : Outcome RState := do
  let (s, _, _) ← (lines rdl).foldlM (fun (s : RState × Vars × ℕ) line => do
    let (stmt, v, k) ← lexRLine rand s.2.1 s.2.2 line
    return (readRStmt s.1 stmt, v, k)) (({} : RState), v, 0)
  return s

/-- `fprintf(f, "%d %d %015lld %lld ", ...)` (parser_sha_data_parallel.cpp:613 and others) -/
def gateText (ty g u v : ℤ) : Text :=
  showInt ty ++ [' '] ++ showInt g ++ [' '] ++ showInt15 u ++ [' '] ++ showInt v ++ [' ']

/-- `fprintf(meta, "c %d %d %d %d\n", ...)` (parser_sha_data_parallel.cpp:629, 652, 678) -/
def metaText (c : Char) (w x y z : ℤ) : Text :=
  [c, ' '] ++ showInt w ++ [' '] ++ showInt x ++ [' '] ++ showInt y ++ [' '] ++ showInt z ++ ['\n']

/-- all blocks of a layer, printed one after the other (parser_sha_data_parallel.cpp:633-649, 659-677) -/
def printBlocksText (repeatNum : ℕ) (gates : List LGate) (copy : ℕ → LGate → Outcome LGate) (file : Text) :
    Outcome Text :=
  loopM repeatNum (fun r file => gates.foldlM (fun file g => do
    let g' ← copy r g
    return file ++ gateText g'.ty g'.g g'.u g'.v) file) file

/-- `merge_and_output` (parser_sha_data_parallel.cpp:603-683): the texts of the circuit file and the meta file -/
def mergeText (var : Variant) (W : Wiring) (L : Layered) : Outcome (Text × Text) := do
  let file : Text := showInt ((2 + L.depth : ℕ) : ℤ) ++ ['\n'] ++ (showInt (W.inputs.length : ℤ) ++ [' '])
  let file := W.inputs.foldl (fun file g => file ++ gateText 3 g.g g.u g.v) file
  let metaFile : Text := if var = .sha256 then ['0', ' ', '0', ' ', '1', ' ', '0', ' ', '0', '\n']
    else ['0', ' ', '0', ' ', '0', ' ', '0', ' ', '0', '\n']
  let file := file ++ (['\n'] ++ showInt (W.relays.length : ℤ) ++ [' '])
  let file ← W.relays.foldlM (fun file g => do
    let g ← Outcome.read g
    return file ++ gateText g.ty g.g g.u g.v) file
  if W.repeatNum = 0 then Outcome.diverges else
  let rep := W.repeatNum
  let logRep := logRep rep
  let size := (L.gates 0).length
  let metaFile := metaFile ++ metaText '0' size rep (L.bitLen 0) logRep
  let file := file ++ (['\n'] ++ showInt ((size * rep : ℕ) : ℤ) ++ [' '])
  let file ← printBlocksText rep (L.gates 0) (blockInput size) file
  let metaFile := metaFile ++ metaText '1' size rep (L.bitLen 0) logRep
  loopM (L.depth - 1) (fun i' (out : Text × Text) => do
    let i := i' + 1
    let prevSize := (L.gates (i - 1)).length
    let size := (L.gates i).length
    let file := out.1 ++ (['\n'] ++ showInt ((size * rep : ℕ) : ℤ) ++ [' '])
    let file ← printBlocksText rep (L.gates i) (blockGate size prevSize) file
    return (file, out.2 ++ metaText '1' size rep (L.bitLen i) logRep)) (file, metaFile)

/-- `main` (parser_sha_data_parallel.cpp:685-698): from the texts of the program and of the wiring to the texts of the
circuit file and the meta file -/
def compileText (var : Variant) (rand : ℕ → ℤ) (src rdl : Text) : Outcome (Text × Text) := do
  let (v, d, inputCount) ← readProgramText var src
  let L ← dagToLayered d
  let w ← wire (← readRdlText rand v rdl) L inputCount
  mergeText var w L

end Libra.Compiler
