import Verif.Model.Loop
import Verif.Model.ProgramTypes
import Mathlib.Data.Int.Notation
import Mathlib.Data.Nat.Basic
import Mathlib.Algebra.Ring.Int.Defs
import Mathlib.Algebra.Group.Nat.Defs

/-!
# The circuit compiler

Model of `/repo/parser_sha_data_parallel.cpp` and of its copies in `/repo/tests/SHA256` and
`/repo/tests/lanczos`, which translate a straight-line program (one block of a data-parallel
computation) and a wiring file (RDL, "where the inputs of the blocks come from") into the circuit file
and the meta file read by the verifier.

Simplifications.
* A source line is its parsed form (`Stmt`, `RStmt`); matching with `std::regex` and `sscanf` is in
  `Model/CompilerText`. Identifiers are natural numbers, assumed to fit an `int`.
* The output files are lists of integers; the printing format is in `Model/CompilerText`. What is
  printed to the console is left out.
* `std::map` is a sorted list of keys together with a total function; `operator[]` on an absent key
  inserts a value-initialised object, whose fields are zero.
* `is_output` is never read and left out.
* `int` arithmetic is assumed not to overflow.
-/

namespace Libra.Compiler

/-- `pair<int, long long>`, a key of the map of gates: a letter and a number -/
abbrev Id := ℕ × ℕ

/-- `make_pair('V', n)`: a variable -/
def V (n : ℕ) : Id := (86, n)
/-- `make_pair('R', n)`: a relay -/
def R (n : ℕ) : Id := (82, n)
/-- `make_pair('I', n)`: an input -/
def I (n : ℕ) : Id := (73, n)
/-- `make_pair('N', 0)`: no operand -/
def N : Id := (78, 0)

/-- `operator<` of `std::pair` -/
def Id.lt (a b : Id) : Bool := a.1 < b.1 || (a.1 == b.1 && a.2 < b.2)

/-- `class DAG_gate` (parser_sha_data_parallel.cpp:81-90) -/
structure DagGate where
  ty : ℕ := 0
  input0 : Id := (0, 0)
  input1 : Id := (0, 0)
  id : Id := (0, 0)
  lid : ℕ := 0
  lvl : ℕ := 0
  outputs : List Id := []

/-- `map<pair<int, long long>, DAG_gate>` (parser_sha_data_parallel.cpp:92-96); `node k` is the object that
`operator[]` returns for `k`, present or not -/
structure Dag where
  keys : List Id
  node : Id → DagGate

/-- the empty map -/
def Dag.empty : Dag := ⟨[], fun _ => {}⟩

/-- insertion of a key in its place -/
def insertKey (k : Id) : List Id → List Id
  | [] => [k]
  | x :: xs => if x = k then x :: xs else if Id.lt k x then k :: x :: xs else x :: insertKey k xs

/-- `circuit[k] = g` -/
def Dag.set (d : Dag) (k : Id) (g : DagGate) : Dag := ⟨insertKey k d.keys, Function.update d.node k g⟩

/-- `circuit[k].outputs.push_back(x)` -/
def Dag.addOutput (d : Dag) (k x : Id) : Dag :=
  d.set k { d.node k with outputs := (d.node k).outputs ++ [x] }

/-- `enum gate_types` (parser_sha_data_parallel.cpp:33-46) -/
def Op.code : Op → ℕ
  | .add => 0
  | .mult => 1
  | .not => 6
  | .minus => 7
  | .xor => 8
  | .naab => 9

/-- the three versions of the program: the one in the root directory, which knows `SS`, the one of the SHA256
test, which knows `EXPSUM` and `BIT`, and the one of the lanczos test, which knows neither -/
inductive Variant where
  | root | sha256 | lanczos
deriving DecidableEq, Repr

/-- One line of `read_circuit` (parser_sha_data_parallel.cpp:334-458; `EXPSUM` and `BIT`:
tests/SHA256/parser_sha_data_parallel.cpp:451-478). The state is `sha256_dag` and `input_count`.
A line that is not recognised, or a constant, fails an assertion. -/
def readStmt (var : Variant) (s : Dag × ℕ) : Stmt → Outcome (Dag × ℕ)
  | .gate op t a b =>
    let d := s.1.set (V t) { ty := op.code, id := V t, input0 := V a, input1 := V b }
    let d := d.addOutput (V a) (V t)
    let d := d.addOutput (V b) (V t)
    .ok (d, s.2)
  | .sum t a b =>
    if var = .root then
      let d := s.1.set (V t) { ty := 5, id := V t, input0 := V a, input1 := V b }
      .ok (loopFrom a (b + 1) (fun i d => d.addOutput (V i) (V t)) d, s.2)
    else .assertFail
  | .expSum t a b =>
    if var = .sha256 then
      let d := s.1.set (V t) { ty := 12, id := V t, input0 := V a, input1 := V b }
      .ok (loopFrom a (b + 1) (fun i d => d.addOutput (V i) (V t)) d, s.2)
    else .assertFail
  | .bit t a b =>
    if var = .sha256 then
      let d := s.1.set (V t) { ty := 13, id := V t, input0 := V a, input1 := V b }
      let d := d.addOutput (V a) (V t)
      let d := d.addOutput (V b) (V t)
      .ok (d, s.2)
    else .assertFail
  | .input t i =>
    .ok (s.1.set (V t) { ty := 3, id := V t, input0 := I i, input1 := N }, s.2 + 1)
  | .output _ a => .ok (s.1.set (V a) (s.1.node (V a)), s.2)
  | .const _ _ => .assertFail

/-- `read_circuit` up to the call of `DAG_to_layered` (parser_sha_data_parallel.cpp:334-458) -/
def readProgram (var : Variant) (P : List Stmt) : Outcome (Dag × ℕ) :=
  P.foldlM (readStmt var) (Dag.empty, 0)

/-- the table `in_deg` (parser_sha_data_parallel.cpp:140-150) -/
def inDegrees (d : Dag) : Id → ℤ :=
  d.keys.foldl (fun m k => (d.node k).outputs.foldl (fun m y => Function.update m y (m y + 1)) m)
    (fun _ => 0)

/-- Every gate starts at level 0 and in the queue, and a gate nobody feeds must be an input
(parser_sha_data_parallel.cpp:151-161). -/
def startLevels (d : Dag) (inDeg : Id → ℤ) : Outcome Dag :=
  d.keys.foldlM (fun d' k => do
    Outcome.assert (decide (inDeg k ≠ 0) || (d'.node k).ty == 3)
    return d'.set k { d'.node k with lvl := 0 }) d

/-- the state of the loop that computes the levels; `depth` is `max_lvl + 1` -/
structure LevelState where
  dag : Dag
  inDeg : Id → ℤ
  q : List Id
  depth : ℕ

/-- one successor `x` of the gate `cur` (parser_sha_data_parallel.cpp:169-177); `g` is a reference, so the level
of `cur` is read again each time -/
def relax (cur : Id) (s : LevelState) (x : Id) : LevelState :=
  let inDeg := Function.update s.inDeg x (s.inDeg x - 1)
  { s with
    inDeg := inDeg
    dag := s.dag.set x { s.dag.node x with
      lvl := max (s.dag.node x).lvl ((s.dag.node cur).lvl + 1) }
    q := if inDeg x = 0 then s.q ++ [x] else s.q }

/-- the body of the loop (parser_sha_data_parallel.cpp:165-177) -/
def levelStep (s : LevelState) (cur : Id) (rest : List Id) : LevelState :=
  let g := s.dag.node cur
  g.outputs.foldl (relax cur) { s with q := rest, depth := max s.depth (g.lvl + 1) }

/-- `while(!q.empty())` (parser_sha_data_parallel.cpp:163-178). A gate enters the queue at the start and at most once
more, so the number of steps is bounded; `levels_terminates` proves that the bound used below suffices. -/
def levels : ℕ → LevelState → Outcome LevelState
  | 0, _ => .diverges
  | n + 1, s =>
    match s.q with
    | [] => .ok s
    | cur :: rest => levels n (levelStep s cur rest)

/-- `add_relay` (parser_sha_data_parallel.cpp:103-133). The state is `sha256_dag` and `relay_counter`, `copy` is
`sha256_dag_copy`. -/
def addRelay (copy : Dag) (id0 id1 : Id) (left : Bool) (s : Dag × ℕ) : Dag × ℕ :=
  let g0 := copy.node id0
  let g1 := copy.node id1
  if g0.lvl = g1.lvl + 1 then s
  else
    let t := loop (g0.lvl - (g1.lvl + 1)) (fun j (t : Dag × ℕ × Id) =>
      let id := R t.2.1
      (t.1.set id { ty := 10, id := id, lvl := g1.lvl + 1 + j, input0 := t.2.2, input1 := N },
        t.2.1 + 1, id)) (s.1, s.2, g1.id)
    let g := t.1.node g0.id
    (t.1.set g0.id (if left then { g with input0 := t.2.2 } else { g with input1 := t.2.2 }), t.2.1)

/-- the operands of a gate are brought to the level below (parser_sha_data_parallel.cpp:180-253;
tests/SHA256/parser_sha_data_parallel.cpp:247-264) -/
def relayGate (copy : Dag) (s : Dag × ℕ) (k : Id) : Outcome (Dag × ℕ) :=
  let g := copy.node k
  if g.ty = 0 ∨ g.ty = 1 ∨ g.ty = 7 ∨ g.ty = 8 ∨ g.ty = 9 then
    let s := addRelay copy k g.input0 true s
    .ok (addRelay copy k g.input1 false s)
  else if g.ty = 3 then do
    Outcome.assert (g.lvl == 0)
    return s
  else if g.ty = 6 then .ok (addRelay copy k g.input0 true s)
  else if g.ty = 5 ∨ g.ty = 12 then
    loopM (g.input1.2 + 1 - g.input0.2) (fun i s => do
      Outcome.assert (g.lvl == (copy.node (V (g.input0.2 + i))).lvl + 1)
      return s) s
  else if g.ty = 13 then do
    Outcome.assert (decide (g.input0 = g.input1))
    return addRelay copy k g.input0 true s
  else .ok s

/-- `class gate` (parser_sha_data_parallel.cpp:48-62): a gate of a layer -/
structure LGate where
  ty : ℤ
  g : ℤ
  u : ℤ
  v : ℤ
deriving DecidableEq, Repr

/-- the power of two computed by `while(lgc) full_layer_count *= 2, lgc /= 2` (parser_sha_data_parallel.cpp:269-277) -/
def fullCount (n : ℕ) : ℕ := if h : n = 0 then 1 else 2 * fullCount (n / 2)
termination_by n

/-- the number of rounds of that loop -/
def bitCount (n : ℕ) : ℕ := if h : n = 0 then 0 else bitCount (n / 2) + 1
termination_by n

/-- the layered circuit `sha256` of one block, and `padding_num` -/
structure Layered where
  depth : ℕ
  gates : ℕ → List LGate
  bitLen : ℕ → ℕ
  padding : ℕ → ℕ

/-- the number of gates per level (parser_sha_data_parallel.cpp:254-264); a level that is not below `max_lvl + 1`
is written outside of the vector -/
def countLevels (d : Dag) (depth : ℕ) : Outcome (ℕ → ℕ) :=
  d.keys.foldlM (fun count k =>
    let l := (d.node k).lvl
    if l < depth then .ok (Function.update count l (count l + 1)) else .undefined) (fun _ => 0)

/-- the numbers of the gates within their levels (parser_sha_data_parallel.cpp:284-295): `layered_id`, and
`layer_counter` -/
def assignIds (d : Dag) : Dag × (ℕ → ℕ) :=
  d.keys.foldl (fun s k =>
    let g := s.1.node k
    (s.1.set k { g with lid := s.2 g.lvl }, Function.update s.2 g.lvl (s.2 g.lvl + 1)))
    (d, fun _ => 0)

/-- the gate of a layer (parser_sha_data_parallel.cpp:304-312) -/
def layerGate (d : Dag) (k : Id) : LGate :=
  let g := d.node k
  { ty := g.ty
    g := g.lid
    u := (d.node g.input0).lid
    v := if g.ty = 3 ∨ g.ty = 10 ∨ g.ty = 6 then 0 else (d.node g.input1).lid }

/-- the gates of the layers, with the two assertions about the levels of the operands
(parser_sha_data_parallel.cpp:299-316) -/
def emitGates (d : Dag) : Outcome (ℕ → List LGate) :=
  d.keys.foldlM (fun gates k => do
    let g := d.node k
    let gates' := Function.update gates g.lvl (gates g.lvl ++ [layerGate d k])
    Outcome.assert (decide ((d.node g.input0).lvl + 1 = g.lvl) || g.ty == 3)
    Outcome.assert (decide ((d.node g.input1).lvl + 1 = g.lvl) || g.ty == 10 || g.ty == 6 || g.ty == 3)
    return gates') (fun _ => [])

/-- the dummy gates of a layer (parser_sha_data_parallel.cpp:318-329) -/
def pad (gates : List LGate) (counter padding : ℕ) : List LGate :=
  loop padding (fun j gs => gs ++ [⟨2, (counter + j : ℕ), 0, 0⟩]) gates

/-- `DAG_to_layered` (parser_sha_data_parallel.cpp:137-330) -/
def dagToLayered (d : Dag) : Outcome Layered := do
  let inDeg := inDegrees d
  let d ← startLevels d inDeg
  let s ← levels (2 * d.keys.length + 1) ⟨d, inDeg, d.keys, 0⟩
  let copy := s.dag
  let t ← copy.keys.foldlM (relayGate copy) (copy, 0)
  let d := t.1
  let count ← countLevels d s.depth
  let full := fun i => fullCount (count i)
  let padding := fun i => full i - count i
  let bits := fun i => if padding i = 0 then bitCount (count i) - 1 else bitCount (count i)
  let a := assignIds d
  let gates ← emitGates a.1
  return { depth := s.depth, gates := fun i => pad (gates i) (a.2 i) (padding i), bitLen := bits,
           padding := padding }

/-- a gate of `rdl_dag`, of which only these fields are used; all keys are variables, so a key is
its number. `present` says whether the map has the key. -/
structure RGate where
  lvl : ℕ := 0
  value : ℤ := 0
  source : ℕ := 0
  lid : ℤ := 0

/-- the state of `read_rdl`: the map of gates, `output_gate_mapping` (absent keys yield 0), `output_count`,
`min_output_id` -/
structure RState where
  keys : List ℕ := []
  node : ℕ → RGate := fun _ => {}
  mapping : ℕ → ℕ := fun _ => 0
  outputs : ℕ := 0
  minOutput : ℕ := 0x3f3f3f3f

/-- insertion of a key in its place -/
def insertNat (k : ℕ) : List ℕ → List ℕ
  | [] => [k]
  | x :: xs => if x = k then x :: xs else if k < x then k :: x :: xs else x :: insertNat k xs

/-- `rdl_dag.circuit[k] = g` -/
def RState.set (s : RState) (k : ℕ) (g : RGate) : RState :=
  { s with keys := insertNat k s.keys, node := Function.update s.node k g }

/-- one line of the wiring file (parser_sha_data_parallel.cpp:474-517) -/
def readRStmt (s : RState) : RStmt → RState
  | .const t c => s.set t { lvl := 0, value := c }
  | .input t _ x => s.set t { lvl := 0, value := x }
  | .output o a =>
    { s with outputs := s.outputs + 1, mapping := Function.update s.mapping a o,
             minOutput := min s.minOutput o }
  | .pass t a _ => s.set t { lvl := 1, source := a }

/-- The numbers of the gates of the wiring layers (parser_sha_data_parallel.cpp:523-537). `/` and `%` round towards
zero. -/
def numberRdl (s : RState) (inputCount size : ℕ) : RState :=
  (s.keys.foldl (fun (t : RState × ℕ) k =>
    let g := t.1.node k
    if g.lvl = 0 then
      ({ t.1 with node := Function.update t.1.node k { g with lid := (t.2 : ℤ) } }, t.2 + 1)
    else
      let x : ℤ := (t.1.mapping k : ℤ) - (t.1.minOutput : ℤ)
      let id := Int.tdiv x inputCount * size + Int.tmod x inputCount
      ({ t.1 with node := Function.update t.1.node k { g with lid := id } }, t.2)) (s, 0)).1

/-- `gates[i] = x` in a vector whose entries may be uninitialised -/
def putGate (gates : List (Option LGate)) (i : ℤ) (x : LGate) : Outcome (List (Option LGate)) :=
  if 0 ≤ i ∧ i < gates.length then .ok (gates.set i.toNat (some x)) else .undefined

/-- the two wiring layers `rdl.layers[0]`, `rdl.layers[1]` -/
structure Wiring where
  inputs : List LGate
  relays : List (Option LGate)
  repeatNum : ℕ

/-- `read_rdl` after reading the lines (parser_sha_data_parallel.cpp:519-601). `sha256.layers[0]` must exist and
`input_count` is a divisor. -/
def wire (s : RState) (L : Layered) (inputCount : ℕ) : Outcome Wiring := do
  if L.depth = 0 then Outcome.undefined else
  if inputCount = 0 then Outcome.undefined else
  let size := (L.gates 0).length
  let repeatNum := s.outputs / inputCount
  Outcome.assert (inputCount * repeatNum == s.outputs)
  let s := numberRdl s inputCount size
  let inputs := s.keys.foldl (fun gs k =>
    let g := s.node k
    if g.lvl = 0 then gs ++ [(⟨3, g.lid, g.value, 0⟩ : LGate)] else gs) []
  let lgc := inputs.length
  let inputs := loopFrom lgc (fullCount lgc) (fun i gs => gs ++ [(⟨2, (i : ℤ), 0, 0⟩ : LGate)]) inputs
  let relays : List (Option LGate) := List.replicate (size * repeatNum) none
  let relays ← s.keys.foldlM (fun gs k =>
    let g := s.node k
    if g.lvl = 1 then putGate gs g.lid ⟨10, g.lid, (s.node g.source).lid, 0⟩ else .ok gs) relays
  let relays ← loopM repeatNum (fun i gs => loopM (L.padding 0) (fun j gs =>
    let id : ℕ := i * size + j + inputCount
    putGate gs id ⟨2, id, 0, 0⟩) gs) relays
  return ⟨inputs, relays, repeatNum⟩

/-- the four numbers of a gate -/
def LGate.numbers (g : LGate) : List ℤ := [g.ty, g.g, g.u, g.v]

/-- `log_rep` (parser_sha_data_parallel.cpp:625-627) for a non-zero `repeat_num` -/
def logRep (n : ℕ) : ℕ := if h : n ≤ 1 then 0 else logRep (n / 2) + 1
termination_by n

/-- a copy of a gate of level 0 for block `r` (parser_sha_data_parallel.cpp:636-648) -/
def blockInput (blockSize r : ℕ) (g : LGate) : Outcome LGate :=
  if g.ty = 3 then .ok ⟨10, g.g + r * blockSize, g.g + r * blockSize, 0⟩
  else if g.ty = 2 then .ok ⟨2, g.g + r * blockSize, 0, 0⟩
  else .assertFail

/-- a copy of a gate of a higher level for block `r` (parser_sha_data_parallel.cpp:661-676) -/
def blockGate (blockSize prevBlockSize r : ℕ) (g : LGate) : Outcome LGate :=
  if g.ty = 10 ∨ g.ty = 6 then do
    Outcome.assert (g.v == 0)
    return ⟨g.ty, g.g + r * blockSize, g.u + r * prevBlockSize, g.v⟩
  else .ok ⟨g.ty, g.g + r * blockSize, g.u + r * prevBlockSize, g.v + r * prevBlockSize⟩

/-- all blocks of a layer, printed one after the other -/
def printBlocks (repeatNum : ℕ) (gates : List LGate) (copy : ℕ → LGate → Outcome LGate) (file : List ℤ) :
    Outcome (List ℤ) :=
  loopM repeatNum (fun r file => gates.foldlM (fun file g => do
    let g' ← copy r g
    return file ++ g'.numbers) file) file

/-- `merge_and_output` (parser_sha_data_parallel.cpp:603-683): the circuit file and the meta file. In the version of
the SHA256 test the first line of the meta file is `0 0 1 0 0`. -/
def merge (var : Variant) (W : Wiring) (L : Layered) : Outcome (List ℤ × List ℤ) := do
  let file : List ℤ := [((2 + L.depth : ℕ) : ℤ), (W.inputs.length : ℤ)]
  let file := W.inputs.foldl (fun file g => file ++ [3, g.g, g.u, g.v]) file
  let metaFile : List ℤ := if var = .sha256 then [0, 0, 1, 0, 0] else [0, 0, 0, 0, 0]
  let file := file ++ [(W.relays.length : ℤ)]
  let file ← W.relays.foldlM (fun file g => do
    let g ← Outcome.read g
    return file ++ g.numbers) file
  if W.repeatNum = 0 then Outcome.diverges else
  let rep := W.repeatNum
  let logRep := logRep rep
  let size := (L.gates 0).length
  let metaFile := metaFile ++ [0, (size : ℤ), rep, L.bitLen 0, logRep]
  let file := file ++ [((size * rep : ℕ) : ℤ)]
  let file ← printBlocks rep (L.gates 0) (blockInput size) file
  let metaFile := metaFile ++ [1, (size : ℤ), rep, L.bitLen 0, logRep]
  loopM (L.depth - 1) (fun i' (out : List ℤ × List ℤ) => do
    let i := i' + 1
    let prevSize := (L.gates (i - 1)).length
    let size := (L.gates i).length
    let file := out.1 ++ [((size * rep : ℕ) : ℤ)]
    let file ← printBlocks rep (L.gates i) (blockGate size prevSize) file
    return (file, out.2 ++ [1, (size : ℤ), rep, L.bitLen i, logRep])) (file, metaFile)

/-- `main` (parser_sha_data_parallel.cpp:685-698): the two files -/
def compile (var : Variant) (P : List Stmt) (W : List RStmt) : Outcome (List ℤ × List ℤ) := do
  let (d, inputCount) ← readProgram var P
  let L ← dagToLayered d
  let w ← wire (W.foldl readRStmt {}) L inputCount
  merge var w L

end Libra.Compiler
