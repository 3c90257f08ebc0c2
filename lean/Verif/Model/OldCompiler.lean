import Verif.Model.Compiler
import Mathlib.Data.List.Sort
import Mathlib.Data.Nat.Digits.Defs

/-!
# The older circuit compilers

Model of `/repo/parser_sha.cpp` and `/repo/parser_lanczos.cpp`, which translate a straight-line program and a wiring file into a
circuit file without meta data. They copy the program `repeat_num` times (the third argument), lay out the graph of all copies and the
wiring together, and know neither relays nor sums: a value is passed on by adding zero. From `top_sort` on, the two files are
the same, except for the name of the output file (parser_sha.cpp:387-607, parser_lanczos.cpp:234-454).

Simplifications.
* A source line is its parsed form (`Stmt`, `RStmt`), as for the newer compiler; the argument `repeat_num` is a natural number.
* The array `gates` of objects is an array for each group of fields: the operands (`Node`), `outputs`, `lvl`. An entry of
  `layered_circuit`, a copy of an entry of `gates`, is named by the index of that entry.
* Integers do not overflow.
* What is printed to the console is left out, and so are `circuit_block_gates`, `total_pad` and `total_gates`.
-/

namespace Libra.OldCompiler
open Compiler

/-- which of the two programs -/
inductive Program where
  | sha | lanczos
deriving DecidableEq, Repr

/-- the fields `ty`, `id`, `u`, `v` of `class gate` (parser_sha.cpp:44-61, parser_lanczos.cpp:36-53) -/
structure Node where
  ty : ℤ
  id : ℤ
  u : ℤ
  v : ℤ
deriving DecidableEq, Repr

/-- The global variables (parser_sha.cpp:63-68, 138): `gates` (`size`, `node`, `outs`, `lvl`), `id_to_addr`, `rdl_output_pointer`,
whose length is `rdl_output_cnt`, `max_rdl_id`, and `circuit_input`; in parser_lanczos.cpp:130 this is a set of variables, here
each with its own number. -/
structure St where
  size : ℕ := 0
  node : ℕ → Node := fun _ => ⟨0, 0, 0, 0⟩
  outs : ℕ → List ℤ := fun _ => []
  lvl : ℕ → ℤ := fun _ => -1
  ids : ℤ → Option ℕ := fun _ => none
  ptrs : List ℕ := []
  maxRdl : ℕ := 0
  inp : ℕ → Option ℤ := fun _ => none

/-- the value of `id_to_addr[x]`; an absent key yields 0 -/
def St.addr (s : St) (x : ℤ) : ℕ := (s.ids x).getD 0

/-- `id_to_addr[g.id] = gates.size(); gates.push_back(g);` for a new gate of level `l`; the constructor sets the level -1
(parser_sha.cpp:52-55) -/
def St.push (s : St) (g : Node) (l : ℤ) : St :=
  { s with size := s.size + 1, node := Function.update s.node s.size g, outs := Function.update s.outs s.size [],
           lvl := Function.update s.lvl s.size l, ids := Function.update s.ids g.id (some s.size) }

/-- `gates[id_to_addr[y]].outputs.push_back(x);` where `id_to_addr[y]` inserts an absent key -/
def St.addOut (s : St) (y x : ℤ) : St :=
  { s with outs := Function.update s.outs (s.addr y) (s.outs (s.addr y) ++ [x]),
           ids := Function.update s.ids y (some (s.addr y)) }

/-- the gate `zero_gate` with the number -1 (parser_sha.cpp:72-77), which is not entered in `id_to_addr`; it is found because
absent keys yield 0 -/
def start : St := { size := 1, node := fun _ => ⟨3, -1, 0, 0⟩ }

/-- one line of the wiring file (parser_sha.cpp:78-133, parser_lanczos.cpp:70-125) -/
def readRLine (s : St) : RStmt → St
  | .const t c => { s.push ⟨3, t, c, 0⟩ (-1) with maxRdl := max s.maxRdl t }
  | .input t _ x => { s.push ⟨3, t, x, 0⟩ (-1) with maxRdl := max s.maxRdl t }
  | .output _ _ => s
  | .pass t a _ =>
    let s := s.addOut a t
    let s := s.addOut (-1) t
    { s.push ⟨0, t, a, -1⟩ (-1) with ptrs := s.ptrs ++ [s.size], maxRdl := max s.maxRdl t }

/-- `read_rdl` (parser_sha.cpp:70-136, parser_lanczos.cpp:62-128); a division by zero is undefined -/
def readWiring (k : ℕ) (W : List RStmt) : Outcome St :=
  let s := W.foldl readRLine start
  let s := { s with maxRdl := s.maxRdl + 1 }
  if k = 0 then .undefined
  else do
    Outcome.assert (s.ptrs.length / k * k == s.ptrs.length)
    return s

/-- The operand of copy `i` for the variable `x` (parser_sha.cpp:150-158, parser_lanczos.cpp:142-150): the result of a `PASS` line if
`x` is an input, else the copy of the variable. -/
def operand (prog : Program) (k : ℕ) (s : St) (i x : ℕ) : Outcome ℤ :=
  match s.inp x with
  | some n =>
    let p : ℤ := (if prog = .sha then n else x) * k + i
    if 0 ≤ p then do
      let a ← Outcome.read s.ptrs[p.toNat]?
      return (s.node a).id
    else .undefined
  | none => .ok ((x * k + i + s.maxRdl : ℕ) : ℤ)

/-- copy `i` of a gate (parser_sha.cpp:148-180 and the same for the other operations; `NOT` parser_sha.cpp:350-379;
parser_lanczos.cpp:140-172) -/
def readCopy (prog : Program) (k : ℕ) (op : Op) (t a b : ℕ) (i : ℕ) (s : St) : Outcome St :=
  if op = .not then do
    let u ← operand prog k s i a
    let id : ℤ := ((t * k + i + s.maxRdl : ℕ) : ℤ)
    let s := s.push ⟨op.code, id, u, 0⟩ (-1)
    Outcome.assert (s.ids u).isSome
    return s.addOut u id
  else do
    let u ← operand prog k s i a
    let v ← operand prog k s i b
    let id : ℤ := ((t * k + i + s.maxRdl : ℕ) : ℤ)
    let s := s.push ⟨op.code, id, u, v⟩ (-1)
    Outcome.assert (s.ids u).isSome
    Outcome.assert (s.ids v).isSome
    let s := s.addOut u id
    return s.addOut v id

/-- One line of `read_circuit` (parser_sha.cpp:142-384, parser_lanczos.cpp:134-231). A constant counts as the input with that number
in parser_sha.cpp:221-225. -/
def readLine (prog : Program) (k : ℕ) (s : St) : Stmt → Outcome St
  | .gate op t a b =>
    if prog = .sha ∨ op = .add ∨ op = .mult then loopM k (readCopy prog k op t a b) s else .assertFail
  | .const t c => if prog = .sha then .ok { s with inp := Function.update s.inp t (some c) } else .assertFail
  | .input t i =>
    if prog = .sha then .ok { s with inp := Function.update s.inp t (some (i : ℤ)) }
    else do
      Outcome.assert (t == i)
      return { s with inp := Function.update s.inp t (some (t : ℤ)) }
  | .output _ _ => .ok s
  | .sum _ _ _ => .assertFail
  | .expSum _ _ _ => .assertFail
  | .bit _ _ _ => .assertFail

/-- `read_circuit` (parser_sha.cpp:140-385, parser_lanczos.cpp:132-232) -/
def readCircuit (prog : Program) (k : ℕ) (P : List Stmt) (s : St) : Outcome St := P.foldlM (readLine prog k) s

/-! ### Levels -/

/-- `in_deg` (parser_sha.cpp:393-400) -/
def inDegrees (s : St) : ℤ → ℤ :=
  loop s.size (fun i m => (s.outs i).foldl (fun m x => Function.update m x (m x + 1)) m) (fun _ => 0)

/-- the local variables of `top_sort` -/
structure Levels where
  lvl : ℕ → ℤ
  inDeg : ℤ → ℤ
  q : List ℕ

/-- the first gates (parser_sha.cpp:401-406) -/
def startSort (s : St) : Levels :=
  loop s.size (fun i t =>
    if t.inDeg (s.node i).id = 0 then { t with q := t.q ++ [i], lvl := Function.update t.lvl i 0 } else t)
    ⟨s.lvl, inDegrees s, []⟩

/-- one successor (parser_sha.cpp:413-421) -/
def sortOutput (s : St) (cur : ℕ) (t : Levels) (x : ℤ) : Levels :=
  let inDeg := Function.update t.inDeg x (t.inDeg x - 1)
  let a := s.addr x
  { lvl := Function.update t.lvl a (max (t.lvl a) (t.lvl cur + 1))
    inDeg := inDeg
    q := if inDeg x = 0 then t.q ++ [a] else t.q }

/-- `while(!q.empty())` (parser_sha.cpp:407-423); the first argument bounds the number of rounds -/
def sortLoop (s : St) : ℕ → Levels → Outcome Levels
  | 0, _ => .diverges
  | n + 1, t =>
    match t.q with
    | [] => .ok t
    | cur :: rest => sortLoop s n ((s.outs cur).foldl (sortOutput s cur) { t with q := rest })

/-- `top_sort` (parser_sha.cpp:391-434) and `max_lvl`. A gate enters the queue at the start, or when one of the numbers in the lists
`outputs` is counted down to zero, which happens at most once for each of them. -/
def topSort (s : St) : Outcome (St × ℤ) := do
  let total := loop s.size (fun i n => n + (s.outs i).length) 0
  let t ← sortLoop s (s.size + total + 1) (startSort s)
  let s := { s with lvl := t.lvl }
  let m ← loopM s.size (fun i (m : ℤ) => do
    Outcome.assert (decide (s.lvl i ≠ -1))
    return max m (s.lvl i)) (-1)
  return (s, m)

/-! ### Layers -/

/-- a zero for each layer (parser_sha.cpp:444-470) -/
def addZeros (depth : ℕ) (s : St) : St :=
  loop depth (fun i s =>
    if i = 0 then s.push ⟨3, -10, 0, 0⟩ 0
    else
      let z : ℤ := -10 - ((i : ℤ) - 1)
      let s := s.push ⟨0, -10 - (i : ℤ), z, z⟩ i
      let s := s.addOut z (-10 - (i : ℤ))
      s.addOut z (-10 - (i : ℤ))) s

/-- `max_id` (parser_sha.cpp:471-476) -/
def maxId (s : St) : ℤ := loop s.size (fun i m => max m (s.node i).id) (-1) + 1

/-- The copies of the value of gate `i` on the levels up to gate `b` (parser_sha.cpp:486-505). The state is the graph, `max_id` and
`pre_gate_id`. -/
def relayChain (i j b : ℕ) (s : St) (m : ℤ) : St × ℤ × ℤ :=
  loop (s.lvl b - (s.lvl i + 1)).toNat (fun n (t : St × ℤ × ℤ) =>
    let l : ℤ := s.lvl i + 1 + n
    let x := t.2.1
    let z : ℤ := -10 - (l - 1)
    let s1 := if n = 0 then { t.1 with outs := Function.update t.1.outs i ((t.1.outs i).set j x) } else t.1.addOut t.2.2 x
    let s2 := s1.addOut z x
    (s2.push ⟨0, x, t.2.2, z⟩ l, x + 1, x)) (s, m, (s.node i).id)

/-- output number `j` of gate `i` (parser_sha.cpp:482-517) -/
def relayOutput (i : ℕ) (j : ℕ) (t : St × ℤ) : St × ℤ :=
  let s := t.1
  let b := s.addr ((s.outs i).getD j 0)
  let r := relayChain i j b s t.2
  let need := s.lvl i + 1 < s.lvl b
  let pre := r.2.2
  let me := (s.node i).id
  let s := r.1
  let s := if (s.node b).u = me ∧ need then
      ({ s with node := Function.update s.node b { s.node b with u := pre } } : St).addOut pre (s.node b).id else s
  let s := if (s.node b).v = me ∧ need then
      ({ s with node := Function.update s.node b { s.node b with v := pre } } : St).addOut pre (s.node b).id else s
  (s, r.2.1)

/-- All outputs of gate `i` (parser_sha.cpp:480-518). The list does not grow meanwhile: what is appended is appended to the lists of
relays, and of zeros that do not need relays. -/
def relayGate (i : ℕ) (t : St × ℤ) : St × ℤ := loop (t.1.outs i).length (relayOutput i) t

/-- `for(int i = 0; i < cur_gates_sz; ++i)` (parser_sha.cpp:478-518) -/
def addRelays (s : St) : St := (loop s.size relayGate (s, maxId s)).1

/-- `layered_circuit[l]`, sorted (parser_sha.cpp:519-524); the numbers of gates are distinct, so that the order is determined -/
def layer (s : St) (l : ℕ) : List ℕ :=
  ((List.range s.size).filter (fun a => s.lvl a = l)).insertionSort (fun a b => (s.node a).id ≤ (s.node b).id)

/-- `id_to_layered_circuit_addr` (parser_sha.cpp:525-534) -/
def places (s : St) (depth : ℕ) : ℤ → Option ℕ :=
  loop depth (fun l m => (layer s l).foldl (fun m a => Function.update m (s.node a).id (some a)) m) (fun _ => none)

/-- the fields `id`, `u`, `v`, `u_modified`, `v_modified` of the entries of `layered_circuit` -/
structure Names where
  id : ℕ → ℤ
  u : ℕ → ℤ
  v : ℕ → ℤ
  um : ℕ → Bool
  vm : ℕ → Bool

/-- one output of the gate with the numbers `old` and `new` (parser_sha.cpp:541-552) -/
def renameOutput (place : ℤ → Option ℕ) (old new : ℤ) (t : Names) (x : ℤ) : Outcome Names :=
  match place x with
  | none => .assertFail
  | some b =>
    let t := if t.u b = old ∧ t.um b = false then
      { t with u := Function.update t.u b new, um := Function.update t.um b true } else t
    let t := if t.v b = old ∧ t.vm b = false then
      { t with v := Function.update t.v b new, vm := Function.update t.vm b true } else t
    .ok t

/-- gate `j` of a layer (parser_sha.cpp:537-553) -/
def renameGate (s : St) (place : ℤ → Option ℕ) (L : List ℕ) (j : ℕ) (t : Names) : Outcome Names := do
  let a ← Outcome.read L[j]?
  let old := t.id a
  (s.outs a).foldlM (renameOutput place old j) { t with id := Function.update t.id a j }

/-- the numbers of the gates within their layers (parser_sha.cpp:535-553) -/
def rename (s : St) (depth : ℕ) : Outcome Names :=
  loopM depth (fun l t => loopM (layer s l).length (renameGate s (places s depth) (layer s l)) t)
    ⟨fun a => (s.node a).id, fun a => (s.node a).u, fun a => (s.node a).v, fun _ => false, fun _ => false⟩

/-- `while(target_size < current_layer_sz) target_size *= 2;` (parser_sha.cpp:557-559) -/
def doubled (n t : ℕ) : ℕ := if _h : 0 < t ∧ t < n then doubled n (2 * t) else t
termination_by n - t

/-- the number of dummy gates (parser_sha.cpp:554-560) -/
def padding (n : ℕ) : ℕ := if (Nat.digits 2 n).sum ≠ 1 then doubled n 1 - n else 0

/-- the numbers printed for a gate (parser_sha.cpp:585) -/
def numbers (s : St) (t : Names) (a : ℕ) : List ℤ := [(s.node a).ty, t.id a, t.u a, t.v a]

/-- the numbers printed for a layer (parser_sha.cpp:554-573, 580-588) -/
def printLayer (s : St) (t : Names) (L : List ℕ) : List ℤ :=
  ((L.length + padding L.length : ℕ) : ℤ) :: (L.flatMap (numbers s t) ++
    (List.range (padding L.length)).flatMap (fun j => [2, ((j + L.length : ℕ) : ℤ), 0, 0]))

/-- `normalize_and_output` (parser_sha.cpp:438-592) -/
def normalize (s : St) : Outcome (List ℤ) := do
  let (s, m) ← topSort s
  let depth := (m + 1).toNat
  let s := addRelays (addZeros depth s)
  let t ← rename s depth
  return (depth : ℤ) :: (List.range depth).flatMap (fun l => printLayer s t (layer s l))

/-- `main` (parser_sha.cpp:594-607, parser_lanczos.cpp:441-454): the circuit file -/
def compile (prog : Program) (P : List Stmt) (W : List RStmt) (k : ℕ) : Outcome (List ℤ) := do
  let s ← readWiring k W
  let s ← readCircuit prog k P s
  normalize s

end Libra.OldCompiler
