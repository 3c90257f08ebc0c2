import Verif.Model.Circuit

/-!
# The circuit readers

Model of `verifier::read_circuit` (`/repo/src/linear_gkr/verifier_fast_track.cpp:12-126`) and
`zk_verifier::read_circuit` (`/repo/src/linear_gkr/zk_verifier.cpp:15-183`).

A file is the list of the integers in it (`C85_scan` proves that `fscanf` on the characters is the same). A
missing number leaves an uninitialised variable, a number outside the range of the conversion
is undefined too. Diagnostics and the allocation of the work arrays are omitted, except that
`init_array(max_bit_length)` computes `1 << -1` when the file has no layer.
-/

namespace Libra.Reader

/-- `fscanf("%d")` -/
def readD : List ℤ → Outcome (ℤ × List ℤ)
  | [] => .undefined
  | t :: ts => if -2 ^ 31 ≤ t ∧ t < 2 ^ 31 then .ok (t, ts) else .undefined

/-- `fscanf("%lld")` -/
def readLL : List ℤ → Outcome (ℤ × List ℤ)
  | [] => .undefined
  | t :: ts => if -2 ^ 63 ≤ t ∧ t < 2 ^ 63 then .ok (t, ts) else .undefined

/-- conversion of a `long long` to the `int` parameter of the constructor of `gate` -/
def wrap32 (x : ℤ) : ℤ := (x + 2 ^ 31) % 2 ^ 32 - 2 ^ 31

/-- `new gate[n]`: uninitialised cells. A negative size throws, which ends the program. -/
def newGates (n : ℤ) : Outcome (List (Option Gate)) :=
  if n < 0 then .assertFail else .ok (List.replicate n.toNat none)

/-- `gates[g] = x` -/
def store (gates : List (Option Gate)) (g : ℤ) (x : Gate) : Outcome (List (Option Gate)) :=
  if 0 ≤ g ∧ g < gates.length then .ok (gates.set g.toNat (some x)) else .undefined

/-- `while(x) { cnt++; x >>= 1; }` for a non-negative `x`: the number of iterations. -/
def countShifts (x : ℕ) : ℕ := if h : x = 0 then 0 else countShifts (x >>> 1) + 1
termination_by x
decreasing_by rw [Nat.shiftRight_one]; omega

/-- State of the loop over the gates of one layer: the blocks of layer 0 (used only for `i = 1`) and of
layer `i`, `previous_g`, and the rest of the file. -/
structure GateLoop where
  block0 : List (Option Gate)
  block : List (Option Gate)
  previousG : ℤ
  rest : List ℤ

/-- The checks the zk reader makes on the wires of a line (zk_verifier.cpp:60-77). `bound` is
`1 << C.circuit[i - 1].bit_length`. -/
def checkWires (bound : ℤ) (ty u v : ℤ) : Outcome Unit :=
  if ty ≠ 3 then
    if ty = 5 then do
      Outcome.assert (0 ≤ u ∧ u < bound)
      Outcome.assert (u < v ∧ v ≤ bound)
    else do
      Outcome.assert (0 ≤ u ∧ u < bound)
      Outcome.assert (0 ≤ v ∧ v < bound)
  else .ok ()

/-- The treatment of one line before it is stored; the result is the second operand to be stored.
The plain reader (verifier_fast_track.cpp:54-63) only prints a message when the lines are
not in order, the zk reader (zk_verifier.cpp:60-97) calls `exit(0)`. -/
def checkLine (var : Variant) (bound : ℤ) (previousG ty g u v : ℤ) : Outcome ℤ :=
  match var with
  | .fastTrack => .ok (if ty = 6 then 0 else v)
  | .zk => do
    checkWires bound ty u v
    let v := if ty = 6 then 0 else v
    let v := if ty = 10 then 0 else v
    Outcome.assert (ty ≠ 13 ∨ u = v)
    if g ≠ previousG + 1 then .exit else .ok v

/-- Storing a gate (verifier_fast_track.cpp:64-72, zk_verifier.cpp:98-107). The first layer of the file
describes the inputs, layer 1 of the circuit relays them. -/
def storeGate (i : ℕ) (s : GateLoop) (ty g u v : ℤ) (rest : List ℤ) : Outcome GateLoop :=
  if i ≠ 1 then do
    let block ← store s.block g ⟨ty, wrap32 u, wrap32 v⟩
    return { s with block := block, previousG := g, rest := rest }
  else do
    Outcome.assert (ty = 2 ∨ ty = 3)
    let block ← store s.block g ⟨4, g, 0⟩
    let block0 ← store s.block0 g ⟨ty, wrap32 u, wrap32 v⟩
    return { block0 := block0, block := block, previousG := g, rest := rest }

/-- One line (verifier_fast_track.cpp:49-72, zk_verifier.cpp:55-108). -/
def readLine (var : Variant) (i : ℕ) (bound : ℤ) (s : GateLoop) : Outcome GateLoop := do
  let (ty, ts) ← readD s.rest
  let (g, ts) ← readD ts
  let (u, ts) ← readLL ts
  let (v, ts) ← readLL ts
  let v ← checkLine var bound s.previousG ty g u v
  storeGate i s ty g u v ts

/-- The end of the body of the loop over the layers (verifier_fast_track.cpp:74-112,
zk_verifier.cpp:110-152): the bit length, and the second gate of a layer with a single one. The layers
`0..i-1` are `layers` (layer 0 is a placeholder when `i = 1`). -/
def finishLayer (i : ℕ) (n : ℤ) (layers : List Layer) (t : GateLoop) : Outcome (List Layer × List ℤ) :=
  -- `while(max_gate) { cnt++; max_gate >>= 1; }` does not end on -1
  if t.previousG < 0 then .diverges else
  let cnt := countShifts t.previousG.toNat
  -- `max_gate <<= 1` overflows
  if 31 ≤ cnt then .undefined else
  let maxGate := 2 ^ cnt
  let cnt := countShifts maxGate
  if n = 1 then
    if i ≠ 1 then do
      let block ← store t.block maxGate ⟨2, 0, 0⟩
      return (layers ++ [{ gates := block, bitLength := cnt }], t.rest)
    else do
      let block0 ← store t.block0 maxGate ⟨2, 0, 0⟩
      let block ← store t.block maxGate ⟨4, 1, 0⟩
      return ([{ gates := block0, bitLength := cnt }, { gates := block, bitLength := cnt }], t.rest)
  else if i ≠ 1 then
    return (layers ++ [{ gates := t.block, bitLength := cnt - 1 }], t.rest)
  else
    return ([{ gates := t.block0, bitLength := cnt - 1 },
             { gates := t.block, bitLength := cnt - 1 }], t.rest)

/-- One layer of the file (verifier_fast_track.cpp:24-112, zk_verifier.cpp:29-152); the state is
the layers read so far and the rest of the file. -/
def readLayer (var : Variant) (i : ℕ) (s : List Layer × List ℤ) : Outcome (List Layer × List ℤ) := do
  let (n, ts) ← readD s.2
  let gates ← newGates (if n = 1 then 2 else n)
  let bound : ℤ := 2 ^ (s.1[i - 1]?.map (·.bitLength)).getD 0
  let t ← loopM n.toNat (fun _ => readLine var i bound) ⟨gates, gates, -1, ts⟩
  finishLayer i n s.1 t

/-- `if(is_para) assert(1 << log_repeat_num == repeat_num)` (zk_verifier.cpp:159-160). A shift of the
`int` 1 by a negative amount or by more than 30 is undefined. -/
def checkPara (isPara repeatNum logRepeat : ℤ) : Outcome Unit :=
  if isPara ≠ 0 then
    if logRepeat < 0 ∨ 31 ≤ logRepeat then .undefined
    else Outcome.assert ((2 : ℤ) ^ logRepeat.toNat = repeatNum)
  else .ok ()

/-- One line of the meta file (zk_verifier.cpp:154-170). -/
def readMeta (i : ℕ) (s : List Layer × List ℤ) : Outcome (List Layer × List ℤ) := do
  let (isPara, ts) ← readD s.2
  let (blockSize, ts) ← readD ts
  let (repeatNum, ts) ← readD ts
  let (logBlock, ts) ← readD ts
  let (logRepeat, ts) ← readD ts
  checkPara isPara repeatNum logRepeat
  let L ← Outcome.read s.1[i]?
  return (s.1.set i { L with isParallel := isPara ≠ 0, blockSize := blockSize.toNat,
                             logBlockSize := logBlock.toNat, repeatNum := repeatNum.toNat,
                             logRepeatNum := logRepeat.toNat }, ts)

/-- the loop over the layers, common to both readers -/
def readLayers (var : Variant) (file : List ℤ) : Outcome (ℤ × List Layer) := do
  let (d, ts) ← readD file
  -- `new layer[d + 1]` throws for `d < -1`; without layers `init_array(-1)` is undefined
  if d < -1 then .assertFail else
  if d ≤ 0 then .undefined else
  let (layers, _) ← loopM d.toNat (fun k => readLayer var (k + 1)) ([{ gates := [], bitLength := 0 }], ts)
  return (d, layers)

/-- `verifier::read_circuit` -/
def readPlain (file : List ℤ) : Outcome Circuit := do
  let (_, layers) ← readLayers .fastTrack file
  return ⟨layers⟩

/-- `zk_verifier::read_circuit` -/
def readZk (file metaFile : List ℤ) : Outcome Circuit := do
  let (d, layers) ← readLayers .zk file
  let (layers, _) ← loopM d.toNat (fun k => readMeta (k + 1)) (layers, metaFile)
  return ⟨layers⟩

end Libra.Reader
