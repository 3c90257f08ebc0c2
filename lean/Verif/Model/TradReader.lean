import Verif.Model.Reader
import Verif.Model.Blocked

/-!
# The readers and main programs of the traditional protocols

Model of `verifier::read_circuit_from_FILE` (`/repo/src/traditional_gkr/verifier_traditional.cpp:12-78`),
`verifier::set_blocks` and `verifier::read_circuit` (`/repo/src/traditional_gkr/verifier_bc_clogc.cpp:11-101`)
and of the programs `/repo/src/traditional_gkr/bclogc.cpp` and `bc_clogc.cpp`.

As in `Verif.Model.Reader` a file is the list of the integers in it. Diagnostics, timing and the release
of memory are omitted. (`ClogC.cpp` calls a function `read_circuit` that is declared but not defined,
so that program does not link.)
-/

namespace Libra.TradReader
open Reader FastTrack

/-- State of the loop over the gates of one layer: the block, `previous_g`, and the rest of the file. -/
structure GateLoop where
  block : List (Option Gate)
  previousG : ℤ
  rest : List ℤ

/-- One line (verifier_traditional.cpp:31-41, verifier_bc_clogc.cpp:43-53). All four numbers are read
with `%d`; lines out of order only cause a message. -/
def readLine (s : GateLoop) : Outcome GateLoop := do
  let (ty, ts) ← readD s.rest
  let (g, ts) ← readD ts
  let (u, ts) ← readD ts
  let (v, ts) ← readD ts
  let block ← store s.block g ⟨ty, u, v⟩
  return { block := block, previousG := g, rest := ts }

/-- The end of the body of the loop over the layers (verifier_traditional.cpp:43-70,
verifier_bc_clogc.cpp:55-92): the bit length, and a dummy next to a single gate. -/
def finishLayer (n : ℤ) (layers : List Layer) (t : GateLoop) : Outcome (List Layer × List ℤ) :=
  -- `while(max_gate) { cnt++; max_gate >>= 1; }` does not end on a negative number
  if t.previousG < 0 then .diverges else
  let cnt := countShifts t.previousG.toNat
  -- `max_gate <<= 1` overflows
  if 31 ≤ cnt then .undefined else
  let maxGate := 2 ^ cnt
  let cnt := countShifts maxGate
  if n = 1 then do
    let block ← store t.block maxGate ⟨2, 0, 0⟩
    return (layers ++ [{ gates := block, bitLength := cnt }], t.rest)
  else return (layers ++ [{ gates := t.block, bitLength := cnt - 1 }], t.rest)

/-- One layer of the file (verifier_traditional.cpp:22-70, verifier_bc_clogc.cpp:30-92). -/
def readLayer (s : List Layer × List ℤ) : Outcome (List Layer × List ℤ) := do
  let (n, ts) ← readD s.2
  let gates ← newGates (if n = 1 then 2 else n)
  let t ← loopM n.toNat (fun _ => readLine) ⟨gates, -1, ts⟩
  finishLayer n s.1 t

/-- `verifier::read_circuit_from_FILE` (verifier_traditional.cpp:12-78). The first layer of the circuit
is the first layer of the file. -/
def readTrad (file : List ℤ) : Outcome Circuit := do
  let (d, ts) ← readD file
  -- `new layer[d]` throws for `d < 0`; without layers `init_array(-1)` is undefined
  if d < 0 then .assertFail else
  if d = 0 then .undefined else
  let (layers, _) ← loopM d.toNat (fun _ => readLayer) ([], ts)
  return ⟨layers⟩

/-- the value of `max_bit_length` at the end of the reader -/
def maxBitLength (C : Circuit) : ℕ := C.layers.foldl (fun m L => max m L.bitLength) 0

/-- `set_blocks` and `read_circuit` (verifier_bc_clogc.cpp:11-101). Every gate is stored in all
`n_copy` blocks: the file is read once, and the blocks are the same circuit (simplification: the
model builds one and copies it). Without a block `max_bit_length` remains -1, and `init_array`
(prover_bc_clogc.cpp:138-157) shifts by it; it also computes `1 << (blk_bit_length + max_bit_length)`. -/
def readBlocked (file : List ℤ) (nCopy logCopy : ℤ) : Outcome Blocked.BlockedCircuit := do
  if nCopy < 0 then .assertFail else
  if nCopy = 0 then .undefined else
  let C ← readTrad file
  if logCopy < 0 ∨ 31 ≤ logCopy + maxBitLength C then .undefined else
  return ⟨fun _ => C, nCopy.toNat, logCopy.toNat⟩

variable {F : Type} [CommRing F] [DecidableEq F]

/-- The result of `verify()` as a `bool`. -/
def toBool : Outcome Unit → Outcome Bool
  | .ok _ => .ok true
  | .reject => .ok false
  | .assertFail => .assertFail
  | .exit => .exit
  | .undefined => .undefined
  | .diverges => .diverges

/-- `bclogc.cpp` (main and run_verifications, lines 13-46): `n_copy` independent runs on the same file;
the result is whether "Verification Pass" is printed. `log_n_copy` is not used. The random values and
the uninitialised memory of run `i` are arguments. -/
def bclogc (file : List ℤ) (nCopy : ℤ) (junk : ℕ → Cmt.Prover F) (tables : ℕ → BetaTables F)
    (ch : ℕ → Challenges F) : Outcome Bool :=
  -- `new prover[n_copy]` throws
  if nCopy < 0 then .assertFail else
  loopM nCopy.toNat (fun i finalResult => do
    let C ← readTrad file
    let result ← toBool (Cmt.verify C (Cmt.honest C (junk i)) (tables i) (ch i))
    return finalResult && result) true

/-- `bc_clogc.cpp` (main and run_verifications, lines 11-40): one run on `n_copy` blocks. -/
def bcClogc (file : List ℤ) (nCopy logCopy : ℤ) (junk : Blocked.Prover F) (tables : BetaTables F)
    (ch : Blocked.BlockChallenges F) : Outcome Bool := do
  let B ← readBlocked file nCopy logCopy
  let result ← toBool (Blocked.verify B (Blocked.honest B junk) tables ch)
  return true && result

end Libra.TradReader
