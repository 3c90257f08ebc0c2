import Verif.Model.TradReader
import Verif.Model.ParaTrack

/-!
# The reader and the main program of the threaded protocol

Model of `verifier::read_circuit` (`/repo/src/linear_gkr/verifier_fast_para_track.cpp:12-85`) and of
`/repo/src/linear_gkr/main_fast_para_track.cpp`. A file is the list of the integers in it, as in
`Verif.Model.Reader`. Diagnostics, timing and the release of memory are omitted.
-/

namespace Libra.ParaReader
open Reader FastTrack

/-- `unordered_map<int, vector<pair<int, pair<int, int> > > >` (include/linear_gkr/circuit_fast_track.h:26-27:
`u_gates`, `v_gates`): a key that is not in the map is a key with no entries. -/
abbrev GateMap := ℤ → List (ℤ × ℤ × ℤ)

/-- `map[k].push_back(e)` -/
def GateMap.push (M : GateMap) (k : ℤ) (e : ℤ × ℤ × ℤ) : GateMap := Function.update M k (M k ++ [e])

/-- State of the loop over the gates of one layer (verifier_fast_para_track.cpp:32-45). -/
structure LineLoop where
  gates : TradReader.GateLoop
  uGates : GateMap
  vGates : GateMap

/-- One line (verifier_fast_para_track.cpp:34-44). -/
def readLine (s : LineLoop) : Outcome LineLoop := do
  let (ty, ts) ← readD s.gates.rest
  let (g, ts) ← readD ts
  let (u, ts) ← readD ts
  let (v, ts) ← readD ts
  let block ← store s.gates.block g ⟨ty, u, v⟩
  return { gates := { block := block, previousG := g, rest := ts }
           uGates := s.uGates.push u (ty, g, v)
           vGates := s.vGates.push v (ty, g, u) }

/-- the layers read so far with their maps, and the rest of the file -/
structure LayerLoop where
  layers : List (Layer × GateMap × GateMap)
  rest : List ℤ

/-- The end of the body of the loop over the layers (verifier_fast_para_track.cpp:46-77). -/
def finishLayer (n : ℤ) (s : LayerLoop) (t : LineLoop) : Outcome LayerLoop :=
  -- `while(max_gate) { cnt++; max_gate >>= 1; }` does not end on a negative number
  if t.gates.previousG < 0 then .diverges else
  let cnt := countShifts t.gates.previousG.toNat
  -- `max_gate <<= 1` overflows
  if 31 ≤ cnt then .undefined else
  let maxGate := 2 ^ cnt
  let cnt := countShifts maxGate
  if n = 1 then do
    let block ← store t.gates.block maxGate ⟨2, 0, 0⟩
    return { layers := s.layers ++ [({ gates := block, bitLength := cnt },
               t.uGates.push 0 (2, maxGate, 0), t.vGates.push 0 (2, maxGate, 0))]
             rest := t.gates.rest }
  else return { layers := s.layers ++ [({ gates := t.gates.block, bitLength := cnt - 1 },
                  t.uGates, t.vGates)]
                rest := t.gates.rest }

/-- One layer of the file (verifier_fast_para_track.cpp:25-78). -/
def readLayer (s : LayerLoop) : Outcome LayerLoop := do
  let (n, ts) ← readD s.rest
  let gates ← newGates (if n = 1 then 2 else n)
  let t ← loopM n.toNat (fun _ => readLine) ⟨⟨gates, -1, ts⟩, fun _ => [], fun _ => []⟩
  finishLayer n s t

/-- The circuit and the two maps of each of its layers. -/
structure ParaCircuit where
  circuit : Circuit
  uGates : ℕ → GateMap
  vGates : ℕ → GateMap

/-- `verifier::read_circuit` (verifier_fast_para_track.cpp:12-85). -/
def readPara (file : List ℤ) : Outcome ParaCircuit := do
  let (d, ts) ← readD file
  -- `d + 10` overflows; `new layer[d + 10]` throws; without layers `1 << max_bit_length` is `1 << -1`
  if 2 ^ 31 ≤ d + 10 then .undefined else
  if d + 10 < 0 then .assertFail else
  if d ≤ 0 then .undefined else
  let s ← loopM d.toNat (fun _ => readLayer) ⟨[], ts⟩
  return { circuit := ⟨s.layers.map Prod.fst⟩
           uGates := fun l => ((s.layers[l]?).map (fun x => x.2.1)).getD (fun _ => [])
           vGates := fun l => ((s.layers[l]?).map (fun x => x.2.2)).getD (fun _ => []) }

variable {F : Type} [CommRing F] [DecidableEq F]

/-- `main` of main_fast_para_track.cpp:9-20: read the circuit, hand it to the prover, verify; whether
"Pass" is printed. The prover is a function of the circuit it is given (`get_circuit`); it may run under
any scheduler. -/
def program {σ : Type} (file : List ℤ) (prover : ParaCircuit → Cmt.ProverApi σ F)
    (tables : BetaTables F) (ch : Challenges F) : Outcome Bool := do
  let P ← readPara file
  TradReader.toBool (ParaTrack.verify P.circuit (prover P) tables ch)

end Libra.ParaReader
