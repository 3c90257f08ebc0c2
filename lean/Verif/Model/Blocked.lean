import Verif.Model.Cmt

/-!
# The CMT protocol on a circuit repeated in blocks

Model of `/repo/src/traditional_gkr/prover_bc_clogc.cpp`, `verifier_bc_clogc.cpp` and
`/repo/include/traditional_gkr/circuit_bc_clogc.h`. The same add/mult circuit is run on several
blocks; every layer gets a third sum-check phase, over the index of the block. The reader
(verifier_bc_clogc.cpp:17-101) stores the same gates in all blocks; the other functions read the
gates of block 0 or of the current block, and so does the model, where the blocks are arbitrary
circuits. Operands that are used as array indexes are taken as `toNat`. Timing, logging and the
release of memory are omitted.
-/

namespace Libra.Blocked
open FastTrack Cmt
variable {F : Type} [CommRing F]

/-- `class blocked_circuit` (circuit_bc_clogc.h:53-63). `log` is `total_blocks_binary_length`; both
numbers come from the command line (bc_clogc.cpp, `set_blocks`, verifier_bc_clogc.cpp:11-16). -/
structure BlockedCircuit where
  blocks : ℕ → Circuit
  total : ℕ
  log : ℕ

/-! ## Evaluation -/

/-- The body of the block loop of `prover::evaluate` (prover_bc_clogc.cpp:53-95). -/
def evaluateBlock (C : Circuit) : Outcome (List (List F)) := do
  let L0 ← Outcome.read (C.layers[0]?)
  let v0 ← evalInput L0
  loopM (C.depth - 1) (fun k vals => do
    let L ← Outcome.read (C.layers[k + 1]?)
    let prev ← Outcome.read (vals[k]?)
    let v ← evalLayer L (Cmt.evalGate prev)
    return vals ++ [v]) [v0]

/-- `circuit_value[blk][i][g]` -/
def blockFn (vals : List (List (List F))) (blk : ℕ) : ℕ → ℕ → F := valueFn (vals[blk]?.getD [])

/-- `prover::evaluate` (prover_bc_clogc.cpp:47-114): the values of all blocks. The array of a block
has as many entries as block 0 has layers; the copy of the results (107-112) reads the last layer of
every block with the length of block 0. -/
def evaluate (B : BlockedCircuit) : Outcome (List (List (List F))) := do
  let d := (B.blocks 0).depth
  let vals ← if B.total = 0 then .undefined
    else loopM B.total (fun blk vals => do
      let v ← if d < (B.blocks blk).depth then .undefined else evaluateBlock (B.blocks blk)
      return vals ++ [v]) []
  loopM B.total (fun blk _ =>
    if (B.blocks blk).depth = d ∧ (B.blocks 0).bl (d - 1) ≤ (B.blocks blk).bl (d - 1) then pure ()
    else .undefined) ()
  return vals

/-- the array returned by `evaluate` (prover_bc_clogc.cpp:106-113) -/
def resultOf (B : BlockedCircuit) (val : ℕ → ℕ → ℕ → F) : ℕ → F :=
  let d := (B.blocks 0).depth
  let bs := 2 ^ (B.blocks 0).bl (d - 1)
  loop B.total (fun i T => loop bs (fun j T =>
    Function.update T (i * bs + j) (val i (d - 1) j)) T) (fun _ => 0)

/-- `V_res` (prover_bc_clogc.cpp:10-45) and `V_in` (verifier_bc_clogc.cpp:190-221): the table is
halved with the challenges of the gate index, then with those of the block index. -/
def foldBlocked (omr r omrb rb : ℕ → F) (raw : ℕ → F) (rSize rbSize outputSize : ℕ) : F :=
  let body (omr r : ℕ → F) (i : ℕ) (s : (ℕ → F) × ℕ) : (ℕ → F) × ℕ :=
    (loop (s.2 >>> 1) (fun j out =>
      Function.update out j (out (j <<< 1) * omr i + out (j <<< 1 ||| 1) * r i)) s.1, s.2 >>> 1)
  (loop rbSize (body omrb rb) (loop rSize (body omr r) (raw, outputSize))).1 0

/-! ## The prover -/

/-- The data members of `class prover` (prover_bc_clogc.h:11-31) that carry protocol state. -/
structure Prover (F : Type) where
  circuitValue : ℕ → ℕ → ℕ → F
  vU : F
  vV : F
  totalUv : ℕ
  layerId : ℕ
  lengthG : ℕ
  lengthU : ℕ
  lengthV : ℕ
  blkLen : ℕ
  alpha : F
  beta : F
  r0 : ℕ → F
  r1 : ℕ → F
  rb0 : ℕ → F
  omr0 : ℕ → F
  omr1 : ℕ → F
  omrb0 : ℕ → F
  core : Core F
  copy : ℕ → F
  g0f : ℕ → F
  g0s : ℕ → F
  g1f : ℕ → F
  g1s : ℕ → F
  blkBeta : ℕ → F
  blkV : ℕ → F
  betaBlkVal : F

/-- `prover::sumcheck_init` (prover_bc_clogc.cpp:116-136) -/
def Prover.sumcheckInit (P : Prover F) (layerId blk g u v : ℕ) (a b : F)
    (rb0 r0 r1 omrb0 omr0 omr1 : ℕ → F) : Prover F :=
  { P with r0 := r0, r1 := r1, rb0 := rb0, alpha := a, beta := b, layerId := layerId, lengthG := g,
           lengthU := u, lengthV := v, omr0 := omr0, omr1 := omr1, omrb0 := omrb0, blkLen := blk }

/-- `prover::sumcheck_phase0_init` (prover_bc_clogc.cpp:189-253) -/
def Prover.phase0Init (B : BlockedCircuit) (P : Prover F) : Prover F :=
  let blkBeta := doubling P.rb0 P.omrb0 0 B.log (setZero P.blkBeta 1)
  let first := P.lengthG >>> 1
  let second := P.lengthG - first
  let g0f := doubling P.r0 P.omr0 0 first (setZero P.g0f P.alpha)
  let g1f := doubling P.r1 P.omr1 0 first (setZero P.g1f P.beta)
  let g0s := doubling P.r0 P.omr0 first second (setZero P.g0s 1)
  let g1s := doubling P.r1 P.omr1 first second (setZero P.g1s 1)
  let bgs := loop (2 ^ P.lengthG) (fun i T =>
    Function.update T i (halves first g0f g0s i + halves first g1f g1s i)) P.core.bgs
  let blkV := loop (2 ^ P.blkLen) (fun i T => loop (2 ^ P.lengthU) (fun j T =>
    Function.update T (i <<< P.lengthU ||| j) (P.circuitValue i (P.layerId - 1) j)) T) P.blkV
  { P with
    blkBeta := blkBeta, blkV := blkV, g0f := g0f, g1f := g1f, g0s := g0s, g1s := g1s
    core := { P.core with bgs := bgs } }

/-- The arrays `block_beta_value` and `block_v_value` are halved (prover_bc_clogc.cpp:260-276); `m`
is `1 << (block_binary_length - current_bit)`. -/
def bindBlocks (lu : ℕ) (prev : F) (m : ℕ) (s : (ℕ → F) × (ℕ → F)) : (ℕ → F) × (ℕ → F) :=
  loop m (fun blk (s : (ℕ → F) × (ℕ → F)) =>
    (Function.update s.1 blk
        ((s.1 (blk <<< 1 ||| 1) - s.1 (blk <<< 1)) * prev + s.1 (blk <<< 1)),
      loop (2 ^ lu) (fun u (W : ℕ → F) =>
        Function.update W (blk <<< lu ||| u)
          ((W ((blk <<< 1 ||| 1) <<< lu ||| u) - W ((blk <<< 1) <<< lu ||| u)) * prev +
            W ((blk <<< 1) <<< lu ||| u))) s.2)) s

/-- The line through the values of the blocks `2 blk` and `2 blk + 1` at index `u`
(prover_bc_clogc.cpp:293-306). -/
def blockLine (lu : ℕ) (W : ℕ → F) (blk u : ℕ) : LinearPoly F :=
  ⟨W ((blk <<< 1 ||| 1) <<< lu ||| u) - W ((blk <<< 1) <<< lu ||| u), W ((blk <<< 1) <<< lu ||| u)⟩

/-- One gate in the loop of `sumcheck_phase0_update` (prover_bc_clogc.cpp:287-333). The values are
read whatever the type of the gate is; an operand that is no wire makes the index leave the block
(simplification: always counted as undefined). Types other than 0 and 1 contribute nothing. -/
def gatePart (lu : ℕ) (g : Gate) (β : F) (W : ℕ → F) (blk : ℕ) (v : QuadraticPoly F) :
    Outcome (QuadraticPoly F) :=
  if 0 ≤ g.u ∧ g.u.toNat < 2 ^ lu ∧ 0 ≤ g.v ∧ g.v.toNat < 2 ^ lu then
    let pu := blockLine lu W blk g.u.toNat
    let pv := blockLine lu W blk g.v.toNat
    if g.ty = 0 then
      let t := pu.add pv
      pure (v.add ⟨0, t.a * β, t.b * β⟩)
    else if g.ty = 1 then
      let t := pu.mul pv
      pure (v.add ⟨t.a * β, t.b * β, t.c * β⟩)
    else pure v
  else .undefined

/-- `prover::sumcheck_phase0_update` (prover_bc_clogc.cpp:255-342) -/
def Prover.phase0Update (B : BlockedCircuit) (P : Prover F) (prev : F) (bit : ℕ) :
    Outcome (Prover F × CubicPoly F) := do
  let s := if bit = 0 then (P.blkBeta, P.blkV)
    else bindBlocks P.lengthU prev (2 ^ (P.blkLen - bit)) (P.blkBeta, P.blkV)
  let ret ← loopM (2 ^ (P.blkLen - bit - 1)) (fun blk (ret : CubicPoly F) => do
    let zero := s.1 (blk <<< 1)
    let one := s.1 (blk <<< 1 ||| 1)
    let v ← loopM (2 ^ P.lengthG) (fun g v =>
      gatePart P.lengthU ((B.blocks blk).gate P.layerId g) (P.core.bgs g) s.2 blk v) ⟨0, 0, 0⟩
    return ret.add (v.mul ⟨one - zero, zero⟩)) ⟨0, 0, 0, 0⟩
  return ({ P with blkBeta := s.1, blkV := s.2 }, ret)

/-- `prover::sumcheck_phase1_init` (prover_bc_clogc.cpp:344-367). It reads entry 1 of
`block_beta_value`, which has `1 << total_blocks_binary_length` entries. The `V_mult_add` of the code
is `core.V`. -/
def Prover.phase1Init (B : BlockedCircuit) (P : Prover F) (prev : F) : Outcome (Prover F) :=
  if B.log = 0 then .undefined
  else
    let tot := 2 ^ P.lengthU
    let val (i : ℕ) := (P.blkV (2 ^ P.lengthU ||| i) - P.blkV i) * prev + P.blkV i
    .ok { P with
      totalUv := tot
      core := { P.core with V := copyV tot val P.core.V }
      copy := copyV tot val P.copy
      betaBlkVal := (P.blkBeta 1 - P.blkBeta 0) * prev + P.blkBeta 0 }

/-- the last lines of the update functions (prover_bc_clogc.cpp:480-482, 618-620) -/
def scale (b : F) (q : QuadraticPoly F) : QuadraticPoly F := ⟨q.a * b, q.b * b, q.c * b⟩

/-- `prover::sumcheck_phase1_update` (prover_bc_clogc.cpp:381-489): the round of prover_clogc.cpp on
the gates of block 0, scaled. -/
def Prover.phase1Update (B : BlockedCircuit) (P : Prover F) (prev : F) (bit : ℕ) :
    Outcome (Prover F × QuadraticPoly F) := do
  let C := B.blocks 0
  let s ← P.core.update (fun i => (C.gate P.layerId i).ty) (fun i => (C.gate P.layerId i).u.toNat)
    (fun i => P.copy (C.gate P.layerId i).v.toNat) (2 ^ P.lengthG) P.totalUv prev bit
  return ({ P with core := s.1 }, scale P.betaBlkVal s.2)

/-- `prover::sumcheck_phase2_init` (prover_bc_clogc.cpp:491-518). With a previous layer of bit length 0
the operands are shifted by -1. -/
def Prover.phase2Init (B : BlockedCircuit) (P : Prover F) (prev : F) : Outcome (Prover F) :=
  let C := B.blocks 0
  let n := C.bl (P.layerId - 1)
  if n = 0 then .undefined
  else .ok { P with
    vU := P.core.V 0 * (1 - prev) + P.core.V 1 * prev
    core := { P.core with
      V := copyV P.totalUv P.copy P.core.V
      bgs := bindBeta (fun i => (C.gate P.layerId i).u.toNat) prev (n - 1) (2 ^ P.lengthG)
        P.core.bgs } }

/-- `prover::sumcheck_phase2_update` (prover_bc_clogc.cpp:520-626) -/
def Prover.phase2Update (B : BlockedCircuit) (P : Prover F) (prev : F) (bit : ℕ) :
    Outcome (Prover F × QuadraticPoly F) := do
  let C := B.blocks 0
  let s ← P.core.update (fun i => (C.gate P.layerId i).ty) (fun i => (C.gate P.layerId i).v.toNat)
    (fun _ => P.vU) (2 ^ P.lengthG) P.totalUv prev bit
  return ({ P with core := s.1 }, scale P.betaBlkVal s.2)

/-- `prover::sumcheck_finalize` (prover_bc_clogc.cpp:627-631) -/
def Prover.finalize (P : Prover F) (prev : F) : Prover F × (F × F) :=
  let vV := P.core.V 0 * (1 - prev) + P.core.V 1 * prev
  ({ P with vV := vV }, (P.vU, vV))

/-! ## The prover as the verifier sees it -/

/-- What the verifier can do with a prover. `betaBlkVal` is the member `beta_blk_val` of the prover,
which the verifier reads. A dishonest prover is any value of this type. -/
structure ProverApi (σ F : Type) where
  start : σ
  evaluate : σ → Outcome (σ × (ℕ → F))
  vRes : σ → (omr r omrb rb : ℕ → F) → (result : ℕ → F) → (rSize rbSize outputSize : ℕ) → F
  sumcheckInit : σ → (layerId blk g u v : ℕ) → (a b : F) → (rb0 r0 r1 omrb0 omr0 omr1 : ℕ → F) → σ
  phase0Init : σ → σ
  phase0Update : σ → F → ℕ → Outcome (σ × CubicPoly F)
  phase1Init : σ → F → Outcome σ
  phase1Update : σ → F → ℕ → Outcome (σ × QuadraticPoly F)
  phase2Init : σ → F → Outcome σ
  phase2Update : σ → F → ℕ → Outcome (σ × QuadraticPoly F)
  finalize : σ → F → σ × (F × F)
  betaBlkVal : σ → F

/-- The honest prover of prover_bc_clogc.cpp. `junk` is the (arbitrary) content of the uninitialised
members of a freshly constructed `prover`. -/
def honest (B : BlockedCircuit) (junk : Prover F) : ProverApi (Prover F) F where
  start := junk
  evaluate P := do
    let vals ← evaluate B
    return ({ P with circuitValue := blockFn vals }, resultOf B (blockFn vals))
  vRes _ omr r omrb rb result rSize rbSize outputSize :=
    foldBlocked omr r omrb rb result rSize rbSize outputSize
  sumcheckInit := Prover.sumcheckInit
  phase0Init := Prover.phase0Init B
  phase0Update := Prover.phase0Update B
  phase1Init := Prover.phase1Init B
  phase1Update := Prover.phase1Update B
  phase2Init := Prover.phase2Init B
  phase2Update := Prover.phase2Update B
  finalize := Prover.finalize
  betaBlkVal := Prover.betaBlkVal

/-! ## The verifier -/

/-- The random values of one run: those of the traditional verifier and, for the block index, the
first point `rb0` and the point `rb i` of layer `i`. -/
structure BlockChallenges (F : Type) extends Challenges F where
  rb0 : ℕ → F
  rb : ℕ → ℕ → F

/-- The variables of `verify()` that live across the layers. -/
structure BState (σ F : Type) extends VState σ F where
  rb : ℕ → F
  omrb : ℕ → F

variable [DecidableEq F] {σ : Type}

/-- One round of phase 0 (verifier_bc_clogc.cpp:287-302). -/
def round0 (upd : σ → F → ℕ → Outcome (σ × CubicPoly F)) (r : ℕ → F) (j : ℕ) (s : σ × F × F) :
    Outcome (σ × F × F) := do
  let (p, poly) ← upd s.1 s.2.2 j
  Outcome.check (poly.eval 0 + poly.eval 1 == s.2.1)
  return (p, poly.eval (r j), r j)

/-- One iteration of the layer loop of `verify()` (verifier_bc_clogc.cpp:271-405). The rounds of
phases 1 and 2 (315-333, 343-357) are those of the traditional verifier; `beta_init` (137-174), `add`
and `mult` (103-135) are its functions on block 0. -/
def layerStep (B : BlockedCircuit) (A : ProverApi σ F) (ch : BlockChallenges F) (i : ℕ)
    (s : BState σ F) : Outcome (BState σ F) := do
  let C := B.blocks 0
  let n := C.bl (i - 1)
  let p := A.sumcheckInit s.prover i B.log (C.bl i) n n s.alpha s.beta s.rb s.r0 s.r1 s.omrb s.omr0
    s.omr1
  let ru := ch.ru i
  let rb := ch.rb i
  let rv := ch.rv i
  let omrb := oneMinus rb
  let p := A.phase0Init p
  let (p, sum, prev) ← loopM B.log (round0 A.phase0Update rb) (p, s.sum, 0)
  let p ← A.phase1Init p prev
  let omru := oneMinus ru
  let omrv := oneMinus rv
  let (p, sum, prev) ← loopM n (Cmt.round A.phase1Update ru) (p, sum, prev)
  let p ← A.phase2Init p prev
  let (p, sum, prev) ← loopM n (Cmt.round A.phase2Update rv) (p, sum, 0)
  let (p, vu, vv) := A.finalize p prev
  let T := betaInit C s.tables i s.alpha s.beta s.r0 s.r1 ru rv s.omr0 s.omr1 omru omrv
  let mult := pred2 C T i 1
  let add := pred2 C T i 0
  Outcome.check (sum == A.betaBlkVal p * (add * (vu + vv) + mult * vu * vv))
  return { prover := p, alpha := ch.alpha i, beta := ch.beta i,
           sum := ch.alpha i * vu + ch.beta i * vv,
           r0 := ru, r1 := rv, omr0 := omru, omr1 := omrv, tables := T, rb := rb, omrb := omrb }

/-- The input table of all blocks (verifier_bc_clogc.cpp:408-424). -/
def verifierInput (B : BlockedCircuit) : Outcome (ℕ → F) :=
  loopM B.total (fun blk T =>
    let C := B.blocks blk
    loopM (2 ^ C.bl 0) (fun i T =>
      if (C.gate 0 i).ty = 3 ∨ (C.gate 0 i).ty = 2 then
        return Function.update T (blk * 2 ^ C.bl 0 + i) (ofCInt (C.gate 0 i).u)
      else .assertFail) T) (fun _ => 0)

/-- `verifier::verify()` (verifier_bc_clogc.cpp:223-446). `ok` means it returns true. `V_res` and
`V_in` copy `1 << (bit_length + log)` entries of arrays with `total_blocks << bit_length` entries.
`tables` is the initial content of the (uninitialised) beta tables. -/
def verify (B : BlockedCircuit) (A : ProverApi σ F) (tables : BetaTables F)
    (ch : BlockChallenges F) : Outcome Unit := do
  let C := B.blocks 0
  let (p, result) ← A.evaluate A.start
  let top := C.depth - 1
  let omr0 := oneMinus ch.r0
  let omr1 := oneMinus ch.r1
  let omrb0 := oneMinus ch.rb0
  let a0 ← if B.total < 2 ^ B.log then .undefined
    else pure (A.vRes p omr0 ch.r0 omrb0 ch.rb0 result (C.bl top) B.log (2 ^ (C.bl top + B.log)))
  let a0 := 1 * a0
  let s ← loopDownM top (layerStep B A ch)
    { prover := p, alpha := 1, beta := 0, sum := a0, r0 := ch.r0, r1 := ch.r1, omr0 := omr0,
      omr1 := omr1, tables := tables, rb := ch.rb0, omrb := omrb0 }
  let input ← verifierInput B
  let input0 := foldBlocked s.omr0 s.r0 s.omrb s.rb input (C.bl 0) B.log (2 ^ (C.bl 0 + B.log))
  let input1 := foldBlocked s.omr1 s.r1 s.omrb s.rb input (C.bl 0) B.log (2 ^ (C.bl 0 + B.log))
  Outcome.check (s.sum == input0 * s.alpha + input1 * s.beta)

end Libra.Blocked
