import Verif.Model.Threads
import Verif.Model.Cmt

/-!
# The threaded prover

Model of `/repo/src/linear_gkr/prover_fast_para_track.cpp` and of the verifier it runs with
(`verifier_fast_para_track.cpp`, which is the traditional verifier up to its reader, its logging and
dummy inputs). The prover knows addition and multiplication gates only and does most of its work in
`NUM_THREADS` threads.

Shared memory written by a thread is a map from locations to field elements. What the threads only
read while they run (the circuit, `circuit_value`, the half tables, `v_u`, `r_0`) is passed to them as
values. The counters that decide when an unreduced sum is reduced `% mod` are left out: over the ring
of field elements reducing changes nothing. Unreduced sums and `x - y` without `+ mod` are a matter of
the 512-bit arithmetic (`Props/ParaTrack`, `C55`).
-/

namespace Libra.ParaTrack
open Threads Threads.Prog FastTrack
variable {F : Type} [CommRing F]

/-- `NUM_THREADS` (prover_fast_para_track.cpp:3) -/
abbrev numThreads : ℕ := 4

/-- the arrays `V_mult_add`, `addV_array`, `add_mult_sum` (prover_fast_para_track.h:27-29) -/
inductive Tab where
  | vMultAdd
  | addV
  | addMult
deriving DecidableEq, Repr

/-- Locations of `class prover` written by threads (prover_fast_para_track.h:18-37). -/
inductive Loc where
  /-- `T[i].a` (`a = true`) or `T[i].b`; with `fresh` of the second copy `nT` -/
  | lin (fresh : Bool) (t : Tab) (i : ℕ) (a : Bool)
  /-- `beta_g_sum[i]` -/
  | betaG (i : ℕ)
  /-- `beta_u[i]` -/
  | betaU (i : ℕ)
  /-- `rets[id].a`, `.b`, `.c` for `k = 0, 1, 2` -/
  | ret (id k : ℕ)
deriving DecidableEq, Repr

/-- `bs = total / NUM_THREADS; if(bs == 0) bs = 1;` (e.g. prover_fast_para_track.cpp:192-194) -/
def blockSize (total : ℕ) : ℕ := if total / numThreads = 0 then 1 else total / numThreads

/-- `st = id * bs` -/
def first (total id : ℕ) : ℕ := id * blockSize total

/-- `ed = (id + 1) * bs; if(ed > total) ed = total;` -/
def last (total id : ℕ) : ℕ := min ((id + 1) * blockSize total) total

/-! ## `V_res` -/

/-- the arrays `output` and `noutput` of `V_res` -/
inductive VLoc where
  | out (i : ℕ)
  | nout (i : ℕ)
deriving DecidableEq, Repr

/-- the loop body of `V_res_func` and of the sequential branch (prover_fast_para_track.cpp:16, 42) -/
def vResBody (omr r : F) (j : ℕ) : Prog VLoc F Unit := do
  let x ← get (.out (j <<< 1))
  let y ← get (.out (j <<< 1 ||| 1))
  set (.nout j) (x * omr + y * r)

/-- `V_res_func` (prover_fast_para_track.cpp:10-18); `upper` is `upper_bound` -/
def vResThread (omr r : F) (upper id : ℕ) : Prog VLoc F Unit :=
  forRange (id * (upper / numThreads)) ((id + 1) * (upper / numThreads)) (vResBody omr r)

/-- One round of `V_res` (prover_fast_para_track.cpp:30-44): threads if there is enough to do. -/
def VResRound (omr r : F) (half : ℕ) (m m' : VLoc → F) : Prop :=
  if numThreads ≤ half then
    Joins m (fun id : Fin numThreads => vResThread omr r half id) m'
  else m' = ((forRange 0 half (vResBody omr r)).run m).1

/-- `std::swap(output, noutput)` (prover_fast_para_track.cpp:45) -/
def vSwap (m : VLoc → F) : VLoc → F
  | .out i => m (.nout i)
  | .nout i => m (.out i)

/-- The loop of `V_res` (prover_fast_para_track.cpp:28-47): after `k` rounds the arrays can be `m`. The
array `noutput` is not initialised. -/
inductive VResLoop (omr r raw : ℕ → F) (outputSize : ℕ) : ℕ → (VLoc → F) → Prop
  | init {m : VLoc → F} (h : ∀ i < outputSize, m (.out i) = raw i) : VResLoop omr r raw outputSize 0 m
  | round {k : ℕ} {m m' : VLoc → F} (h : VResLoop omr r raw outputSize k m)
      (hr : VResRound (omr k) (r k) ((outputSize >>> k) >>> 1) m m') :
      VResLoop omr r raw outputSize (k + 1) (vSwap m')

/-- `V_res` (prover_fast_para_track.cpp:20-60) can return `x`. -/
def VRes (omr r raw : ℕ → F) (rSize outputSize : ℕ) (x : F) : Prop :=
  ∃ m, VResLoop omr r raw outputSize rSize m ∧ m (.out 0) = x

/-! ## Initialisation of the two phases -/

/-- `u_gates[i]` (verifier_fast_para_track.cpp:43, 69): type, index and second operand of the gates
whose first operand is `i`, in the order of the gates. -/
def uGates (C : Circuit) (l i : ℕ) : List (ℤ × ℕ × ℕ) :=
  ((List.range (2 ^ C.bl l)).filter (fun g => (C.gate l g).u = i)).map
    (fun g => ((C.gate l g).ty, g, (C.gate l g).v.toNat))

/-- `v_gates[i]` (verifier_fast_para_track.cpp:44, 70): type, index and first operand of the gates
whose second operand is `i`. -/
def vGates (C : Circuit) (l i : ℕ) : List (ℤ × ℕ × ℕ) :=
  ((List.range (2 ^ C.bl l)).filter (fun g => (C.gate l g).v = i)).map
    (fun g => ((C.gate l g).ty, g, (C.gate l g).u.toNat))

/-- The loop setting up the tables (prover_fast_para_track.cpp:199-206, 447-456), for one entry;
`V` is `circuit_value[sumcheck_layer_id - 1]`. -/
def initEntry (V : ℕ → F) (i : ℕ) : Prog Loc F Unit := do
  set (.lin false .vMultAdd i true) 0
  set (.lin false .vMultAdd i false) (V i)
  set (.lin false .addV i true) 0
  set (.lin false .addV i false) 0
  set (.lin false .addMult i true) 0
  set (.lin false .addMult i false) 0

/-- One gate in phase 1 (prover_fast_para_track.cpp:254-266). -/
def phase1Entry (V : ℕ → F) (u : ℕ) (e : ℤ × ℕ × ℕ) : Prog Loc F Unit :=
  if e.1 = 0 then do
    let x ← get (.lin false .addV u false)
    let b ← get (.betaG e.2.1)
    set (.lin false .addV u false) (x + V e.2.2 * b)
    let y ← get (.lin false .addMult u false)
    let b' ← get (.betaG e.2.1)
    set (.lin false .addMult u false) (y + b')
  else if e.1 = 1 then do
    let y ← get (.lin false .addMult u false)
    let b ← get (.betaG e.2.1)
    set (.lin false .addMult u false) (y + V e.2.2 * b)
  else pure ()

/-- `phase1_init_func` (prover_fast_para_track.cpp:185-270). `tmpG` is the product of the half tables,
`total = total_uv`, `sizeG = 1 << length_g`. In the last loop `ed` is not cut off at `total_uv`. -/
def phase1InitThread (C : Circuit) (l : ℕ) (V tmpG : ℕ → F) (total sizeG id : ℕ) :
    Prog Loc F Unit := do
  forRange (first total id) (last total id) (initEntry V)
  forRange (first sizeG id) (last sizeG id) (fun i => set (.betaG i) (tmpG i))
  forRange (first total id) ((id + 1) * blockSize total) (fun i =>
    forIn' (uGates C l i) (phase1Entry V i))

/-- One gate in phase 2 (prover_fast_para_track.cpp:516-548), without the counters. -/
def phase2Entry (vU : F) (v : ℕ) (e : ℤ × ℕ × ℕ) : Prog Loc F Unit :=
  if e.1 = 1 then do
    let y ← get (.lin false .addMult v false)
    let b ← get (.betaG e.2.1)
    let c ← get (.betaU e.2.2)
    set (.lin false .addMult v false) (y + b * c * vU)
  else if e.1 = 0 then do
    let y ← get (.lin false .addMult v false)
    let b ← get (.betaG e.2.1)
    let c ← get (.betaU e.2.2)
    set (.lin false .addMult v false) (y + b * c)
    let b' ← get (.betaG e.2.1)
    let c' ← get (.betaU e.2.2)
    let x ← get (.lin false .addV v false)
    set (.lin false .addV v false) (b' * c' * vU + x)
  else pure ()

/-- `phase2_init_func` (prover_fast_para_track.cpp:414-560). `tmpU` is the product of the half tables
of `r_u`, `sizeU = 1 << length_u`. The final reductions (553-559) are left out. -/
def phase2InitThread (C : Circuit) (l : ℕ) (V tmpU : ℕ → F) (vU : F) (total sizeU id : ℕ) :
    Prog Loc F Unit := do
  forRange (first sizeU id) (last sizeU id) (fun i => set (.betaU i) (tmpU i))
  forRange (first total id) (last total id) (initEntry V)
  forRange (first total id) (last total id) (fun i =>
    forIn' (vGates C l i) (phase2Entry vU i))

/-! ## The rounds -/

/-- One table in the loop body of the update functions (prover_fast_para_track.cpp:339-362, 617-639):
`nT[i]` is computed from `T[2i]` and `T[2i+1]`. -/
def bindEntry (isFirst : Bool) (prev : F) (t : Tab) (i : ℕ) : Prog Loc F Unit :=
  if isFirst then do
    let x ← get (.lin false t (i <<< 1) false)
    set (.lin true t i false) x
    let y ← get (.lin false t (i <<< 1 ||| 1) false)
    let z ← get (.lin true t i false)
    set (.lin true t i true) (y - z)
  else do
    let xa ← get (.lin false t (i <<< 1) true)
    let xb ← get (.lin false t (i <<< 1) false)
    set (.lin true t i false) (xa * prev + xb)
    let ya ← get (.lin false t (i <<< 1 ||| 1) true)
    let yb ← get (.lin false t (i <<< 1 ||| 1) false)
    let z ← get (.lin true t i false)
    set (.lin true t i true) (ya * prev + yb - z)

/-- The accumulation in `rets[id]` (prover_fast_para_track.cpp:363-378, 641-658). -/
def accEntry (id i : ℕ) : Prog Loc F Unit := do
  let ra ← get (.ret id 0)
  let Aa ← get (.lin true .addMult i true)
  let Va ← get (.lin true .vMultAdd i true)
  set (.ret id 0) (ra + Aa * Va)
  let rb ← get (.ret id 1)
  let Aa ← get (.lin true .addMult i true)
  let Vb ← get (.lin true .vMultAdd i false)
  let Ab ← get (.lin true .addMult i false)
  let Va ← get (.lin true .vMultAdd i true)
  let Ba ← get (.lin true .addV i true)
  set (.ret id 1) (rb + Aa * Vb + Ab * Va + Ba)
  let rc ← get (.ret id 2)
  let Ab ← get (.lin true .addMult i false)
  let Vb ← get (.lin true .vMultAdd i false)
  let Bb ← get (.lin true .addV i false)
  set (.ret id 2) (rc + Ab * Vb + Bb)

/-- the loop body of the update functions -/
def updateEntry (isFirst : Bool) (prev : F) (id i : ℕ) : Prog Loc F Unit := do
  bindEntry isFirst prev .vMultAdd i
  bindEntry isFirst prev .addV i
  bindEntry isFirst prev .addMult i
  accEntry id i

/-- `rets[id].a = rets[id].b = rets[id].c = 0` (prover_fast_para_track.cpp:332-334) -/
def zeroRet (id : ℕ) : Prog Loc F Unit := do
  set (.ret id 0) 0
  set (.ret id 1) 0
  set (.ret id 2) 0

/-- `phase1_update_func` (prover_fast_para_track.cpp:321-384, with `zero = true`: the thread clears
`rets[id]` itself) and `phase2_update_func` (604-665, with `zero = false`). `half` is
`total_uv >> 1`. -/
def updateThread (zero isFirst : Bool) (prev : F) (half id : ℕ) : Prog Loc F Unit := do
  (if zero then zeroRet id else pure ())
  forRange (first half id) (last half id) (updateEntry isFirst prev id)
  let a ← get (.ret id 0)
  set (.ret id 0) a
  let b ← get (.ret id 1)
  set (.ret id 1) b
  let c ← get (.ret id 2)
  set (.ret id 2) c

/-! ## The prover -/

/-- The data members of `class prover` (prover_fast_para_track.h:13-38) that carry protocol state. -/
structure Prover (F : Type) where
  circuitValue : ℕ → ℕ → F
  vU : F
  vV : F
  totalUv : ℕ
  layerId : ℕ
  lengthG : ℕ
  lengthU : ℕ
  lengthV : ℕ
  alpha : F
  beta : F
  r0 : ℕ → F
  r1 : ℕ → F
  omr0 : ℕ → F
  omr1 : ℕ → F
  g0f : ℕ → F
  g0s : ℕ → F
  g1f : ℕ → F
  g1s : ℕ → F
  uf : ℕ → F
  us : ℕ → F
  mem : Loc → F

/-- `prover::sumcheck_init` (prover_fast_para_track.cpp:120-135) -/
def Prover.sumcheckInit (P : Prover F) (layerId g u v : ℕ) (a b : F) (r0 r1 omr0 omr1 : ℕ → F) :
    Prover F :=
  { P with r0 := r0, r1 := r1, alpha := a, beta := b, layerId := layerId, lengthG := g,
           lengthU := u, lengthV := v, omr0 := omr0, omr1 := omr1 }

/-- `sumcheck_phase1_init` before the threads are started (prover_fast_para_track.cpp:276-305) -/
def Prover.phase1Main (C : Circuit) (P : Prover F) : Prover F :=
  let first := P.lengthG >>> 1
  let second := P.lengthG - first
  { P with
    totalUv := 2 ^ C.bl (P.layerId - 1)
    g0f := doubling P.r0 P.omr0 0 first (setZero P.g0f P.alpha)
    g1f := doubling P.r1 P.omr1 0 first (setZero P.g1f P.beta)
    g0s := doubling P.r0 P.omr0 first second (setZero P.g0s 1)
    g1s := doubling P.r1 P.omr1 first second (setZero P.g1s 1) }

/-- `beta_g_r0_fhalf[i & mask] * beta_g_r0_shalf[i >> first] + ...` (prover_fast_para_track.cpp:218) -/
def Prover.tmpG (P : Prover F) (i : ℕ) : F :=
  halves (P.lengthG >>> 1) P.g0f P.g0s i + halves (P.lengthG >>> 1) P.g1f P.g1s i

/-- the threads of `sumcheck_phase1_init` (prover_fast_para_track.cpp:307-312) -/
def Prover.phase1Threads (C : Circuit) (P : Prover F) (id : Fin numThreads) : Prog Loc F Unit :=
  phase1InitThread C P.layerId (P.circuitValue (P.layerId - 1)) P.tmpG
    (2 ^ C.bl (P.layerId - 1)) (2 ^ P.lengthG) id

/-- `sumcheck_phase1_init` (prover_fast_para_track.cpp:272-319) can lead from `P` to `P'`. -/
def Prover.Phase1Init (C : Circuit) (P P' : Prover F) : Prop :=
  ∃ m, Joins P.mem ((P.phase1Main C).phase1Threads C) m ∧ P' = { P.phase1Main C with mem := m }

/-- `sumcheck_phase2_init` before the threads are started (prover_fast_para_track.cpp:565-590) -/
def Prover.phase2Main (C : Circuit) (P : Prover F) (prev : F) (ru omru : ℕ → F) : Prover F :=
  let first := P.lengthU >>> 1
  let second := P.lengthU - first
  { P with
    vU := LinearPoly.eval ⟨P.mem (.lin false .vMultAdd 0 true), P.mem (.lin false .vMultAdd 0 false)⟩ prev
    uf := doubling ru omru 0 first (setZero P.uf 1)
    us := doubling ru omru first second (setZero P.us 1)
    totalUv := 2 ^ C.bl (P.layerId - 1) }

/-- the threads of `sumcheck_phase2_init` (prover_fast_para_track.cpp:591-596) -/
def Prover.phase2Threads (C : Circuit) (P : Prover F) (id : Fin numThreads) : Prog Loc F Unit :=
  phase2InitThread C P.layerId (P.circuitValue (P.layerId - 1)) (halves (P.lengthU >>> 1) P.uf P.us)
    P.vU (2 ^ C.bl (P.layerId - 1)) (2 ^ P.lengthU) id

/-- `sumcheck_phase2_init` (prover_fast_para_track.cpp:562-602) can lead from `P` to `P'`. -/
def Prover.Phase2Init (C : Circuit) (P : Prover F) (prev : F) (ru omru : ℕ → F) (P' : Prover F) :
    Prop :=
  ∃ m, Joins P.mem ((P.phase2Main C prev ru omru).phase2Threads C) m ∧
    P' = { P.phase2Main C prev ru omru with mem := m }

/-- `std::swap` of the three arrays and their second copies (prover_fast_para_track.cpp:399-401,
684-686) -/
def swapTabs (m : Loc → F) : Loc → F
  | .lin fresh t i a => m (.lin (!fresh) t i a)
  | l => m l

/-- `ret = ret + rets[i]` for all threads (prover_fast_para_track.cpp:396-397, 681-682) -/
def collect (m : Loc → F) : QuadraticPoly F :=
  loop numThreads (fun id ret => ret.add ⟨m (.ret id 0), m (.ret id 1), m (.ret id 2)⟩) ⟨0, 0, 0⟩

/-- `rets[i] = quadratic_poly(0, 0, 0)` for all threads (prover_fast_para_track.cpp:674-675) -/
def clearRets (m : Loc → F) : Loc → F :=
  loop numThreads (fun id m => Function.update (Function.update (Function.update m
    (.ret id 0) 0) (.ret id 1) 0) (.ret id 2) 0) m

/-- `sumcheck_phase1_update` (prover_fast_para_track.cpp:386-412) can lead from `P` to `P'` and
return `msg`. -/
def Prover.Phase1Update (P : Prover F) (prev : F) (bit : ℕ) (P' : Prover F)
    (msg : QuadraticPoly F) : Prop :=
  ∃ m, Joins P.mem (fun id : Fin numThreads =>
      updateThread true (bit == 0) prev (P.totalUv >>> 1) id) m ∧
    msg = collect m ∧ P' = { P with mem := swapTabs m, totalUv := P.totalUv >>> 1 }

/-- `sumcheck_phase2_update` (prover_fast_para_track.cpp:667-698) can lead from `P` to `P'` and
return `msg`. -/
def Prover.Phase2Update (P : Prover F) (prev : F) (bit : ℕ) (P' : Prover F)
    (msg : QuadraticPoly F) : Prop :=
  ∃ m, Joins (clearRets P.mem) (fun id : Fin numThreads =>
      updateThread false (bit == 0) prev (P.totalUv >>> 1) id) m ∧
    msg = collect m ∧ P' = { P with mem := swapTabs m, totalUv := P.totalUv >>> 1 }

/-- `prover::sumcheck_finalize` (prover_fast_para_track.cpp:699-703) -/
def Prover.finalize (P : Prover F) (prev : F) : Prover F × (F × F) :=
  let vV := LinearPoly.eval ⟨P.mem (.lin false .vMultAdd 0 true), P.mem (.lin false .vMultAdd 0 false)⟩ prev
  ({ P with vV := vV }, (P.vU, vV))

/-- `prover::evaluate` (prover_fast_para_track.cpp:62-118): every input gate must have type 3. -/
def evaluate (C : Circuit) : Outcome (List (List F)) := do
  let L0 ← Outcome.read (C.layers[0]?)
  let v0 ← evalLayer L0 (fun g => do
    Outcome.assert (g.ty == 3)
    return ofCInt g.u)
  Outcome.assert (C.depth < 1000000)
  loopM (C.depth - 1) (fun k vals => do
    let L ← Outcome.read (C.layers[k + 1]?)
    let prev ← Outcome.read (vals[k]?)
    let v ← evalLayer L (Cmt.evalGate prev)
    return vals ++ [v]) [v0]

/-- The threaded prover under some scheduler. What the threads do is not determined by the state of
the prover alone, so the state carries an arbitrary state `τ` of the scheduler in addition. -/
structure Scheduled {τ : Type} (C : Circuit) (A : Cmt.ProverApi (Prover F × τ) F) : Prop where
  evaluate : ∀ s : Prover F × τ, match (ParaTrack.evaluate C : Outcome (List (List F))) with
    | .ok vals => ∃ t, A.evaluate s =
        .ok (({ s.1 with circuitValue := valueFn vals }, t), valueFn vals (C.depth - 1))
    | .assertFail => A.evaluate s = .assertFail
    | .undefined => A.evaluate s = .undefined
    | _ => True
  vRes : ∀ (s : Prover F × τ) omr r result rSize outputSize,
    VRes omr r result rSize outputSize (A.vRes s omr r result rSize outputSize)
  sumcheckInit : ∀ (s : Prover F × τ) layerId g u v a b r0 r1 omr0 omr1,
    (A.sumcheckInit s layerId g u v a b r0 r1 omr0 omr1).1 =
      s.1.sumcheckInit layerId g u v a b r0 r1 omr0 omr1
  phase1Init : ∀ s : Prover F × τ, s.1.Phase1Init C (A.phase1Init s).1
  phase1Update : ∀ (s : Prover F × τ) prev bit, ∃ s' msg, A.phase1Update s prev bit = .ok (s', msg) ∧
    s.1.Phase1Update prev bit s'.1 msg
  phase2Init : ∀ (s : Prover F × τ) prev ru omru, ∃ s', A.phase2Init s prev ru omru = .ok s' ∧
    s.1.Phase2Init C prev ru omru s'.1
  phase2Update : ∀ (s : Prover F × τ) prev bit, ∃ s' msg, A.phase2Update s prev bit = .ok (s', msg) ∧
    s.1.Phase2Update prev bit s'.1 msg
  finalize : ∀ (s : Prover F × τ) prev, (A.finalize s prev).1.1 = (s.1.finalize prev).1 ∧
    (A.finalize s prev).2 = (s.1.finalize prev).2

/-! ## The verifier -/

/-- The input table of the verifier (verifier_fast_para_track.cpp:348-362): every input gate must have
type 3. -/
def verifierInput (C : Circuit) : Outcome (ℕ → F) :=
  loopM (2 ^ C.bl 0) (fun g T =>
    if (C.gate 0 g).ty = 3 then return Function.update T g (ofCInt (C.gate 0 g).u)
    else .assertFail) (fun _ => 0)

/-- `verifier::verify()` (verifier_fast_para_track.cpp:199-382): the traditional verifier with the
stricter input table. -/
def verify [DecidableEq F] {σ : Type} (C : Circuit) (A : Cmt.ProverApi σ F) (tables : BetaTables F)
    (ch : Challenges F) : Outcome Unit := do
  let (p, result) ← A.evaluate A.start
  let top := C.depth - 1
  let omr0 := oneMinus ch.r0
  let omr1 := oneMinus ch.r1
  let a0 := A.vRes p omr0 ch.r0 result (C.bl top) (2 ^ C.bl top)
  let a0 := 1 * a0
  let s ← loopDownM top (Cmt.layerStep C A ch)
    { prover := p, alpha := 1, beta := 0, sum := a0, r0 := ch.r0, r1 := ch.r1, omr0 := omr0,
      omr1 := omr1, tables := tables }
  let input ← verifierInput C
  let input0 := foldOutput s.omr0 s.r0 input (C.bl 0) (2 ^ C.bl 0)
  let input1 := foldOutput s.omr1 s.r1 input (C.bl 0) (2 ^ C.bl 0)
  Outcome.check (s.sum == input0 * s.alpha + input1 * s.beta)

end Libra.ParaTrack
