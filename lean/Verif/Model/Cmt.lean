import Verif.Model.FastTrack

/-!
# The CMT prover and the traditional verifier

Model of `/repo/src/traditional_gkr/prover_clogc.cpp` (the `O(C log C)` prover of the CMT protocol)
and `/repo/src/traditional_gkr/verifier_traditional.cpp`. They know addition, multiplication and
dummy gates only. Operands that are used as array indexes are taken as `toNat` (on evaluable circuits
they are non-negative). Timing and logging are omitted. Reading the circuit file is not modelled
here.
-/

namespace Libra.Cmt
open FastTrack
variable {F : Type} [CommRing F]

/-! ## Evaluation -/

/-- The body of the loop of `prover::evaluate` for a gate of layer `i >= 1`
(prover_clogc.cpp:60-79): like the other provers, but with the types 0 to 3 only. -/
def evalGate (prev : List F) (g : Gate) : Outcome F :=
  if g.ty = 0 then do
    let x ← readAt prev g.u
    let y ← readAt prev g.v
    return x + y
  else if g.ty = 1 then do
    let x ← readAt prev g.u
    let y ← readAt prev g.v
    return x * y
  else if g.ty = 2 then return 0
  else if g.ty = 3 then return ofCInt g.u
  else .assertFail

/-- `prover::evaluate` (prover_clogc.cpp:35-91). `circuit_value` has 1000 entries
(prover_clogc.h:17), so a deeper circuit is written out of bounds. -/
def evaluate (C : Circuit) : Outcome (List (List F)) := do
  let L0 ← Outcome.read (C.layers[0]?)
  let v0 ← evalInput L0
  Outcome.assert (C.depth < 1000000)
  loopM (C.depth - 1) (fun k vals => do
    let L ← Outcome.read (C.layers[k + 1]?)
    let prev ← Outcome.read (vals[k]?)
    let v ← if k + 1 < 1000 then evalLayer L (evalGate prev) else .undefined
    return vals ++ [v]) [v0]

/-! ## One round

The two update functions (prover_clogc.cpp:217-321 and 352-454) differ in the operand of the gate
that is bound (`u` or `v`) and in the value that takes the place of the other operand
(`circuit_value[sumcheck_layer_id - 1][v]` or `v_u`). Both are parameters here: `w` and `o`. -/

/-- `from_string` (prover_clogc.cpp:205-215) -/
def fromString (s : String) : F :=
  s.toList.foldl (fun ret ch => ret * ofCInt 10 + ofCInt ((ch.toNat : ℤ) - 48)) 0

/-- `inv_2` (prover_clogc.cpp:303, 437) -/
def inv2 : F :=
  fromString "8399054365507916142470402071115866954879789801702376374514189432082785107975"

/-- `V_mult_add` is halved (prover_clogc.cpp:229-233, 364-368); `m` is `total_uv >> current_bit` -/
def bindV (prev : F) (m : ℕ) (V : ℕ → F) : ℕ → F :=
  loop m (fun i (V : ℕ → F) =>
    Function.update V i (V (i <<< 1) * ((1 : F) - prev) + V (i <<< 1 ||| 1) * prev)) V

/-- `beta_g_sum` is multiplied by the factor of one more bit of the operand
(prover_clogc.cpp:234-245, 334-345, 369-380) -/
def bindBeta (w : ℕ → ℕ) (prev : F) (bit m : ℕ) (B : ℕ → F) : ℕ → F :=
  loop m (fun i (B : ℕ → F) =>
    if (w i >>> bit) &&& 1 = 0 then Function.update B i (B i * (1 - prev))
    else Function.update B i (B i * prev)) B

/-- the arrays `add_linear` and `mult_linear` -/
structure Lins (F : Type) where
  add : ℕ → QuadraticPoly F
  mult : ℕ → QuadraticPoly F

/-- The switch over the gate type (prover_clogc.cpp:253-299, 388-433) for one gate. `a`, `b`, `c` of
the entries hold the values of the message at 2, 1 and 0. -/
def gateMsg (bit : ℕ) (ty : ℤ) (w : ℕ) (V : ℕ → F) (o β : F) (T : Lins F) : Outcome (Lins F) :=
  let t := w >>> (bit + 1)
  let cur := (w >>> bit) &&& 1
  let x := V (w >>> bit)
  let y := V ((w >>> bit) ^^^ 1)
  if ty = 0 then
    if cur = 0 then
      pure { T with add := Function.update T.add t { T.add t with
        c := (T.add t).c + β * (x + o), a := (T.add t).a + (0 - β) * (o - x + 2 * y) } }
    else
      pure { T with add := Function.update T.add t { T.add t with
        b := (T.add t).b + β * (x + o), a := (T.add t).a + (β + β) * (o + x + x - y) } }
  else if ty = 1 then
    if cur = 0 then
      pure { T with mult := Function.update T.mult t { T.mult t with
        c := (T.mult t).c + β * (x * o), a := (T.mult t).a + (0 - β) * o * (y + y - x) } }
    else
      pure { T with mult := Function.update T.mult t { T.mult t with
        b := (T.mult t).b + β * x * o, a := (T.mult t).a + (β + β) * o * (x + x - y) } }
  else if ty = 2 then pure T
  else .assertFail

/-- The conversion from the values at 2, 1, 0 to coefficients (prover_clogc.cpp:308-309, 442-443) -/
def interp (q : QuadraticPoly F) : QuadraticPoly F :=
  ⟨(q.a - q.c) * inv2 - (q.b - q.c), 2 * (q.b - q.c) - (q.a - q.c) * inv2, q.c⟩

/-- The arrays a round works on. -/
structure Core (F : Type) where
  V : ℕ → F
  bgs : ℕ → F
  lins : Lins F

/-- `sumcheck_phase1_update` (prover_clogc.cpp:217-321) with `w i = gates[i].u` and
`o i = circuit_value[sumcheck_layer_id - 1][gates[i].v]`, and `sumcheck_phase2_update` (352-454) with
`w i = gates[i].v` and `o i = v_u`. `N` is `1 << length_g`. -/
def Core.update (ty : ℕ → ℤ) (w : ℕ → ℕ) (o : ℕ → F) (N totalUv : ℕ) (K : Core F) (prev : F)
    (bit : ℕ) : Outcome (Core F × QuadraticPoly F) := do
  let V := if bit = 0 then K.V else bindV prev (totalUv >>> bit) K.V
  let bgs := if bit = 0 then K.bgs else bindBeta w prev (bit - 1) N K.bgs
  let m := totalUv >>> (bit + 1)
  let lins := loop m (fun i (T : Lins F) =>
    ⟨Function.update T.add i ⟨0, 0, 0⟩, Function.update T.mult i ⟨0, 0, 0⟩⟩) K.lins
  let lins ← loopM N (fun i T => gateMsg bit (ty i) (w i) V (o i) (bgs i) T) lins
  let s := loop m (fun i (s : Lins F × QuadraticPoly F) =>
    let add := Function.update s.1.add i (interp (s.1.add i))
    let mult := Function.update s.1.mult i (interp (s.1.mult i))
    (⟨add, mult⟩, (s.2.add (add i)).add (mult i))) (lins, ⟨0, 0, 0⟩)
  return (⟨V, bgs, s.1⟩, s.2)

/-! ## The prover -/

/-- The data members of `class prover` (prover_clogc.h:11-29) that carry protocol state. -/
structure Prover (F : Type) where
  circuitValue : ℕ → ℕ → F
  vU : F
  vV : F
  totalUv : ℕ
  layerId : ℕ
  lengthG : ℕ
  lengthU : ℕ
  lengthV : ℕ
  alpha : F
  beta : F
  r0 : ℕ → F
  r1 : ℕ → F
  omr0 : ℕ → F
  omr1 : ℕ → F
  core : Core F
  g0f : ℕ → F
  g0s : ℕ → F
  g1f : ℕ → F
  g1s : ℕ → F

/-- `prover::sumcheck_init` (prover_clogc.cpp:93-108) -/
def Prover.sumcheckInit (P : Prover F) (layerId g u v : ℕ) (a b : F) (r0 r1 omr0 omr1 : ℕ → F) :
    Prover F :=
  { P with r0 := r0, r1 := r1, alpha := a, beta := b, layerId := layerId, lengthG := g,
           lengthU := u, lengthV := v, omr0 := omr0, omr1 := omr1 }

/-- `V_mult_add[i] = circuit_value[sumcheck_layer_id - 1][i]` for `i < m`
(prover_clogc.cpp:158-161, 328-331) -/
def copyV (m : ℕ) (src V : ℕ → F) : ℕ → F := loop m (fun i V => Function.update V i (src i)) V

/-- `prover::sumcheck_phase1_init` (prover_clogc.cpp:150-203) -/
def Prover.phase1Init (C : Circuit) (P : Prover F) : Prover F :=
  let tot := 2 ^ C.bl (P.layerId - 1)
  let first := P.lengthG >>> 1
  let second := P.lengthG - first
  let g0f := doubling P.r0 P.omr0 0 first (setZero P.g0f P.alpha)
  let g1f := doubling P.r1 P.omr1 0 first (setZero P.g1f P.beta)
  let g0s := doubling P.r0 P.omr0 first second (setZero P.g0s 1)
  let g1s := doubling P.r1 P.omr1 first second (setZero P.g1s 1)
  let bgs := loop (2 ^ P.lengthG) (fun i T =>
    Function.update T i (halves first g0f g0s i + halves first g1f g1s i)) P.core.bgs
  { P with
    totalUv := tot, g0f := g0f, g1f := g1f, g0s := g0s, g1s := g1s
    core := { P.core with V := copyV tot (P.circuitValue (P.layerId - 1)) P.core.V, bgs := bgs } }

/-- `prover::sumcheck_phase1_update` (prover_clogc.cpp:217-321) -/
def Prover.phase1Update (C : Circuit) (P : Prover F) (prev : F) (bit : ℕ) :
    Outcome (Prover F × QuadraticPoly F) := do
  let s ← P.core.update (fun i => (C.gate P.layerId i).ty) (fun i => (C.gate P.layerId i).u.toNat)
    (fun i => P.circuitValue (P.layerId - 1) (C.gate P.layerId i).v.toNat) (2 ^ P.lengthG) P.totalUv
    prev bit
  return ({ P with core := s.1 }, s.2)

/-- `prover::sumcheck_phase2_init` (prover_clogc.cpp:323-350). With a previous layer of bit length 0
the operands are shifted by -1. -/
def Prover.phase2Init (C : Circuit) (P : Prover F) (prev : F) : Outcome (Prover F) :=
  let n := C.bl (P.layerId - 1)
  if n = 0 then .undefined
  else .ok { P with
    vU := P.core.V 0 * (1 - prev) + P.core.V 1 * prev
    core := { P.core with
      V := copyV P.totalUv (P.circuitValue (P.layerId - 1)) P.core.V
      bgs := bindBeta (fun i => (C.gate P.layerId i).u.toNat) prev (n - 1) (2 ^ P.lengthG)
        P.core.bgs } }

/-- `prover::sumcheck_phase2_update` (prover_clogc.cpp:352-454) -/
def Prover.phase2Update (C : Circuit) (P : Prover F) (prev : F) (bit : ℕ) :
    Outcome (Prover F × QuadraticPoly F) := do
  let s ← P.core.update (fun i => (C.gate P.layerId i).ty) (fun i => (C.gate P.layerId i).v.toNat)
    (fun _ => P.vU) (2 ^ P.lengthG) P.totalUv prev bit
  return ({ P with core := s.1 }, s.2)

/-- `prover::sumcheck_finalize` (prover_clogc.cpp:455-459) -/
def Prover.finalize (P : Prover F) (prev : F) : Prover F × (F × F) :=
  let vV := P.core.V 0 * (1 - prev) + P.core.V 1 * prev
  ({ P with vV := vV }, (P.vU, vV))

/-! ## The prover as the verifier sees it -/

/-- What the verifier can do with a prover. `σ` is the state of the prover. A dishonest prover is
any value of this type. -/
structure ProverApi (σ F : Type) where
  start : σ
  evaluate : σ → Outcome (σ × (ℕ → F))
  vRes : σ → (omr r : ℕ → F) → (result : ℕ → F) → (rSize outputSize : ℕ) → F
  sumcheckInit : σ → (layerId g u v : ℕ) → (a b : F) → (r0 r1 omr0 omr1 : ℕ → F) → σ
  phase1Init : σ → σ
  phase1Update : σ → F → ℕ → Outcome (σ × QuadraticPoly F)
  phase2Init : σ → F → (ru omru : ℕ → F) → Outcome σ
  phase2Update : σ → F → ℕ → Outcome (σ × QuadraticPoly F)
  finalize : σ → F → σ × (F × F)

/-- The honest prover of prover_clogc.cpp; `V_res` (8-33) is `foldOutput`. `junk` is the (arbitrary)
content of the uninitialised members of a freshly constructed `prover`. -/
def honest (C : Circuit) (junk : Prover F) : ProverApi (Prover F) F where
  start := junk
  evaluate P := do
    let vals ← evaluate C
    return ({ P with circuitValue := valueFn vals }, valueFn vals (C.depth - 1))
  vRes _ omr r result rSize outputSize := foldOutput omr r result rSize outputSize
  sumcheckInit := Prover.sumcheckInit
  phase1Init := Prover.phase1Init C
  phase1Update := Prover.phase1Update C
  phase2Init P prev _ _ := P.phase2Init C prev
  phase2Update := Prover.phase2Update C
  finalize := Prover.finalize

/-! ## The verifier -/

variable [DecidableEq F] {σ : Type}

/-- One round (verifier_traditional.cpp:253-271 with `upd = sumcheck_phase1_update`, 281-295 with
`upd = sumcheck_phase2_update`). The state is the prover, `alpha_beta_sum` and `previous_random`. -/
def round (upd : σ → F → ℕ → Outcome (σ × QuadraticPoly F)) (r : ℕ → F) (j : ℕ) (s : σ × F × F) :
    Outcome (σ × F × F) := do
  let (p, poly) ← upd s.1 s.2.2 j
  Outcome.check (poly.eval 0 + poly.eval 1 == s.2.1)
  return (p, poly.eval (r j), r j)

/-- One iteration of the layer loop of `verify()` (verifier_traditional.cpp:234-340). `beta_init`
(118-155), `add` and `mult` (83-116) are the functions of the fast verifier. -/
def layerStep (C : Circuit) (A : ProverApi σ F) (ch : Challenges F) (i : ℕ) (s : VState σ F) :
    Outcome (VState σ F) := do
  let n := C.bl (i - 1)
  let p := A.sumcheckInit s.prover i (C.bl i) n n s.alpha s.beta s.r0 s.r1 s.omr0 s.omr1
  let p := A.phase1Init p
  let ru := ch.ru i
  let rv := ch.rv i
  let omru := oneMinus ru
  let omrv := oneMinus rv
  let (p, sum, prev) ← loopM n (round A.phase1Update ru) (p, s.sum, 0)
  let p ← A.phase2Init p prev ru omru
  let (p, sum, prev) ← loopM n (round A.phase2Update rv) (p, sum, 0)
  let (p, vu, vv) := A.finalize p prev
  let T := betaInit C s.tables i s.alpha s.beta s.r0 s.r1 ru rv s.omr0 s.omr1 omru omrv
  let mult := pred2 C T i 1
  let add := pred2 C T i 0
  Outcome.check (sum == add * (vu + vv) + mult * vu * vv)
  return { prover := p, alpha := ch.alpha i, beta := ch.beta i,
           sum := ch.alpha i * vu + ch.beta i * vv,
           r0 := ru, r1 := rv, omr0 := omru, omr1 := omrv, tables := T }

/-- `verifier::verify()` (verifier_traditional.cpp:193-381). `ok` means it returns true. The input
table (346-359) is that of the fast verifier; `V_in` (171-191) is `foldOutput`. `tables` is the
initial content of the (uninitialised) beta tables. -/
def verify (C : Circuit) (A : ProverApi σ F) (tables : BetaTables F) (ch : Challenges F) :
    Outcome Unit := do
  let (p, result) ← A.evaluate A.start
  let top := C.depth - 1
  let omr0 := oneMinus ch.r0
  let omr1 := oneMinus ch.r1
  let a0 := A.vRes p omr0 ch.r0 result (C.bl top) (2 ^ C.bl top)
  let a0 := 1 * a0
  let s ← loopDownM top (layerStep C A ch)
    { prover := p, alpha := 1, beta := 0, sum := a0, r0 := ch.r0, r1 := ch.r1, omr0 := omr0,
      omr1 := omr1, tables := tables }
  let input ← verifierInput C
  let input0 := foldOutput s.omr0 s.r0 input (C.bl 0) (2 ^ C.bl 0)
  let input1 := foldOutput s.omr1 s.r1 input (C.bl 0) (2 ^ C.bl 0)
  Outcome.check (s.sum == input0 * s.alpha + input1 * s.beta)

end Libra.Cmt
