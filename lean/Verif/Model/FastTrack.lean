import Verif.Model.Tables

/-!
# The plain GKR prover and verifier

Model of `/repo/src/linear_gkr/prover_fast_track.cpp` and
`/repo/src/linear_gkr/verifier_fast_track.cpp` (`sumcheck_*`, `beta_init`, the predicates and
`verify`). Gate operands are C `int`s; where the code uses them as array indexes the model uses
their `toNat` (on well-formed circuits they are non-negative). Timing and logging are omitted.
-/

namespace Libra.FastTrack
variable {F : Type} [CommRing F]

/-- The data members of `class prover` (prover_fast_track.h:12-52) that carry protocol state.
`circuit_value` is filled by `evaluate`. -/
structure Prover (F : Type) where
  circuitValue : ℕ → ℕ → F
  vU : F
  vV : F
  totalUv : ℕ
  layerId : ℕ
  lengthG : ℕ
  lengthU : ℕ
  lengthV : ℕ
  alpha : F
  beta : F
  r0 : ℕ → F
  r1 : ℕ → F
  omr0 : ℕ → F
  omr1 : ℕ → F
  tabs : Tabs F
  g0f : ℕ → F
  g0s : ℕ → F
  g1f : ℕ → F
  g1s : ℕ → F
  uf : ℕ → F
  us : ℕ → F
  betaU : ℕ → F
  betaGSum : ℕ → F

/-- `prover::sumcheck_init` (prover_fast_track.cpp:122-137) -/
def Prover.sumcheckInit (P : Prover F) (layerId g u v : ℕ) (a b : F) (r0 r1 omr0 omr1 : ℕ → F) :
    Prover F :=
  { P with r0 := r0, r1 := r1, alpha := a, beta := b, layerId := layerId, lengthG := g,
           lengthU := u, lengthV := v, omr0 := omr0, omr1 := omr1 }

/-- `tmp` of the gate loops: `beta_g_r0_fhalf[i & mask] * beta_g_r0_shalf[i >> first] +
beta_g_r1_fhalf[..] * beta_g_r1_shalf[..]` (prover_fast_track.cpp:238-239 and passim) -/
def Prover.tmpG (P : Prover F) (i : ℕ) : F :=
  halves (P.lengthG >>> 1) P.g0f P.g0s i + halves (P.lengthG >>> 1) P.g1f P.g1s i

/-- `prover::sumcheck_phase1_init` (prover_fast_track.cpp:177-321, with `var = .fastTrack`) and
`zk_prover::sumcheck_phase1_init` (zk_prover.cpp:420-607, with `var = .zk`; that class has no
`beta_g_sum`, which is never read anyway). -/
def Prover.phase1Init (var : Variant) (C : Circuit) (P : Prover F) : Prover F :=
  let V := P.circuitValue (P.layerId - 1)
  let tot := 2 ^ C.bl (P.layerId - 1)
  let first := P.lengthG >>> 1
  let second := P.lengthG - first
  let P := { P with
    totalUv := tot
    g0f := doubling P.r0 P.omr0 0 first (setZero P.g0f P.alpha)
    g1f := doubling P.r1 P.omr1 0 first (setZero P.g1f P.beta)
    g0s := doubling P.r0 P.omr0 first second (setZero P.g0s 1)
    g1s := doubling P.r1 P.omr1 first second (setZero P.g1s 1) }
  let bgs := loop (2 ^ P.lengthG) (fun i T => Function.update T i (P.tmpG i)) P.betaGSum
  let tabs := loop (2 ^ P.lengthG) (fun i T =>
    phase1Gate var P.tmpG V (C.gate P.layerId i) i T) (P.tabs.init tot V)
  { P with tabs := tabs, betaGSum := bgs }

/-- `sumcheck_phase1_update` (prover_fast_track.cpp:323-377) and `sumcheck_phase2_update`
(525-577). The final reductions of `ret` (`% mod`, `+ mod`, `% mod`) do not change its value. -/
def Prover.update (P : Prover F) (prev : F) (bit : ℕ) : Prover F × QuadraticPoly F :=
  let s := P.tabs.round (bit == 0) prev (P.totalUv >>> 1)
  ({ P with tabs := s.1, totalUv := P.totalUv >>> 1 }, s.2)

/-- The part of `sumcheck_phase2_init` after the computation of `v_u` (prover_fast_track.cpp:384-523,
zk_prover.cpp:812-995; the zk class has no `beta_u`, which is never read anyway). -/
def Prover.phase2Tables (var : Variant) (C : Circuit) (P : Prover F) (vU : F) (ru omru : ℕ → F) :
    Outcome (Prover F) := do
  let first := P.lengthU >>> 1
  let second := P.lengthU - first
  let uf := doubling ru omru 0 first (setZero P.uf 1)
  let us := doubling ru omru first second (setZero P.us 1)
  let betaU := loop (2 ^ P.lengthU) (fun i T => Function.update T i (halves first uf us i)) P.betaU
  let V := P.circuitValue (P.layerId - 1)
  let tot := 2 ^ C.bl (P.layerId - 1)
  let tabs ← loopM (2 ^ C.bl P.layerId) (fun i T =>
    phase2Gate var P.tmpG (halves first uf us) vU (C.gate P.layerId i) i T) (P.tabs.init tot V)
  return { P with vU := vU, uf := uf, us := us, betaU := betaU, totalUv := tot, tabs := tabs }

/-- `prover::sumcheck_phase2_init` (prover_fast_track.cpp:379-523) -/
def Prover.phase2Init (C : Circuit) (P : Prover F) (prev : F) (ru omru : ℕ → F) :
    Outcome (Prover F) :=
  P.phase2Tables .fastTrack C ((P.tabs.vMultAdd 0).eval prev) ru omru

/-- `prover::sumcheck_finalize` (prover_fast_track.cpp:578-582) -/
def Prover.finalize (P : Prover F) (prev : F) : Prover F × (F × F) :=
  let vV := (P.tabs.vMultAdd 0).eval prev
  ({ P with vV := vV }, (P.vU, vV))

/-! ## A phase driven with given challenges

How `verify()` calls the update functions (verifier_fast_track.cpp:488-503, 513-529): the previous
challenge is passed along, starting with 0. -/

/-- the previous challenge, 0 before the first round -/
def prevOf (r : ℕ → F) (k : ℕ) : F := if k = 0 then 0 else r (k - 1)

/-- the prover after `k` calls of the update function with the challenges `r` -/
def roundState (P : Prover F) (r : ℕ → F) : ℕ → Prover F
  | 0 => P
  | k + 1 => ((roundState P r k).update (prevOf r k) k).1

/-- the message of round `k` -/
def roundMsg (P : Prover F) (r : ℕ → F) (k : ℕ) : QuadraticPoly F :=
  ((roundState P r k).update (prevOf r k) k).2

/-! ## The prover as the verifier sees it -/

/-- What the verifier can do with a prover: call the member functions, and read the public member
`v_u`. `σ` is the state of the prover. A dishonest prover is any value of this type. -/
structure ProverApi (σ F : Type) where
  start : σ
  evaluate : σ → Outcome (σ × (ℕ → F))
  vRes : σ → (omr r : ℕ → F) → (result : ℕ → F) → (rSize outputSize : ℕ) → F
  sumcheckInit : σ → (layerId g u v : ℕ) → (a b : F) → (r0 r1 omr0 omr1 : ℕ → F) → σ
  phase1Init : σ → σ
  phase1Update : σ → F → ℕ → σ × QuadraticPoly F
  phase2Init : σ → F → (ru omru : ℕ → F) → Outcome σ
  phase2Update : σ → F → ℕ → σ × QuadraticPoly F
  vU : σ → F
  finalize : σ → F → σ × (F × F)

/-- `circuit_value` after `evaluate` -/
def valueFn (vals : List (List F)) (i j : ℕ) : F := ((vals[i]?.getD [])[j]?).getD 0

/-- The honest prover. `junk` is the (arbitrary) content of the uninitialised members of a freshly
constructed `prover`. -/
def honest (C : Circuit) (junk : Prover F) : ProverApi (Prover F) F where
  start := junk
  evaluate P := do
    let vals ← Libra.evaluate .fastTrack C
    return ({ P with circuitValue := valueFn vals }, valueFn vals (C.depth - 1))
  vRes _ omr r result rSize outputSize := foldOutput omr r result rSize outputSize
  sumcheckInit := Prover.sumcheckInit
  phase1Init := Prover.phase1Init .fastTrack C
  phase1Update := Prover.update
  phase2Init := Prover.phase2Init C
  phase2Update := Prover.update
  vU P := P.vU
  finalize := Prover.finalize

/-! ## The verifier -/

/-- The random field elements drawn by `verify()`: initial points, and for every layer the points
`r_u`, `r_v` and the coefficients `alpha`, `beta` drawn at its end. -/
structure Challenges (F : Type) where
  r0 : ℕ → F
  r1 : ℕ → F
  ru : ℕ → ℕ → F
  rv : ℕ → ℕ → F
  alpha : ℕ → F
  beta : ℕ → F

/-- The tables `beta_g_r0`, `beta_g_r1`, `beta_u`, `beta_v` of `class verifier`. -/
structure BetaTables (F : Type) where
  g0 : ℕ → F
  g1 : ℕ → F
  u : ℕ → F
  v : ℕ → F

/-- `verifier::beta_init` (verifier_fast_track.cpp:317-354). The tables are filled in separate
loops here; in the code the two g loops, and the two u, v loops, are fused. `old` is the previous
content. -/
def betaInit (C : Circuit) (old : BetaTables F) (depth : ℕ) (alpha beta : F)
    (r0 r1 ru rv omr0 omr1 omru omrv : ℕ → F) : BetaTables F where
  g0 := doubling2 r0 omr0 0 (C.bl depth) (setZero old.g0 alpha)
  g1 := doubling2 r1 omr1 0 (C.bl depth) (setZero old.g1 beta)
  u := doubling2 ru omru 0 (C.bl (depth - 1)) (setZero old.u 1)
  v := doubling2 rv omrv 0 (C.bl (depth - 1)) (setZero old.v 1)

/-- `add`, `mult`, `xor_gate`, `minus_gate`, `NAAB_gate` (verifier_fast_track.cpp:201-297): the
predicates of the two-input gates differ only in the gate type. -/
def pred2 (C : Circuit) (T : BetaTables F) (depth : ℕ) (ty : ℤ) : F :=
  loop (2 ^ C.bl depth) (fun i ret =>
    let g := C.gate depth i
    if g.ty = ty then ret + (T.g0 i + T.g1 i) * T.u g.u.toNat * T.v g.v.toNat else ret) 0

/-- `not_gate` (verifier_fast_track.cpp:236-249), `relay_gate` (403-419): the same with
`assert(v == 0)` -/
def pred1 (C : Circuit) (T : BetaTables F) (depth : ℕ) (ty : ℤ) : Outcome F :=
  loopM (2 ^ C.bl depth) (fun i ret =>
    let g := C.gate depth i
    if g.ty = ty then do
      Outcome.assert (g.v == 0)
      return ret + (T.g0 i + T.g1 i) * T.u g.u.toNat * T.v g.v.toNat
    else return ret) 0

/-- `sum_gate` (verifier_fast_track.cpp:299-315) -/
def sumGate (C : Circuit) (T : BetaTables F) (depth : ℕ) : F :=
  loop (2 ^ C.bl depth) (fun i ret =>
    let g := C.gate depth i
    if g.ty = 5 then
      loopFrom g.u.toNat g.v.toNat (fun j ret => ret + (T.g0 i + T.g1 i) * T.v 0 * T.u j) ret
    else ret) 0

/-- `direct_relay` (verifier_fast_track.cpp:356-367) -/
def directRelay (C : Circuit) (depth : ℕ) (rg ru : ℕ → F) : F :=
  if depth ≠ 1 then 0
  else loop (C.bl depth) (fun i ret => ret * (1 - rg i - ru i + 2 * rg i * ru i)) 1

/-- The local variables of `verify()` that live across iterations of the layer loop. -/
structure VState (σ F : Type) where
  prover : σ
  alpha : F
  beta : F
  sum : F
  r0 : ℕ → F
  r1 : ℕ → F
  omr0 : ℕ → F
  omr1 : ℕ → F
  tables : BetaTables F

variable [DecidableEq F] {σ : Type}

/-- One round of phase 1 (verifier_fast_track.cpp:488-503). The state is the prover, `alpha_beta_sum`
and `previous_random`. -/
def round1 (A : ProverApi σ F) (ru : ℕ → F) (j : ℕ) (s : σ × F × F) : Outcome (σ × F × F) := do
  let (p, poly) := A.phase1Update s.1 s.2.2 j
  Outcome.check (poly.eval 0 + poly.eval 1 == s.2.1)
  return (p, poly.eval (ru j), ru j)

/-- One round of phase 2 (verifier_fast_track.cpp:513-529). In layer 1 the challenge is replaced by
0. `fixed` is not in the code: it adds the check that in layer 1, where no gate has a second
operand, the message is the zero polynomial (used only to say what is missing). -/
def round2 (fixed : Bool) (A : ProverApi σ F) (layer : ℕ) (rv : ℕ → F) (relay : F) (j : ℕ)
    (s : σ × F × F) : Outcome (σ × F × F) := do
  let rvj := if layer = 1 then 0 else rv j
  let (p, poly) := A.phase2Update s.1 s.2.2 j
  Outcome.check (poly.eval 0 + poly.eval 1 + relay * A.vU p == s.2.1)
  Outcome.check (!fixed || layer != 1 || poly == ⟨0, 0, 0⟩)
  return (p, poly.eval rvj + relay * A.vU p, rvj)

/-- `generate_randomness` for `one_minus_r`: `one_minus_r[j] = 1 - r[j]` -/
def oneMinus (r : ℕ → F) : ℕ → F := fun j => 1 - r j

/-- One iteration of the layer loop of `verify()` (verifier_fast_track.cpp:462-575). In layer 1 the
entries of `r_v` are overwritten with 0 while `one_minus_r_v` keeps the values computed before. -/
def layerStep (fixed : Bool) (C : Circuit) (A : ProverApi σ F) (ch : Challenges F) (i : ℕ)
    (s : VState σ F) : Outcome (VState σ F) := do
  let n := C.bl (i - 1)
  let p := A.sumcheckInit s.prover i (C.bl i) n n s.alpha s.beta s.r0 s.r1 s.omr0 s.omr1
  let p := A.phase1Init p
  let ru := ch.ru i
  let relay := s.alpha * directRelay C i s.r0 ru + s.beta * directRelay C i s.r1 ru
  let omru := oneMinus ru
  let omrv := oneMinus (ch.rv i)
  let (p, sum, prev) ← loopM n (round1 A ru) (p, s.sum, 0)
  let p ← A.phase2Init p prev ru omru
  let (p, sum, prev) ← loopM n (round2 fixed A i (ch.rv i) relay) (p, sum, 0)
  let rv := fun j => if i = 1 then 0 else ch.rv i j
  let (p, vu, vv) := A.finalize p prev
  let T := betaInit C s.tables i s.alpha s.beta s.r0 s.r1 ru rv s.omr0 s.omr1 omru omrv
  let mult := pred2 C T i 1
  let add := pred2 C T i 0
  let notV ← pred1 C T i 6
  let minus := pred2 C T i 7
  let xor := pred2 C T i 8
  let naab := pred2 C T i 9
  let sumV := sumGate C T i
  let relayV ← pred1 C T i 10
  Outcome.check (sum == add * (vu + vv) + mult * vu * vv + relay * vu + notV * (1 - vu)
    + minus * (vu - vv) + xor * (vu + vv - 2 * vu * vv) + naab * (vv - vu * vv)
    + sumV * vu + relayV * vu)
  return { prover := p, alpha := ch.alpha i, beta := ch.beta i,
           sum := if i ≠ 1 then ch.alpha i * vu + ch.beta i * vv else vu,
           r0 := ru, r1 := rv, omr0 := omru, omr1 := omrv, tables := T }

/-- The input table built by the verifier (verifier_fast_track.cpp:581-595); an input layer with a
gate of another type fails an assertion. -/
def verifierInput (C : Circuit) : Outcome (ℕ → F) :=
  loopM (2 ^ C.bl 0) (fun g T =>
    if (C.gate 0 g).ty = 3 then return Function.update T g (ofCInt (C.gate 0 g).u)
    else if (C.gate 0 g).ty = 2 then return Function.update T g 0
    else .assertFail) (fun _ => 0)

/-- `verifier::verify()` (verifier_fast_track.cpp:421-604). `ok` means it returns true. `tables` is
the initial content of the (uninitialised) beta tables. -/
def verifyWith (fixed : Bool) (C : Circuit) (A : ProverApi σ F) (tables : BetaTables F)
    (ch : Challenges F) : Outcome Unit := do
  let (p, result) ← A.evaluate A.start
  let top := C.depth - 1
  let omr0 := oneMinus ch.r0
  let omr1 := oneMinus ch.r1
  let a0 := A.vRes p omr0 ch.r0 result (C.bl top) (2 ^ C.bl top)
  let a0 := 1 * a0
  let s ← loopDownM top (layerStep fixed C A ch)
    { prover := p, alpha := 1, beta := 0, sum := a0, r0 := ch.r0, r1 := ch.r1, omr0 := omr0,
      omr1 := omr1, tables := tables }
  let input ← verifierInput C
  let input0 := foldOutput s.omr0 s.r0 input (C.bl 0) (2 ^ C.bl 0)
  Outcome.check (s.sum == input0)

/-- the code as it is -/
def verify (C : Circuit) (A : ProverApi σ F) (tables : BetaTables F) (ch : Challenges F) :
    Outcome Unit := verifyWith false C A tables ch

end Libra.FastTrack
