import Verif.Model.ZkProver

/-!
# The zero-knowledge verifier

Model of `/repo/src/linear_gkr/zk_verifier.cpp` (195-1258: `predicates`, `direct_relay`,
`beta_init`, `verify`). The transcript and its hash are not part of this file: the challenges are an
argument. Timing, proof size and the final output file are omitted.
-/

namespace Libra.Zk
open Libra.FastTrack (oneMinus)
variable {F : Type} [CommRing F]

/-- a table split into two halves (`*_first_half`, `*_second_half`) -/
structure Halves (F : Type) where
  first : ℕ → F
  second : ℕ → F

/-- The tables of `class zk_verifier` (zk_verifier.h): either `beta_*_half` or `beta_*_block_*_half`. -/
structure BetaHalves (F : Type) where
  g0 : Halves F
  g1 : Halves F
  u : Halves F
  v : Halves F

/-- the tables of all layers and those of one block of a parallel layer -/
structure VTables (F : Type) where
  full : BetaHalves F
  block : BetaHalves F

/-- filling one pair of half tables for `n` variables, `n / 2` of them in the first half
(zk_verifier.cpp:674-704 for one of the two tables filled together) -/
def fillHalves (old : Halves F) (init : F) (n : ℕ) (r omr : ℕ → F) : Halves F where
  first := doubling2 r omr 0 (n / 2) (setZero old.first init)
  second := doubling2 r omr (n / 2) (n - n / 2) (setZero old.second 1)

/-- the four tables for `ng` variables of the layer and `nu` variables of the layer below -/
def fillBeta (old : BetaHalves F) (ng nu : ℕ) (alpha beta : F)
    (r0 r1 ru rv omr0 omr1 omru omrv : ℕ → F) : BetaHalves F where
  g0 := fillHalves old.g0 alpha ng r0 omr0
  g1 := fillHalves old.g1 beta ng r1 omr1
  u := fillHalves old.u 1 nu ru omru
  v := fillHalves old.v 1 nu rv omrv

/-- `zk_verifier::beta_init` (zk_verifier.cpp:665-816), with `debug_mode = false` -/
def betaInit (C : Circuit) (old : VTables F) (depth : ℕ) (alpha beta : F)
    (r0 r1 ru rv omr0 omr1 omru omrv : ℕ → F) : VTables F :=
  if (C.layer depth).isParallel then
    ⟨old.full, fillBeta old.block (C.layer depth).logBlockSize (C.layer (depth - 1)).logBlockSize
      alpha beta r0 r1 ru rv omr0 omr1 omru omrv⟩
  else
    ⟨fillBeta old.full (C.bl depth) (C.bl (depth - 1)) alpha beta r0 r1 ru rv omr0 omr1 omru omrv,
      old.block⟩

/-- `T_first_half[i & mask] * T_second_half[i >> first_half]` -/
def Halves.get (T : Halves F) (n i : ℕ) : F := halves (n / 2) T.first T.second i

/-- `ret[t] = ret[t] + x` -/
def addTo (ret : ℕ → F) (t : ℕ) (x : F) : ℕ → F := Function.update ret t (ret t + x)

/-- The loop of the sum gate (zk_verifier.cpp:527-541, and for a block 278-296) -/
def sumLoop (tu : ℕ → F) (bg bv0 : F) (u v : ℕ) (s : F) : F :=
  loopFrom u v (fun j s => s + bg * bv0 * tu j) s

/-- The loop of the exp-sum gate (zk_verifier.cpp:542-561, and for a block 297-319): the loop runs
to `v` included and `beta_v_0` doubles. `vEnd` is `v + 1`. -/
def expLoop (tu : ℕ → F) (bg bv0 : F) (u vEnd : ℕ) (s : F) : F :=
  (loopFrom u vEnd (fun j (st : F × F) => (st.1 + bg * st.2 * tu j, st.2 + st.2)) (s, bv0)).1

/-- The switch of the non-parallel branch of `predicates` for gate `i` (zk_verifier.cpp:484-632).
`bg` is the value of the two g tables at `i`; the relay gate (case 10) reads `tmp_u_val[u]`, which is
the u table at `u` times the v table at 0. -/
def plainCase (g : Gate) (bg : F) (tu tv : ℕ → F) (ret : ℕ → F) : ℕ → F :=
  let u := g.u.toNat
  let v := g.v.toNat
  if g.ty = 0 ∨ g.ty = 1 ∨ g.ty = 6 ∨ g.ty = 7 ∨ g.ty = 8 ∨ g.ty = 9 ∨ g.ty = 13 then
    addTo ret g.ty.toNat (bg * tu u * tv v)
  else if g.ty = 10 then addTo ret 10 (bg * (tu u * tv 0))
  else if g.ty = 5 then Function.update ret 5 (sumLoop tu bg (tv 0) u v (ret 5))
  else if g.ty = 12 then Function.update ret 12 (expLoop tu bg (tv 0) u (g.v + 1).toNat (ret 12))
  else ret

/-- The same switch for a gate of the first block of a parallel layer (zk_verifier.cpp:228-411), for
one of `one_block_alpha`, `one_block_beta`: operands are masked with `2^nu - 1`, and the relay gate
is treated like the others. -/
def blockCase (g : Gate) (nu : ℕ) (bg : F) (tu tv : ℕ → F) (ret : ℕ → F) : ℕ → F :=
  let u := g.u.toNat &&& (2 ^ nu - 1)
  let v := g.v.toNat &&& (2 ^ nu - 1)
  if g.ty = 0 ∨ g.ty = 1 ∨ g.ty = 6 ∨ g.ty = 7 ∨ g.ty = 8 ∨ g.ty = 9 ∨ g.ty = 10 ∨ g.ty = 13 then
    addTo ret g.ty.toNat (bg * (tu u * tv v))
  else if g.ty = 5 then Function.update ret 5 (sumLoop tu bg (tv 0) u v (ret 5))
  else if g.ty = 12 then Function.update ret 12 (expLoop tu bg (tv 0) u (v + 1) (ret 12))
  else ret

/-- The products over the bits of the copy number (zk_verifier.cpp:420-434): `rg` is `r_0` or `r_1`
shifted by the block size of the layer, `ru`, `rv` are shifted by the block size below. -/
def copyPrefix (m : ℕ) (rg ru rv : ℕ → F) (i : ℕ) : F :=
  loop m (fun j s => if i.testBit j then s * rg j * (ru j * rv j)
    else s * (1 - rg j) * ((1 - ru j) * (1 - rv j))) 1

/-- The same with the second operand at 0 (zk_verifier.cpp:435-449). -/
def copyPrefix0 (m : ℕ) (rg ru rv : ℕ → F) (i : ℕ) : F :=
  loop m (fun j s => if i.testBit j then s * rg j * (ru j * (1 - rv j))
    else s * (1 - rg j) * ((1 - ru j) * (1 - rv j))) 1

/-- `zk_verifier::predicates` (zk_verifier.cpp:195-650), with `debug_mode = false`. The final loop
only reduces values that are reduced already and compares `ret` with itself. -/
def predicates (C : Circuit) (T : VTables F) (depth : ℕ) (r0 r1 ru rv : ℕ → F) :
    Outcome (ℕ → F) := do
  if depth = 1 then return fun _ => 0
  let L := C.layer depth
  if L.isParallel then
    Outcome.assert (2 ^ L.logBlockSize == L.blockSize)
    let ng := L.logBlockSize
    let nu := (C.layer (depth - 1)).logBlockSize
    let B := T.block
    let blocks := loop (2 ^ ng) (fun i (s : (ℕ → F) × (ℕ → F)) =>
      (blockCase (C.gate depth i) nu (B.g0.get ng i) (B.u.get nu) (B.v.get nu) s.1,
       blockCase (C.gate depth i) nu (B.g1.get ng i) (B.u.get nu) (B.v.get nu) s.2))
      ((fun _ => 0), (fun _ => 0))
    let sg0 := fun j => r0 (j + ng)
    let sg1 := fun j => r1 (j + ng)
    let su := fun j => ru (j + nu)
    let sv := fun j => rv (j + nu)
    return loop L.repeatNum (fun i (ret : ℕ → F) => fun j =>
      if j = 6 ∨ j = 10 ∨ j = 5 ∨ j = 12 then
        ret j + copyPrefix0 L.logRepeatNum sg0 su sv i * blocks.1 j
          + copyPrefix0 L.logRepeatNum sg1 su sv i * blocks.2 j
      else
        ret j + copyPrefix L.logRepeatNum sg0 su sv i * blocks.1 j
          + copyPrefix L.logRepeatNum sg1 su sv i * blocks.2 j) (fun _ => 0)
  else
    let B := T.full
    let ng := C.bl depth
    let nu := C.bl (depth - 1)
    return loop (2 ^ ng) (fun i ret =>
      plainCase (C.gate depth i) (B.g0.get ng i + B.g1.get ng i) (B.u.get nu) (B.v.get nu) ret)
      (fun _ => 0)

/-- The combination of the predicates with the claimed values (the third argument of the call of
`sumcheck_finalround`, zk_verifier.cpp:1073, and again in the final check, 1164). -/
def general (pv : ℕ → F) (vu vv : F) : F :=
  pv 0 * (vu + vv) + pv 1 * vu * vv + pv 6 * (1 - vu) + pv 7 * (vu - vv)
    + pv 8 * (vu + vv - 2 * vu * vv) + pv 9 * (vv - vu * vv) + pv 5 * vu + pv 10 * vu
    + pv 12 * vu + pv 13 * (vu * (1 - vv))

/-! ## The prover as the verifier sees it -/

/-- What the verifier can do with a zk prover: call the member functions, and read the public
members `v_u`, `maskpoly_sumc`, `prepreu1`, `preprev1`, `Iuv`, `preZu`, `preZv`, `Zu`. The keys of
the commitment schemes are global variables filled by calls made by the prover. A dishonest prover
is any value of this type. -/
structure ProverApi (σ F G1 G2 : Type) where
  start : σ
  evaluate : σ → Outcome (σ × (ℕ → F))
  keygenAndCommit : σ → ℕ → Outcome (σ × InputVpd.Commitment G1)
  vRes : σ → (omr r : ℕ → F) → (result : ℕ → F) → (rSize outputSize : ℕ) → F
  sumcheckInit : σ → (layerId g u v : ℕ) → (a b : F) → (r0 r1 omr0 omr1 : ℕ → F) →
    Outcome (σ × (G1 × G1))
  maskPreRho : σ → (len : ℕ) → Outcome (σ × (G1 × G1))
  setRho : σ → F → σ
  maskAfterRho : σ → (len : ℕ) → σ
  sumc : σ → F
  phase1Init : σ → σ
  phase1Update : σ → F → ℕ → σ × QuadraticPoly F
  phase1Last : σ → F → ℕ → σ × QuintuplePoly F
  phase2Init : σ → F → (ru omru : ℕ → F) → Outcome σ
  phase2Update : σ → F → ℕ → σ × QuadraticPoly F
  phase2Last : σ → F → ℕ → σ × QuintuplePoly F
  vU : σ → F
  finalize : σ → F → σ × (F × F)
  finalround : σ → F → ℕ → F → σ × QuadraticPoly F
  prepreu1 : σ → F
  preprev1 : σ → F
  proveR : σ → (ℕ → ℕ) → Outcome (σ × VpdR.Opening G1)
  proveMask : σ → (ℕ → ℕ) → Outcome (σ × VpdR.Opening G1)
  Iuv : σ → F
  preZu : σ → F
  preZv : σ → F
  Zu : σ → F
  proveInput : σ → (ℕ → ℕ) → ℕ → Outcome (σ × VpdR.Opening G1)
  keyR : σ → VpdKey G1 G2
  keyMask : σ → VpdKey G1 G2
  keyInput : σ → InputVpd.Key G1 G2

/-- The random field elements drawn by `verify()`; `rho`, `rc` are new compared with the plain
protocol. -/
structure Challenges (F : Type) extends FastTrack.Challenges F where
  rho : ℕ → F
  rc : ℕ → F

/-- The local variables of `verify()` that live across iterations of the layer loop. -/
structure VState (σ F : Type) where
  prover : σ
  alpha : F
  beta : F
  sum : F
  r0 : ℕ → F
  r1 : ℕ → F
  omr0 : ℕ → F
  omr1 : ℕ → F
  tables : VTables F

variable {G1 G2 GT : Type} [AddCommGroup G1] [AddCommGroup G2] [AddCommGroup GT]
  [Module (ZMod Spec.p) G1] [Module (ZMod Spec.p) G2] [Module (ZMod Spec.p) GT] [Gmp F]

/-- The honest prover with the randomness `coins`. -/
def honest (E : Pairing G1 G2 GT) (C : Circuit) (coins : Coins F) (junk : Prover F G1 G2) :
    ProverApi (Prover F G1 G2) F G1 G2 where
  start := junk.fresh
  evaluate P := do
    let vals ← Libra.evaluate .zk C
    return ({ P with base := { P.base with circuitValue := FastTrack.valueFn vals } },
      FastTrack.valueFn vals (C.depth - 1))
  keygenAndCommit := Prover.keygenAndCommit E C coins
  vRes _ omr r result rSize outputSize := foldOutput omr r result rSize outputSize
  sumcheckInit := Prover.sumcheckInit E coins
  maskPreRho := Prover.maskPreRho E coins
  setRho P rho := { P with rho := rho }
  maskAfterRho := Prover.maskAfterRho
  sumc P := P.sumc
  phase1Init := Prover.phase1Init C
  phase1Update := Prover.phase1Update
  phase1Last := Prover.phase1Last
  phase2Init := Prover.phase2Init C
  phase2Update := Prover.phase2Update
  phase2Last := Prover.phase2Last
  vU P := P.base.vU
  finalize := Prover.finalize
  finalround := Prover.finalround
  prepreu1 P := P.prepreu1
  preprev1 P := P.preprev1
  proveR := Prover.proveR coins
  proveMask P R := do return (P, ← P.proveMask coins R)
  Iuv P := P.Iuv
  preZu P := P.preZu
  preZv P := P.preZv
  Zu P := P.Zu
  proveInput P R Z := do return (P, ← P.proveInput coins R Z)
  keyR P := P.keyR
  keyMask P := P.keyMask
  keyInput P := P.keyInput

variable [DecidableEq F] [DecidableEq GT] {σ : Type}

/-- One round of phase 1 (zk_verifier.cpp:938-986): `n` is the number of rounds. -/
def round1 (A : ProverApi σ F G1 G2) (n : ℕ) (ru : ℕ → F) (j : ℕ) (s : σ × F × F) :
    Outcome (σ × F × F) :=
  if j + 1 = n then do
    let (p, poly) := A.phase1Last s.1 s.2.2 j
    Outcome.check (poly.eval 0 + poly.eval 1 == s.2.1)
    return (p, poly.eval (ru j), ru j)
  else do
    let (p, poly) := A.phase1Update s.1 s.2.2 j
    Outcome.check (poly.eval 0 + poly.eval 1 == s.2.1)
    return (p, poly.eval (ru j), ru j)

/-- One round of phase 2 (zk_verifier.cpp:994-1041). -/
def round2 (A : ProverApi σ F G1 G2) (n layer : ℕ) (rv : ℕ → F) (relay : F) (j : ℕ)
    (s : σ × F × F) : Outcome (σ × F × F) :=
  let rvj := if layer = 1 then 0 else rv j
  if j + 1 = n then do
    let (p, poly) := A.phase2Last s.1 s.2.2 j
    Outcome.check (poly.eval 0 + poly.eval 1 + relay * A.vU p == s.2.1)
    return (p, poly.eval rvj + relay * A.vU p, rvj)
  else do
    let (p, poly) := A.phase2Update s.1 s.2.2 j
    Outcome.check (poly.eval 0 + poly.eval 1 + relay * A.vU p == s.2.1)
    return (p, poly.eval rvj + relay * A.vU p, rvj)

/-- One iteration of the layer loop of `verify()` (zk_verifier.cpp:897-1189). The openings `ans` come
back as integers and are turned into field elements through their decimal strings; here this is the
cast (for `ans < p` the same by `C06_u512`; the honest answers are below `p`). -/
def layerStep (E : Pairing G1 G2 GT) (C : Circuit) (A : ProverApi σ F G1 G2) (ch : Challenges F)
    (i : ℕ) (s : VState σ F) : Outcome (VState σ F) := do
  let n := C.bl (i - 1)
  let rho := ch.rho i
  let (p, digestR) ← A.sumcheckInit s.prover i (C.bl i) n n s.alpha s.beta s.r0 s.r1 s.omr0 s.omr1
  let (p, digestM) ← A.maskPreRho p (n * 2 + 1)
  let p := A.setRho p rho
  let p := A.maskAfterRho p (n * 2 + 1)
  let rCc := Vpd.checkCommit E (A.keyR p) digestR.1 digestR.2
  let mCc := Vpd.checkCommit E (A.keyMask p) digestM.1 digestM.2
  let sum := s.sum + A.sumc p
  let p := A.phase1Init p
  let ru := ch.ru i
  let relay := s.alpha * FastTrack.directRelay C i s.r0 ru
    + s.beta * FastTrack.directRelay C i s.r1 ru
  let omru := oneMinus ru
  let omrv := oneMinus (ch.rv i)
  let (p, sum, prev) ← loopM n (round1 A n ru) (p, sum, 0)
  let p ← A.phase2Init p prev ru omru
  let (p, sum, prev) ← loopM n (round2 A n i (ch.rv i) relay) (p, sum, 0)
  let rv := fun j => if i = 1 then 0 else ch.rv i j
  let (p, vu, vv) := A.finalize p prev
  let T := betaInit C s.tables i s.alpha s.beta s.r0 s.r1 ru rv s.omr0 s.omr1 omru omrv
  let pv ← predicates C T i s.r0 s.r1 ru rv
  let (p, poly) := A.finalround p prev (n <<< 1) (general pv vu vv)
  Outcome.check (poly.eval 0 + poly.eval 1 + relay * vu == sum)
  let rc := if i = 1 then 0 else ch.rc i
  let sum := poly.eval rc + relay * A.vU p
  let rR : ℕ → ℕ := fun k => if k = 0 then Gmp.toMpz (A.prepreu1 p) else Gmp.toMpz rc
  let (p, o1) ← A.proveR p rR
  let v1 ← VpdR.verify E (A.keyR p) rR digestR.1 o1.ans o1.witness o1.witnessa
  let rR : ℕ → ℕ := fun k => if k = 0 then Gmp.toMpz (A.preprev1 p) else Gmp.toMpz rc
  let (p, o2) ← A.proveR p rR
  let v2 ← VpdR.verify E (A.keyR p) rR digestR.1 o2.ans o2.witness o2.witnessa
  Outcome.check ((v1 && v2) && rCc)
  let rM : ℕ → ℕ := fun k => if k < n then Gmp.toMpz (ru k)
    else if k < n + n then Gmp.toMpz (rv (k - n)) else Gmp.toMpz rc
  let (p, o3) ← A.proveMask p rM
  let v3 ← VpdTest.verify E (A.keyMask p) (n + n + 1) rM digestM.1 o3.ans o3.witness o3.witnessa
  Outcome.check (mCc && v3)
  Outcome.check (sum == rc * general pv vu vv + s.alpha * A.Iuv p * A.preZu p * (o1.ans : F)
    + s.beta * A.Iuv p * A.preZv p * (o2.ans : F) + rho * (o3.ans : F) + relay * vu)
  return { prover := p, alpha := ch.alpha i, beta := ch.beta i,
           sum := if i ≠ 1 then ch.alpha i * vu + ch.beta i * vv else vu,
           r0 := ru, r1 := rv, omr0 := omru, omr1 := omrv, tables := T }

/-- `zk_verifier::verify()` (zk_verifier.cpp:846-1258). `ok` means it returns true. `tables` is the
initial content of the (uninitialised) beta tables. -/
def verify (E : Pairing G1 G2 GT) (C : Circuit) (A : ProverApi σ F G1 G2) (tables : VTables F)
    (ch : Challenges F) : Outcome Unit := do
  let (p, result) ← A.evaluate A.start
  let (p, digest) ← A.keygenAndCommit p (C.bl 0)
  let top := C.depth - 1
  let omr0 := oneMinus ch.r0
  let omr1 := oneMinus ch.r1
  let a0 := A.vRes p omr0 ch.r0 result (C.bl top) (2 ^ C.bl top)
  let a0 := 1 * a0
  let s ← loopDownM top (layerStep E C A ch)
    { prover := p, alpha := 1, beta := 0, sum := a0, r0 := ch.r0, r1 := ch.r1, omr0 := omr0,
      omr1 := omr1, tables := tables }
  let r : ℕ → ℕ := fun j => Gmp.toMpz (s.r0 j)
  let (p, o) ← A.proveInput s.prover r (Gmp.toMpz (A.Zu s.prover))
  let v ← InputVpd.verify E (A.keyInput p) (C.bl 0) r digest.digest digest.digest2
    (Gmp.toMpz (A.Zu p)) o.ans o.witness o.witnessa
  Outcome.check v
  Outcome.check (s.sum == (o.ans : F))

end Libra.Zk
