import Verif.Model.ZkVerifier
import Verif.Model.Transcript
import Verif.Proofs.Gmp

/-!
# The zk verifier with its transcript

`zk_verifier::verify` draws its challenges from the transcript (`generate_randomness`,
zk_verifier.cpp:818-824) and records the prover's messages in it. `Verif.Model.ZkVerifier` takes the
challenges as an argument; here the same code is modelled together with the transcript.

Simplification: `enc` gives the bytes of a group element. In the code these are the bytes of the
projective coordinates in memory, so they depend on the representative; the code reads them only to
put them into the transcript. The vectors of digests and witnesses have the lengths of the honest prover's.
-/

namespace Libra.Zk
open Transcript FastTrack
variable {G1 G2 GT : Type} [AddCommGroup G1] [AddCommGroup G2] [AddCommGroup GT]
  [Module (ZMod Spec.p) G1] [Module (ZMod Spec.p) G2] [Module (ZMod Spec.p) GT] [DecidableEq GT]
  {σ : Type} {B : ℕ}

/-- A field element made by `random`; these are canonical (`C37_random`). -/
def challenge (x : FE) : Fp := if h : x.toNat < Spec.p then ⟨x, h⟩ else 0

/-- `generate_randomness(size)` (zk_verifier.cpp:818-824): an array of `size` elements -/
def draw (mix : Mix) (msg : List (Container B)) (size : ℕ) :
    Outcome ((ℕ → Fp) × List (Container B)) := do
  let (r, msg) ← random mix msg size
  return (fun j => challenge (r.getD j U512.zero), msg)

/-- `trans.msg.push_back(container(x))` for a list of curve elements -/
def points (enc : G1 → Fin B → BitVec 8) (l : List G1) : List (Container B) := l.map (fun x => .curve (enc x))

/-- `trans.msg.push_back(container(x, fld_ele_indicator))` for a list of field elements -/
def numbers (l : List Fp) : List (Container B) := l.map (fun x => .field x.val)

/-- the pushes of an opening of `m` witnesses (e.g. zk_verifier.cpp:1092-1095) -/
def openingMsg (enc : G1 → Fin B → BitVec 8) (m : ℕ) (o : VpdR.Opening G1) : List (Container B) :=
  points enc ((List.range m).map o.witness) ++ points enc ((List.range m).map o.witnessa)

@[inherit_doc round1]
def round1FS (A : ProverApi σ Fp G1 G2) (n : ℕ) (ru : ℕ → Fp) (j : ℕ) (s : (σ × Fp × Fp) × List (Container B)) :
    Outcome ((σ × Fp × Fp) × List (Container B)) :=
  if j + 1 = n then do
    let (p, poly) := A.phase1Last s.1.1 s.1.2.2 j
    let msg := s.2 ++ numbers [poly.a, poly.b, poly.c, poly.d, poly.e, poly.f]
    Outcome.check (poly.eval 0 + poly.eval 1 == s.1.2.1)
    return ((p, poly.eval (ru j), ru j), msg)
  else do
    let (p, poly) := A.phase1Update s.1.1 s.1.2.2 j
    let msg := s.2 ++ numbers [poly.a, poly.b, poly.c]
    Outcome.check (poly.eval 0 + poly.eval 1 == s.1.2.1)
    return ((p, poly.eval (ru j), ru j), msg)

@[inherit_doc round2]
def round2FS (A : ProverApi σ Fp G1 G2) (n layer : ℕ) (rv : ℕ → Fp) (relay : Fp) (j : ℕ)
    (s : (σ × Fp × Fp) × List (Container B)) : Outcome ((σ × Fp × Fp) × List (Container B)) :=
  let rvj := if layer = 1 then 0 else rv j
  if j + 1 = n then do
    let (p, poly) := A.phase2Last s.1.1 s.1.2.2 j
    let msg := s.2 ++ numbers [poly.a, poly.b, poly.c, poly.d, poly.e, poly.f]
    Outcome.check (poly.eval 0 + poly.eval 1 + relay * A.vU p == s.1.2.1)
    return ((p, poly.eval rvj + relay * A.vU p, rvj), msg)
  else do
    let (p, poly) := A.phase2Update s.1.1 s.1.2.2 j
    let msg := s.2 ++ numbers [poly.a, poly.b, poly.c]
    Outcome.check (poly.eval 0 + poly.eval 1 + relay * A.vU p == s.1.2.1)
    return ((p, poly.eval rvj + relay * A.vU p, rvj), msg)

/-- What is known at the start of the sum-check of a layer -/
structure LayerStart (σ : Type) (G1 : Type) where
  prover : σ
  digestR : G1 × G1
  digestM : G1 × G1
  rho : Fp
  ru : ℕ → Fp
  rv : ℕ → Fp
  rc : Fp

/-- The layer loop up to the first round of phase 1 (zk_verifier.cpp:899-936): all challenges of the layer
are drawn here. -/
def layerStartFS (mix : Mix) (enc : G1 → Fin B → BitVec 8) (C : Circuit) (A : ProverApi σ Fp G1 G2)
    (i : ℕ) (s : VState σ Fp) (msg : List (Container B)) :
    Outcome (LayerStart σ G1 × List (Container B)) := do
  let n := C.bl (i - 1)
  let (rho, msg) ← draw mix msg 1
  let rho := rho 0
  let (p, digestR) ← A.sumcheckInit s.prover i (C.bl i) n n s.alpha s.beta s.r0 s.r1 s.omr0 s.omr1
  let (p, digestM) ← A.maskPreRho p (n * 2 + 1)
  let msg := msg ++ points enc [digestM.1, digestM.2] ++ points enc [digestR.1, digestR.2]
  let p := A.setRho p rho
  let p := A.maskAfterRho p (n * 2 + 1)
  let (ru, msg) ← draw mix msg n
  let (rv, msg) ← draw mix msg n
  let (rc, msg) ← draw mix msg 1
  return (⟨p, digestR, digestM, rho, ru, rv, rc 0⟩, msg)

/-- The rest of the layer loop (zk_verifier.cpp:938-1189) -/
def layerRestFS (mix : Mix) (enc : G1 → Fin B → BitVec 8) (E : Pairing G1 G2 GT) (C : Circuit)
    (A : ProverApi σ Fp G1 G2) (i : ℕ) (s : VState σ Fp) (S : LayerStart σ G1) (msg : List (Container B)) :
    Outcome (VState σ Fp × List (Container B)) := do
  let n := C.bl (i - 1)
  let p := S.prover
  let rCc := Vpd.checkCommit E (A.keyR p) S.digestR.1 S.digestR.2
  let mCc := Vpd.checkCommit E (A.keyMask p) S.digestM.1 S.digestM.2
  let sum := s.sum + A.sumc p
  let p := A.phase1Init p
  let ru := S.ru
  let relay := s.alpha * FastTrack.directRelay C i s.r0 ru
    + s.beta * FastTrack.directRelay C i s.r1 ru
  let omru := oneMinus ru
  let omrv := oneMinus S.rv
  let ((p, sum, prev), msg) ← loopM n (round1FS A n ru) ((p, sum, 0), msg)
  let p ← A.phase2Init p prev ru omru
  let ((p, sum, prev), msg) ← loopM n (round2FS A n i S.rv relay) ((p, sum, 0), msg)
  let rv := fun j => if i = 1 then 0 else S.rv j
  let (p, vu, vv) := A.finalize p prev
  let T := betaInit C s.tables i s.alpha s.beta s.r0 s.r1 ru rv s.omr0 s.omr1 omru omrv
  let pv ← predicates C T i s.r0 s.r1 ru rv
  let (p, poly) := A.finalround p prev (n <<< 1) (general pv vu vv)
  Outcome.check (poly.eval 0 + poly.eval 1 + relay * vu == sum)
  let rc := if i = 1 then 0 else S.rc
  let sum := poly.eval rc + relay * A.vU p
  let rR : ℕ → ℕ := fun k => if k = 0 then Gmp.toMpz (A.prepreu1 p) else Gmp.toMpz rc
  let (p, o1) ← A.proveR p rR
  let msg := msg ++ openingMsg enc 3 o1
  let v1 ← VpdR.verify E (A.keyR p) rR S.digestR.1 o1.ans o1.witness o1.witnessa
  let rR : ℕ → ℕ := fun k => if k = 0 then Gmp.toMpz (A.preprev1 p) else Gmp.toMpz rc
  let (p, o2) ← A.proveR p rR
  let msg := msg ++ openingMsg enc 3 o2
  let v2 ← VpdR.verify E (A.keyR p) rR S.digestR.1 o2.ans o2.witness o2.witnessa
  Outcome.check ((v1 && v2) && rCc)
  let rM : ℕ → ℕ := fun k => if k < n then Gmp.toMpz (ru k)
    else if k < n + n then Gmp.toMpz (rv (k - n)) else Gmp.toMpz rc
  let (p, o3) ← A.proveMask p rM
  let msg := msg ++ openingMsg enc (n + n + 2) o3
  let v3 ← VpdTest.verify E (A.keyMask p) (n + n + 1) rM S.digestM.1 o3.ans o3.witness o3.witnessa
  Outcome.check (mCc && v3)
  Outcome.check (sum == rc * general pv vu vv + s.alpha * A.Iuv p * A.preZu p * (o1.ans : Fp)
    + s.beta * A.Iuv p * A.preZv p * (o2.ans : Fp) + S.rho * (o3.ans : Fp) + relay * vu)
  let (alpha, msg) ← draw mix msg 1
  let (beta, msg) ← draw mix msg 1
  return ({ prover := p, alpha := alpha 0, beta := beta 0,
            sum := if i ≠ 1 then alpha 0 * vu + beta 0 * vv else vu,
            r0 := ru, r1 := rv, omr0 := omru, omr1 := omrv, tables := T }, msg)

/-- One iteration of the layer loop (zk_verifier.cpp:897-1189) -/
def layerStepFS (mix : Mix) (enc : G1 → Fin B → BitVec 8) (E : Pairing G1 G2 GT) (C : Circuit)
    (A : ProverApi σ Fp G1 G2) (i : ℕ) (s : VState σ Fp × List (Container B)) :
    Outcome (VState σ Fp × List (Container B)) := do
  let (S, msg) ← layerStartFS mix enc C A i s.1 s.2
  layerRestFS mix enc E C A i s.1 S msg

/-- `verify()` up to the layer loop (zk_verifier.cpp:855-896): evaluation, commitment, and the random point
for the output -/
def startFS (mix : Mix) (enc : G1 → Fin B → BitVec 8) (C : Circuit) (A : ProverApi σ Fp G1 G2)
    (tables : VTables Fp) :
    Outcome ((VState σ Fp × InputVpd.Commitment G1) × List (Container B)) := do
  let (p, result) ← A.evaluate A.start
  let (p, digest) ← A.keygenAndCommit p (C.bl 0)
  let msg := points enc [digest.digest, digest.digesta] ++ points enc [digest.digest2, digest.digest2a]
  let top := C.depth - 1
  let (r0, msg) ← draw mix msg (C.bl top)
  let (r1, msg) ← draw mix msg (C.bl top)
  let omr0 := oneMinus r0
  let omr1 := oneMinus r1
  let a0 := A.vRes p omr0 r0 result (C.bl top) (2 ^ C.bl top)
  let a0 := 1 * a0
  return (({ prover := p, alpha := 1, beta := 0, sum := a0, r0 := r0, r1 := r1, omr0 := omr0,
             omr1 := omr1, tables := tables }, digest), msg)

/-- `zk_verifier::verify()` (zk_verifier.cpp:846-1258) with its transcript; `ok msg` means that it returns true
and writes the transcript `msg` to `proof.bin`. -/
def verifyFS (mix : Mix) (enc : G1 → Fin B → BitVec 8) (E : Pairing G1 G2 GT) (C : Circuit)
    (A : ProverApi σ Fp G1 G2) (tables : VTables Fp) : Outcome (List (Container B)) := do
  let ((s, digest), msg) ← startFS mix enc C A tables
  let (s, msg) ← loopDownM (C.depth - 1) (layerStepFS mix enc E C A) (s, msg)
  let r : ℕ → ℕ := fun j => Gmp.toMpz (s.r0 j)
  let (p, o) ← A.proveInput s.prover r (Gmp.toMpz (A.Zu s.prover))
  let msg := msg ++ openingMsg enc (C.bl 0 + 1) o
  let v ← InputVpd.verify E (A.keyInput p) (C.bl 0) r digest.digest digest.digest2
    (Gmp.toMpz (A.Zu p)) o.ans o.witness o.witnessa
  Outcome.check v
  Outcome.check (s.sum == (o.ans : Fp))
  return msg

end Libra.Zk
