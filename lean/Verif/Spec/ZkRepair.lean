import Verif.Model.ZkVerifier
import Verif.Spec.Masked
import Verif.Spec.Coins

/-!
# Specification: the zero-knowledge verifier with the missing checks

`Zk.layerStep` and `Zk.verify` with every check that `zk_verifier.cpp` leaves to the prover's
honesty. The lines marked `-- new` are not in the code; `rv` and `rc` are random in layer 1 too. The
commitments are taken to be ideal: `Committed` says to which polynomials the prover is committed, and
the openings are compared with the values of these polynomials.
-/

namespace Libra.Spec
open Zk FastTrack Finset

/-- What a prover is committed to. -/
structure Committed (σ F : Type) where
  /-- coefficients of the mask of the values of layer `i`, known when `sumcheck_init` of layer `i` has
  returned -/
  R : ℕ → σ → ℕ → F
  /-- the two coefficients of the mask of the input -/
  inputMask : ℕ → F
  /-- coefficients of the mask of the sum-check of a layer, known before `rho` -/
  mask : σ → ℕ → F

/-- The masks of the values of all layers are fixed before the protocol begins. -/
def Committed.Early {σ F : Type} (X : Committed σ F) : Prop := ∀ i s s', X.R i s = X.R i s'

variable {F : Type} [CommRing F]

/-- The factor of the mask of layer `i` at the point `r`. The output is not masked. -/
def maskFactor (C : Circuit) (i : ℕ) (r : ℕ → F) : F :=
  if i = C.depth - 1 then 0 else ∏ j ∈ range (C.bl i), (1 - r j) * r j

variable {G1 G2 GT : Type} [AddCommGroup G1] [AddCommGroup G2] [AddCommGroup GT]
  [Module (ZMod p) G1] [Module (ZMod p) G2] [Module (ZMod p) GT] [Gmp F]
  [DecidableEq F] [DecidableEq GT] {σ : Type}

/-- A round of phase 2 in which the prover may not change `v_u`. -/
def round2Fixed (A : ProverApi σ F G1 G2) (n : ℕ) (rv : ℕ → F) (relay vu : F) (j : ℕ)
    (s : σ × F × F) : Outcome (σ × F × F) := do
  let t ← round2 A n 2 rv relay j s
  Outcome.check (A.vU t.1 == vu)                                                       -- new
  return t

/-- One iteration of the layer loop with the missing checks. -/
def layerStepFixed (E : Pairing G1 G2 GT) (C : Circuit) (A : ProverApi σ F G1 G2) (X : Committed σ F)
    (ch : Zk.Challenges F) (i : ℕ) (s : Zk.VState σ F) : Outcome (Zk.VState σ F) := do
  let n := C.bl (i - 1)
  let rho := ch.rho i
  let (p, digestR) ← A.sumcheckInit s.prover i (C.bl i) n n s.alpha s.beta s.r0 s.r1 s.omr0 s.omr1
  let R := X.R i p                                                                     -- new
  let (p, digestM) ← A.maskPreRho p (n * 2 + 1)
  let g := X.mask p                                                                    -- new
  let p := A.setRho p rho
  let p := A.maskAfterRho p (n * 2 + 1)
  let rCc := Vpd.checkCommit E (A.keyR p) digestR.1 digestR.2
  let mCc := Vpd.checkCommit E (A.keyMask p) digestM.1 digestM.2
  Outcome.check (A.sumc p ==                                                           -- new
    ∑ b ∈ range (2 ^ (2 * n + 1)), rho * sumMaskPoly (2 * n + 1) g (corner b))
  let sum := s.sum + A.sumc p
  let p := A.phase1Init p
  let ru := ch.ru i
  let relay := s.alpha * directRelay C i s.r0 ru + s.beta * directRelay C i s.r1 ru
  let omru := oneMinus ru
  let omrv := oneMinus (ch.rv i)
  let (p, sum, prev) ← loopM n (Zk.round1 A n ru) (p, sum, 0)
  let p ← A.phase2Init p prev ru omru
  let u := A.vU p                                                                      -- new
  let (p, sum, prev) ← loopM n (round2Fixed A n (ch.rv i) relay u) (p, sum, 0)
  let rv := ch.rv i
  let (p, vu, vv) := A.finalize p prev
  Outcome.check (vu == u)                                                              -- new
  let T := Zk.betaInit C s.tables i s.alpha s.beta s.r0 s.r1 ru rv s.omr0 s.omr1 omru omrv
  let pv ← predicates C T i s.r0 s.r1 ru rv
  let (p, poly) := A.finalround p prev (n <<< 1) (general pv vu vv)
  Outcome.check (poly.eval 0 + poly.eval 1 + relay * vu == sum)
  Outcome.check (A.vU p == u)                                                          -- new
  let rc := ch.rc i
  let sum := poly.eval rc + relay * A.vU p
  Outcome.check (i == C.depth - 1 || A.prepreu1 p == s.r0 (C.bl i - 1))                -- new
  let rR : ℕ → ℕ := fun k => if k = 0 then Gmp.toMpz (A.prepreu1 p) else Gmp.toMpz rc
  let (p, o1) ← A.proveR p rR
  let v1 ← VpdR.verify E (A.keyR p) rR digestR.1 o1.ans o1.witness o1.witnessa
  Outcome.check (i == C.depth - 1 || (o1.ans : F) == maskRPoly R (s.r0 (C.bl i - 1)) rc)   -- new
  Outcome.check (i == C.depth - 1 || A.preprev1 p == s.r1 (C.bl i - 1))                -- new
  let rR : ℕ → ℕ := fun k => if k = 0 then Gmp.toMpz (A.preprev1 p) else Gmp.toMpz rc
  let (p, o2) ← A.proveR p rR
  let v2 ← VpdR.verify E (A.keyR p) rR digestR.1 o2.ans o2.witness o2.witnessa
  Outcome.check (i == C.depth - 1 || (o2.ans : F) == maskRPoly R (s.r1 (C.bl i - 1)) rc)   -- new
  Outcome.check ((v1 && v2) && rCc)
  let rM : ℕ → ℕ := fun k => if k < n then Gmp.toMpz (ru k)
    else if k < n + n then Gmp.toMpz (rv (k - n)) else Gmp.toMpz rc
  let (p, o3) ← A.proveMask p rM
  let v3 ← VpdTest.verify E (A.keyMask p) (n + n + 1) rM digestM.1 o3.ans o3.witness o3.witnessa
  Outcome.check ((o3.ans : F) == sumMaskPoly (2 * n + 1) g (joinPoint n ru rv rc))     -- new
  Outcome.check (mCc && v3)
  Outcome.check (A.Iuv p == (∏ j ∈ range n, (1 - ru j)) * ∏ j ∈ range n, (1 - rv j))   -- new
  Outcome.check (A.preZu p == maskFactor C i s.r0 && A.preZv p == maskFactor C i s.r1) -- new
  Outcome.check (sum == rc * general pv vu vv + s.alpha * A.Iuv p * A.preZu p * (o1.ans : F)
    + s.beta * A.Iuv p * A.preZv p * (o2.ans : F) + rho * (o3.ans : F) + relay * vu)
  return { prover := p, alpha := ch.alpha i, beta := ch.beta i,
           sum := if i ≠ 1 then ch.alpha i * vu + ch.beta i * vv else vu,
           r0 := ru, r1 := rv, omr0 := omru, omr1 := omrv, tables := T }

/-- `verify()` with the missing checks. The claim about the output is computed by the verifier, and the
opening at the end is the value of the committed input polynomial. -/
def verifyFixed (E : Pairing G1 G2 GT) (C : Circuit) (A : ProverApi σ F G1 G2) (X : Committed σ F)
    (tables : VTables F) (ch : Zk.Challenges F) : Outcome Unit := do
  let (p, result) ← A.evaluate A.start
  let (p, digest) ← A.keygenAndCommit p (C.bl 0)
  let top := C.depth - 1
  let a0 := foldOutput (oneMinus ch.r0) ch.r0 result (C.bl top) (2 ^ C.bl top)         -- new
  let s ← loopDownM top (layerStepFixed E C A X ch)
    { prover := p, alpha := 1, beta := 0, sum := 1 * a0, r0 := ch.r0, r1 := ch.r1,
      omr0 := oneMinus ch.r0, omr1 := oneMinus ch.r1, tables := tables }
  let r : ℕ → ℕ := fun j => Gmp.toMpz (s.r0 j)
  let (p, o) ← A.proveInput s.prover r (Gmp.toMpz (A.Zu s.prover))
  let v ← InputVpd.verify E (A.keyInput p) (C.bl 0) r digest.digest digest.digest2
    (Gmp.toMpz (A.Zu p)) o.ans o.witness o.witnessa
  Outcome.check v
  Outcome.check ((o.ans : F) == mle (C.bl 0) (value C 0) s.r0 +                         -- new
    (∏ j ∈ range (C.bl 0), (1 - s.r0 j) * s.r0 j) *
      (X.inputMask 0 + X.inputMask 1 * s.r0 (C.bl 0 - 1)))
  Outcome.check (s.sum == (o.ans : F))

/-- What the honest prover is committed to: the masks it draws. The mask of the values of layer `i` is
drawn in layer `i + 1`. -/
def honestCommitted (coins : Zk.Coins F) : Committed (Zk.Prover F G1 G2) F where
  R i _ := (coins.layer (i + 1)).maskR
  inputMask := coins.maskr
  mask P := fun j => (P.maskpolyGmp j : F)

/-! ## The coins -/

/-- The draws of the zero-knowledge verifier: those of the plain one and `rho`, `rc` for each layer. -/
abbrev ZkCoin (C : Circuit) : Type := Coin C ⊕ Fin C.depth ⊕ Fin C.depth

/-- the challenges made of an outcome of the draws -/
def zkChallenges (C : Circuit) (ω : ZkCoin C → F) : Zk.Challenges F where
  toChallenges := challenges C (fun c => ω (.inl c))
  rho i := if h : i < C.depth then ω (.inr (.inl ⟨i, h⟩)) else 0
  rc i := if h : i < C.depth then ω (.inr (.inr ⟨i, h⟩)) else 0

/-- The sum of the degrees: 1 for every variable of the output; in every layer 2 for every round of the
two phases but the last, 5 for their last rounds, 2 for the extra variable; and 2 for every combination
of two claims. -/
def zkSoundnessError (C : Circuit) : ℕ :=
  C.bl (C.depth - 1) + ∑ i ∈ range C.depth,
    if i = 0 then 0 else 2 * (2 * (C.bl (i - 1) - 1) + 5) + 2 + if i = 1 then 0 else 2

end Libra.Spec
