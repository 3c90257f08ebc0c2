import Verif.Model.ZkVerifier
import Verif.Spec.OtherInputs
import Mathlib.Data.ZMod.Basic

/-!
# Specification: what the verifier of the zero-knowledge protocol gets to see

`logged` is a prover that does what another one does and keeps a record of everything it hands out.
-/

namespace Libra.Zk
open Spec

/-- Something the prover hands out. Quadratic messages are recorded as messages of degree 5, an opening with
the witnesses the scheme uses. -/
inductive Msg (F G1 G2 : Type) where
  | number (x : F)
  | poly (q : QuintuplePoly F)
  | digest (d : G1 × G1)
  | digests (d d' : G1 × G1)
  | key (K : VpdKey G1 G2)
  | inputKey (K : InputVpd.Key G1 G2)
  | opening (ans : ℕ) (witness witnessa : List G1)

section
variable {F : Type} [CommRing F] {G1 G2 : Type}

/-- a quadratic message as a message of degree 5 -/
def Msg.quad (q : QuadraticPoly F) : Msg F G1 G2 := .poly ⟨0, 0, 0, q.a, q.b, q.c⟩

/-- an opening with its first `m` witnesses -/
def Msg.opened (m : ℕ) (o : VpdR.Opening G1) : Msg F G1 G2 :=
  .opening o.ans ((List.range m).map o.witness) ((List.range m).map o.witnessa)

/-- a prover, the number of the current layer and the record -/
structure WithRecord (σ F G1 G2 : Type) where
  inner : σ
  layer : ℕ
  log : List (Msg F G1 G2)

/-- another state and new entries of the record -/
def WithRecord.step {σ : Type} (s : WithRecord σ F G1 G2) (q : σ) (l : List (Msg F G1 G2)) : WithRecord σ F G1 G2 :=
  ⟨q, s.layer, s.log ++ l⟩

variable {σ : Type}

/-- The prover `A` with a record of everything the verifier gets from it: the `m` outputs, the keys, the
commitments, the sum of the mask, the round messages, the claims, the public members that `verify` reads, and the
openings. The second claim of layer 1 is recorded if `full`: the verifier gets it, but never uses it. -/
def logged (full : Bool) (m : ℕ) (A : ProverApi σ F G1 G2) : ProverApi (WithRecord σ F G1 G2) F G1 G2 where
  start := ⟨A.start, 0, []⟩
  evaluate s := do
    let (q, out) ← A.evaluate s.inner
    return (s.step q ((List.range m).map fun j => .number (out j)), out)
  keygenAndCommit s n := do
    let (q, D) ← A.keygenAndCommit s.inner n
    return (s.step q [.inputKey (A.keyInput q), .digests (D.digest, D.digesta) (D.digest2, D.digest2a)], D)
  vRes s := A.vRes s.inner
  sumcheckInit s i g u v a b r0 r1 omr0 omr1 := do
    let (q, D) ← A.sumcheckInit s.inner i g u v a b r0 r1 omr0 omr1
    return ({ s.step q [.key (A.keyR q), .digest D] with layer := i }, D)
  maskPreRho s len := do
    let (q, D) ← A.maskPreRho s.inner len
    return (s.step q [.key (A.keyMask q), .digest D], D)
  setRho s rho := s.step (A.setRho s.inner rho) []
  maskAfterRho s len := s.step (A.maskAfterRho s.inner len) [.number (A.sumc (A.maskAfterRho s.inner len))]
  sumc s := A.sumc s.inner
  phase1Init s := s.step (A.phase1Init s.inner) []
  phase1Update s prev j :=
    let (q, f) := A.phase1Update s.inner prev j
    (s.step q [.quad f], f)
  phase1Last s prev j :=
    let (q, f) := A.phase1Last s.inner prev j
    (s.step q [.poly f], f)
  phase2Init s prev ru omru := do
    let q ← A.phase2Init s.inner prev ru omru
    return s.step q [.number (A.vU q)]
  phase2Update s prev j :=
    let (q, f) := A.phase2Update s.inner prev j
    (s.step q [.quad f], f)
  phase2Last s prev j :=
    let (q, f) := A.phase2Last s.inner prev j
    (s.step q [.poly f], f)
  vU s := A.vU s.inner
  finalize s prev :=
    let (q, vu, vv) := A.finalize s.inner prev
    (s.step q (.number vu :: if full ∨ s.layer ≠ 1 then [.number vv] else []), vu, vv)
  finalround s prev cur general :=
    let (q, f) := A.finalround s.inner prev cur general
    (s.step q [.quad f, .number (A.vU q), .number (A.prepreu1 q), .number (A.preprev1 q), .number (A.Iuv q),
      .number (A.preZu q), .number (A.preZv q)], f)
  prepreu1 s := A.prepreu1 s.inner
  preprev1 s := A.preprev1 s.inner
  proveR s R := do
    let (q, o) ← A.proveR s.inner R
    return (s.step q [.opened 3 o], o)
  proveMask s R := do
    let (q, o) ← A.proveMask s.inner R
    return (s.step q [.opened ((A.keyMask q).numOfVar + 1) o], o)
  Iuv s := A.Iuv s.inner
  preZu s := A.preZu s.inner
  preZv s := A.preZv s.inner
  Zu s := A.Zu s.inner
  proveInput s R Z := do
    let (q, o) ← A.proveInput s.inner R Z
    return (s.step q [.number (A.Zu q), .opened ((A.keyInput q).numOfVar + 1) o], o)
  keyR s := A.keyR s.inner
  keyMask s := A.keyMask s.inner
  keyInput s := A.keyInput s.inner

end

/-! ## Runs -/

section
variable {F : Type} [CommRing F] {G1 G2 GT : Type} [AddCommGroup G1] [AddCommGroup G2] [AddCommGroup GT]
  [Module (ZMod p) G1] [Module (ZMod p) G2] [Module (ZMod p) GT] [Gmp F] [DecidableEq F] [DecidableEq GT]

/-- `verify` (`Model/ZkVerifier`), returning the record of the prover: `verify` accepts the recorded prover if
and only if this is `ok` (`C99_view_verify`). -/
def view {σ : Type} (full : Bool) (E : Pairing G1 G2 GT) (C : Circuit) (A : ProverApi σ F G1 G2) (tables : VTables F)
    (ch : Challenges F) : Outcome (List (Msg F G1 G2)) := do
  let A := logged full (2 ^ C.bl (C.depth - 1)) A
  let (p, result) ← A.evaluate A.start
  let (p, digest) ← A.keygenAndCommit p (C.bl 0)
  let top := C.depth - 1
  let omr0 := FastTrack.oneMinus ch.r0
  let omr1 := FastTrack.oneMinus ch.r1
  let a0 := A.vRes p omr0 ch.r0 result (C.bl top) (2 ^ C.bl top)
  let a0 := 1 * a0
  let s ← loopDownM top (layerStep E C A ch)
    { prover := p, alpha := 1, beta := 0, sum := a0, r0 := ch.r0, r1 := ch.r1, omr0 := omr0,
      omr1 := omr1, tables := tables }
  let r : ℕ → ℕ := fun j => Gmp.toMpz (s.r0 j)
  let (p, o) ← A.proveInput s.prover r (Gmp.toMpz (A.Zu s.prover))
  let v ← InputVpd.verify E (A.keyInput p) (C.bl 0) r digest.digest digest.digest2
    (Gmp.toMpz (A.Zu p)) o.ans o.witness o.witnessa
  Outcome.check v
  Outcome.check (s.sum == (o.ans : F))
  return p.log

end

/-! ## The randomness of the prover -/

/-- the secrets from which the prover makes the keys -/
structure Secrets where
  a : ℕ
  s : ℕ → ℕ
  aR : ℕ → ℕ
  sR : ℕ → ℕ → ℕ
  aM : ℕ → ℕ
  sM : ℕ → ℕ → ℕ

/-- the masks and blindings of one layer, where the layer below has `2^n` gates -/
@[ext] structure LayerRand (F : Type) (n : ℕ) where
  R : Fin 6 → F
  g : Fin (2 * (2 * n + 1) + 7) → F
  rfR : ZMod p
  tR : Fin 2 → Fin 2 → ZMod p
  rfM : ZMod p
  tM : Fin (2 * n + 1) → ZMod p

/-- All masks and blindings of a run; `layer i` are those of layer `i + 1`. (No `R` is drawn for layer 1; this entry
is not used.) -/
@[ext] structure Rand (F : Type) (C : Circuit) where
  layer : (i : Fin (C.depth - 1)) → LayerRand F (C.bl i)
  r : Fin 2 → F
  rf : ZMod p
  rf2 : ZMod p
  t : Fin (C.bl 0) → ZMod p

/-- a finite vector as the beginning of a sequence -/
def pad {α : Type} [Zero α] {N : ℕ} (g : Fin N → α) : ℕ → α := fun j => if h : j < N then g ⟨j, h⟩ else 0

/-- the draws of one layer -/
def LayerRand.coins {F : Type} [Zero F] (K : Secrets) (i : ℕ) {n : ℕ} (w : LayerRand F n) : LayerCoins F where
  maskR := pad w.R
  maskpoly := pad w.g
  aR := K.aR i
  sR := K.sR i
  rfR := w.rfR.val
  tR c j := (pad (fun c => pad (w.tR c) j) c).val
  aM := K.aM i
  sM := K.sM i
  rfM := w.rfM.val
  tM j := (pad w.tM j).val

/-- the draws of the prover -/
def Rand.coins {F : Type} [Zero F] {C : Circuit} (K : Secrets) (w : Rand F C) : Coins F where
  maskr := pad w.r
  a := K.a
  s := K.s
  rf := w.rf.val
  rf2 := w.rf2.val
  t j := (pad w.t j).val
  layer i := if h : i - 1 < C.depth - 1 then (w.layer ⟨i - 1, h⟩).coins K i
    else ⟨fun _ => 0, fun _ => 0, K.aR i, K.sR i, 0, fun _ _ => 0, K.aM i, K.sM i, 0, fun _ => 0⟩

/-! ## Conditions -/

/-- The challenges avoid the values at which a mask vanishes or two masks coincide. -/
structure Generic {F : Type} [CommRing F] (C : Circuit) (ch : Challenges F) : Prop where
  rho : ∀ i, 1 ≤ i → i < C.depth → ch.rho i ≠ 0
  ru : ∀ i, 1 ≤ i → i < C.depth → ∀ j < C.bl (i - 1), ch.ru i j ≠ 0 ∧ ch.ru i j ≠ 1
  rv : ∀ i, 2 ≤ i → i < C.depth → ∀ j < C.bl (i - 1), ch.rv i j ≠ 0 ∧ ch.rv i j ≠ 1
  last : ∀ i, 2 ≤ i → i < C.depth → ch.ru i (C.bl (i - 1) - 1) ≠ ch.rv i (C.bl (i - 1) - 1)
  rc : ∀ i, 2 ≤ i → i < C.depth → 2 * ch.rc i ≠ 1

/-- An upper bound for the number of bad values of all challenges: per layer 2 for every coordinate of the points, 1 for `rho`, `r_c` and the
last coordinates; layer 1 has only one point and no `r_c`. -/
def genericError (C : Circuit) : ℕ :=
  ∑ i ∈ Finset.range C.depth, if i = 0 then 0 else 2 * C.bl (i - 1) + 1 + if i = 1 then 0 else 2 * C.bl (i - 1) + 2

/-- The secrets are reduced, and those with which the blindings are multiplied are not zero. -/
structure Secrets.Ok (C : Circuit) (K : Secrets) : Prop where
  a : K.a < p
  s : ∀ j ≤ C.bl 0, K.s j < p
  last : K.s (C.bl 0) ≠ 0
  sR : ∀ i, 1 ≤ i → i < C.depth → ∀ j ≤ 2, K.sR i j < p
  lastR : ∀ i, 1 ≤ i → i < C.depth → K.sR i 2 ≠ 0
  sM : ∀ i, 1 ≤ i → i < C.depth → ∀ j ≤ 2 * C.bl (i - 1) + 1, K.sM i j < p
  lastM : ∀ i, 1 ≤ i → i < C.depth → K.sM i (2 * C.bl (i - 1) + 1) ≠ 0

end Libra.Zk
