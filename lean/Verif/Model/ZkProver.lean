import Verif.Model.FastTrack
import Verif.Model.Vpd
import Verif.Model.InputVpd

/-!
# The zero-knowledge prover

Model of `/repo/src/linear_gkr/zk_prover.cpp` and `/repo/include/linear_gkr/zk_prover.h`. Timing is
omitted. `init_array`, `delete_self` (384-413) only allocate and free; `get_circuit` (18-25) copies
the circuit and sets `inv_2`; `proof_init` (1241-1244) is empty. Randomness (`prime_field::random()`
and the random `mpz`s of the commitment schemes) is an explicit argument `Coins`.
-/

namespace Libra
open Spec

/-- `field_element::to_gmp_class` (prime_field.cpp:604-625): the integer a field element is handed
to the commitment schemes as. The instance for the limb representation is `Fp.instGmp`. -/
class Gmp (F : Type) where
  toMpz : F → ℕ

/-- What `to_gmp_class` has to satisfy (proved for the limb representation in `Proofs/Gmp`). -/
class LawfulGmp (F : Type) [CommRing F] [Gmp F] : Prop where
  lt : ∀ x : F, Gmp.toMpz x < p
  cast : ∀ x : F, ((Gmp.toMpz x : ℕ) : F) = x
  char : ((p : ℕ) : F) = 0

end Libra

namespace Libra.Zk
open Libra.FastTrack Spec
variable {F : Type} [CommRing F]

/-- `from_string` (zk_prover.cpp:6-16) -/
def fromString (s : String) : F :=
  s.toList.foldl (fun ret c => ret * 10 + ((c.toNat - '0'.toNat : ℕ) : F)) 0

/-- `inv_2` (zk_prover.cpp:17, 24) -/
def inv2 : F :=
  fromString "8399054365507916142470402071115866954879789801702376374514189432082785107975"

/-- `for (i < n) tmp = tmp + tmp` -/
def dbl (n : ℕ) (x : F) : F := loop n (fun _ t => t + t) x

/-- What the prover draws in one layer: the mask polynomials, and the secrets and blindings of
`vpdR` (`aR`, `sR`, `rfR`, one `tR` per call of `prove_R`) and `vpd_test`. -/
structure LayerCoins (F : Type) where
  maskR : ℕ → F
  maskpoly : ℕ → F
  aR : ℕ
  sR : ℕ → ℕ
  rfR : ℕ
  tR : ℕ → ℕ → ℕ
  aM : ℕ
  sM : ℕ → ℕ
  rfM : ℕ
  tM : ℕ → ℕ

/-- Everything the prover draws. -/
structure Coins (F : Type) where
  maskr : ℕ → F
  a : ℕ
  s : ℕ → ℕ
  rf : ℕ
  rf2 : ℕ
  t : ℕ → ℕ
  layer : ℕ → LayerCoins F

/-- The data members of `class zk_prover` (zk_prover.h:19-90) that carry protocol state; those it
shares with the plain prover are in `base`. The last group models the global variables of the
namespaces `vpdR`, `vpd_test`, `input_vpd`, which live in the same process, and the number of calls
of `prove_R` in the current layer (so that every call uses fresh randomness). -/
structure Prover (F G1 G2 : Type) where
  base : FastTrack.Prover F
  maskpoly : ℕ → F
  maskpolyGmp : ℕ → ℕ
  sumc : F
  sumr : F
  rho : F
  maskR : ℕ → F
  preR : ℕ → F
  rfR : ℕ
  rfMask : ℕ
  rfInput : ℕ
  rfInput2 : ℕ
  sumcu : F
  sumcv : F
  preZu : F
  preZv : F
  Zu : F
  Zv : F
  preu1 : F
  prev1 : F
  Iuv : F
  prepreu1 : F
  preprev1 : F
  Rg1 : QuadraticPoly F
  Rg2 : QuadraticPoly F
  sumRc : QuadraticPoly F
  inputMpz : ℕ → ℕ
  maskrMpz : ℕ → ℕ
  maskr : ℕ → F
  keyR : VpdKey G1 G2
  keyMask : VpdKey G1 G2
  keyInput : InputVpd.Key G1 G2
  rCalls : ℕ

variable {G1 G2 GT : Type} [AddCommGroup G1] [AddCommGroup G2] [AddCommGroup GT]
  [Module (ZMod p) G1] [Module (ZMod p) G2] [Module (ZMod p) GT] [Gmp F]

/-- A freshly constructed `zk_prover`: `field_element()` sets the value to 0
(prime_field.cpp:417-420), so the scalar members and the arrays `maskR`, `preR` start as zero. -/
def Prover.fresh (junk : Prover F G1 G2) : Prover F G1 G2 :=
  { junk with sumc := 0, sumr := 0, rho := 0, maskR := fun _ => 0, preR := fun _ => 0,
              sumcu := 0, sumcv := 0, preZu := 0, preZv := 0, Zu := 0, Zv := 0, preu1 := 0,
              prev1 := 0, Iuv := 0, prepreu1 := 0, preprev1 := 0, Rg1 := ⟨0, 0, 0⟩,
              Rg2 := ⟨0, 0, 0⟩, sumRc := ⟨0, 0, 0⟩ }

/-- The loop of `keygen_and_commit` that fills `input_mpz` (zk_prover.cpp:191-205). -/
def inputTable (C : Circuit) (n : ℕ) (old : ℕ → ℕ) : Outcome (ℕ → ℕ) :=
  loopM (2 ^ n) (fun g T =>
    if (C.gate 0 g).ty = 3 then
      return Function.update T g (Gmp.toMpz (ofCInt (C.gate 0 g).u : F))
    else if (C.gate 0 g).ty = 2 then return Function.update T g (Gmp.toMpz (0 : F))
    else .assertFail) old

/-- `zk_prover::keygen_and_commit` (zk_prover.cpp:179-220) -/
def Prover.keygenAndCommit (E : Pairing G1 G2 GT) (C : Circuit) (coins : Coins F)
    (P : Prover F G1 G2) (n : ℕ) : Outcome (Prover F G1 G2 × InputVpd.Commitment G1) := do
  let key ← InputVpd.keyGen E n coins.a coins.s
  let table ← inputTable (F := F) C n P.inputMpz
  let mpz := fun i => Gmp.toMpz (coins.maskr i)
  let D := InputVpd.commit key table mpz coins.rf coins.rf2
  return ({ P with keyInput := key, inputMpz := D.coeffs, maskr := coins.maskr, maskrMpz := mpz,
                   rfInput := coins.rf, rfInput2 := coins.rf2 }, D)

/-- `zk_prover::prove_input` (zk_prover.cpp:222-232) -/
def Prover.proveInput (coins : Coins F) (P : Prover F G1 G2) (R : ℕ → ℕ) (Z : ℕ) :
    Outcome (VpdR.Opening G1) :=
  InputVpd.prove P.keyInput R P.inputMpz P.maskrMpz P.rfInput P.rfInput2 Z coins.t

/-- `zk_prover::generate_maskpoly_pre_rho` (zk_prover.cpp:156-177); the callers pass `degree = 2`. -/
def Prover.maskPreRho (E : Pairing G1 G2 GT) (coins : Coins F) (P : Prover F G1 G2) (len : ℕ) :
    Outcome (Prover F G1 G2 × (G1 × G1)) := do
  let c := coins.layer P.base.layerId
  let key ← VpdTest.keyGen E len c.aM c.sM
  let gmp := fun i => Gmp.toMpz (c.maskpoly i)
  return ({ P with maskpoly := c.maskpoly, keyMask := key, maskpolyGmp := gmp, rfMask := c.rfM },
    VpdTest.commit key gmp c.rfM)

/-- `zk_prover::generate_maskpoly_after_rho` (zk_prover.cpp:234-248), `degree = 2` -/
def Prover.maskAfterRho (P : Prover F G1 G2) (len : ℕ) : Prover F G1 G2 :=
  let maskpoly := loop (len * 2 + 1 + 6) (fun i (m : ℕ → F) => Function.update m i (m i * P.rho))
    P.maskpoly
  let sumc := maskpoly (len * 2)
  let sumc := loop (len * 2 + 1) (fun i s => s + maskpoly (len * 2 - i)) sumc
  let sumc := loopFrom 1 7 (fun i s => s + maskpoly (len * 2 + i)) sumc
  let sumc := loopFrom 1 len (fun _ s => s + s) sumc
  { P with maskpoly := maskpoly, sumc := sumc, sumr := 0 }

/-- `zk_prover::generate_maskR` (zk_prover.cpp:252-302) -/
def Prover.generateMaskR (E : Pairing G1 G2 GT) (coins : Coins F) (P : Prover F G1 G2)
    (layer : ℕ) : Outcome (Prover F G1 G2 × (G1 × G1)) := do
  let c := coins.layer layer
  let key ← VpdR.keyGen E c.aR c.sR
  let m := P.maskR
  let D := VpdR.commit key (fun i => Gmp.toMpz (m i)) c.rfR
  let Rg1 : QuadraticPoly F :=
    ⟨m 4, m 3 + m 5 * P.preu1, m 0 + m 1 * P.preu1 + m 2 * P.preu1 * P.preu1⟩
  let Rg2 : QuadraticPoly F :=
    ⟨m 4, m 3 + m 5 * P.prev1, m 0 + m 1 * P.prev1 + m 2 * P.prev1 * P.prev1⟩
  let sumRu := Rg1.a + Rg1.b + Rg1.c + Rg1.c
  let sumRv := Rg2.a + Rg2.b + Rg2.c + Rg2.c
  let P := { P with
    keyR := key, prepreu1 := P.preu1, preprev1 := P.prev1, rfR := c.rfR, preR := m
    Rg1 := Rg1, Rg2 := Rg2
    sumcu := P.base.alpha * P.Zu * sumRu, sumcv := P.base.beta * P.Zv * sumRv
    preZu := P.Zu, preZv := P.Zv, Zu := 1, Zv := 1, Iuv := 1, rCalls := 0 }
  let P := if layer > 1 then
      let m := c.maskR
      { P with maskR := m, sumRc := ⟨m 2 + m 2, m 1 + m 1 + m 5, m 0 + m 0 + m 3 + m 4⟩ }
    else P
  let P := if layer = 1 then
      let m := Function.update (Function.update P.maskR 0 (P.maskr 0)) 1 (P.maskr 1)
      { P with maskR := m, sumRc := ⟨0, m 1, m 0⟩ }
    else P
  return (P, D)

/-- `zk_prover::prove_R` (zk_prover.cpp:304-317) -/
def Prover.proveR (coins : Coins F) (P : Prover F G1 G2) (R : ℕ → ℕ) :
    Outcome (Prover F G1 G2 × VpdR.Opening G1) := do
  let o ← VpdR.prove P.keyR R (fun i => Gmp.toMpz (P.preR i)) P.rfR
    ((coins.layer P.base.layerId).tR P.rCalls)
  return ({ P with rCalls := P.rCalls + 1 }, o)

/-- `zk_prover::prove_mask` (zk_prover.cpp:319-328) -/
def Prover.proveMask (coins : Coins F) (P : Prover F G1 G2) (R : ℕ → ℕ) :
    Outcome (VpdR.Opening G1) :=
  VpdTest.prove P.keyMask R P.maskpolyGmp P.rfMask (coins.layer P.base.layerId).tM

/-- `maskpoly[2 * (length_u + length_v + 1) + 1 + k] * x^5 + [.. + 1] * x^4 + [.. + 2] * x^3` in the
order of the code (zk_prover.cpp:336-338, 345-347, 998-1000, 1216-1218) -/
def Prover.highTerms (P : Prover F G1 G2) (k : ℕ) (x s : F) : F :=
  let b := 2 * (P.base.lengthU + P.base.lengthV + 1)
  let s := s + P.maskpoly (b + (k + 1)) * x * x * x * x * x
  let s := s + P.maskpoly (b + (k + 2)) * x * x * x * x
  s + P.maskpoly (b + (k + 3)) * x * x * x

/-- `zk_prover::query` (zk_prover.cpp:331-354), not called by the verifier -/
def Prover.query (P : Prover F G1 G2) (u v : ℕ → F) (rc : F) : F :=
  let lu := P.base.lengthU
  let lv := P.base.lengthV
  let result := loop lu (fun i s =>
    let s := s + P.maskpoly (2 * i) * u i * u i + P.maskpoly (2 * i + 1) * u i
    if i + 1 = lu then P.highTerms 0 (u i) s else s) 0
  let result := loop lv (fun i s =>
    let s := s + P.maskpoly (2 * (i + lu)) * v i * v i + P.maskpoly (2 * (i + lu) + 1) * v i
    if i + 1 = lv then P.highTerms 3 (v i) s else s) result
  let result := result + P.maskpoly (2 * (lu + lv)) * rc * rc + P.maskpoly (2 * (lu + lv) + 1) * rc
  result + P.maskpoly (2 * (lu + lv + 1))

/-- `zk_prover::queryRg1`, `queryRg2` (zk_prover.cpp:356-362), not called by the verifier -/
def Prover.queryRg1 (P : Prover F G1 G2) (rc : F) : F := P.Iuv * P.preZu * P.Rg1.eval rc * P.base.alpha
@[inherit_doc Prover.queryRg1]
def Prover.queryRg2 (P : Prover F G1 G2) (rc : F) : F := P.Iuv * P.preZv * P.Rg2.eval rc * P.base.beta

/-- `zk_prover::sumcheck_init` (zk_prover.cpp:365-381) -/
def Prover.sumcheckInit (E : Pairing G1 G2 GT) (coins : Coins F) (P : Prover F G1 G2)
    (layerId g u v : ℕ) (a b : F) (r0 r1 omr0 omr1 : ℕ → F) :
    Outcome (Prover F G1 G2 × (G1 × G1)) :=
  Prover.generateMaskR E coins { P with base := P.base.sumcheckInit layerId g u v a b r0 r1 omr0 omr1 }
    layerId

/-- `zk_prover::sumcheck_phase1_init` (zk_prover.cpp:420-607) -/
def Prover.phase1Init (C : Circuit) (P : Prover F G1 G2) : Prover F G1 G2 :=
  { P with base := P.base.phase1Init .zk C }

/-- The products updated at the start of a phase 1 round (zk_prover.cpp:649-655, 736-742) -/
def Prover.factors1 (P : Prover F G1 G2) (prev : F) (bit : ℕ) : Prover F G1 G2 :=
  let P := { P with Iuv := P.Iuv * (1 - prev) }
  if bit > 0 then
    { P with sumcu := P.sumcu * (1 - prev), sumcv := P.sumcv * (1 - prev),
             Zu := P.Zu * (1 - prev) * prev }
  else P

/-- The sum-check mask in a round of either phase, for variable `cur` (zk_prover.cpp:664-685 and
passim): `high` is the sum of the doubled coefficients of degree 3 to 5 in this variable, `addr`
says whether `maskpoly_sumr` is extended and used (in phase 1 not in the first round). Returns the
state and the summands of the coefficients of `x²`, `x` and `1`. -/
def Prover.maskRound (P : Prover F G1 G2) (prev : F) (cur : ℕ) (high : F) (addr : Bool) :
    Prover F G1 G2 × QuadraticPoly F :=
  let n := P.base.lengthU + P.base.lengthV - cur
  let tmp1 := dbl n (P.maskpoly (cur <<< 1))
  let tmp2 := dbl n (P.maskpoly (cur <<< 1 + 1))
  let sumc := (P.sumc - tmp1 - tmp2 - high) * inv2
  let sumr := if addr then P.sumr + P.maskpoly (cur <<< 1 - 2) * prev * prev
    + P.maskpoly (cur <<< 1 - 1) * prev else P.sumr
  let tmp3 := if addr then dbl n sumr else 0
  ({ P with sumc := sumc, sumr := sumr }, ⟨tmp1, tmp2, sumc + tmp3⟩)

/-- `zk_prover::sumcheck_phase1_update` (zk_prover.cpp:609-691) -/
def Prover.phase1Update (P : Prover F G1 G2) (prev : F) (bit : ℕ) :
    Prover F G1 G2 × QuadraticPoly F :=
  let (b, ret) := P.base.update prev bit
  let P := Prover.factors1 { P with base := b } prev bit
  let rb := ret.b - P.sumcu - P.sumcv
  let rc := ret.c + P.sumcu + P.sumcv
  let (P, m) := P.maskRound prev bit 0 (bit > 0)
  (P, ⟨ret.a + m.a, rb + m.b, rc + m.c⟩)

/-- The product of `Z x (1 - x)`, `sumRc` and `add_mult_sum[0]` in the last round of a phase
(zk_prover.cpp:749-760, 1147-1158): summands of the coefficients of `x^5, x^4, x^3, x^2, x`. -/
def quintic (R : QuadraticPoly F) (A : LinearPoly F) (Z : F) : QuintuplePoly F :=
  { a := (0 - R.a) * A.a * Z
    b := (R.a * (A.a - A.b) - R.b * A.a) * Z
    c := (R.a * A.b + R.b * (A.a - A.b) - R.c * A.a) * Z
    d := (R.c * (A.a - A.b) + R.b * A.b) * Z
    e := R.c * A.b * Z
    f := 0 }

/-- The end of the last round of a phase (zk_prover.cpp:744-799, 1145-1195): `k` is 0 in phase 1 and
3 in phase 2, `cur` the number of the variable, `last` says whether the bit is the last one, `Z` is
`Zu` resp. `Zv`. -/
def Prover.lastRound (P : Prover F G1 G2) (ret : QuadraticPoly F) (prev : F) (k cur : ℕ)
    (last addr : Bool) (Z : F) : Prover F G1 G2 × QuintuplePoly F :=
  let rb := ret.b - P.sumcu - P.sumcv
  let rc := ret.c + P.sumcu + P.sumcv
  let q := if last then quintic P.sumRc (P.base.tabs.addMultSum 0) Z else ⟨0, 0, 0, 0, 0, 0⟩
  let n := P.base.lengthU + P.base.lengthV - cur
  let b := (P.base.lengthU + P.base.lengthV + 1) <<< 1
  let tmp4 := dbl n (P.maskpoly (b + (k + 1)))
  let tmp5 := dbl n (P.maskpoly (b + (k + 2)))
  let tmp6 := dbl n (P.maskpoly (b + (k + 3)))
  let (P, m) := P.maskRound prev cur (tmp4 + tmp5 + tmp6) addr
  (P, ⟨q.a + tmp4, q.b + tmp5, q.c + tmp6, ret.a + q.d + m.a, rb + q.e + m.b, rc + m.c⟩)

/-- `zk_prover::sumcheck_phase1_updatelastbit` (zk_prover.cpp:693-800) -/
def Prover.phase1Last (P : Prover F G1 G2) (prev : F) (bit : ℕ) :
    Prover F G1 G2 × QuintuplePoly F :=
  let (b, ret) := P.base.update prev bit
  let P := Prover.factors1 { P with base := b } prev bit
  P.lastRound ret prev 0 bit (bit + 1 == P.base.lengthU) (bit > 0) P.Zu

/-- `zk_prover::sumcheck_phase2_init` (zk_prover.cpp:802-1005). With `length_u == 0` it reads
`maskpoly[-2]`. -/
def Prover.phase2Init (C : Circuit) (P : Prover F G1 G2) (prev : F) (ru omru : ℕ → F) :
    Outcome (Prover F G1 G2) := do
  let P := { P with preu1 := prev, sumcu := P.sumcu * (1 - prev), sumcv := P.sumcv * (1 - prev),
                    Iuv := P.Iuv * (1 - prev) }
  let vU := (P.base.tabs.vMultAdd 0).eval prev
  let P := { P with Zu := P.Zu * (1 - prev) * prev }
  let vU := vU + P.Zu * P.sumRc.eval prev
  let b ← P.base.phase2Tables .zk C vU ru omru
  let _ ← (if P.base.lengthU = 0 then Outcome.undefined else pure ())
  let sumr := P.sumr + P.maskpoly (P.base.lengthU * 2 - 2) * prev * prev
    + P.maskpoly (P.base.lengthU * 2 - 1) * prev
  return { P with base := b, sumr := P.highTerms 0 prev sumr }

/-- The products updated at the start of a phase 2 round (zk_prover.cpp:1051-1058 with
`last = false`, 1137-1144 with `last = true`) -/
def Prover.factors2 (P : Prover F G1 G2) (prev : F) (bit : ℕ) (last : Bool) : Prover F G1 G2 :=
  let P := if bit > 0 ∨ last then { P with Iuv := P.Iuv * (1 - prev) } else P
  if bit > 0 then
    { P with sumcu := P.sumcu * (1 - prev), sumcv := P.sumcv * (1 - prev),
             Zv := P.Zv * (1 - prev) * prev }
  else P

/-- `zk_prover::sumcheck_phase2_update` (zk_prover.cpp:1010-1094) -/
def Prover.phase2Update (P : Prover F G1 G2) (prev : F) (bit : ℕ) :
    Prover F G1 G2 × QuadraticPoly F :=
  let (b, ret) := P.base.update prev bit
  let P := Prover.factors2 { P with base := b } prev bit false
  let rb := ret.b - P.sumcu - P.sumcv
  let rc := ret.c + P.sumcu + P.sumcv
  let (P, m) := P.maskRound prev (bit + P.base.lengthU) 0 true
  (P, ⟨ret.a + m.a, rb + m.b, rc + m.c⟩)

/-- `zk_prover::sumcheck_phase2_updatelastbit` (zk_prover.cpp:1096-1196) -/
def Prover.phase2Last (P : Prover F G1 G2) (prev : F) (bit : ℕ) :
    Prover F G1 G2 × QuintuplePoly F :=
  let (b, ret) := P.base.update prev bit
  let P := Prover.factors2 { P with base := b } prev bit true
  P.lastRound ret prev 3 (bit + P.base.lengthU) (bit + 1 == P.base.lengthV) true P.Zv

/-- `zk_prover::sumcheck_finalround` (zk_prover.cpp:1198-1228) -/
def Prover.finalround (P : Prover F G1 G2) (prev : F) (cur : ℕ) (general : F) :
    Prover F G1 G2 × QuadraticPoly F :=
  let ra := P.Iuv * P.preZu * P.Rg1.a * P.base.alpha + P.Iuv * P.preZv * P.Rg2.a * P.base.beta
  let rb := P.Iuv * P.preZu * P.Rg1.b * P.base.alpha + P.Iuv * P.preZv * P.Rg2.b * P.base.beta
    + general
  let rc := P.Iuv * P.preZu * P.Rg1.c * P.base.alpha + P.Iuv * P.preZv * P.Rg2.c * P.base.beta
  let n := P.base.lengthU + P.base.lengthV - cur
  let tmp1 := dbl n (P.maskpoly (cur <<< 1))
  let tmp2 := dbl n (P.maskpoly (cur <<< 1 + 1))
  let sumc := (P.sumc - tmp1 - tmp2) * inv2
  let sumr := P.sumr + P.maskpoly (cur <<< 1 - 2) * prev * prev + P.maskpoly (cur <<< 1 - 1) * prev
  let sumr := P.highTerms 3 prev sumr
  let tmp3 := dbl n sumr
  ({ P with sumc := sumc, sumr := sumr }, ⟨ra + tmp1, rb + tmp2, rc + sumc + tmp3⟩)

/-- `zk_prover::sumcheck_finalize` (zk_prover.cpp:1231-1240) -/
def Prover.finalize (P : Prover F G1 G2) (prev : F) : Prover F G1 G2 × (F × F) :=
  let vV := (P.base.tabs.vMultAdd 0).eval prev
  let Zv := P.Zv * (1 - prev) * prev
  let vV := vV + Zv * P.sumRc.eval prev
  ({ P with prev1 := prev, Iuv := P.Iuv * (1 - prev), Zv := Zv, base := { P.base with vV := vV } },
    (P.base.vU, vV))

end Libra.Zk
