import Verif.Model.InputVpd
import Verif.Model.U512
import Verif.Model.Text
import Mathlib.Data.Int.Bitwise

/-!
# The openings as the verifier gets them: answers are integers

The answers `maskRg1_value_mpz`, `maskRg2_value_mpz`, `maskpoly_value_mpz`, `input_0_mpz` of
`/repo/src/linear_gkr/zk_verifier.cpp` are `mpz_class` variables written by the prover
(zk_verifier.cpp:1089, 1104, 1134, 1205), so nothing keeps them from being negative or large. `Model/Vpd` and
`Model/InputVpd` have natural numbers in their place; this file has the same functions on integers. Everything else
that reaches these functions (points, `Z`) is made by `to_gmp_class` from field elements and stays a
natural number.
-/

namespace Libra
open Spec

namespace Vpd
variable {G1 G2 GT : Type} [AddCommGroup G1] [AddCommGroup G2] [AddCommGroup GT]
  [Module (ZMod p) G1] [Module (ZMod p) G2] [Module (ZMod p) GT]

/-- `pre_exp` (vpdR.cpp:44-54, vpd_test.cpp:46-56, inputvpd.cpp:67-76) on any integer: `mpz_sizeinbase` ignores the
sign, `mpz_tstbit` sees two's complement -/
def preExpZ {G : Type} [AddCommGroup G] (pre : ℕ → G) (n : ℤ) : Outcome G :=
  loopM (sizeInBase2 n.natAbs) (fun i temp =>
    if n.testBit i then do
      let x ← readPre pre i
      pure (temp + x)
    else pure temp) 0

/-- the final equation of `verify` (vpdR.cpp:195-220, vpd_test.cpp:256-282, inputvpd.cpp:395-423), see
`Vpd.finalCheck` -/
def finalCheckZ [DecidableEq GT] (E : Pairing G1 G2 GT) (K : VpdKey G1 G2) (idx : ℕ → ℕ) (n : ℕ)
    (r : ℕ → ℕ) (lhs : G1) (ans : ℤ) (witness : ℕ → G1) : Outcome Bool := do
  let temp2 ← preExpZ K.g1Pre ans
  let ea3 := E.e E.g2 (lhs - temp2)
  let ea4 ← loopM (n + 1) (fun i (ea4 : GT) =>
    if i < n then do
      let y ← preExp K.g2Pre (r i)
      pure (ea4 + E.e (K.pubG2 (idx i) - y) (witness i))
    else pure (ea4 + E.e (K.pubG2 (idx i)) (witness i))) 0
  pure (ea3 == ea4)

end Vpd

variable {G1 G2 GT : Type} [AddCommGroup G1] [AddCommGroup G2] [AddCommGroup GT]
  [Module (ZMod p) G1] [Module (ZMod p) G2] [Module (ZMod p) GT]

/-- `vpdR::verify` (vpdR.cpp:179-225): the answer is used as it is -/
def VpdR.verifyZ [DecidableEq GT] (E : Pairing G1 G2 GT) (K : VpdKey G1 G2) (r : ℕ → ℕ) (digest : G1)
    (ans : ℤ) (witness witnessa : ℕ → G1) : Outcome Bool := do
  let flag := Vpd.knowledgeCheck E K 2 witness witnessa
  let fin ← Vpd.finalCheckZ E K id 2 r digest ans witness
  pure (flag && fin)

/-- `vpd_test::verify` (vpd_test.cpp:240-287): `ans = ans % p` first, which for `mpz_class` rounds towards zero.
The second component is the answer as the caller sees it afterwards (`ans` is a reference). -/
def VpdTest.verifyZ [DecidableEq GT] (E : Pairing G1 G2 GT) (K : VpdKey G1 G2) (n : ℕ) (r : ℕ → ℕ)
    (digest : G1) (ans : ℤ) (witness witnessa : ℕ → G1) : Outcome (Bool × ℤ) := do
  let flag := Vpd.knowledgeCheck E K (n + 1) witness witnessa
  let ans := ans.tmod p
  let fin ← Vpd.finalCheckZ E K (fun i => 2 * i + 1) n r digest ans witness
  pure (flag && fin, ans)

/-- `input_vpd::verify` (inputvpd.cpp:379-428): the answer is used as it is -/
def InputVpd.verifyZ [DecidableEq GT] (E : Pairing G1 G2 GT) (K : InputVpd.Key G1 G2) (n : ℕ) (r : ℕ → ℕ)
    (digest digest2 : G1) (Z : ℕ) (ans : ℤ) (witness witnessa : ℕ → G1) : Outcome Bool := do
  let flag := Vpd.knowledgeCheck E K.toVpdKey n witness witnessa
  let fin ← Vpd.finalCheckZ E K.toVpdKey id n r (digest + Z • digest2) ans witness
  pure (flag && fin)

/-- the field element the verifier goes on with: `u512b(ans.get_str().c_str(), ans.get_str().length(), 10)`
(zk_verifier.cpp:1161-1163, 1228-1229) -/
def answerValue (ans : ℤ) : U512 := U512.ofDigits (Txt.showInt ans)

end Libra
