import Verif.Model.Loop
import Verif.Spec.Field
import Mathlib.Algebra.Module.LinearMap.Basic
import Mathlib.Algebra.Module.LinearMap.Defs
import Mathlib.Data.Nat.Size

/-!
# The commitment schemes for the layer masks: `src/VPD/vpdR.cpp` and `src/VPD/vpd_test.cpp`

The elliptic curve library `bn.h` is outside the repository. Its groups are modelled by additive
groups `G1` (`Ec1`), `G2` (the multiples of the generator, `Ec2`) and `GT` (`Fp12`, written
additively: `ea4 *= x` is `+`) all of exponent `p`, i.e. modules over `ZMod p`, and
`opt_atePairing` by a bilinear map. Scalars are `mpz_class`; every integer that reaches this code is
non-negative (field elements converted by `to_gmp_class`, outputs of `mpz_urandomm`), so they are
natural numbers here and the lines `if(x < 0) x += p` have no effect. The one exception is the answer that
`verify` is given, which the prover may choose: `Model/SignedVpd` has `verify` for all integers. Conversions through decimal
strings into `mie::Vuint` are the identity. Random draws are explicit arguments. Vectors are total
functions; the sizes used by the code are noted at each definition. Timing output is dropped.
-/

namespace Libra
open Spec

/-- The groups, generators and pairing set up by `environment_init` (vpdR.cpp:227-244,
vpd_test.cpp:289-306, inputvpd.cpp:430-447). -/
structure Pairing (G1 G2 GT : Type) [AddCommGroup G1] [AddCommGroup G2] [AddCommGroup GT]
    [Module (ZMod p) G1] [Module (ZMod p) G2] [Module (ZMod p) GT] where
  g1 : G1
  g2 : G2
  /-- `opt_atePairing(out, x, y)` is `out = e x y` -/
  e : G2 →ₗ[ZMod p] G1 →ₗ[ZMod p] GT

/-- The global variables of one of the namespaces `vpdR`, `vpd_test`, `input_vpd`
(vpdR.cpp:22-31, vpd_test.cpp:24-33, inputvpd.cpp:12-32). `g1a` is never read and `s` is only read
by `KeyGen`. -/
structure VpdKey (G1 G2 : Type) where
  numOfVar : ℕ
  a : ℕ
  g1Pre : ℕ → G1
  g2Pre : ℕ → G2
  g2a : G2
  pubG1 : ℕ → G1
  pubG2 : ℕ → G2

namespace Vpd

/-- `#define P 512`, the size of the vectors `g1_pre`, `g2_pre` -/
def P : ℕ := 512

/-- `precompute_g1` for one group (vpdR.cpp:33-42, vpd_test.cpp:35-44, inputvpd.cpp:55-65). The
vector starts out filled with default-constructed points. -/
def precompute {G : Type} [AddCommGroup G] (g : G) : ℕ → G :=
  loopFrom 1 P (fun i pre => Function.update pre i (pre (i - 1) + pre (i - 1)))
    (Function.update (fun _ => 0) 0 g)

/-- `mpz_sizeinbase(n, 2)`: the number of bits, and 1 for zero -/
def sizeInBase2 (n : ℕ) : ℕ := if n = 0 then 1 else n.size

/-- `pre[i]` on a vector of `P` elements -/
def readPre {G : Type} (pre : ℕ → G) (i : ℕ) : Outcome G :=
  if i < P then .ok (pre i) else .undefined

/-- `pre_exp` (vpdR.cpp:44-54, vpd_test.cpp:46-56, inputvpd.cpp:67-76) -/
def preExp {G : Type} [AddCommGroup G] (pre : ℕ → G) (n : ℕ) : Outcome G :=
  loopM (sizeInBase2 n) (fun i temp =>
    if n.testBit i then do
      let x ← readPre pre i
      pure (temp + x)
    else pure temp) 0

variable {G1 G2 GT : Type} [AddCommGroup G1] [AddCommGroup G2] [AddCommGroup GT]
  [Module (ZMod p) G1] [Module (ZMod p) G2] [Module (ZMod p) GT]

/-- `check_commit` (vpdR.cpp:124-132, vpd_test.cpp:136-144) -/
def checkCommit [DecidableEq GT] (E : Pairing G1 G2 GT) (K : VpdKey G1 G2)
    (digest digesta : G1) : Bool :=
  E.e E.g2 digesta == E.e K.g2a digest

/-- The final equation of `verify` (vpdR.cpp:195-220, vpd_test.cpp:256-282, inputvpd.cpp:395-423):
`lhs` is the first argument of the pairing `ea3` (`digest` resp. `digest + digest2 * Z`),
`idx i` the position of the `i`-th element in `pub_g2`, `n` is `r.size()`. -/
def finalCheck [DecidableEq GT] (E : Pairing G1 G2 GT) (K : VpdKey G1 G2) (idx : ℕ → ℕ) (n : ℕ)
    (r : ℕ → ℕ) (lhs : G1) (ans : ℕ) (witness : ℕ → G1) : Outcome Bool := do
  let temp2 ← preExp K.g1Pre ans
  let ea3 := E.e E.g2 (lhs - temp2)
  let ea4 ← loopM (n + 1) (fun i (ea4 : GT) =>
    if i < n then do
      let y ← preExp K.g2Pre (r i)
      pure (ea4 + E.e (K.pubG2 (idx i) - y) (witness i))
    else pure (ea4 + E.e (K.pubG2 (idx i)) (witness i))) 0
  pure (ea3 == ea4)

/-- The knowledge checks of `verify` (vpdR.cpp:186-193 with `m = r.size()`, vpd_test.cpp:247-254
with `m = r.size() + 1`, inputvpd.cpp:386-393 with `m = r.size()`). -/
def knowledgeCheck [DecidableEq GT] (E : Pairing G1 G2 GT) (K : VpdKey G1 G2) (m : ℕ)
    (witness witnessa : ℕ → G1) : Bool :=
  loop m (fun i flag => if E.e E.g2 (witnessa i) == E.e K.g2a (witness i) then flag else false) true

end Vpd

namespace VpdR
open Vpd
variable {G1 G2 GT : Type} [AddCommGroup G1] [AddCommGroup G2] [AddCommGroup GT]
  [Module (ZMod p) G1] [Module (ZMod p) G2] [Module (ZMod p) GT]

/-- `vpdR::KeyGen(2)` (vpdR.cpp:58-91) with the secrets `a` and `s[0..2]`; the callers always pass
`d = 2` (zk_prover.cpp, `generate_maskR`). -/
def keyGen (E : Pairing G1 G2 GT) (a : ℕ) (s : ℕ → ℕ) : Outcome (VpdKey G1 G2) := do
  let g1Pre := precompute E.g1
  let g2Pre := precompute E.g2
  let square0 := (s 0 * s 0) % p
  let square1 := (s 1 * s 1) % p
  let pub1 ← preExp g1Pre (s 0)
  let pub2 ← preExp g1Pre square0
  let pub3 ← preExp g1Pre (s 1)
  let pub4 ← preExp g1Pre square1
  let pub5 ← preExp g1Pre ((s 0 * s 1) % p)
  let pub6 ← preExp g1Pre (s 2)
  let q0 ← preExp g2Pre (s 0)
  let q1 ← preExp g2Pre (s 1)
  let q2 ← preExp g2Pre (s 2)
  pure
    { numOfVar := 2
      a := a
      g1Pre := g1Pre
      g2Pre := g2Pre
      g2a := a • E.g2
      pubG1 := fun i => if i = 0 then E.g1 else if i = 1 then pub1 else if i = 2 then pub2
        else if i = 3 then pub3 else if i = 4 then pub4 else if i = 5 then pub5
        else if i = 6 then pub6 else 0
      pubG2 := fun i => if i = 0 then q0 else if i = 1 then q1 else if i = 2 then q2 else 0 }

/-- `vpdR::commit` (vpdR.cpp:93-122): `input` has 6 entries, `r_f` is appended; returns `digest`,
`digesta`. -/
def commit (K : VpdKey G1 G2) (input : ℕ → ℕ) (rf : ℕ) : G1 × G1 :=
  let coeffs := Function.update input 6 rf
  let digest := loop 7 (fun i d => d + coeffs i • K.pubG1 i) 0
  (digest, K.a • digest)

/-- what `prove` hands back: `ans`, `witness`, `witnessa` -/
structure Opening (G1 : Type) where
  ans : ℕ
  witness : ℕ → G1
  witnessa : ℕ → G1

/-- `vpdR::prove` (vpdR.cpp:135-177): `t` are the two random blindings. -/
def prove (K : VpdKey G1 G2) (r : ℕ → ℕ) (input : ℕ → ℕ) (rf : ℕ) (t : ℕ → ℕ) :
    Outcome (Opening G1) := do
  let coeffs := Function.update input 6 rf
  let x0 ← preExp K.g1Pre ((coeffs 2 * r 0 + coeffs 1) % p)
  let w0 := x0 + coeffs 2 • K.pubG1 1 + coeffs 5 • K.pubG1 3
  let w0 := w0 + t 0 • K.pubG1 6
  let x1 ← preExp K.g1Pre ((coeffs 5 * r 0 + coeffs 4 * r 1 + coeffs 3) % p)
  let w1 := x1 + coeffs 4 • K.pubG1 3
  let w1 := w1 + t 1 • K.pubG1 6
  let temp := (coeffs 6 + (r 0 * t 0) % p + (r 1 * t 1) % p) % p
  let x2 ← preExp K.g1Pre temp
  let w2 := x2 - t 0 • K.pubG1 1 - t 1 • K.pubG1 3
  let witness : ℕ → G1 := fun i => if i = 0 then w0 else if i = 1 then w1 else if i = 2 then w2
    else 0
  let square0 := (r 0 * r 0) % p
  let square1 := (r 1 * r 1) % p
  let cross := (r 0 * r 1) % p
  let ans := coeffs 0 + (coeffs 1 * r 0) % p + (coeffs 2 * square0) % p + (coeffs 3 * r 1) % p
    + (coeffs 4 * square1) % p + (coeffs 5 * cross) % p
  pure ⟨ans % p, witness, fun i => K.a • witness i⟩

/-- `vpdR::verify` (vpdR.cpp:179-225) at a point `r` of 2 coordinates -/
def verify [DecidableEq GT] (E : Pairing G1 G2 GT) (K : VpdKey G1 G2) (r : ℕ → ℕ) (digest : G1)
    (ans : ℕ) (witness witnessa : ℕ → G1) : Outcome Bool := do
  let flag := knowledgeCheck E K 2 witness witnessa
  let fin ← finalCheck E K id 2 r digest ans witness
  pure (flag && fin)

end VpdR

namespace VpdTest
open Vpd VpdR
variable {G1 G2 GT : Type} [AddCommGroup G1] [AddCommGroup G2] [AddCommGroup GT]
  [Module (ZMod p) G1] [Module (ZMod p) G2] [Module (ZMod p) GT]

/-- The three high powers written by `KeyGen` at `pub_g1[b], pub_g1[b+1], pub_g1[b+2]`
(vpd_test.cpp:80-85 and 88-93): fifth, fourth and third power. -/
def highPowers (g1Pre : ℕ → G1) (si square b : ℕ) (pub : ℕ → G1) : Outcome (ℕ → G1) := do
  let cubic := (square * si) % p
  let quadruple := (cubic * si) % p
  let quintuple := (quadruple * si) % p
  let x5 ← preExp g1Pre quintuple
  let x4 ← preExp g1Pre quadruple
  let x3 ← preExp g1Pre cubic
  pure (Function.update (Function.update (Function.update pub b x5) (b + 1) x4) (b + 2) x3)

/-- The body of the loop of `KeyGen` (vpd_test.cpp:72-95). The tests `i == d / 2 - 1` and
`i == d - 2` are on `int`, so they are written without subtraction. -/
def keyGenStep (g1Pre : ℕ → G1) (g2Pre : ℕ → G2) (d : ℕ) (s : ℕ → ℕ) (i : ℕ)
    (pub : (ℕ → G1) × (ℕ → G2)) : Outcome ((ℕ → G1) × (ℕ → G2)) := do
  let x ← preExp g1Pre (s i)
  let pub1 := Function.update pub.1 (2 * i + 1) x
  let y ← preExp g2Pre (s i)
  let pub2 := Function.update pub.2 (2 * i + 1) y
  let square := (s i * s i) % p
  let xs ← preExp g1Pre square
  let pub1 := Function.update pub1 (2 * i) xs
  let pub1 ← (if i + 1 = d / 2 then highPowers g1Pre (s i) square (2 * d + 1) pub1 else pure pub1)
  let pub1 ← (if i + 2 = d then highPowers g1Pre (s i) square (2 * d + 4) pub1 else pure pub1)
  pure (pub1, pub2)

/-- `vpd_test::KeyGen(d)` (vpd_test.cpp:59-104) with the secrets `a` and `s[0..d]`; both vectors
have `2 d + 8` entries, default-constructed at first. -/
def keyGen (E : Pairing G1 G2 GT) (d : ℕ) (a : ℕ) (s : ℕ → ℕ) : Outcome (VpdKey G1 G2) := do
  let g1Pre := precompute E.g1
  let g2Pre := precompute E.g2
  let pub ← loopM d (keyGenStep g1Pre g2Pre d s) (fun _ => 0, fun _ => 0)
  let pub1 := Function.update pub.1 (2 * d) E.g1
  let pub2 := Function.update pub.2 (2 * d) E.g2
  let x ← preExp g1Pre (s d)
  let pub1 := Function.update pub1 (2 * d + 7) x
  let y ← preExp g2Pre (s d)
  let pub2 := Function.update pub2 (2 * d + 1) y
  pure
    { numOfVar := d
      a := a
      g1Pre := g1Pre
      g2Pre := g2Pre
      g2a := a • E.g2
      pubG1 := pub1
      pubG2 := pub2 }

/-- `vpd_test::commit` (vpd_test.cpp:106-134): `input` has `2 d + 7` entries. -/
def commit (K : VpdKey G1 G2) (input : ℕ → ℕ) (rf : ℕ) : G1 × G1 :=
  let coeffs := Function.update input (2 * K.numOfVar + 7) rf
  let digest := loop (2 * K.numOfVar + 1 + 6 + 1) (fun i dg => dg + coeffs i • K.pubG1 i) 0
  (digest, K.a • digest)

/-- The quotient of a quintic by `x - r` (vpd_test.cpp:158-169 with `b = 2 d + 1`, 172-183 with
`b = 2 d + 4`): Horner's scheme. -/
def quinticWitness (K : VpdKey G1 G2) (coeffs : ℕ → ℕ) (ri i b : ℕ) : Outcome G1 := do
  let tmp1 := coeffs b
  let tmp2 := (tmp1 * ri + coeffs (b + 1)) % p
  let tmp3 := (tmp2 * ri + coeffs (b + 2)) % p
  let tmp4 := (tmp3 * ri + coeffs (2 * i)) % p
  let tmp5 := (tmp4 * ri + coeffs (2 * i + 1)) % p
  let x ← preExp K.g1Pre tmp5
  pure (tmp1 • K.pubG1 (b + 1) + tmp2 • K.pubG1 (b + 2) + tmp3 • K.pubG1 (2 * i)
    + tmp4 • K.pubG1 (2 * i + 1) + x)

/-- `witness[i]` without its blinding (vpd_test.cpp:157-191). The second assignment overwrites the
first when both tests hold. -/
def plainWitness (K : VpdKey G1 G2) (coeffs : ℕ → ℕ) (ri i : ℕ) : Outcome G1 :=
  let d := K.numOfVar
  if i + 2 = d then quinticWitness K coeffs ri i (2 * d + 4)
  else if i + 1 = d / 2 then quinticWitness K coeffs ri i (2 * d + 1)
  else do
    let tmp := (coeffs (2 * i) * ri) % p
    let x ← preExp K.g1Pre tmp
    let y ← preExp K.g1Pre (coeffs (2 * i + 1))
    pure (coeffs (2 * i) • K.pubG1 (2 * i + 1) + x + y)

/-- One quintic contribution to `ans` (vpd_test.cpp:214-220 and 223-229) -/
def quinticValue (coeffs : ℕ → ℕ) (ri i b ans : ℕ) : ℕ :=
  let tmp := coeffs b
  let tmp := (tmp * ri + coeffs (b + 1)) % p
  let tmp := (tmp * ri + coeffs (b + 2)) % p
  let tmp := (tmp * ri + coeffs (2 * i)) % p
  let tmp := (tmp * ri + coeffs (2 * i + 1)) % p
  let tmp := (tmp * ri) % p
  (ans + tmp) % p

/-- `ans` (vpd_test.cpp:211-236): here both tests may hold and then both parts are added. -/
def answer (d : ℕ) (coeffs r : ℕ → ℕ) : ℕ :=
  let ans := loop d (fun i ans =>
    let ans := if i + 1 = d / 2 then quinticValue coeffs (r i) i (2 * d + 1) ans else ans
    let ans := if i + 2 = d then quinticValue coeffs (r i) i (2 * d + 4) ans else ans
    if i + 1 ≠ d / 2 ∧ i + 2 ≠ d then
      let ans := (ans + coeffs (2 * i) * r i * r i) % p
      (ans + coeffs (2 * i + 1) * r i) % p
    else ans) 0
  (ans + coeffs (2 * d)) % p

/-- `vpd_test::prove` (vpd_test.cpp:146-238) -/
def prove (K : VpdKey G1 G2) (r : ℕ → ℕ) (input : ℕ → ℕ) (rf : ℕ) (t : ℕ → ℕ) :
    Outcome (Opening G1) := do
  let d := K.numOfVar
  let coeffs := Function.update input (2 * d + 7) rf
  let witness ← loopM d (fun i (w : ℕ → G1) => do
    let x ← plainWitness K coeffs (r i) i
    pure (Function.update w i (x + t i • K.pubG1 (2 * d + 7)))) (fun _ => 0)
  let tmp := loop d (fun i tmp => tmp + (t i * r i) % p) (coeffs (2 * d + 7))
  let x ← preExp K.g1Pre tmp
  let last := loop d (fun i w => w - t i • K.pubG1 (2 * i + 1)) x
  let witness := Function.update witness d last
  pure ⟨answer d coeffs r, witness, fun i => K.a • witness i⟩

/-- `vpd_test::verify` (vpd_test.cpp:240-287) at a point `r` of `n` coordinates -/
def verify [DecidableEq GT] (E : Pairing G1 G2 GT) (K : VpdKey G1 G2) (n : ℕ) (r : ℕ → ℕ)
    (digest : G1) (ans : ℕ) (witness witnessa : ℕ → G1) : Outcome Bool := do
  let flag := knowledgeCheck E K (n + 1) witness witnessa
  let fin ← finalCheck E K (fun i => 2 * i + 1) n r digest (ans % p) witness
  pure (flag && fin)

end VpdTest
end Libra
