import Verif.Model.Vpd

/-!
# The commitment scheme for the circuit input: `src/VPD/inputvpd.cpp`

Conventions as in `Model/Vpd`. `1 << d` is `2 ^ d` (the code needs `d ≤ 30`; the model does not
bound it), `(int)pow(2, d)` likewise.
-/

namespace Libra
open Spec

namespace InputVpd
open Vpd VpdR
variable {G1 G2 GT : Type} [AddCommGroup G1] [AddCommGroup G2] [AddCommGroup GT]
  [Module (ZMod p) G1] [Module (ZMod p) G2] [Module (ZMod p) GT]

/-- One butterfly of `pre_input` (inputvpd.cpp:47-49). `tmp - x + p` is written `tmp + p - x`; the
entries are below `p`. -/
def butterfly (base half k : ℕ) (input : ℕ → ℕ) : ℕ → ℕ :=
  let tmp := input (base + k)
  let input := Function.update input (base + k) (input (base + half + k))
  Function.update input (base + k + half) ((tmp + p - input (base + half + k)) % p)

/-- `pre_input` (inputvpd.cpp:34-53) with `NumOfVar = n` -/
def preInput (n : ℕ) (input : ℕ → ℕ) : ℕ → ℕ :=
  let input := loop (2 ^ (n - 1)) (fun i (input : ℕ → ℕ) =>
    Function.update (Function.update input i (input (2 ^ n - 1 - i))) (2 ^ n - 1 - i) (input i))
    input
  loop n (fun i input =>
    let groupSize := 2 ^ (i + 1)
    let half := 2 ^ i
    loop (2 ^ n / groupSize) (fun j input =>
      loop (groupSize / 2) (fun k input => butterfly (j * groupSize) half k input) input) input)
    input

/-- `KeyGen_preprocessing(g)` (inputvpd.cpp:78-90): the table `g_baby_step[18][1 << 15]` -/
def babySteps (g : G1) : ℕ → ℕ → G1 :=
  (loop (256 / 15 + 1) (fun i (s : (ℕ → ℕ → G1) × G1) =>
    let row := loopFrom 1 (2 ^ 15) (fun j row => Function.update row j (row (j - 1) + s.2))
      (Function.update (s.1 i) 0 0)
    (Function.update s.1 i row, 2 ^ 15 • s.2)) (fun _ _ => 0, g)).1

/-- `g1_exp` (inputvpd.cpp:92-103); reading a row beyond the table is undefined behaviour -/
def g1Exp (table : ℕ → ℕ → G1) (a : ℕ) : Outcome G1 :=
  loopM (sizeInBase2 a / 15 + 1) (fun i ret =>
    let mask := (a >>> (i * 15)) &&& (2 ^ 15 - 1)
    if i < 256 / 15 + 1 then .ok (ret + table i mask) else .undefined) 0

/-- `multi_scalar_w` (inputvpd.cpp:9) -/
def w : ℕ := 8

/-- The table `multi_scalar_g1[i].value` (inputvpd.cpp:133-159): sums over the subsets of one group
of eight public elements, at position `j - 3` for the subset `j`. -/
def multiScalarTable (d : ℕ) (pub : ℕ → G1) (i : ℕ) : ℕ → G1 :=
  let scalars : ℕ → G1 := loop w (fun j s =>
    let id := i * w + j
    Function.update s j (if id ≥ 2 ^ d then 0 else pub id)) (fun _ => 0)
  loopFrom 3 (2 ^ w) (fun j value => Function.update value (j - 3)
    (loop w (fun k x => if (j >>> k) &&& 1 = 1 then x + scalars k else x) 0)) (fun _ => 0)

/-- The global variables: those of the other schemes and `multi_scalar_g1` -/
structure Key (G1 G2 : Type) extends VpdKey G1 G2 where
  multiScalar : ℕ → ℕ → G1

/-- the double loop of `KeyGen` (inputvpd.cpp:124-129), filling `pub_g1_exp` and `pub_g1` -/
def pubLoop (table : ℕ → ℕ → G1) (d : ℕ) (s : ℕ → ℕ) (st : (ℕ → ℕ) × (ℕ → G1)) :
    Outcome ((ℕ → ℕ) × (ℕ → G1)) :=
  loopM d (fun i st => loopM (2 ^ (i + 1) - 2 ^ i) (fun k (st : (ℕ → ℕ) × (ℕ → G1)) => do
    let j := 2 ^ i + k
    let ex := Function.update st.1 j ((s i * st.1 (j - 2 ^ i)) % p)
    let x ← g1Exp table (ex j)
    pure (ex, Function.update st.2 j x)) st) st

/-- the loop filling `pub_g2` (inputvpd.cpp:160-163) -/
def pub2Loop (g2Pre : ℕ → G2) (d : ℕ) (s : ℕ → ℕ) (pub : ℕ → G2) : Outcome (ℕ → G2) :=
  loopM (d + 1) (fun i (pub : ℕ → G2) => do
    let y ← preExp g2Pre (s i)
    pure (Function.update pub i y)) pub

/-- `input_vpd::KeyGen(d)` (inputvpd.cpp:105-167) with the secrets `a` and `s[0..d]` -/
def keyGen (E : Pairing G1 G2 GT) (d : ℕ) (a : ℕ) (s : ℕ → ℕ) : Outcome (Key G1 G2) := do
  let g1Pre := precompute E.g1
  let g2Pre := precompute E.g2
  let table := babySteps E.g1
  let g2a ← preExp g2Pre a
  let st ← pubLoop table d s
    (Function.update (fun _ => 0) 0 1, Function.update (fun _ => 0) 0 E.g1)
  let x ← preExp g1Pre (s d)
  let pub1 := Function.update st.2 (2 ^ d) x
  let pub2 ← pub2Loop g2Pre d s (Function.update (fun _ => 0) 0 E.g2)
  pure
    { numOfVar := d
      a := a
      g1Pre := g1Pre
      g2Pre := g2Pre
      g2a := g2a
      pubG1 := pub1
      pubG2 := pub2
      multiScalar := fun i => multiScalarTable d pub1 i }

/-- `multi_scalar_calc` (inputvpd.cpp:169-198) -/
def multiScalarCalc (K : Key G1 G2) (index len : ℕ) (scalarPow : ℕ → ℕ) : G1 :=
  let maxLen := loop w (fun j m => max m (sizeInBase2 (scalarPow j))) 0
  loop maxLen (fun t ret =>
    let j := maxLen - 1 - t
    let current := loop w (fun k c => c ||| ((scalarPow k).testBit j).toNat <<< k) 0
    let ret := 2 • ret
    if current = 0 then ret
    else if current = 1 then (if index * w < len then ret + K.pubG1 (index * w) else ret)
    else if current = 2 then (if index * w + 1 < len then ret + K.pubG1 (index * w + 1) else ret)
    else ret + K.multiScalar index (current - 3)) 0

/-- filling `scalar_pow` for group `i` (inputvpd.cpp:222-233, 340-351): the entries of `c` from
`off` on, cut off at `len` -/
def scalarPow (c : ℕ → ℕ) (off len i : ℕ) (old : ℕ → ℕ) : ℕ → ℕ :=
  loop w (fun j s =>
    let id := i * w + j
    Function.update s j (if id ≥ len then 0 else c (id + off))) old

/-- what `commit` leaves behind: the digests, the two blindings and the input vector converted in
place to coefficients (with `r_f` as its last entry) -/
structure Commitment (G1 : Type) where
  digest : G1
  digesta : G1
  digest2 : G1
  digest2a : G1
  coeffs : ℕ → ℕ

/-- `input_vpd::commit` (inputvpd.cpp:200-262): `input` has `2 ^ d + 1` entries, `input2` two. -/
def commit (K : Key G1 G2) (input input2 : ℕ → ℕ) (rf rf2 : ℕ) : Commitment G1 :=
  let d := K.numOfVar
  let coeffs := Function.update (preInput d input) (2 ^ d) rf
  let digest := (loop (2 ^ d / w + 1) (fun i (s : G1 × (ℕ → ℕ)) =>
    let sp := scalarPow coeffs 0 (2 ^ d) i s.2
    (s.1 + multiScalarCalc K i (2 ^ d) sp, sp)) (0, fun _ => 0)).1
  let digest := digest + coeffs (2 ^ d) • K.pubG1 (2 ^ d)
  let digest2 := input2 0 • K.pubG1 0 + input2 1 • K.pubG1 (2 ^ (d - 1)) + rf2 • K.pubG1 (2 ^ d)
  ⟨digest, K.a • digest, digest2, K.a • digest2, coeffs⟩

/-- `input_vpd::check_commit` (inputvpd.cpp:264-276) -/
def checkCommit [DecidableEq GT] (E : Pairing G1 G2 GT) (K : Key G1 G2)
    (digest digesta digest2 digest2a : G1) : Bool :=
  E.e E.g2 digesta == E.e K.g2a digest && E.e E.g2 digest2a == E.e K.g2a digest2

/-- `ans` of `prove` (inputvpd.cpp:297-306): the pair is `ans_pre`, `ans` -/
def answer (d : ℕ) (coeffs r : ℕ → ℕ) : ℕ :=
  (loop d (fun i st => loopFrom (2 ^ i) (2 ^ (i + 1)) (fun j (st : (ℕ → ℕ) × ℕ) =>
    let pre := Function.update st.1 j ((r i * st.1 (j - 2 ^ i)) % p)
    (pre, (st.2 + (pre j * coeffs j) % p) % p)) st)
    (Function.update (fun _ => 0) 0 1, coeffs 0)).2

/-- the state of the division loop of `prove`: `witness_coeffs`, `temp_coeffs`, `start_index` -/
structure Division where
  witnessCoeffs : ℕ → ℕ
  tempCoeffs : ℕ → ℕ
  startIndex : ℕ

/-- the division by `x_k - r_k`, from the last variable down (inputvpd.cpp:312-322); `r.size()` is
`NumOfVar = d` -/
def divide (d : ℕ) (coeffs r : ℕ → ℕ) : Division :=
  loop d (fun i (D : Division) =>
    let half := 2 ^ (d - i - 1)
    let D := loop half (fun j (D : Division) =>
      { D with
        witnessCoeffs := Function.update D.witnessCoeffs (D.startIndex + j)
          (D.tempCoeffs (half + j) % p)
        tempCoeffs := Function.update D.tempCoeffs j
          ((D.tempCoeffs j + (D.tempCoeffs (half + j) * r (d - 1 - i)) % p) % p) }) D
    { D with startIndex := D.startIndex + half }) ⟨fun _ => 0, coeffs, 0⟩

/-- the state of the inner loop of `prove` at inputvpd.cpp:334-354: `temp`, `scalar_pow`, `witness`
and whether `break` was executed -/
structure Gather (G1 : Type) where
  temp : ℕ
  sp : ℕ → ℕ
  witness : ℕ → G1
  stopped : Bool

/-- one pass of the inner loop (inputvpd.cpp:334-354), `k = d - 1, …, 0` -/
def gather (K : Key G1 G2) (wc : ℕ → ℕ) (i : ℕ) (sp : ℕ → ℕ) (witness : ℕ → G1) : Gather G1 :=
  let d := K.numOfVar
  loop d (fun t (s : Gather G1) =>
    let k := d - 1 - t
    if s.stopped then s
    else if i ≥ 2 ^ k / w + 1 then { s with stopped := true }
    else
      let sp := scalarPow wc s.temp (2 ^ k) i s.sp
      ⟨s.temp + 2 ^ k, sp,
        Function.update s.witness k (s.witness k + multiScalarCalc K i (2 ^ k) sp), false⟩)
    ⟨0, sp, witness, false⟩

/-- `input_vpd::prove` (inputvpd.cpp:278-377); `input` is the coefficient vector left by `commit`,
`t` the blindings. -/
def prove (K : Key G1 G2) (r : ℕ → ℕ) (input input2 : ℕ → ℕ) (rf rf2 Z : ℕ) (t : ℕ → ℕ) :
    Outcome (Opening G1) := do
  let d := K.numOfVar
  let coeffs := Function.update input 0 ((input 0 + (Z * input2 0) % p) % p)
  let coeffs := Function.update coeffs (2 ^ (d - 1))
    ((coeffs (2 ^ (d - 1)) + (Z * input2 1) % p) % p)
  let coeffs := Function.update coeffs (2 ^ d) ((rf + Z * rf2) % p)
  let ans := answer d coeffs r
  let D := divide d coeffs r
  let gathered := (loop (2 ^ (d - 1) / w + 1) (fun i (s : (ℕ → G1) × (ℕ → ℕ)) =>
    let g := gather K D.witnessCoeffs i s.2 s.1
    (g.witness, g.sp)) (fun _ => 0, fun _ => 0)).1
  let witness := loop d (fun u (wt : ℕ → G1) =>
    let k := d - 1 - u
    Function.update wt k (wt k + t k • K.pubG1 (2 ^ d))) gathered
  let tmp := loop d (fun i tmp => tmp + (t i * r i) % p) (coeffs (2 ^ d))
  let x ← preExp K.g1Pre tmp
  let last := loop d (fun i wt => wt - t i • K.pubG1 (2 ^ i)) x
  let witness := Function.update witness d last
  pure ⟨ans, witness, fun i => K.a • witness i⟩

/-- `input_vpd::verify` (inputvpd.cpp:379-428) at a point `r` of `n` coordinates -/
def verify [DecidableEq GT] (E : Pairing G1 G2 GT) (K : Key G1 G2) (n : ℕ) (r : ℕ → ℕ)
    (digest digest2 : G1) (Z ans : ℕ) (witness witnessa : ℕ → G1) : Outcome Bool := do
  let flag := knowledgeCheck E K.toVpdKey n witness witnessa
  let fin ← finalCheck E K.toVpdKey id n r (digest + Z • digest2) ans witness
  pure (flag && fin)

end InputVpd
end Libra
