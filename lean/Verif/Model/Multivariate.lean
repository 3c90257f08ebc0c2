import Verif.Model.Vpd
import Verif.Model.Mm
import Mathlib.Data.Nat.Digits.Defs
import Mathlib.Data.Nat.Log
import Mathlib.Data.Int.Bitwise

/-!
# The commitment to a multilinear polynomial in `/repo/src/VPD/multivariate_test.cpp`

A program of its own. Groups and pairing as in `Model/Vpd`; scalars are `mpz_class` and some of them are
negative, so they are integers here. `(int)pow(2, i)` is `2 ^ i` up to `i = 30` and undefined beyond. Vectors of
group elements are functions; where an index can leave a vector the model says `undefined`. Timing and
output are dropped.
-/

namespace Libra.Multivariate
open Libra.Spec Libra.Mm

/-- `#define P 254`, the size of the tables -/
def P : ℕ := 254

section
variable {G : Type} [AddCommGroup G]

/-- a row of doublings: `precompute_g1` for one group (multivariate_test.cpp:39-53), and the row `[0][0]` of
`pubs_g1_pre`, `pubs_g1a_pre` (multivariate_test.cpp:55-84), the only row that is filled -/
def doublings (g : G) : ℕ → G :=
  loopFrom 1 P (fun i pre => Function.update pre i (pre (i - 1) + pre (i - 1)))
    (Function.update (fun _ => 0) 0 g)

/-- `pre_exp` (multivariate_test.cpp:172-185): `mpz_sizeinbase` ignores the sign, `mpz_tstbit` sees two's
complement -/
def preExp (pre : ℕ → G) (n : ℤ) : Outcome G :=
  loopM (Vpd.sizeInBase2 n.natAbs) (fun i temp =>
    if n.testBit i then (if i < P then .ok (temp + pre i) else .undefined) else .ok temp) 0

/-- `multi_scalar` (multivariate_test.cpp:130-168) on `len` exponents, with `W = 2` -/
def multiScalar (pub pre : ℕ → G) (len : ℕ) (e : ℕ → ℤ) : G :=
  loop P (fun t temp =>
    let i := P - 1 - t
    let temp := loop (len / 2) (fun j temp =>
      let selector := ((e (j * 2 + 1)).testBit i).toNat * 2 + ((e (j * 2)).testBit i).toNat
      if selector = 3 then temp + pre j
      else if selector = 1 then temp + pub (j * 2)
      else if selector = 2 then temp + pub (j * 2 + 1)
      else temp) temp
    if i ≠ 0 then 2 • temp else temp) 0

/-- `a[i][j] = x` -/
def set2 {α : Type} (a : ℕ → ℕ → α) (i j : ℕ) (x : α) : ℕ → ℕ → α :=
  Function.update a i (Function.update (a i) j x)

end

/-- the global variables that are read after `keygen` -/
structure Key (G1 G2 : Type) where
  D : ℕ
  g1Pre : ℕ → G1
  g2Pre : ℕ → G2
  ga : G2
  pubs : ℕ → ℕ → G1
  pubsa : ℕ → ℕ → G1
  /-- `pubs_g1_pre[0][0]`, `pubs_g1a_pre[0][0]` -/
  pre0 : ℕ → G1
  pre0a : ℕ → G1
  /-- `pubs_g1_pre2`, `pubs_g1a_pre2` -/
  pre2 : ℕ → ℕ → G1
  pre2a : ℕ → ℕ → G1
  pubsG2 : ℕ → G2

/-- `vars` in `keygen` (multivariate_test.cpp:228-244) -/
def keygenVars (D : ℕ) (s : ℕ → ℤ) : ℕ → ℕ → ℤ :=
  loopFrom 1 (D + 1) (fun i vars =>
    loop (2 ^ (i - 1)) (fun j vars =>
      let vars := set2 vars i (2 * j + 1) (modp (vars (i - 1) j * s (D - i)))
      set2 vars i (2 * j) (modp (vars (i - 1) j * (1 - s (D - i))))) vars)
    (set2 (fun _ _ => 0) 0 0 1)

section
variable {G1 G2 GT : Type} [AddCommGroup G1] [AddCommGroup G2] [AddCommGroup GT]
  [Module (ZMod p) G1] [Module (ZMod p) G2] [Module (ZMod p) GT]

/-- the loop filling `pubs_g1` and `pubs_g1a` (multivariate_test.cpp:247-259) -/
def keygenPubs (g1Pre : ℕ → G1) (D : ℕ) (a : ℤ) (vars : ℕ → ℕ → ℤ)
    (pubs : (ℕ → ℕ → G1) × (ℕ → ℕ → G1)) : Outcome ((ℕ → ℕ → G1) × (ℕ → ℕ → G1)) :=
  loopM D (fun t pubs => loopM (2 ^ t) (fun j (pubs : (ℕ → ℕ → G1) × (ℕ → ℕ → G1)) => do
    let i := t + 1
    let v := vars i (2 * j + 1)
    let v := if v < 0 then v + p else v
    let x ← preExp g1Pre v
    let pub := set2 pubs.1 i (2 * j + 1) x
    let pub := set2 pub i (2 * j) (pub (i - 1) j - pub i (2 * j + 1))
    let y ← preExp g1Pre (modp (v * a))
    let puba := set2 pubs.2 i (2 * j + 1) y
    let puba := set2 puba i (2 * j) (puba (i - 1) j - puba i (2 * j + 1))
    return (pub, puba)) pubs) pubs

/-- `keygen(d)` (multivariate_test.cpp:188-276) with `precompute_g1`, `precompute_pub`, `precompute_pub2`
(lines 39-125), with the secrets `s[0..D-1]` and `a`, which `mpz_urandomm` draws below `p` -/
def keygen (E : Pairing G1 G2 GT) (D : ℕ) (a : ℤ) (s : ℕ → ℤ) : Outcome (Key G1 G2) := do
  if 31 ≤ D then Outcome.undefined
  else
    let g1Pre := doublings E.g1
    let g2Pre := doublings E.g2
    let pubs ← keygenPubs g1Pre D a (keygenVars D s)
      (set2 (fun _ _ => 0) 0 0 E.g1, set2 (fun _ _ => 0) 0 0 (a.toNat • E.g1))
    return {
      D := D
      g1Pre := g1Pre
      g2Pre := g2Pre
      ga := a.toNat • E.g2
      pubs := pubs.1
      pubsa := pubs.2
      pre0 := doublings (pubs.1 0 0)
      pre0a := doublings (pubs.2 0 0)
      pre2 := fun i j => pubs.1 i (j * 2) + pubs.1 i (j * 2 + 1)
      pre2a := fun i j => pubs.2 i (j * 2) + pubs.2 i (j * 2 + 1)
      pubsG2 := fun i => (s i).toNat • E.g2 }

/-- `commit` (multivariate_test.cpp:278-298): `ceil(log2(n))` is `Nat.clog 2 n` for `0 < n ≤ 2^31` -/
def commit (K : Key G1 G2) (input : List ℤ) : Outcome (G1 × G1) :=
  let d := Nat.clog 2 input.length
  if input.length = 0 ∨ K.D < d then .undefined
  else
    let coeffs : ℕ → ℤ := fun i => let x := input.getD i 0; if x < 0 then x + p else x
    .ok (multiScalar (K.pubs d) (K.pre2 d) input.length coeffs,
      multiScalar (K.pubsa d) (K.pre2a d) input.length coeffs)

/-- `check_commit` (multivariate_test.cpp:301-310) -/
def checkCommit [DecidableEq GT] (E : Pairing G1 G2 GT) (K : Key G1 G2) (digest digesta : G1) : Bool :=
  E.e E.g2 digesta == E.e K.ga digest

/-- `products` of `prove` (multivariate_test.cpp:315-325), with `index` -/
def products (n : ℕ) (r : ℕ → ℤ) : (ℕ → ℤ) × ℕ :=
  loop n (fun i st =>
    let T := loop (2 ^ i) (fun j (T : ℕ → ℤ) =>
      let T := Function.update T (st.2 + j) (modp (T j * r i))
      Function.update T j (modp (T j * (1 - r i)))) st.1
    (T, st.2 + 2 ^ i)) (Function.update (fun _ => 0) 0 1, 1)

/-- `ans` of `prove` (multivariate_test.cpp:327-335) -/
def answer (n : ℕ) (r : ℕ → ℤ) (input : List ℤ) : ℤ :=
  let T := (products n r).1
  let ans := loop input.length (fun i ans => ans + T i * input.getD i 0) 0
  let ans := modp ans
  if ans < 0 then ans + p else ans

/-- the state of the division: `witness_coeffs`, `temp_coeffs`, `start_index` -/
structure Division where
  wc : ℕ → ℤ
  temp : ℕ → ℤ
  start : ℕ

/-- the division by `x_i - r_i` (multivariate_test.cpp:337-361); `temp_coeffs` starts out as the input
filled up with zeros -/
def divide (n : ℕ) (r : ℕ → ℤ) (c : ℕ → ℤ) : Division :=
  loop n (fun i (D : Division) =>
    let D := loop (2 ^ (n - i - 1)) (fun j (D : Division) =>
      { D with
        wc := Function.update D.wc (D.start + j) (modp (-(D.temp (2 * j)) + D.temp (2 * j + 1)))
        temp := Function.update D.temp j
          (modp (-(D.temp (2 * j)) * (r i - 1) + D.temp (2 * j + 1) * r i)) }) D
    { D with start := D.start + 2 ^ (n - i - 1) }) ⟨fun _ => 0, c, 0⟩

/-- `x.get_str().length()` -/
def strLength (x : ℤ) : ℕ := max 1 (Nat.digits 10 x.natAbs).length + if x < 0 then 1 else 0

/-- the exponentiation of the last witness (multivariate_test.cpp:386-412), for one of the two tables -/
def lastWitness (pre : ℕ → G1) (c : ℤ) : Outcome G1 :=
  if c ≠ 0 then
    let temp2 := c - p
    if strLength c < strLength temp2 then do
      let x ← preExp pre c
      return 0 + x
    else do
      let x ← preExp pre (-temp2)
      return 0 - x
  else .ok 0

/-- what `prove` hands back -/
structure Opening (G1 : Type) where
  ans : ℤ
  witness : ℕ → G1
  witnessa : ℕ → G1

/-- `prove` (multivariate_test.cpp:312-420). With no coordinates `r.size()-1` wraps; with too few the
input does not fit `products`; with too many the public elements do not suffice. The first companion
`witnessa[0]` is only computed if there is one coordinate; otherwise it is a default-constructed point
that `verify` does not read, here 0. -/
def prove (K : Key G1 G2) (r : List ℤ) (input : List ℤ) : Outcome (Opening G1) :=
  let n := r.length
  let ri : ℕ → ℤ := fun i => r.getD i 0
  if n = 0 ∨ K.D + 1 < n ∨ 31 ≤ n ∨ 2 ^ n < input.length then .undefined
  else do
    let ans := answer n ri input
    let wc := (divide n ri (fun i => input.getD i 0)).wc
    let wc : ℕ → ℤ := fun i => if wc i < 0 then wc i + p else wc i
    let st : (ℕ → G1) × (ℕ → G1) × ℕ := loop (n - 1) (fun i st =>
      let l := n - i - 1
      let e : ℕ → ℤ := fun j => wc (st.2.2 + j)
      let w := Function.update st.1 i (multiScalar (K.pubs l) (K.pre2 l) (2 ^ l) e)
      let wa := if i ≠ 0 then Function.update st.2.1 i (multiScalar (K.pubsa l) (K.pre2a l) (2 ^ l) e)
        else st.2.1
      (w, wa, st.2.2 + 2 ^ l)) (fun _ => 0, fun _ => 0, 0)
    let x ← lastWitness K.pre0 (wc st.2.2)
    let y ← lastWitness K.pre0a (wc st.2.2)
    return ⟨ans, Function.update st.1 (n - 1) x, Function.update st.2.1 (n - 1) y⟩

/-- `verify` (multivariate_test.cpp:422-473): the index `D - r.size() + i` wraps if there are more
coordinates than public elements -/
def verify [DecidableEq GT] (E : Pairing G1 G2 GT) (K : Key G1 G2) (r : List ℤ) (digest : G1) (ans : ℤ)
    (witness witnessa : ℕ → G1) : Outcome Bool := do
  let n := r.length
  let flag := loop n (fun i flag =>
    if i ≠ 0 then flag && (E.e E.g2 (witnessa i) == E.e K.ga (witness i)) else flag) true
  let temp2 ← preExp K.g1Pre ans
  let e1 := E.e E.g2 (digest - temp2)
  let e3 ← loopM n (fun i e3 => do
    if K.D < n then Outcome.undefined
    else
      let y ← preExp K.g2Pre (r.getD i 0)
      return e3 + E.e (K.pubsG2 (K.D - n + i) - y) (witness i)) (0 : GT)
  return flag && (e1 == e3)

/-- `main` (multivariate_test.cpp:476-530) for `argv[1] = d ≥ 0`: the two results that are printed. `input`
are the results of `rand()`, `r` those of `mpz_urandomm`. -/
def program [DecidableEq GT] (E : Pairing G1 G2 GT) (d : ℕ) (a : ℤ) (s : ℕ → ℤ) (input r : ℕ → ℤ) :
    Outcome (Bool × Bool) := do
  let K ← keygen E d a s
  let inp := (List.range (2 ^ d)).map input
  let pt := (List.range d).map r
  let (digest, digesta) ← commit K inp
  let ok := checkCommit E K digest digesta
  let O ← prove K pt inp
  let tf ← verify E K pt digest O.ans O.witness O.witnessa
  return (ok, tf)

end
end Libra.Multivariate
