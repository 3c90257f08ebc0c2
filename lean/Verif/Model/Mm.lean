import Verif.Model.Loop
import Verif.Spec.Field
import Mathlib.Data.Int.GCD

/-!
# The protocol for matrix multiplication of `/repo/tests/mm.cpp`

A program of its own: it multiplies two matrices of `2^d` rows with a circuit of `d + 2` levels, runs
prover and verifier in one process and prints a message for every check that fails. Integers are
`mpz_class`, i.e. exact; `%` truncates towards zero. Results of `mpz_urandomm` and `rand()` are arguments.
Vectors whose indices are in range by the bounds of the loops are functions; where an index
can be out of range the model reads with `Outcome.read`. Counters, timing and output are dropped.
-/

namespace Libra.Mm
open Libra.Spec

/-- `x % p` on `mpz_class`: the remainder of the division that truncates towards zero -/
def modp (x : ℤ) : ℤ := x.tmod p

/-- `mpz_invert(rop, a, p)`: `old` is the content of `rop`, which is not specified afterwards if `a` is
a multiple of `p`; the model keeps it (and takes 0 for variables that are declared outside of a loop). -/
def invert (a old : ℤ) : ℤ := if a.gcd p = 1 then a.gcdA p % p else old

/-- `extrap` (mm.cpp:40-60) -/
def extrap (vec : ℕ → ℤ) (n : ℕ) (r : ℤ) : ℤ :=
  modp (loop n (fun i result =>
    let mult := loop n (fun j mult =>
      if i ≠ j then mult * (r - j) * invert (modp ((i : ℤ) - j)) 0 else mult) 1
    result + mult * vec i) 0)

/-- `updateV` (mm.cpp:63-76); the comparisons with zero do not change the result. -/
def updateV (V : ℕ → ℤ) (numNew : ℕ) (ri : ℤ) : ℕ → ℤ :=
  loop numNew (fun i V =>
    let V := if V i ≠ 0 then Function.update V i (V i * (1 - ri)) else V
    let V := if V (i + numNew) ≠ 0 then Function.update V i (V i + V (i + numNew) * ri) else V
    if V i ≠ 0 then Function.update V i (modp (V i)) else V) V

/-- `initialize_betavals` (mm.cpp:79-98), and the same loop in `random_V_L` (mm.cpp:116-134) and
`sum_check_addtree` (mm.cpp:443-458), for `m` coordinates: coordinate `m - 1` belongs to the lowest bit.
The vector starts out filled with zeros. -/
def betaTable (m : ℕ) (z : ℕ → ℤ) : ℕ → ℤ :=
  loop m (fun t T =>
    let zval := z (m - 1 - t)
    loop (2 ^ t) (fun i T =>
      let oldval := T i
      let T := Function.update T i (modp (oldval * (1 - zval)))
      Function.update T (i + 2 ^ t) (modp (oldval * zval))) T) (Function.update (fun _ => 0) 0 1)

/-- `update_betavals` (mm.cpp:100-113) -/
def updateBeta (T : ℕ → ℤ) (numNew : ℕ) (zval rval : ℤ) : ℕ → ℤ :=
  let update := zval * rval + (1 - zval) * (1 - rval)
  let temp := invert (modp (1 - zval)) 0
  loop numNew (fun i T =>
    let T := Function.update T i (modp (T i * temp))
    Function.update T i (modp (T i * update))) T

/-- `random_V_L` (mm.cpp:117-146): `Z[i]` is read for `i` up to the size of `V`. -/
def randomVL (V r : List ℤ) : Outcome ℤ :=
  let Z := betaTable r.length (fun k => r.getD k 0)
  loopM V.length (fun i ri => do
    let z ← if i < 2 ^ r.length then .ok (Z i) else .undefined
    let v ← Outcome.read V[i]?
    return modp (ri + z * v)) 0

/-! ## The circuit -/

/-- `mm_in1` (mm.cpp:504-511) -/
def in1 (d p : ℕ) : ℕ :=
  let allOnes := 2 ^ d - 1
  let i := (p >>> (2 * d)) &&& allOnes
  let k := p &&& allOnes
  i <<< d + k

/-- `mm_in2` (mm.cpp:514-523) -/
def in2 (d p : ℕ) : ℕ :=
  let allOnes := 2 ^ (2 * d) - 1
  (p &&& allOnes) + (allOnes + 1)

/-- The loop of `evaluate_circuit` over the gates of a level (mm.cpp:592-613); the types of the gates of
one level are the same (`return0`, `return1`). -/
def evalLevel (S : ℕ) (in1 in2 : ℕ → ℕ) (mult : Bool) (next : List ℤ) : Outcome (List ℤ) :=
  loopM S (fun j gates => do
    let val1 ← Outcome.read next[in1 j]?
    let val2 ← Outcome.read next[in2 j]?
    return gates ++ [modp (if mult then val1 * val2 else val1 + val2)]) []

/-- `construct_circ_mm` and `evaluate_circuit` (mm.cpp:526-617): the levels from 0 (outputs) to `d + 1`
(inputs). The sizes of the levels are `int`s: `n * n * n` overflows for `d` from 11 on. -/
def evaluate (d : ℕ) (inputs : List ℤ) : Outcome (List (List ℤ)) :=
  if 31 ≤ 3 * d then .undefined else
  loopM (d + 1) (fun k levels => do
    let next ← Outcome.read levels.head?
    let gates ←
      if k = 0 then evalLevel (2 ^ (3 * d)) (in1 d) (in2 d) true next
      else evalLevel (2 ^ (3 * d - k)) (fun j => j * 2) (fun j => j * 2 + 1) false next
    return gates :: levels) [inputs]

/-! ## The layers of additions -/

/-- What a layer leaves behind: the new claim `ri`, the new point `z`, and whether no message was
printed. -/
structure Claim where
  ri : ℤ
  z : List ℤ
  passed : Bool

/-- The comparison used everywhere: `x % p != ri && x % p + p != ri && x % p - p != ri` prints a
message. -/
def agrees (x ri : ℤ) : Bool := modp x == ri || modp x + p == ri || modp x - p == ri

/-- `sum_check_addtree` (mm.cpp:435-486) on the layer above `next`, which has `2^logS` gates; `rnd` is the
random value. -/
def addTree (next : List ℤ) (logS : ℕ) (z : List ℤ) (ri rnd : ℤ) : Outcome (ℤ × List ℤ × Bool) := do
  let r ← loopM logS (fun i r => do
    let x ← Outcome.read z[i]?
    return r ++ [x]) []
  let Z := betaTable logS (fun k => r.getD k 0)
  let V ← loopM (2 ^ logS) (fun i (V : ℤ × ℤ) => do
    let a ← Outcome.read next[2 * i]?
    let b ← Outcome.read next[2 * i + 1]?
    return (V.1 + Z i * a, V.2 + Z i * b)) (0, 0)
  let passed := agrees (V.1 + V.2) ri
  let r3 := extrap (fun i => if i = 0 then V.1 else V.2) 2 rnd
  return (r3, r ++ [rnd], passed)

/-! ## The layer of products -/

/-- State of the three groups of rounds: the tables and the messages `poly`. -/
structure MmState where
  beta : ℕ → ℤ
  V0 : ℕ → ℤ
  V1 : ℕ → ℤ
  poly : ℕ → ℕ → ℤ

/-- `multby0`, `multby1`, `multby2` -/
structure Mults where
  m0 : ℤ
  m1 : ℤ
  m2 : ℤ

/-- the body of the inner loops (mm.cpp:222-237, 271-284): one product `betavals[ijk] * V1[jk]`, on the
upper or the lower half -/
def multStep (high : Bool) (beta v betaupdate inv1 inv2 : ℤ) (m : Mults) : Mults :=
  if high then
    { m with m1 := m.m1 + beta * v, m2 := m.m2 + 2 * (beta * inv1 * betaupdate) * v }
  else
    { m with m0 := m.m0 + beta * v, m2 := m.m2 + -(beta * inv2 * betaupdate) * v }

/-- `poly[round][0..2] += V0[ik] * multby0..2` -/
def polyAdd (q : ℕ → ℤ) (v : ℤ) (m : Mults) : ℕ → ℤ := fun t =>
  if t = 0 then q 0 + v * m.m0 else if t = 1 then q 1 + v * m.m1 else if t = 2 then q 2 + v * m.m2 else q t

/-- `poly[round][0] %= p; poly[round][1] %= p; poly[round][2] %= p;` (`poly[round][3]` is not reduced) -/
def polyMod (q : ℕ → ℤ) : ℕ → ℤ := fun t => if t ≤ 2 then modp (q t) else q t

/-- a round on the rows of the first matrix (mm.cpp:203-250) -/
def roundI (d : ℕ) (z r : ℕ → ℤ) (round : ℕ) (s : MmState) : MmState :=
  let n := 2 ^ d
  let numIs := n >>> round
  let zr := z (3 * d - 1 - round)
  let betaupdate := zr * 2 - (1 - zr)
  let inv1 := invert zr 0
  let inv2 := invert (modp (1 - zr)) 0
  let q := loop numIs (fun i q => loop n (fun k q =>
    let m := loop n (fun j m =>
      multStep ((i &&& (numIs >>> 1)) ≠ 0) (s.beta (i <<< (2 * d) + (j <<< d + k))) (s.V1 (j <<< d + k))
        betaupdate inv1 inv2 m) ⟨0, 0, 0⟩
    polyAdd q (s.V0 (i <<< d + k)) m) q) (s.poly round)
  let numIs := numIs >>> 1
  { s with poly := Function.update s.poly round (polyMod q)
           beta := updateBeta s.beta (numIs * n * n) zr (r (3 * d - 1 - round))
           V0 := updateV s.V0 (numIs * n) (r (3 * d - 1 - round)) }

/-- a round on the rows of the second matrix (mm.cpp:252-299) -/
def roundJ (d : ℕ) (z r : ℕ → ℤ) (round : ℕ) (s : MmState) : MmState :=
  let n := 2 ^ d
  let numJs := n >>> (round - d)
  let zr := z (3 * d - 1 - round)
  let betaupdate := zr * 2 - (1 - zr)
  let inv1 := invert zr 0
  let inv2 := invert (modp (1 - zr)) 0
  let q := loop n (fun k q =>
    let m := loop numJs (fun j m =>
      multStep ((j &&& (numJs >>> 1)) ≠ 0) (s.beta (j <<< d + k)) (s.V1 (j <<< d + k))
        betaupdate inv1 inv2 m) ⟨0, 0, 0⟩
    polyAdd q (s.V0 k) m) (s.poly round)
  let numJs := numJs >>> 1
  { s with poly := Function.update s.poly round (polyMod q)
           beta := updateBeta s.beta (numJs * n) zr (r (3 * d - 1 - round))
           V1 := updateV s.V1 (numJs * n) (r (3 * d - 1 - round)) }

/-- a round on the columns (mm.cpp:305-347) -/
def roundK (d : ℕ) (z r : ℕ → ℤ) (round : ℕ) (s : MmState) : MmState :=
  let numKs := 2 ^ d >>> (round - 2 * d)
  let h := numKs >>> 1
  let zr := z (3 * d - 1 - round)
  let betaupdate2 := (zr - 1) + 2 * zr
  let betaupdate3 := modp (2 * (zr - 1) + 3 * zr)
  let inv1 := invert zr 0
  let inv2 := invert (modp (1 - zr)) 0
  let q := loop numKs (fun k q => fun t =>
    if (k &&& h) ≠ 0 then
      let betar := s.beta k * inv1
      if t = 1 then q 1 + s.beta k * s.V0 k * s.V1 k
      else if t = 2 then q 2 + betar * betaupdate2 * 2 * s.V0 k * (2 * s.V1 k - s.V1 (k - h))
      else if t = 3 then q 3 + betar * betaupdate3 * 3 * s.V0 k * (3 * s.V1 k - 2 * s.V1 (k - h))
      else q t
    else
      let betar := s.beta k * inv2
      if t = 0 then q 0 + s.beta k * s.V0 k * s.V1 k
      else if t = 2 then q 2 + betar * betaupdate2 * (-s.V0 k) * (2 * s.V1 (k + h) - s.V1 k)
      else if t = 3 then q 3 + betar * betaupdate3 * (-2 * s.V0 k) * (-2 * s.V1 k + 3 * s.V1 (k + h))
      else q t) (s.poly round)
  { s with poly := Function.update s.poly round (polyMod q)
           beta := updateBeta s.beta h zr (r (3 * d - 1 - round))
           V0 := updateV s.V0 h (r (3 * d - 1 - round))
           V1 := updateV s.V1 h (r (3 * d - 1 - round)) }

/-- The rounds (mm.cpp:162-348), from the level `next` of the inputs. -/
def mmRounds (d : ℕ) (next z r : ℕ → ℤ) : MmState :=
  let s : MmState :=
    { beta := betaTable (3 * d) z, V0 := next, V1 := fun i => next (i + 2 ^ d * 2 ^ d), poly := fun _ _ => 0 }
  let s := loop d (fun round => roundI d z r round) s
  let s := loopFrom d (2 * d) (fun round => roundJ d z r round) s
  loopFrom (2 * d) (3 * d) (fun round => roundK d z r round) s

/-- One of the checks (mm.cpp:356-376): message `j - 1` with `m` values, extrapolated, against message
`j`. The coordinate of `r` is read at the index `3 * d - 1 - j - 1`. -/
def mmCheck (d : ℕ) (r : ℕ → ℤ) (poly : ℕ → ℕ → ℤ) (m j : ℕ) : Outcome Bool := do
  -- `r[3*d-1-j-1]` is `r[-1]` for `j = 3 * d - 1`
  let x ← if j + 2 ≤ 3 * d then .ok (r (3 * d - 1 - j - 1)) else .undefined
  let check := extrap (poly (j - 1)) m x
  return agrees (poly j 0 + poly j 1) check

/-- The first check (mm.cpp:350-354); without rounds `poly` is empty. -/
def mmFirst (d : ℕ) (poly : ℕ → ℕ → ℤ) (ri : ℤ) : Outcome Bool :=
  if d = 0 then .undefined else .ok (agrees (poly 0 0 + poly 0 1) ri)

/-- `sum_check_mm` (mm.cpp:148-433); `r` are the `3 * d + 1` random values. The large comment at its end is
not code. -/
def sumCheckMm (d : ℕ) (next z r : ℕ → ℤ) (ri : ℤ) : Outcome Claim := do
  let s := mmRounds d next z r
  let ok ← mmFirst d s.poly ri
  let ok ← loopM (2 * d - 1) (fun j ok => do
    let c ← mmCheck d r s.poly 3 (j + 1)
    return ok && c) ok
  let ok ← loopM d (fun j ok => do
    let c ← mmCheck d r s.poly 4 (2 * d + j)
    return ok && c) ok
  let ri := s.V0 0 * (1 - r (3 * d)) + s.V1 0 * r (3 * d)
  return ⟨ri, (List.range (3 * d + 1)).map r, ok⟩

/-! ## The program -/

/-- the layers of additions in `main` (mm.cpp:680-690), level `i` for `i < d`; `rnd i` is the random value
of layer `i` -/
def addLayers (d : ℕ) (levels : List (List ℤ)) (rnd : ℕ → ℤ) (c : Claim) : Outcome Claim :=
  loopM d (fun i c => do
    let next ← Outcome.read levels[i + 1]?
    let (ri, z, ok) ← addTree next (2 * d + i) c.z c.ri (rnd i)
    return ⟨ri, z, c.passed && ok⟩) c

/-- `main` (mm.cpp:637-708) for a number of bits `d ≥ 0`: whether no check printed a message.
`z0`, `rnd`, `r` are the results of `mpz_urandomm`. -/
def program (d : ℕ) (inputs : List ℤ) (z0 rnd r : ℕ → ℤ) : Outcome Bool := do
  let levels ← evaluate d inputs
  let out ← Outcome.read levels[0]?
  let z := (List.range (2 * d)).map z0
  let ri ← randomVL out z
  let c ← addLayers d levels rnd ⟨ri, z, true⟩
  let next ← Outcome.read levels[d + 1]?
  let c' ← sumCheckMm d (fun i => next.getD i 0) (fun i => c.z.getD i 0) r c.ri
  let z := c'.z.take (2 * d + 1)
  let v ← randomVL next z
  return c.passed && c'.passed && agrees v c'.ri

end Libra.Mm
