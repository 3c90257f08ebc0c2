import Verif.Model.Loop
import Verif.Model.ProgramTypes
import Mathlib.Data.List.Basic

/-!
# The generator of the SHA-256 program

Model of `/repo/tests/SHA256/sha256gen.py`: the functions that write the program for one block (all 64 rounds) in the
source language of the circuit compiler, as run by `tests/SHA256/build.sh` (`-R -P -m N`, that is `randzero = False`,
`padding = False`, `noconsts = True`). The state the Python functions thread through is the number `voffset` of the next
variable; the lines written to the temporary file, and the lists `inVals`, `bit_tests` and `round_tests` only grow, and are
the log of a run. A failed `assert` is `assertFail`. Not modelled: option parsing, the text format of lines (a line is a
`Stmt`), the temporary file, and the Python 2 order of a dictionary with small integer keys, which is ascending.
-/

namespace Libra.Sha256Gen
open Compiler

/-- what a run adds to the temporary file and to the three lists (sha256gen.py:492, 571-572) -/
structure Log where
  inVals : List ℕ := []
  lines : List Stmt := []
  bitTests : List ℕ := []
  roundTests : List ℕ := []
deriving DecidableEq

/-- first `a`, then `b` -/
def Log.append (a b : Log) : Log :=
  ⟨a.inVals ++ b.inVals, a.lines ++ b.lines, a.bitTests ++ b.bitTests, a.roundTests ++ b.roundTests⟩

/-- A function that takes `voffset` and returns a result and the new `voffset`. -/
def Gen (α : Type) : Type := ℕ → Outcome (α × ℕ × Log)

/-- return `a` -/
def Gen.pure {α : Type} (a : α) : Gen α := fun v => .ok (a, v, {})

/-- run `g`, then `f` with its result -/
def Gen.bind {α β : Type} (g : Gen α) (f : α → Gen β) : Gen β := fun v =>
  (g v).bind fun r => (f r.1 r.2.1).bind fun s => .ok (s.1, s.2.1, r.2.2.append s.2.2)

instance : Monad Gen where
  pure := Gen.pure
  bind := Gen.bind

/-- write a line that defines variable `voffset`, and increment `voffset` (for example sha256gen.py:17-19) -/
def define (s : ℕ → Stmt) : Gen ℕ := fun v => .ok (v, v + 1, { lines := [s v] })

/-- `P V<voffset> = Va op Vb E` (for example sha256gen.py:17-19) -/
def gate (op : Op) (a b : ℕ) : Gen ℕ := define (fun v => .gate op v a b)

/-- `assert c` -/
def assertThat (c : Bool) : Gen Unit := fun v => if c then .ok ((), v, {}) else .assertFail

/-- `round_tests.append(t)` (for example sha256gen.py:591) -/
def roundTest (t : ℕ) : Gen Unit := fun v => .ok ((), v, { roundTests := [t] })

/-- `bit_tests.extend(ts)` (for example sha256gen.py:586) -/
def bitTest (ts : List ℕ) : Gen Unit := fun v => .ok ((), v, { bitTests := ts })

/-- `for x in xs: outs.append(f(x))` -/
def mapG {α β : Type} (f : α → Gen β) : List α → Gen (List β)
  | [] => Gen.pure []
  | x :: xs => Gen.bind (f x) fun y => Gen.bind (mapG f xs) fun ys => Gen.pure (y :: ys)

/-- `for i in range(0, n): s = body(i, s)` -/
def forG {σ : Type} (n : ℕ) (body : ℕ → σ → Gen σ) (s : σ) : Gen σ :=
  match n with
  | 0 => Gen.pure s
  | n + 1 => Gen.bind (forG n body s) (body n)

/-- `writeCHfunction` (sha256gen.py:14-33) -/
def writeCH (x y z : List ℕ) : Gen (List ℕ) := do
  let xAndY ← mapG (fun p => gate .mult p.1 p.2) (x.zip y)
  let nxAndZ ← mapG (fun p => gate .naab p.1 p.2) (x.zip z)
  mapG (fun p => gate .xor p.1 p.2) (xAndY.zip nxAndZ)

/-- `writeXORSfunction` (sha256gen.py:36-49) -/
def writeXORS (x y z : List ℕ) : Gen (List ℕ) := do
  let xXorY ← mapG (fun p => gate .xor p.1 p.2) (x.zip y)
  mapG (fun p => gate .xor p.1 p.2) (xXorY.zip z)

/-- the body of the loop of `writeMAJfunction` (sha256gen.py:56-67): `x & y`, `y & z`, `x & z` -/
def majBit (p : ℕ × ℕ × ℕ) : Gen (ℕ × ℕ × ℕ) := do
  let xy ← gate .mult p.1 p.2.1
  let yz ← gate .mult p.2.1 p.2.2
  let xz ← gate .mult p.1 p.2.2
  return (xy, yz, xz)

/-- `writeMAJfunction` (sha256gen.py:52-69) -/
def writeMAJ (x y z : List ℕ) : Gen (List ℕ) := do
  let l ← mapG majBit (x.zip (y.zip z))
  writeXORS (l.map (fun p => p.1)) (l.map (fun p => p.2.1)) (l.map (fun p => p.2.2))

/-- `x[k:] + x[:k]` (for example sha256gen.py:73) -/
def rotr (k : ℕ) (x : List ℕ) : List ℕ := x.drop k ++ x.take k

/-- `x[k:] + [0] * k` (sha256gen.py:91, 100): variable 0 is the constant 0 -/
def shr (k : ℕ) (x : List ℕ) : List ℕ := x.drop k ++ List.replicate k 0

/-- `writeSigma0function` (sha256gen.py:72-76) -/
def writeBigSigma0 (x : List ℕ) : Gen (List ℕ) := writeXORS (rotr 2 x) (rotr 13 x) (rotr 22 x)

/-- `writeSigma1function` (sha256gen.py:79-83) -/
def writeBigSigma1 (x : List ℕ) : Gen (List ℕ) := writeXORS (rotr 6 x) (rotr 11 x) (rotr 25 x)

/-- `writesigma0function` (sha256gen.py:86-92) -/
def writeSigma0 (x : List ℕ) : Gen (List ℕ) := writeXORS (rotr 7 x) (rotr 18 x) (shr 3 x)

/-- `writesigma1function` (sha256gen.py:95-101) -/
def writeSigma1 (x : List ℕ) : Gen (List ℕ) := writeXORS (rotr 17 x) (rotr 19 x) (shr 10 x)

/-- is every number the successor of the one before? (the assertion of sha256gen.py:124-125) -/
def consecutive : List ℕ → Bool
  | [] => true
  | [_] => true
  | a :: b :: l => decide (a + 1 = b) && consecutive (b :: l)

/-- `do_addition` (sha256gen.py:123-128), for a list that is not empty -/
def doAddition (ivals : List ℕ) : Gen ℕ := do
  assertThat (consecutive ivals)
  define (fun v => .expSum v (ivals.headD 0) (ivals.getLastD 0))

/-- `test_field_field` without a condition (sha256gen.py:151-159) -/
def testFieldField (f1 f2 : ℕ) : Gen ℕ := gate .minus f1 f2

/-- `test_bitvec_field` without a condition (sha256gen.py:161-163) -/
def testBitvecField (bvals : List ℕ) (fval : ℕ) : Gen ℕ := do
  let bsum ← doAddition bvals
  testFieldField bsum fval

/-- `verify_bits` (sha256gen.py:165-174) -/
def verifyBits (ivals : List ℕ) : Gen (List ℕ) := mapG (fun i => define (fun v => .bit v i i)) ivals

/-- `allocate_input` without `extent` (sha256gen.py:176-179) -/
def alloc : Gen ℕ := fun v => .ok (v, v + 1, { inVals := [v] })

/-- `allocate_input` with `extent` (sha256gen.py:180-183) -/
def allocN (extent : ℕ) : Gen (List ℕ) := fun v =>
  .ok (List.range' v extent, v + extent, { inVals := List.range' v extent })

/-- `for i in range(0, n): target.append(g())` -/
def repeatG {α : Type} (n : ℕ) (g : Gen α) : Gen (List α) := mapG (fun _ => g) (List.range n)

/-- The variables of the inputs (sha256gen.py:493-498, 540-567). -/
structure Inputs where
  W : List ℕ
  /-- entry `0`, which the dictionary does not have, is empty -/
  Wbits : List (List ℕ)
  K : List ℕ
  H : List ℕ
  Hout : List ℕ
  HoutBits : List (List ℕ)
  a : List ℕ
  b : List ℕ
  c : List ℕ
  e : List ℕ
  f : List ℕ
  g : List ℕ
  aout : List (List ℕ)
  eout : List (List ℕ)

/-- Step 1 of `write_64_rounds` (sha256gen.py:488-567). -/
def allocInputs : Gen Inputs := do
  let W ← repeatG 64 alloc
  let bits32 ← repeatG 15 (allocN 32)
  let bits34 ← repeatG 48 (allocN 34)
  let K ← repeatG 64 alloc
  let H ← repeatG 8 alloc
  let Hout ← repeatG 8 alloc
  let HoutBits ← repeatG 8 (allocN 33)
  let a ← allocN 32
  let b ← allocN 32
  let c ← allocN 32
  let e ← allocN 32
  let f ← allocN 32
  let g ← allocN 32
  let aout ← repeatG 64 (allocN 35)
  let eout ← repeatG 64 (allocN 35)
  return ⟨W, [] :: (bits32 ++ bits34), K, H, Hout, HoutBits, a, b, c, e, f, g, aout, eout⟩

/-- The working variables: bits where they are needed, and field elements (sha256gen.py:574-581). -/
structure Regs where
  aBits : List ℕ
  bBits : List ℕ
  cBits : List ℕ
  eBits : List ℕ
  fBits : List ℕ
  gBits : List ℕ
  a : ℕ
  b : ℕ
  c : ℕ
  d : ℕ
  e : ℕ
  f : ℕ
  g : ℕ
  h : ℕ

/-- The sums of the initial bits (sha256gen.py:574-581). -/
def initialRegs (I : Inputs) : Gen Regs := do
  let a ← doAddition I.a
  let b ← doAddition I.b
  let c ← doAddition I.c
  let e ← doAddition I.e
  let f ← doAddition I.f
  let g ← doAddition I.g
  return ⟨I.a, I.b, I.c, I.e, I.f, I.g, a, b, c, I.H.getD 3 0, e, f, g, I.H.getD 7 0⟩

/-- The body of the loop over `W_i_bits` (sha256gen.py:584-591). -/
def checkW (I : Inputs) (idx : ℕ) : Gen Unit := do
  let tmp ← verifyBits (I.Wbits.getD idx [])
  bitTest tmp
  let tmp ← testBitvecField ((I.Wbits.getD idx []).take 32) (I.W.getD idx 0)
  roundTest tmp

/-- The body of the loop of sha256gen.py:593-596. -/
def checkVec (vec : List ℕ) : Gen Unit := do
  let tmp ← verifyBits vec
  bitTest tmp

/-- The tests of the inputs (sha256gen.py:583-607). -/
def checkInputs (I : Inputs) (R : Regs) : Gen Unit := do
  let _ ← mapG (checkW I) (List.range' 1 63)
  let _ ← mapG checkVec I.HoutBits
  let _ ← mapG checkVec [I.a, I.b, I.c, I.e, I.f, I.g]
  let _ ← mapG checkVec I.aout
  let _ ← mapG checkVec I.eout
  let _ ← mapG (fun p => do
      let tmp ← testFieldField p.1 p.2
      roundTest tmp)
    ([R.a, R.b, R.c, R.e, R.f, R.g].zip (I.H.take 3 ++ (I.H.drop 4).take 3))
  let _ ← mapG (fun p => do
      let tmp ← testBitvecField (p.1.take 32) p.2
      roundTest tmp)
    (I.HoutBits.zip I.Hout)
  return ()

/-- The body of the loop that checks the message schedule (sha256gen.py:610-624). -/
def checkSchedule (I : Inputs) (rnd : ℕ) : Gen Unit := do
  let s0Bits ← writeSigma0 ((I.Wbits.getD (rnd - 15) []).take 32)
  let s1Bits ← writeSigma1 ((I.Wbits.getD (rnd - 2) []).take 32)
  let s0 ← doAddition s0Bits
  let s1 ← doAddition s1Bits
  let u ← gate .add s0 s1
  let u' ← gate .add (I.W.getD (rnd - 16) 0) (I.W.getD (rnd - 7) 0)
  let wival ← gate .add u' u
  let tmp ← testBitvecField (I.Wbits.getD rnd []) wival
  roundTest tmp

/-- The body of the loop over the rounds (sha256gen.py:628-687). -/
def writeRound (I : Inputs) (rnd : ℕ) (R : Regs) : Gen Regs := do
  let S0Bits ← writeBigSigma0 (R.aBits.take 32)
  let S1Bits ← writeBigSigma1 (R.eBits.take 32)
  let MajBits ← writeMAJ (R.aBits.take 32) (R.bBits.take 32) (R.cBits.take 32)
  let ChBits ← writeCH (R.eBits.take 32) (R.fBits.take 32) (R.gBits.take 32)
  let S0 ← doAddition S0Bits
  let S1 ← doAddition S1Bits
  let Maj ← doAddition MajBits
  let Ch ← doAddition ChBits
  let t2 ← gate .add S0 Maj
  let t1Late ← gate .add S1 Ch
  let kiwi ← gate .add (I.K.getD rnd 0) (I.W.getD rnd 0)
  let dh ← gate .add R.d R.h
  let u ← gate .add kiwi dh
  let enext ← gate .add u t1Late
  let th ← gate .add t2 R.h
  let tk ← gate .add th kiwi
  let anext ← gate .add tk t1Late
  let aTest ← testBitvecField (I.aout.getD rnd []) anext
  roundTest aTest
  let eTest ← testBitvecField (I.eout.getD rnd []) enext
  roundTest eTest
  let e ← doAddition ((I.eout.getD rnd []).take 32)
  let a ← doAddition ((I.aout.getD rnd []).take 32)
  return ⟨I.aout.getD rnd [], R.aBits, R.bBits, I.eout.getD rnd [], R.eBits, R.fBits,
    a, R.a, R.b, R.c, e, R.e, R.f, R.g⟩

/-- The body of the loop that checks the result (sha256gen.py:691-698). -/
def checkOut (p : ℕ × ℕ × List ℕ) : Gen Unit := do
  let houtval ← gate .add p.1 p.2.1
  let tmp ← testBitvecField p.2.2 houtval
  roundTest tmp

/-- Steps 2 to 4 (sha256gen.py:569-698). -/
def writeBody (I : Inputs) : Gen Unit := do
  let R ← initialRegs I
  checkInputs I R
  let _ ← mapG (checkSchedule I) (List.range' 16 48)
  let R ← forG 64 (writeRound I) R
  let _ ← mapG checkOut ([R.a, R.b, R.c, R.d, R.e, R.f, R.g, R.h].zip (I.H.zip I.HoutBits))
  return ()

/-- Step 6, with the lists of the run and its last `voffset` (sha256gen.py:719, 721-745): the inputs are numbered in the
order of `inVals`, the outputs from the last `voffset` on. -/
def program (v : ℕ) (L : Log) : List Stmt :=
  (List.range 34).map (fun i => .input i i) ++
  (L.inVals.zipIdx 34).map (fun p => .input p.1 p.2) ++
  L.lines ++
  ((L.roundTests ++ L.bitTests).zipIdx v).map (fun p => .output p.2 p.1)

/-- `write_64_rounds` (sha256gen.py:483-745) with `randzero = False`, `noconsts = True`: the program. -/
def write64 : Outcome (List Stmt) :=
  (Gen.bind allocInputs writeBody 34).bind fun r => .ok (program r.2.1 r.2.2)

end Libra.Sha256Gen
