import Verif.Model.Sha256Gen

/-!
# The generator of SHA-256 programs in `bin`

Model of `write_64_rounds` of `/repo/bin/sha256gen_merkle.py` with its default options (`randzero = False`, `noconsts = True`). It differs
from the generator of `Model/Sha256Gen` (`tests/SHA256/sha256gen.py`) in two functions: bit vectors are added up with a `SS` line instead of an
`EXPSUM` line, and a bit is checked with a `NOT` line and a product instead of a `BIT` line. The functions that use neither (the bit
functions, the allocation of inputs, the last step) are the same text in both files, and are taken from `Model/Sha256Gen`: sha256gen_merkle.py:14-101,
133-141, 157-164, 171-250, 404-428. Not modelled: as in `Model/Sha256Gen`; also `-4`, which calls a function that does not exist, and
`write_merkle_rdl` (sha256gen_merkle.py:430-637), which is the same text as in the other generator (`Model/MerkleGen`).
-/

namespace Libra.Sha256Bin
open Compiler Sha256Gen

/-- `do_addition` (sha256gen_merkle.py:124-131), for a list that is not empty -/
def doAddition (ivals : List ℕ) : Gen ℕ := do
  assertThat (consecutive ivals)
  define (fun v => .sum v (ivals.headD 0) (ivals.getLastD 0))

/-- `test_bitvec_field` without a condition (sha256gen_merkle.py:143-145) -/
def testBitvecField (bvals : List ℕ) (fval : ℕ) : Gen ℕ := do
  let bsum ← doAddition bvals
  testFieldField bsum fval

/-- the body of the loop of `verify_bits` (sha256gen_merkle.py:149-153) -/
def verifyBit (i : ℕ) : Gen ℕ := do
  let n ← gate .not i i
  gate .mult n i

/-- `verify_bits` (sha256gen_merkle.py:147-155) -/
def verifyBits (ivals : List ℕ) : Gen (List ℕ) := mapG verifyBit ivals

/-- The sums of the initial bits (sha256gen_merkle.py:257-264). -/
def initialRegs (I : Inputs) : Gen Regs := do
  let a ← doAddition I.a
  let b ← doAddition I.b
  let c ← doAddition I.c
  let e ← doAddition I.e
  let f ← doAddition I.f
  let g ← doAddition I.g
  return ⟨I.a, I.b, I.c, I.e, I.f, I.g, a, b, c, I.H.getD 3 0, e, f, g, I.H.getD 7 0⟩

/-- The body of the loop over `W_i_bits` (sha256gen_merkle.py:267-274). -/
def checkW (I : Inputs) (idx : ℕ) : Gen Unit := do
  let tmp ← verifyBits (I.Wbits.getD idx [])
  bitTest tmp
  let tmp ← testBitvecField ((I.Wbits.getD idx []).take 32) (I.W.getD idx 0)
  roundTest tmp

/-- The body of the loop of sha256gen_merkle.py:276-279. -/
def checkVec (vec : List ℕ) : Gen Unit := do
  let tmp ← verifyBits vec
  bitTest tmp

/-- The tests of the inputs (sha256gen_merkle.py:266-290). -/
def checkInputs (I : Inputs) (R : Regs) : Gen Unit := do
  let _ ← mapG (checkW I) (List.range' 1 63)
  let _ ← mapG checkVec I.HoutBits
  let _ ← mapG checkVec [I.a, I.b, I.c, I.e, I.f, I.g]
  let _ ← mapG checkVec I.aout
  let _ ← mapG checkVec I.eout
  let _ ← mapG (fun p => do
      let tmp ← testFieldField p.1 p.2
      roundTest tmp)
    ([R.a, R.b, R.c, R.e, R.f, R.g].zip (I.H.take 3 ++ (I.H.drop 4).take 3))
  let _ ← mapG (fun p => do
      let tmp ← testBitvecField (p.1.take 32) p.2
      roundTest tmp)
    (I.HoutBits.zip I.Hout)
  return ()

/-- The body of the loop that checks the message schedule (sha256gen_merkle.py:293-307). -/
def checkSchedule (I : Inputs) (rnd : ℕ) : Gen Unit := do
  let s0Bits ← writeSigma0 ((I.Wbits.getD (rnd - 15) []).take 32)
  let s1Bits ← writeSigma1 ((I.Wbits.getD (rnd - 2) []).take 32)
  let s0 ← doAddition s0Bits
  let s1 ← doAddition s1Bits
  let u ← gate .add s0 s1
  let u' ← gate .add (I.W.getD (rnd - 16) 0) (I.W.getD (rnd - 7) 0)
  let wival ← gate .add u' u
  let tmp ← testBitvecField (I.Wbits.getD rnd []) wival
  roundTest tmp

/-- The body of the loop over the rounds (sha256gen_merkle.py:311-370). -/
def writeRound (I : Inputs) (rnd : ℕ) (R : Regs) : Gen Regs := do
  let S0Bits ← writeBigSigma0 (R.aBits.take 32)
  let S1Bits ← writeBigSigma1 (R.eBits.take 32)
  let MajBits ← writeMAJ (R.aBits.take 32) (R.bBits.take 32) (R.cBits.take 32)
  let ChBits ← writeCH (R.eBits.take 32) (R.fBits.take 32) (R.gBits.take 32)
  let S0 ← doAddition S0Bits
  let S1 ← doAddition S1Bits
  let Maj ← doAddition MajBits
  let Ch ← doAddition ChBits
  let t2 ← gate .add S0 Maj
  let t1Late ← gate .add S1 Ch
  let kiwi ← gate .add (I.K.getD rnd 0) (I.W.getD rnd 0)
  let dh ← gate .add R.d R.h
  let u ← gate .add kiwi dh
  let enext ← gate .add u t1Late
  let th ← gate .add t2 R.h
  let tk ← gate .add th kiwi
  let anext ← gate .add tk t1Late
  let aTest ← testBitvecField (I.aout.getD rnd []) anext
  roundTest aTest
  let eTest ← testBitvecField (I.eout.getD rnd []) enext
  roundTest eTest
  let e ← doAddition ((I.eout.getD rnd []).take 32)
  let a ← doAddition ((I.aout.getD rnd []).take 32)
  return ⟨I.aout.getD rnd [], R.aBits, R.bBits, I.eout.getD rnd [], R.eBits, R.fBits,
    a, R.a, R.b, R.c, e, R.e, R.f, R.g⟩

/-- The body of the loop that checks the result (sha256gen_merkle.py:374-381). -/
def checkOut (p : ℕ × ℕ × List ℕ) : Gen Unit := do
  let houtval ← gate .add p.1 p.2.1
  let tmp ← testBitvecField p.2.2 houtval
  roundTest tmp

/-- Steps 2 to 4 (sha256gen_merkle.py:252-381). -/
def writeBody (I : Inputs) : Gen Unit := do
  let R ← initialRegs I
  checkInputs I R
  let _ ← mapG (checkSchedule I) (List.range' 16 48)
  let R ← forG 64 (writeRound I) R
  let _ ← mapG checkOut ([R.a, R.b, R.c, R.d, R.e, R.f, R.g, R.h].zip (I.H.zip I.HoutBits))
  return ()

/-- `write_64_rounds` (sha256gen_merkle.py:166-428) with `randzero = False`, `noconsts = True`: the program. -/
def write64 : Outcome (List Stmt) :=
  (Gen.bind allocInputs writeBody 34).bind fun r => .ok (program r.2.1 r.2.2)

end Libra.Sha256Bin
