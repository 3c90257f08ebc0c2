import Verif.Model.Sha256Gen

/-!
# The generator of the SHA-256 program for four rounds, and its wiring

Model of `write_4_rounds` and `write_4_rounds_rdl` of `/repo/tests/SHA256/sha256gen.py` (option `-4`): a program for four rounds, with
conditions for the first and the last four, and the wiring that uses it sixteen times. As in `Sha256Gen`, with `noconsts = True`. Not
modelled: option parsing, debug output, the text format of lines, the temporary file. The order of the dictionary `W_i_bits` in
sha256gen.py:308 is the one of CPython 2.7 for its keys, `0, 1, 2, 3, -15, -14, -13, -12, -2, -1`; it only matters for the numbers of variables.
-/

namespace Libra.Sha256Gen
open Compiler

/-- `test_field_field` with a condition (sha256gen.py:151-159) -/
def testFieldFieldIf (f1 f2 condition : ℕ) : Gen ℕ := do
  let t ← gate .minus f1 f2
  gate .mult t condition

/-- `test_bitvec_field` with a condition (sha256gen.py:161-163) -/
def testBitvecFieldIf (bvals : List ℕ) (fval condition : ℕ) : Gen ℕ := do
  let bsum ← doAddition bvals
  testFieldFieldIf bsum fval condition

/-- The variables of the inputs (sha256gen.py:192-293). The fields of `Inputs` that are used here have the same meaning: `W` and `Wbits` are
the words 0 to 3 (34 bits each), `K` the four constants, `aout` and `eout` four vectors each. -/
structure Inputs4 extends Inputs where
  inFirst : ℕ
  notEarly : ℕ
  inFinal : ℕ
  /-- words -16 to -13 -/
  Wm16 : List ℕ
  /-- words -7 to -4 -/
  Wm7 : List ℕ
  /-- bits of the words -15 to -12 -/
  Bm15 : List (List ℕ)
  /-- bits of the words -2 and -1 -/
  Bm2 : List (List ℕ)
  d : ℕ
  h : ℕ
  dOut : ℕ
  hOut : ℕ

/-- Step 1 of `write_4_rounds` (sha256gen.py:190-293). -/
def allocInputs4 : Gen Inputs4 := do
  let inFirst ← alloc
  let notEarly ← alloc
  let inFinal ← alloc
  let Wm16 ← repeatG 4 alloc
  let Wm7 ← repeatG 4 alloc
  let W ← repeatG 4 alloc
  let Bm15 ← repeatG 4 (allocN 32)
  let Bm2 ← repeatG 2 (allocN 32)
  let Wbits ← repeatG 4 (allocN 34)
  let K ← repeatG 4 alloc
  let H ← repeatG 8 alloc
  let Hout ← repeatG 8 alloc
  let HoutBits ← repeatG 8 (allocN 33)
  let d ← alloc
  let h ← alloc
  let a ← allocN 32
  let b ← allocN 32
  let c ← allocN 32
  let e ← allocN 32
  let f ← allocN 32
  let g ← allocN 32
  let dOut ← alloc
  let hOut ← alloc
  let aout ← repeatG 4 (allocN 35)
  let eout ← repeatG 4 (allocN 35)
  return ⟨⟨W, Wbits, K, H, Hout, HoutBits, a, b, c, e, f, g, aout, eout⟩, inFirst, notEarly, inFinal, Wm16, Wm7, Bm15, Bm2, d, h, dOut, hOut⟩

/-- The sums of the initial bits (sha256gen.py:300-305). -/
def initialRegs4 (I : Inputs4) : Gen Regs := do
  let a ← doAddition I.a
  let b ← doAddition I.b
  let c ← doAddition I.c
  let e ← doAddition I.e
  let f ← doAddition I.f
  let g ← doAddition I.g
  return ⟨I.a, I.b, I.c, I.e, I.f, I.g, a, b, c, I.d, e, f, g, I.h⟩

/-- The tests that purported bits are bits (sha256gen.py:307-315). -/
def checkBits4 (I : Inputs4) : Gen Unit := do
  let _ ← mapG checkVec (I.Wbits ++ I.Bm15 ++ I.Bm2)
  let _ ← mapG checkVec I.HoutBits
  let _ ← mapG checkVec [I.a, I.b, I.c, I.e, I.f, I.g]
  let _ ← mapG checkVec I.aout
  let _ ← mapG checkVec I.eout
  return ()

/-- The test that word `i` and its bits match (sha256gen.py:336-343): word 0 only if this is not the first block. -/
def checkW4 (I : Inputs4) (i : ℕ) : Gen Unit := do
  if i = 0 then
    let condition ← gate .not I.inFirst I.inFirst
    let tmp ← testBitvecFieldIf ((I.Wbits.getD i []).take 32) (I.W.getD i 0) condition
    roundTest tmp
  else
    let tmp ← testBitvecField ((I.Wbits.getD i []).take 32) (I.W.getD i 0)
    roundTest tmp

/-- The tests of the inputs (sha256gen.py:317-343). -/
def checkInputs4 (I : Inputs4) (R : Regs) : Gen Unit := do
  let tmp ← testBitvecField ((I.aout.getD 0 []).take 32) I.dOut
  roundTest tmp
  let tmp ← testBitvecField ((I.eout.getD 0 []).take 32) I.hOut
  roundTest tmp
  let _ ← mapG (fun p => do
      let tmp ← testFieldFieldIf p.1 p.2 I.inFirst
      roundTest tmp)
    ([R.a, R.b, R.c, R.d, R.e, R.f, R.g, R.h].zip I.H)
  let _ ← mapG (fun p => do
      let tmp ← testBitvecFieldIf (p.1.take 32) p.2 I.inFinal
      roundTest tmp)
    (I.HoutBits.zip I.Hout)
  let _ ← mapG (checkW4 I) (List.range 4)
  return ()

/-- The body of the loop that checks the message schedule (sha256gen.py:346-360). -/
def checkSchedule4 (I : Inputs4) (rnd : ℕ) : Gen Unit := do
  let s0Bits ← writeSigma0 ((I.Bm15.getD rnd []).take 32)
  let s1Bits ← writeSigma1 (((I.Bm2 ++ I.Wbits).getD rnd []).take 32)
  let s0 ← doAddition s0Bits
  let s1 ← doAddition s1Bits
  let u ← gate .add s0 s1
  let u' ← gate .add (I.Wm16.getD rnd 0) (I.Wm7.getD rnd 0)
  let wival ← gate .add u' u
  let tmp ← testBitvecFieldIf (I.Wbits.getD rnd []) wival I.notEarly
  roundTest tmp

/-- The body of the loop that checks the result (sha256gen.py:427-434). -/
def checkOut4 (I : Inputs4) (p : ℕ × ℕ × List ℕ) : Gen Unit := do
  let houtval ← gate .add p.1 p.2.1
  let tmp ← testBitvecFieldIf p.2.2 houtval I.inFinal
  roundTest tmp

/-- Steps 2 to 4 (sha256gen.py:295-434). The body of the loop over the rounds (sha256gen.py:364-423) is that of `write_64_rounds`. -/
def writeBody4 (I : Inputs4) : Gen Unit := do
  let R ← initialRegs4 I
  checkBits4 I
  checkInputs4 I R
  let _ ← mapG (checkSchedule4 I) (List.range 4)
  let R ← forG 4 (writeRound I.toInputs) R
  let _ ← mapG (checkOut4 I) ([R.a, R.b, R.c, R.d, R.e, R.f, R.g, R.h].zip (I.H.zip I.HoutBits))
  return ()

/-- one pass of the loop of `print_add_tree` (sha256gen.py:106-115): neighbours are added, an odd last one is kept -/
def addPairs : List ℕ → Gen (List ℕ)
  | a :: b :: l => Gen.bind (gate .add a b) fun t => Gen.bind (addPairs l) fun ts => Gen.pure (t :: ts)
  | l => Gen.pure l

/-- `print_add_tree` with `maxlength = 1` (sha256gen.py:104-120); a pass makes a list of more than one shorter, so the length of the list is
enough `fuel`. The last line takes `ivals[0]`; an `IndexError` ends the run. -/
def addTree : ℕ → List ℕ → Gen ℕ
  | 0, _ => fun _ => .diverges
  | fuel + 1, l =>
    if 1 < l.length then Gen.bind (addPairs l) (addTree fuel)
    else match l with
      | a :: _ => Gen.pure a
      | [] => fun _ => .exit

/-- one step of the loop of `rand_muls` (sha256gen.py:443-447): variable `voffset` is a new input, `voffset + 1` its product with the test -/
def randMul (elm : ℕ) : Gen ℕ := Gen.bind alloc fun r => gate .mult r elm

/-- `rand_muls` (sha256gen.py:441-449) -/
def randMuls (tests : List ℕ) : Gen ℕ := Gen.bind (mapG randMul tests) fun outs => addTree (outs.length + 1) outs

/-- `write_4_rounds` (sha256gen.py:185-482) with `noconsts = True`: the program. With `randzero`, the tests that bits are bits are replaced by
one random combination (step 5). -/
def write4 (randzero : Bool) : Outcome (List Stmt) :=
  (Gen.bind allocInputs4 writeBody4 34).bind fun (_, v, L) =>
  if randzero then
    (randMuls L.bitTests v).bind fun (tmp, v, L') =>
    .ok (program v { inVals := L.inVals ++ L'.inVals, lines := L.lines ++ L'.lines, roundTests := L.roundTests ++ [tmp] })
  else .ok (program v L)

/-- the inputs of the wiring (sha256gen.py:757-844) -/
structure Wires where
  /-- entry 0, which is not used, is empty; short vectors are padded with the constant 0 -/
  Wbits : List (List ℕ)
  W : List ℕ
  K : List ℕ
  H : List ℕ
  Hout : List ℕ
  HoutBits : List (List ℕ)
  d : List ℕ
  h : List ℕ
  init : List (List ℕ)
  a : List (List ℕ)
  e : List (List ℕ)
  r : List ℕ

/-- sha256gen.py:757-844 -/
def allocWires (randzero : Bool) : Gen Wires := do
  let bits32 ← repeatG 15 (allocN 32)
  let bits34 ← repeatG 48 (allocN 34)
  let W ← repeatG 64 alloc
  let K ← repeatG 64 alloc
  let H ← repeatG 8 alloc
  let Hout ← repeatG 8 alloc
  let HoutBits ← repeatG 8 (allocN 33)
  let d ← repeatG 17 alloc
  let h ← repeatG 17 alloc
  let init ← repeatG 6 (allocN 32)
  let a ← repeatG 64 (allocN 35)
  let e ← repeatG 64 (allocN 35)
  let r ← allocN (if randzero then 1064 else 0)
  return ⟨[] :: (bits32.map (· ++ [0, 0]) ++ bits34), W, K, H, Hout, HoutBits, d, h, init, a, e, r⟩

/-- `l[i:j]` -/
def slice {α : Type} (l : List α) (i j : ℕ) : List α := (l.take j).drop i

/-- the variables that are passed to a block (sha256gen.py:865-948) -/
def blockOut (w : Wires) (block : ℕ) : List ℕ :=
  let rstart := 4 * block
  [0] ++ List.range' 2 33 ++
  [if block = 0 then 1 else 0] ++
  [if block < 4 then 0 else 1] ++
  [if block = 15 then 1 else 0] ++
  (if block < 4 then [0, 0, 0, 0, 0, 0, 0, 0]
    else slice w.W (rstart - 16) (rstart - 12) ++ slice w.W (rstart - 7) (rstart - 3)) ++
  slice w.W rstart (rstart + 4) ++
  (if block < 4 then List.replicate (6 * 32) 0
    else [15, 14, 13, 12, 2, 1].flatMap (fun o => (w.Wbits.getD (rstart - o) []).take 32)) ++
  (List.range' rstart 4).flatMap (fun i => if i = 0 then List.replicate 34 0 else w.Wbits.getD i []) ++
  slice w.K rstart (rstart + 4) ++
  w.H ++
  w.Hout ++
  w.HoutBits.flatten ++
  [w.d.getD block 0] ++
  [w.h.getD block 0] ++
  (if block = 0 then w.init.flatten
    else ((slice w.a (4 * (block - 1) + 1) (4 * block)).reverse ++
      (slice w.e (4 * (block - 1) + 1) (4 * block)).reverse).flatMap (List.take 32)) ++
  [w.d.getD (block + 1) 0] ++
  [w.h.getD (block + 1) 0] ++
  (slice w.a (4 * block) (4 * block + 4)).flatten ++
  (slice w.e (4 * block) (4 * block + 4)).flatten ++
  w.r

/-- `write_4_rounds_rdl` (sha256gen.py:747-968); `x` gives the numbers that the compiler takes for the inputs, see `MerkleGen.inputLines` -/
def write4Rdl (randzero : Bool) (x : ℕ → ℤ) : Outcome (List RStmt) :=
  (allocWires randzero 35).bind fun (w, voffset, L) =>
  let consts := RStmt.const 0 0 :: .const 1 1 :: (List.range' 2 33).map (fun i => .const i (4 * 2 ^ (i - 2)))
  let inputs := (L.inVals.zipIdx 35).map (fun p => RStmt.input p.1 p.2 (x p.2))
  let ionum := 35 + L.inVals.length
  let blocks := (List.range 16).map (blockOut w)
  if blocks.all (fun b => b.length = 1137 + (if randzero then 1064 else 0)) then
    let vals := blocks.flatten
    let passLines := (vals.zipIdx voffset).map (fun p => RStmt.pass p.2 p.1 p.1)
    let outLines := ((List.range' voffset vals.length).zipIdx ionum).map (fun p => RStmt.output p.2 p.1)
    .ok (consts ++ inputs ++ passLines ++ outLines)
  else .assertFail

end Libra.Sha256Gen
