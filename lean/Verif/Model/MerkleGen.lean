import Verif.Model.Sha256Gen

/-!
# The generator of the wiring of a Merkle tree

Model of `write_merkle_rdl` (`/repo/tests/SHA256/sha256gen.py:970-1173`) as run by `tests/SHA256/build.sh` (`-R`, that is
`randzero = False`): the wiring file for a tree of SHA-256 blocks. The lists `Hout_lay`, `Hout_block`, `bkIns` etc. are Python references
into `Hout`, `block_inputs`, ...; here they are put in their place when they are complete. Not modelled: the text format of lines
(a line is an `RStmt`), debug output, options.
-/

namespace Libra.MerkleGen
open Compiler Sha256Gen

/-- the inputs common to all blocks (sha256gen.py:986-1012) -/
structure Common where
  K : List ℕ
  H : List ℕ
  initBits : List ℕ
  HoutFinal : List ℕ

/-- sha256gen.py:986-1012 -/
def allocCommon : Gen Common := do
  let K ← repeatG 64 alloc
  let H ← repeatG 8 alloc
  let initBits ← allocN (6 * 32)
  let HoutFinal ← repeatG 8 alloc
  return ⟨K, H, initBits, HoutFinal⟩

/-- the variables of the loop over the blocks (sha256gen.py:1030-1040) -/
structure Tree where
  layer : ℕ
  layIdx : ℕ
  Hout : List (List (List ℕ))
  HoutBits : List (List (List (List ℕ)))
  blocks : List (List ℕ)
deriving DecidableEq

/-- sha256gen.py:1030-1040 -/
def Tree.start : Tree := ⟨0, 0, [[]], [[]], []⟩

/-- "new layer?" (sha256gen.py:1046-1053); the exponent is not negative, since the loop ends with the block of layer `lgnleaves` -/
def newLayer (lgn : ℕ) (s : Tree) : Tree :=
  if s.layIdx = 2 ^ (lgn - s.layer) then
    { s with layer := s.layer + 1, layIdx := 0, Hout := s.Hout ++ [[]], HoutBits := s.HoutBits ++ [[]] }
  else s

/-- `l[i]`; an `IndexError` ends the run -/
def index {α : Type} (l : List α) (i : ℕ) : Gen α := fun v =>
  match l[i]? with
  | some a => .ok (a, v, {})
  | none => .exit

/-- the message words and their bits: for a leaf, new inputs; otherwise the outputs of two blocks of the layer
below (sha256gen.py:1062-1070, 1078-1086). The order of allocation is kept: words, `W_16..W_63`, bits. -/
def message (s : Tree) : Gen (List ℕ) := do
  if s.layer = 0 then
    let w ← allocN 16
    let w48 ← allocN 48
    let bits ← allocN (15 * 32)
    return w ++ w48 ++ bits
  else
    let lay ← index s.Hout (s.layer - 1)
    let a ← index lay (2 * s.layIdx)
    let b ← index lay (2 * s.layIdx + 1)
    let w48 ← allocN 48
    let bitsLay ← index s.HoutBits (s.layer - 1)
    let aBits ← index bitsLay (2 * s.layIdx)
    let bBits ← index bitsLay (2 * s.layIdx + 1)
    return a ++ b ++ w48 ++ (aBits.drop 1 ++ bBits).flatMap (List.take 32)

/-- the new hash value: `Hout_final` for the last block (sha256gen.py:1099-1106). The result is what is added to `Hout_block` and to
`bkIns`. -/
def newHash (c : Common) (last : Bool) : Gen (List ℕ × List ℕ) := do
  if last then
    return ([], c.HoutFinal)
  else
    let tmp ← allocN 8
    return (tmp, tmp)

/-- the body of the loop over the blocks (sha256gen.py:1041-1126) -/
def merkleBlock (lgn nblocks : ℕ) (c : Common) (block : ℕ) (s : Tree) : Gen Tree := do
  let s := newLayer lgn s
  let m ← message s
  let bits ← allocN (48 * 34)
  let (own, hout) ← newHash c (decide (block = nblocks - 1))
  let hbits ← repeatG 8 (allocN 33)
  let ae ← allocN (35 * 64 * 2)
  return {
    layer := s.layer
    layIdx := s.layIdx + 1
    Hout := s.Hout.modify s.layer (fun l => l ++ [own])
    HoutBits := s.HoutBits.modify s.layer (fun l => l ++ [hbits])
    blocks := s.blocks ++ [List.range 34 ++ m ++ bits ++ c.K ++ c.H ++ hout ++ hbits.flatten ++ c.initBits ++ ae] }

/-- `x.bit_length()` -/
def bitLength (x : ℕ) : ℕ := if x = 0 then 0 else Nat.log2 x + 1

/-- lines `P Va = In E`, numbered from `ionum` on (for example sha256gen.py:1139-1142); `x` gives the numbers that the compiler
takes for them: `read_rdl` calls `rand()` (parser_sha_data_parallel.cpp) -/
def inputLines (x : ℕ → ℤ) (vals : List ℕ) (ionum : ℕ) : List RStmt :=
  (vals.zipIdx ionum).map (fun p => .input p.1 p.2 (x p.2))

/-- `write_merkle_rdl` (sha256gen.py:970-1173) with `randzero = False` -/
def merkleRdl (lgn : ℕ) (padding : Bool) (x : ℕ → ℤ) : Outcome (List RStmt) :=
  if lgn = 0 then .assertFail else
  let nblocks := 2 ^ (lgn + 1) - 1
  (allocCommon 34).bind fun (c, pubLen, pub) =>
  (forG nblocks (merkleBlock lgn nblocks c) Tree.start pubLen).bind fun (s, voffset, priv) =>
  let privLen := voffset - pubLen
  let padLength := if padding then 2 ^ bitLength (privLen - 1) - pubLen else 0
  let consts := (List.range' 1 33).map (fun i => RStmt.const i (4 * 2 ^ (i - 1)))
  let ionum := 34
  let pubLines := inputLines x pub.inVals ionum
  let ionum := ionum + pub.inVals.length
  let padLines := inputLines x (List.range' voffset padLength) ionum
  let voffset := voffset + padLength
  let ionum := ionum + padLength
  let privLines := inputLines x priv.inVals ionum
  let ionum := ionum + priv.inVals.length
  let blocks := s.blocks ++ [s.blocks.getLastD []]
  if blocks.all (fun b => b.length = 7226) then
    let vals := blocks.flatten
    let passLines := (vals.zipIdx voffset).map (fun p => RStmt.pass p.2 p.1 p.1)
    let outLines := ((List.range' voffset vals.length).zipIdx ionum).map (fun p => RStmt.output p.2 p.1)
    .ok (.const 0 0 :: consts ++ pubLines ++ padLines ++ privLines ++ passLines ++ outLines)
  else .assertFail

end Libra.MerkleGen
