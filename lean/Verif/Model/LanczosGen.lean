import Verif.Model.MerkleGen

/-!
# The generator of the image scaling benchmark

Model of `/repo/tests/lanczos/lanczos2.py`: the program of a Lanczos filter for one pixel of the result, and the wiring file that applies it
to all windows of an image. Both files are read by `tests/lanczos/parser_sha_data_parallel.cpp`, which is the compiler of the root directory
without `SS` (and with the names of the output files on the command line); the program has no such line. Not modelled: `filter_coeffs`
(lanczos2.py:14-30), which computes the coefficients with floating-point numbers (they are the parameter `coeffs` here), negative
arguments, the text format of lines, printing.
-/

namespace Libra.LanczosGen
open Compiler Sha256Gen MerkleGen

/-- the number of inputs of the program (lanczos2.py:35, 87) -/
def nInputs (ratio : ℕ) : ℕ := 16 * ratio ^ 2 + 2 * ratio

/-- `coeffs_idx` (lanczos2.py:39-40) -/
def coeffsIdx (ratio : ℕ) : List ℕ :=
  let idx := List.range' (nInputs ratio - 2 * ratio) (nInputs ratio - (nInputs ratio - 2 * ratio))
  idx.reverse ++ idx

/-- `print_lanczos_muls` (lanczos2.py:42-50) -/
def lanczosMuls (coeffs row : List ℕ) : Gen (List ℕ) := do
  assertThat (decide (row.length = coeffs.length))
  mapG (fun p => gate .mult p.1 p.2) (row.zip coeffs)

/-- `print_add_tree` (lanczos2.py:52-65). `fuel` bounds the depth of the recursion; without it, the function does not terminate for the
empty list. -/
def addTree : ℕ → List ℕ → Gen ℕ
  | 0, _ => fun _ => .diverges
  | fuel + 1, ivals => do
    let outs ← mapG (fun idx => gate .add (ivals.getD (2 * idx) 0) (ivals.getD (2 * idx + 1) 0)) (List.range (ivals.length / 2))
    let outs := if ivals.length % 2 ≠ 0 then outs ++ [ivals.getLastD 0] else outs
    if outs.length = 1 then return outs.headD 0 else addTree fuel outs

/-- one round of the loop over `xidx` (lanczos2.py:69-71) -/
def pwsRow (ratio xidx : ℕ) : Gen ℕ := do
  let ovals ← lanczosMuls (coeffsIdx ratio) ((List.range (4 * ratio)).map (fun off => 4 * ratio * xidx + off))
  addTree ovals.length ovals

/-- lanczos2.py:67-76 -/
def pwsBody (ratio : ℕ) : Gen ℕ := do
  let outs ← mapG (pwsRow ratio) (List.range (4 * ratio))
  assertThat (decide (outs.length = 4 * ratio))
  let ovals ← lanczosMuls (coeffsIdx ratio) outs
  addTree ovals.length ovals

/-- `print_pws` (lanczos2.py:32-78) -/
def printPws (ratio : ℕ) : Outcome (List Stmt) :=
  (pwsBody ratio (nInputs ratio)).bind fun (aval, voffset, log) =>
  .ok ((List.range (nInputs ratio)).map (fun inidx => .input inidx inidx) ++ log.lines ++ [.output voffset aval])

/-- the variables that a round of the loop over `xrep` and `yrep` copies (lanczos2.py:110-119): a window of the image, and the
coefficients -/
def blockSources (ratio npixels xrep yrep : ℕ) : List ℕ :=
  ((List.range' (ratio * yrep) (4 * ratio)).flatMap fun yoff =>
    (List.range' (ratio * xrep) (4 * ratio)).map fun xoff => npixels * yoff + xoff) ++
  (List.range (2 * ratio)).map fun coeffNum => npixels ^ 2 + coeffNum

/-- one round of the loop over `xrep` and `yrep` (lanczos2.py:108-119); the state is `voffset` and the lines written -/
def passBlock (ratio npixels nReps : ℕ) (xrep yrep : ℕ) (s : ℕ × List RStmt) : Outcome (ℕ × List RStmt) :=
  if s.1 = npixels ^ 2 + 2 * ratio + nInputs ratio * (yrep + nReps * xrep) then
    let src := blockSources ratio npixels xrep yrep
    .ok (s.1 + src.length, s.2 ++ (src.zipIdx s.1).map fun p => .pass p.2 p.1 p.1)
  else .assertFail

/-- `print_rdl` (lanczos2.py:80-123); `x` gives the numbers that the compiler takes for the inputs, the pixels -/
def printRdl (ratio npixels nIn : ℕ) (coeffs : List ℤ) (x : ℕ → ℤ) : Outcome (List RStmt) :=
  let nReps := 1 + (npixels - 4 * ratio) / ratio
  let nVal := nReps ^ 2
  if nIn ≠ nVal then .assertFail else
  let nbits := bitLength (nInputs ratio - 1)
  if ¬ 0 < (2 ^ nbits : ℤ) - nInputs ratio then .assertFail else
  let totPixels := npixels ^ 2
  let pixels := (List.range totPixels).map fun i => RStmt.input i i (x i)
  if coeffs.length ≠ 2 * ratio then .assertFail else
  let consts := (List.range coeffs.length).map fun cidx => RStmt.const (cidx + totPixels) (coeffs.getD cidx 0)
  (loopM nReps (fun xrep => loopM nReps (passBlock ratio npixels nReps xrep)) (totPixels + 2 * ratio, [])).bind fun (voffset, passes) =>
  let outs := (List.range (nInputs ratio * nVal)).map fun oval => RStmt.output (voffset + oval) (oval + totPixels + 2 * ratio)
  .ok (pixels ++ consts ++ passes ++ outs)

/-- the main program (lanczos2.py:125-145); `coeffs` stands for `filter_coeffs(rat)`. An error, and the exception raised for the ratio 0,
end the program. -/
def generate (rat npix : ℕ) (coeffs : List ℤ) (x : ℕ → ℤ) : Outcome (List Stmt × List RStmt) :=
  if npix < 4 * rat then .exit else
  if rat = 0 then .exit else
  if npix % rat ≠ 0 then .exit else
  (printPws rat).bind fun P =>
  (printRdl rat npix ((1 + (npix - 4 * rat) / rat) ^ 2) coeffs x).bind fun W => .ok (P, W)

end Libra.LanczosGen
