import Verif.Model.Matmul
import Verif.Model.LanczosGen

/-!
# The generator that writes the circuit of the image scaling benchmark directly

Model of `/repo/bin/gen_lanczos.py`, whose main program calls only `print_circuit`: it writes a circuit file of four layers, without going
through the compiler. A file is the list of the integers printed to it. Not modelled: `filter_coeffs` (gen_lanczos.py:13-30), which computes
the coefficients with floating-point numbers (they are the parameter `coeffs` here), `random.randint(0, 256)` (the numbers drawn are the
parameter `x`), negative arguments, printing to the terminal; `print_pws` and `print_rdl` are not called.
-/

namespace Libra.LanczosDirect
open Matmul (emit)
open MerkleGen (bitLength)

/-- `2 ** m.bit_length() - m` (gen_lanczos.py:141, 156, 181) -/
def paddingNum (m : ℕ) : ℕ := 2 ^ bitLength m - m

/-- the lines `2 id 0 0` that fill up a layer of `m` gates (gen_lanczos.py:151-152, 178-179, 190-191) -/
def padding (m : ℕ) (out : List ℤ) : List ℤ :=
  loop (paddingNum m) (fun i out => emit out 2 (m + i : ℕ) 0 0) out

/-- The input layer (gen_lanczos.py:143-152): the pixels, the coefficients, and the padding. -/
def inputLayer (ratio totalPixels : ℕ) (coeffs : List ℤ) (x : ℕ → ℤ) (out : List ℤ) : Outcome (List ℤ) :=
  let out := out ++ [((totalPixels + coeffs.length + paddingNum (totalPixels + coeffs.length) : ℕ) : ℤ)]
  let out := loop totalPixels (fun inidx out => emit out 3 inidx (x inidx) 0) out
  if coeffs.length ≠ 2 * ratio then .assertFail else
  let out := loop coeffs.length (fun cidx out => emit out 3 (cidx + totalPixels : ℕ) (coeffs.getD cidx 0) 0) out
  .ok (padding (totalPixels + coeffs.length) out)

/-- the variables of the loop over `pix`: the output, `gid`, `coef_id` and `inc` -/
structure Row where
  out : List ℤ
  gid : ℕ
  coefId : ℤ
  inc : ℤ

/-- one round of the loop over `pix` (gen_lanczos.py:172-177), for the gates of the block `b = xrep * n_reps + yrep` -/
def pixStep (ratio totalPixels b : ℕ) (pix : ℕ) (s : Row) : Row :=
  let out := emit s.out 1 (b * (16 * ratio * ratio) + s.gid : ℕ) pix (s.coefId + totalPixels)
  let inc := if s.coefId + 1 = 2 * ratio then -1 else s.inc
  ⟨out, s.gid + 1, s.coefId + inc, inc⟩

/-- one round of the loop over `y` (gen_lanczos.py:166-177); the state is the output and `gid` -/
def rowStep (ratio npixels nReps totalPixels xrep yrep y : ℕ) (s : List ℤ × ℕ) : List ℤ × ℕ :=
  let pixNumL := npixels * (ratio * yrep + y) + ratio * xrep
  let t := loop (4 * ratio) (fun k t => pixStep ratio totalPixels (xrep * nReps + yrep) (pixNumL + k) t) ⟨s.1, s.2, 0, 1⟩
  (t.out, t.gid)

/-- The layer of products (gen_lanczos.py:156-179). -/
def productLayer (ratio npixels nReps totalPixels : ℕ) (out : List ℤ) : List ℤ :=
  let m := nReps * nReps * (4 * ratio) ^ 2
  let out := out ++ [((m + paddingNum m : ℕ) : ℤ)]
  let out := loop nReps (fun xrep out => loop nReps (fun yrep out =>
    (loop (4 * ratio) (rowStep ratio npixels nReps totalPixels xrep yrep) (out, 0)).1) out) out
  padding m out

/-- The layer of the sums of the rows (gen_lanczos.py:181-191); the state of the loop over `y` is the output and `gid`. -/
def rowLayer (ratio nReps : ℕ) (out : List ℤ) : List ℤ :=
  let m := nReps * nReps * 4 * ratio
  let out := out ++ [((m + paddingNum m : ℕ) : ℤ)]
  let out := loop nReps (fun xrep out => loop nReps (fun yrep out =>
    (loop (4 * ratio) (fun y (s : List ℤ × ℕ) =>
      (emit s.1 5 ((xrep * nReps + yrep) * 4 * ratio + y : ℕ) ((xrep * nReps + yrep) * (16 * ratio * ratio) + s.2 : ℕ)
        ((xrep * nReps + yrep) * (16 * ratio * ratio) + s.2 + 4 * ratio : ℕ), s.2 + 4 * ratio)) (out, 0)).1) out) out
  padding m out

/-- The output layer (gen_lanczos.py:195-198), which is not filled up. -/
def outputLayer (ratio nReps : ℕ) (out : List ℤ) : List ℤ :=
  let out := out ++ [((nReps * nReps : ℕ) : ℤ)]
  loop nReps (fun xrep out => loop nReps (fun yrep out =>
    emit out 5 (xrep * nReps + yrep : ℕ) ((xrep * nReps + yrep) * 4 * ratio : ℕ)
      ((xrep * nReps + yrep + 1) * 4 * ratio : ℕ)) out) out

/-- `print_circuit` (gen_lanczos.py:123-198) -/
def printCircuit (ratio npixels nIn : ℕ) (coeffs : List ℤ) (x : ℕ → ℤ) : Outcome (List ℤ) :=
  let nReps := 1 + (npixels - 4 * ratio) / ratio
  if nIn ≠ nReps ^ 2 then .assertFail else
  let nInputs := 16 * ratio ^ 2 + 2 * ratio
  if ¬ 0 < (2 ^ bitLength (nInputs - 1) : ℤ) - nInputs then .assertFail else
  (inputLayer ratio (npixels ^ 2) coeffs x [4]).bind fun out =>
  .ok (outputLayer ratio nReps (rowLayer ratio nReps (productLayer ratio npixels nReps (npixels ^ 2) out)))

/-- the main program (gen_lanczos.py:199-218); `coeffs` stands for `filter_coeffs(rat)`. An error, and the exception raised for the ratio 0,
end the program. -/
def generate (rat npix : ℕ) (coeffs : List ℤ) (x : ℕ → ℤ) : Outcome (List ℤ) :=
  if npix < 4 * rat then .exit else
  if rat = 0 then .exit else
  if npix % rat ≠ 0 then .exit else
  printCircuit rat npix ((1 + (npix - 4 * rat) / rat) ^ 2) coeffs x

end Libra.LanczosDirect
