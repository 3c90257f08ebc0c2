import Verif.Model.Loop
import Mathlib.Data.Int.Notation
import Mathlib.Data.Nat.Basic
import Mathlib.Algebra.Ring.Int.Defs

/-!
# The generator of matrix multiplication circuits

Model of `/repo/tests/matmul/gen.cpp`, which writes the circuit file and the meta file of the matrix
benchmark. A file is the list of the integers printed to it; the formats (`%010d`, spaces, newlines) do
not matter to the reader. The size is the command line argument, as a non-negative `int`; the
matrices, which the program draws with `rand() % 10`, are parameters.
-/

namespace Libra.Matmul

/-- `__builtin_popcount` of a non-negative `int` -/
def popcount (x : ℕ) : ℕ := if h : x = 0 then 0 else x % 2 + popcount (x / 2)
termination_by x

/-- the four numbers of a gate -/
def emit (out : List ℤ) (ty g u v : ℤ) : List ℤ := out ++ [ty, g, u, v]

/-- The lines of one matrix, with numbers from `start` (gen.cpp:40-46 and 48-54). -/
def inputs (n start : ℕ) (M : ℕ → ℕ → ℤ) (out : List ℤ) : List ℤ :=
  loop n (fun i out => loop n (fun j out => emit out 3 (start + (i * n + j) : ℕ) (M i j) 0) out) out

/-- The layer of products (gen.cpp:58-70). -/
def products (n : ℕ) (out : List ℤ) : List ℤ :=
  loop n (fun i out => loop n (fun j out => loop n (fun k out =>
    let id := i * n * n + j * n + k
    let a := i * k
    let b := k * j
    emit out 1 id a b) out) out) (out ++ [((n * n * n : ℕ) : ℤ)])

/-- The layer of sums (gen.cpp:77-84). -/
def sums (n : ℕ) (out : List ℤ) : List ℤ :=
  loop n (fun i out => loop n (fun j out =>
    emit out 5 (i * n + j : ℕ) (i * n * n + j * n : ℕ) (i * n * n + j * n + n : ℕ)) out)
    (out ++ [((n * n : ℕ) : ℤ)])

/-- `main` (gen.cpp:9-88): the circuit file and the meta file. `mat_sz * mat_sz * mat_sz` overflows an
`int` from 2048 on. The loop that computes `log_mat_sz` (21-23) has no effect. -/
def generate (n : ℕ) (A B : ℕ → ℕ → ℤ) : Outcome (List ℤ × List ℤ) := do
  Outcome.assert (popcount n == 1)
  if 2 ^ 31 ≤ n * n * n then .undefined else
  let file : List ℤ := [1 + 1 + 1]
  let file := file ++ [((n * n * 2 : ℕ) : ℤ)]
  let file := inputs n 0 A file
  let metaFile : List ℤ := [0, 0, 0, 0, 0]
  let file := inputs n (n * n) B file
  let file := products n file
  let metaFile := metaFile ++ [0, 0, 0, 0, 0]
  let file := sums n file
  let metaFile := metaFile ++ [0, 0, 0, 0, 0]
  return (file, metaFile)

end Libra.Matmul
