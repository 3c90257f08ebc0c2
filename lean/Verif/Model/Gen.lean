import Verif.Model.Matmul
import Mathlib.Data.Nat.Log

/-!
# The generator of test circuits

Model of `/repo/bin/gen.cpp`. Mode 4 is the generator of `Verif.Model.Matmul` (its circuit file is
the same), mode 3 does nothing. A file is the list of the integers printed to it; the numbers of
characters, which modes 1 and 2 write into the meta file, are counted. Arguments are non-negative `int`s;
the values drawn with `rand()` are parameters.
-/

namespace Libra.Gen

/-- the number of decimal digits of `x` -/
def digits (x : ℕ) : ℕ := if h : x < 10 then 1 else digits (x / 10) + 1
termination_by x

/-- the number of characters printed for `%d` -/
def dec (x : ℤ) : ℕ := if x < 0 then digits x.natAbs + 1 else digits x.natAbs

/-- the number of characters printed for `%010d` -/
def dec10 (x : ℤ) : ℕ := max 10 (dec x)

/-- the numbers written to `stdout`, and the variable `str_length` -/
structure Out where
  file : List ℤ
  len : ℕ

/-- `str_length += printf("%d ", n)` -/
def putCount (n : ℕ) (o : Out) : Out := ⟨o.file ++ [(n : ℤ)], o.len + (dec n + 1)⟩

/-- `str_length += printf("%d %d %d %d ", ty, g, u, v)` -/
def put (ty g u v : ℤ) (o : Out) : Out :=
  ⟨o.file ++ [ty, g, u, v], o.len + (dec ty + 1 + (dec g + 1) + (dec u + 1) + (dec v + 1))⟩

/-- `str_length += printf("%d %d %010d %d ", ty, g, u, v)` -/
def putWide (ty g u v : ℤ) (o : Out) : Out :=
  ⟨o.file ++ [ty, g, u, v], o.len + (dec ty + 1 + (dec g + 1) + (dec10 u + 1) + (dec v + 1))⟩

/-- `str_length += printf("\n")` at the end of a layer. `str_length` is an `int`: if the count does not fit,
one of the additions has overflowed. -/
def newline (o : Out) : Outcome Out :=
  if o.len + 1 < 2 ^ 31 then .ok ⟨o.file, o.len + 1⟩ else .undefined

/-- `str_length = 0` -/
def reset (o : Out) : Out := ⟨o.file, 0⟩

/-- a line of the meta file (gen.cpp:65, 78, 96, 145, 162, 182) -/
def metaLine (blockSize blockNumber logSize logNumber : ℕ) (o : Out) : List ℤ :=
  [(blockSize : ℤ), blockNumber, logSize, logNumber, o.len]

/-- Mode 0 (gen.cpp:13-43). `1 << w` and `1 << (w - 1)` are undefined for the excluded `w`. -/
def mode0 (d w : ℕ) (rand : ℕ → ℤ) : Outcome (List ℤ) :=
  if w = 0 ∨ 31 ≤ w then .undefined else
  let o : Out := ⟨[(d : ℤ)], 0⟩
  let n := 2 ^ w
  let o := putCount n o
  let o := loop n (fun j => put 3 j (rand j) 0) o
  let o := loop (d - 2) (fun _ o => loop (2 ^ w) (fun j => put 8 j j 0) (putCount (2 ^ w) o)) o
  let n := 2 ^ (w - 1)
  let o := putCount n o
  let o := loop n (fun j => put 10 j (j <<< 1 : ℕ) 0) o
  .ok o.file

/-- One middle layer of mode 1 (gen.cpp:67-79): the output and the meta file. -/
def doubleStep (w _i : ℕ) (s : Out × List ℤ) : Outcome (Out × List ℤ) := do
  let n := 2 ^ w
  let o := putCount n (reset s.1)
  let o := loop n (fun j => put 0 j j j) o
  let o ← newline o
  let blockSize := n / 2 ^ (w - 5)
  return (o, s.2 ++ metaLine blockSize (2 ^ (w - 5)) 5 (w - 5) o)

/-- Mode 1 (gen.cpp:44-99): the circuit file and the meta file. The asserts other than the first one
hold. -/
def mode1 (d w : ℕ) (rand : ℕ → ℤ) : Outcome (List ℤ × List ℤ) := do
  Outcome.assert (5 < w)
  if 31 ≤ w then .undefined else
  let o : Out := ⟨[(d : ℤ)], 0⟩
  let n := 2 ^ w
  let blockNumber := 2 ^ (w - 5)
  let blockSize := n / blockNumber
  let o := putCount n o
  let o := loop n (fun j => putWide 3 j (rand j) 0) o
  let o ← newline o
  let m := metaLine blockSize blockNumber 5 (w - 5) o
  let (o, m) ← loopM (d - 2) (doubleStep w) (o, m)
  let n := 2 ^ (w - 1)
  let blockSize := n / blockNumber
  let o := putCount n (reset o)
  let o := loop blockNumber (fun i => loop blockSize (fun j =>
    let id := i * blockSize + j
    let nxta := i * blockSize * 2 + j * 2
    let nxtb := i * blockSize * 2 + j * 2 + 1
    put 1 id nxta nxtb)) o
  let o ← newline o
  return (o.file, m ++ metaLine blockSize blockNumber 4 (w - 5) o)

/-- `while(mat_sz != (1 << log_mat_sz)) log_mat_sz++;` (gen.cpp:110-112), which ends at the logarithm
because `mat_sz` is a power of two -/
def logOf (n : ℕ) : ℕ := Nat.log 2 n

/-- One layer of the addition tree (gen.cpp:164-183): the output, the meta file and `num_leaves`. -/
def treeStep (n lg dep : ℕ) (s : Out × List ℤ × ℕ) : Outcome (Out × List ℤ × ℕ) := do
  let numLeaves := s.2.2 / 2
  let o := putCount (numLeaves * n * n) (reset s.1)
  let o := loop n (fun i => loop n (fun j => loop numLeaves (fun k =>
    let id := i * n * numLeaves + j * numLeaves + k
    put 0 id (id * 2 : ℕ) (id * 2 + 1 : ℕ)))) o
  let o ← newline o
  return (o, s.2.1 ++ metaLine numLeaves (n * n) (lg - dep - 1) (2 * lg) o, numLeaves)

/-- Mode 2 (gen.cpp:100-185): the circuit file and the meta file. `mat_sz * mat_sz * mat_sz * 2` overflows
an `int` from 1024 on. The header (line 131) is not counted in `str_length`. -/
def mode2 (n : ℕ) (A B : ℕ → ℕ → ℤ) : Outcome (List ℤ × List ℤ) := do
  Outcome.assert (Matmul.popcount n == 1)
  if 2 ^ 31 ≤ n * n * n * 2 then .undefined else
  let lg := logOf n
  let blockNumber := n * n
  let o : Out := ⟨[((1 + 1 + lg : ℕ) : ℤ)], 0⟩
  let o := putCount (n * n * n * 2) o
  let o := loop n (fun i => loop n (fun j => loop n (fun k o =>
    putWide 3 (2 * (i * n * n + j * n + k) + 1 : ℕ) (B k j) 0
      (putWide 3 (2 * (i * n * n + j * n + k) + 0 : ℕ) (A i k) 0 o)))) o
  let o ← newline o
  let m := metaLine (n * 2) blockNumber (lg + 1) (2 * lg) o
  let o := putCount (n * n * n) (reset o)
  let o := loop n (fun i => loop n (fun j => loop n (fun k =>
    let id := i * n * n + j * n + k
    put 1 id (id * 2 : ℕ) (id * 2 + 1 : ℕ)))) o
  let o ← newline o
  let m := m ++ metaLine n blockNumber lg (2 * lg) o
  let (o, m, _) ← loopM lg (treeStep n lg) (o, m, n)
  return (o.file, m)

/-- Mode 5 (gen.cpp:261-275). -/
def mode5 (d w : ℕ) : Outcome (List ℤ) :=
  if 31 ≤ w then .undefined else
  let o : Out := ⟨[(d : ℤ)], 0⟩
  let n := 2 ^ w
  let o := putCount n o
  let o := loop n (fun j => put 3 j 1 0) o
  .ok (o.file ++ [2, 5, 0, 0, 0, 5, 1, 0, 0])

end Libra.Gen
