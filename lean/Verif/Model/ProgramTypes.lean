import Mathlib.Data.Nat.Notation
import Mathlib.Data.Int.Notation

/-!
# The source language of the circuit compiler

The lines of the two files read by `/repo/parser_sha_data_parallel.cpp`.
-/

namespace Libra.Compiler

/-- the gates written between two operands, with the numbers of `enum gate_types`
(parser_sha_data_parallel.cpp:33-46) -/
inductive Op where
  | add | mult | not | minus | xor | naab
deriving DecidableEq, Repr

/-- A line of the program, as matched by the regular expressions (parser_sha_data_parallel.cpp:19-29;
tests/SHA256/parser_sha_data_parallel.cpp:19-30):
`P Vt = Va op Vb E`, `P Vt = Va SS Vb E`, `P Vt = Va EXPSUM Vb E`, `P Vt = Va BIT Vb E`, `P Vt = Ii E`, `P Oo = Va E`,
`P Vt = c E`. -/
inductive Stmt where
  | gate (op : Op) (t a b : ℕ)
  | sum (t a b : ℕ)
  | expSum (t a b : ℕ)
  | bit (t a b : ℕ)
  | input (t i : ℕ)
  | output (o a : ℕ)
  | const (t : ℕ) (c : ℤ)
deriving DecidableEq, Repr

/-- A line of the wiring file (parser_sha_data_parallel.cpp:474-517): `P Vt = c E`, `P Vt = Ii E` (with the value
`rand()` returned), `P Oo = Va E`, `P Vt = Va PASS Vb E`. -/
inductive RStmt where
  | const (t : ℕ) (c : ℤ)
  | input (t i : ℕ) (x : ℤ)
  | output (o a : ℕ)
  | pass (t a b : ℕ)
deriving DecidableEq, Repr

end Libra.Compiler
