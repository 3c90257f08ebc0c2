import Verif.Model.ProgramTypes
import Verif.Spec.File
import Mathlib.Algebra.BigOperators.Intervals

/-!
# Specification: what the programs given to the circuit compiler mean

A program is a list of equations between variables. Only the data structures of `Model/ProgramTypes` and
the numbers of a file (`Spec/File`) are used.
-/

namespace Libra.Spec
open Compiler Finset
variable {F : Type} [CommRing F]

/-- the operation written between two operands; `NOT` ignores the second -/
def opValue : Op → F → F → F
  | .add, x, y => x + y
  | .mult, x, y => x * y
  | .not, x, _ => 1 - x
  | .minus, x, y => x - y
  | .xor, x, y => x + y - 2 * x * y
  | .naab, x, y => y - x * y

/-- The variables `w` satisfy a line when input `i` is `inp i`: `SS` is the sum of the variables from the first to the
last operand, `EXPSUM` the number with these binary digits (lowest first), `BIT` the product of the first with the
complement of the second. Outputs only name variables. -/
def Holds (inp : ℕ → F) (w : ℕ → F) : Stmt → Prop
  | .gate op t a b => w t = opValue op (w a) (w b)
  | .sum t a b => w t = ∑ k ∈ Icc a b, w k
  | .expSum t a b => w t = ∑ k ∈ Icc a b, 2 ^ (k - a) * w k
  | .bit t a b => w t = w a * (1 - w b)
  | .input t i => w t = inp i
  | .output _ _ => True
  | .const t c => w t = c

/-- the variable a line defines -/
def target : Stmt → Option ℕ
  | .gate _ t _ _ => some t
  | .sum t _ _ => some t
  | .expSum t _ _ => some t
  | .bit t _ _ => some t
  | .input t _ => some t
  | .output _ _ => none
  | .const t _ => some t

/-- the variables `v` and the outputs `out` satisfy a line of the wiring file: a `PASS` copies its first operand -/
def RHolds (out v : ℕ → F) : RStmt → Prop
  | .const t c => v t = c
  | .input t _ x => v t = x
  | .output o a => out o = v a
  | .pass t a _ => v t = v a

/-- the number that the reader of the circuit makes of a number in a file -/
def readNumber (x : ℤ) : ℤ := inputNumber (int32 x)

/-- a line of the wiring file with the number that the circuit will contain -/
def _root_.Libra.Compiler.RStmt.asRead : RStmt → RStmt
  | .const t c => .const t (readNumber c)
  | .input t i x => .input t i (readNumber x)
  | s => s

/-- the number of input lines of a program -/
def inputCount (P : List Stmt) : ℕ := P.countP (fun s => match s with | .input _ _ => true | _ => false)

/-- the number of output lines of a wiring file -/
def outputCount (W : List RStmt) : ℕ := W.countP (fun s => match s with | .output _ _ => true | _ => false)

/-- the variable a line of the wiring file defines -/
def rtarget : RStmt → Option ℕ
  | .const t _ => some t
  | .input t _ _ => some t
  | .output _ _ => none
  | .pass t _ _ => some t

/-- is this an input line for a variable with a number below `t`? -/
def inputBefore (t : ℕ) : Stmt → Bool
  | .input t' _ => decide (t' < t)
  | _ => false

/-- Programs for which the compiler keeps the meaning of all lines but `SS`: every variable is defined once, the inputs
are numbered in the order of the numbers of their variables, and ranges are not empty (`EXPSUM` takes at most 63
variables, the limit of the evaluator's shift). -/
structure ProgramOk (P : List Stmt) : Prop where
  single : (P.filterMap target).Nodup
  inputs : ∀ t i, .input t i ∈ P → i = P.countP (inputBefore t)
  sums : ∀ t a b, .sum t a b ∈ P → a < b
  expSums : ∀ t a b, .expSum t a b ∈ P → a ≤ b ∧ b ≤ a + 62

/-- Wiring files for which the compiler keeps the meaning: every variable is defined once, a `PASS` copies a constant or an
input to an output, and numbers fit a `long long`. -/
structure WiringOk (W : List RStmt) : Prop where
  single : (W.filterMap rtarget).Nodup
  consts : ∀ t c, .const t c ∈ W → -2 ^ 63 ≤ c ∧ c < 2 ^ 63
  inputs : ∀ t i x, .input t i x ∈ W → -2 ^ 63 ≤ x ∧ x < 2 ^ 63
  passed : ∀ t a b, .pass t a b ∈ W → ∃ o, .output o t ∈ W
  source : ∀ t a b, .pass t a b ∈ W → (∃ c, .const a c ∈ W) ∨ ∃ i x, .input a i x ∈ W

/-- the variables a line reads -/
def Uses : Stmt → ℕ → Prop
  | .gate _ _ a b, x => x = a ∨ x = b
  | .sum _ a b, x => a ≤ x ∧ x ≤ b
  | .expSum _ a b, x => a ≤ x ∧ x ≤ b
  | .bit _ a b, x => x = a ∨ x = b
  | .output _ a, x => x = a
  | _, _ => False

/-- `lv` is the depth of the variables: inputs have depth 0, other variables are one deeper than their operands. Sums are
not padded, so their operands must have the same depth. `BIT` must name its operand twice; constants are not allowed. -/
def LevelOk (lv : ℕ → ℕ) : Stmt → Prop
  | .gate _ t a b => lv t = max (lv a) (lv b) + 1
  | .sum t a b => ∀ k, a ≤ k → k ≤ b → lv t = lv k + 1
  | .expSum t a b => ∀ k, a ≤ k → k ≤ b → lv t = lv k + 1
  | .bit t a b => a = b ∧ lv t = lv a + 1
  | .input t _ => lv t = 0
  | .output _ _ => True
  | .const _ _ => False

/-- Programs the compiler accepts: a variable is defined before the lines that use it, and has a smaller number than the
variables computed from it; the operands of sums have the same depth; there is an input. -/
structure Acceptable (P : List Stmt) : Prop where
  order : ∀ Q s, Q ++ [s] <+: P → ∀ x, Uses s x → (∃ s' ∈ Q, target s' = some x) ∧ ∀ t, target s = some t → x < t
  levels : ∃ lv, ∀ s ∈ P, LevelOk lv s
  input : ∃ t i, .input t i ∈ P

/-- Wiring files the compiler accepts: the outputs are numbered consecutively from `base` on, and each copies another variable,
by a `PASS` of its own. -/
structure WiringComplete (W : List RStmt) (base : ℕ) : Prop where
  numbers : ∀ o, (∃ a, .output o a ∈ W) ↔ base ≤ o ∧ o < base + outputCount W
  copies : ∀ o t, .output o t ∈ W → ∃ a b, .pass t a b ∈ W
  once : ∀ o o' t, .output o t ∈ W → .output o' t ∈ W → o = o'

/-- What the lines mean to the compiled circuit: as `Holds`, except that `SS` leaves out its last operand. -/
def HoldsCompiled (inp w : ℕ → F) : Stmt → Prop
  | .sum t a b => w t = ∑ k ∈ Ico a b, w k
  | s => Holds inp w s

end Libra.Spec
