import Verif.Spec.Program

/-!
# Specification: programs for the older circuit compilers

These compilers copy a program `k` times. The inputs of the copies are the results of the `PASS` lines of the wiring file, in the order
of the file: first input 0 of all copies, then input 1 of all copies, and so on.
-/

namespace Libra.Spec
open Compiler
variable {F : Type} [CommRing F]

/-- the variables defined by the `PASS` lines, in order -/
def passes (W : List RStmt) : List ℕ := W.filterMap (fun l => match l with | .pass t _ _ => some t | _ => none)

/-- the value of input `i` of copy `r` out of `k` when the variables of the wiring file have the values `v` -/
def copyInput (W : List RStmt) (k : ℕ) (v : ℕ → F) (r i : ℕ) : F := v ((passes W).getD (i * k + r) 0)

/-- Wiring files the older compilers treat: every variable is defined once, and before it is copied; numbers fit a `long long`. -/
structure OldWiringOk (W : List RStmt) : Prop where
  single : (W.filterMap rtarget).Nodup
  consts : ∀ t (c : ℤ), .const t c ∈ W → -2 ^ 63 ≤ c ∧ c < 2 ^ 63
  inputs : ∀ t i (x : ℤ), .input t i x ∈ W → -2 ^ 63 ≤ x ∧ x < 2 ^ 63
  order : ∀ Q t a b, Q ++ [.pass t a b] <+: W → ∃ l ∈ Q, rtarget l = some a

/-- Programs the older compilers treat for `n` `PASS` lines and `k` copies: every variable is defined once, and before it is used; there are
no sums and bit tests; every input, and every constant taken as the number of an input, exists. -/
structure OldProgramOk (P : List Stmt) (n k : ℕ) : Prop where
  single : (P.filterMap target).Nodup
  order : ∀ Q op t a b, Q ++ [.gate op t a b] <+: P →
    (∃ s ∈ Q, target s = some a) ∧ (op ≠ .not → ∃ s ∈ Q, target s = some b)
  lines : ∀ t a b, .sum t a b ∉ P ∧ .expSum t a b ∉ P ∧ .bit t a b ∉ P
  inputs : ∀ t i, .input t i ∈ P → (i + 1) * k ≤ n
  consts : ∀ t (c : ℤ), .const t c ∈ P → ∃ i : ℕ, c = i ∧ (i + 1) * k ≤ n

/-- The compiler for Lanczos programs knows only sums and products, no constants, and wants variable `i` for input `i`. -/
def OnlyArithmetic (P : List Stmt) : Prop :=
  (∀ op t a b, .gate op t a b ∈ P → op = .add ∨ op = .mult) ∧ (∀ t (c : ℤ), .const t c ∉ P) ∧ ∀ t i, .input t i ∈ P → t = i

/-- What the lines mean to the older compilers: as `Holds`, except that a constant is the input with that number. -/
def HoldsOld (inp w : ℕ → F) : Stmt → Prop
  | .const t c => w t = inp c.toNat
  | s => Holds inp w s

end Libra.Spec
