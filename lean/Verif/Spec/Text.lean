import Verif.Model.ProgramTypes
import Verif.Spec.Field

/-!
# Specification: the texts of programs and wirings

What a line of a program says, in terms of the characters on it. Numbers are decimal numerals, which may have
leading zeros.
-/

namespace Libra.Spec

open Compiler

/-- a decimal numeral for `n` -/
def Numeral (s : List Char) (n : ℕ) : Prop :=
  s ≠ [] ∧ (∀ c ∈ s, '0' ≤ c ∧ c ≤ '9') ∧ decimal s = n

instance (s : List Char) (n : ℕ) : Decidable (Numeral s n) :=
  inferInstanceAs (Decidable (s ≠ [] ∧ (∀ c ∈ s, '0' ≤ c ∧ c ≤ '9') ∧ decimal s = n))

/-- a decimal numeral with an optional minus sign -/
def SignedNumeral (s : List Char) (z : ℤ) : Prop :=
  (∃ n : ℕ, Numeral s n ∧ z = n) ∨ (∃ (t : List Char) (n : ℕ), s = '-' :: t ∧ Numeral t n ∧ z = -n)

/-- the names of the operations -/
def opName : Op → List Char
  | .add => ['+']
  | .mult => ['*']
  | .not => ['N', 'O', 'T']
  | .minus => ['m', 'i', 'n', 'u', 's']
  | .xor => ['X', 'O', 'R']
  | .naab => ['N', 'A', 'A', 'B']

/-- the line `P Vt = Va op Vb E` -/
def BinLine (s op : List Char) (t a b : ℕ) : Prop :=
  ∃ nt na nb, Numeral nt t ∧ Numeral na a ∧ Numeral nb b ∧
    s = ['P', ' ', 'V'] ++ nt ++ ([' ', '=', ' ', 'V'] ++ na ++ ([' '] ++ op ++ ([' ', 'V'] ++ nb ++ [' ', 'E'])))

/-- the line `P xt = ya E` -/
def UnLine (s : List Char) (x y : Char) (t a : ℕ) : Prop :=
  ∃ nt na, Numeral nt t ∧ Numeral na a ∧
    s = ['P', ' ', x] ++ nt ++ ([' ', '=', ' ', y] ++ na ++ [' ', 'E'])

/-- the line `P Vt = c E` -/
def ConstLine (s : List Char) (t : ℕ) (c : ℤ) : Prop :=
  ∃ nt nc, Numeral nt t ∧ SignedNumeral nc c ∧
    s = ['P', ' ', 'V'] ++ nt ++ ([' ', '=', ' '] ++ nc ++ [' ', 'E'])

/-- the line `s` says the statement -/
def LineOf (s : List Char) : Stmt → Prop
  | .gate op t a b => BinLine s (opName op) t a b
  | .sum t a b => BinLine s ['S', 'S'] t a b
  | .expSum t a b => BinLine s ['E', 'X', 'P', 'S', 'U', 'M'] t a b
  | .bit t a b => BinLine s ['B', 'I', 'T'] t a b
  | .input t i => UnLine s 'V' 'I' t i
  | .output o a => UnLine s 'O' 'V' o a
  | .const t c => ConstLine s t c

/-- the line `s` says the statement of a wiring; the value of an input is not on the line -/
def RLineOf (s : List Char) : RStmt → Prop
  | .const t c => ConstLine s t c
  | .input t i _ => UnLine s 'V' 'I' t i
  | .output o a => UnLine s 'O' 'V' o a
  | .pass t a b => BinLine s ['P', 'A', 'S', 'S'] t a b

/-- the lines, each ended by a newline -/
def joinLines (ls : List (List Char)) : List Char := ls.flatMap (fun l => l ++ ['\n'])

/-- the text is the program `P`, line by line -/
def TextOf (text : List Char) (P : List Stmt) : Prop :=
  ∃ ls, text = joinLines ls ∧ List.Forall₂ LineOf ls P

/-- the text is the wiring `W`, line by line -/
def RTextOf (text : List Char) (W : List RStmt) : Prop :=
  ∃ ls, text = joinLines ls ∧ List.Forall₂ RLineOf ls W

/-- all numbers of the statement fit an `int` -/
def SmallNumbers : Stmt → Prop
  | .gate _ t a b | .sum t a b | .expSum t a b | .bit t a b => t < 2 ^ 31 ∧ a < 2 ^ 31 ∧ b < 2 ^ 31
  | .input t i => t < 2 ^ 31 ∧ i < 2 ^ 31
  | .output o a => o < 2 ^ 31 ∧ a < 2 ^ 31
  | .const _ _ => True

/-- the statement with its operands reduced modulo `2 ^ 32` -/
def reduceOperands : Stmt → Stmt
  | .gate op t a b => .gate op t (a % 2 ^ 32) (b % 2 ^ 32)
  | .sum t a b => .sum t (a % 2 ^ 32) (b % 2 ^ 32)
  | .expSum t a b => .expSum t (a % 2 ^ 32) (b % 2 ^ 32)
  | .bit t a b => .bit t (a % 2 ^ 32) (b % 2 ^ 32)
  | .input t i => .input t (i % 2 ^ 32)
  | .output o a => .output o (a % 2 ^ 32)
  | .const t c => .const t c

/-- all numbers of the statement fit an `int`, the constant a `long long` -/
def RSmallNumbers : RStmt → Prop
  | .const t c => t < 2 ^ 31 ∧ -2 ^ 63 ≤ c ∧ c < 2 ^ 63
  | .input t i _ => t < 2 ^ 31 ∧ i < 2 ^ 31
  | .output o a => o < 2 ^ 31 ∧ a < 2 ^ 31
  | .pass t a b => t < 2 ^ 31 ∧ a < 2 ^ 31 ∧ b < 2 ^ 31

/-- the values of the inputs of a wiring, in order -/
def inputValues (W : List RStmt) : List ℤ :=
  W.filterMap (fun s => match s with | .input _ _ x => some x | _ => none)

end Libra.Spec
