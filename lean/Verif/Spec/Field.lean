import Mathlib.Data.ZMod.Basic

/-! Specification vocabulary for the arithmetic properties: the modulus and digit strings. -/

namespace Libra.Spec

/-- The modulus of the field, as written in every `main` of the repository. -/
def p : ℕ := 16798108731015832284940804142231733909759579603404752749028378864165570215949

/-- Value of one decimal digit character. -/
def digit (c : Char) : ℕ := c.toNat - '0'.toNat

/-- The number denoted by a string of decimal digits (most significant first). -/
def decimal (s : List Char) : ℕ := s.foldl (fun n c => 10 * n + digit c) 0

/-- The number denoted by a string of binary digits, least significant first. -/
def binaryLE (s : List Bool) : ℕ := s.foldr (fun b n => b.toNat + 2 * n) 0

/-- The number denoted by a string of binary digit characters (most significant first). -/
def binaryBE (s : List Char) : ℕ := s.foldl (fun n c => 2 * n + digit c) 0

end Libra.Spec
