import Verif.Model.Loop
import Verif.Spec.Field
import Mathlib.Data.Int.Notation

/-!
# Reading and writing text

The library functions with which the programs read and write text: `std::regex_match`, `sscanf` and `fscanf`, `fprintf`,
`std::getline`. A text is a list of characters. They are modelled after the C++ standard for the
patterns and formats that occur: a pattern is a sequence of characters, `[0-9]+` and `[\-]*`; a
format is a sequence of white space, characters, `%d` and `%lld`.
-/

namespace Libra.Txt

/-- text -/
abbrev Text := List Char

/-- `[0-9]`, and the digits of a conversion -/
def isDigit (c : Char) : Bool := '0' ≤ c && c ≤ '9'

/-- `isspace` in the C locale -/
def isSpace (c : Char) : Bool := c = ' ' || c = '\t' || c = '\n' || c = '\x0b' || c = '\x0c' || c = '\r'

/-- a part of a regular expression: a character, `[0-9]+`, or `[\-]*` -/
inductive Piece where
  | lit (c : Char)
  | digits
  | dashes

/-- a sequence of characters as a pattern -/
def lits (l : Text) : List Piece := l.map .lit

/-- `std::regex_match(s, pattern)`: the whole of `s` matches, for some choice of the lengths of the repetitions -/
def regexMatch : List Piece → Text → Bool
  | [], s => s.isEmpty
  | .lit c :: ps, s =>
    match s with
    | [] => false
    | x :: xs => x == c && regexMatch ps xs
  | .digits :: ps, s => (List.range s.length).any (fun n =>
      (s.take (n + 1)).all isDigit && regexMatch ps (s.drop (n + 1)))
  | .dashes :: ps, s => (List.range (s.length + 1)).any (fun n =>
      (s.take n).all (· == '-') && regexMatch ps (s.drop n))

/-- the sign of a number that is being read -/
def scanSign : Text → Bool × Text
  | '-' :: t => (true, t)
  | '+' :: t => (false, t)
  | t => (false, t)

/-- The conversions `%d` and `%lld`: white space, an optional sign, at least one digit; the number and the
rest of the text, or nothing if the text does not have this form. -/
def scanInt (s : Text) : Option (ℤ × Text) :=
  let (neg, t) := scanSign (s.dropWhile isSpace)
  let ds := t.takeWhile isDigit
  if ds.isEmpty then none
  else some (if neg then -(Spec.decimal ds : ℤ) else Spec.decimal ds, t.dropWhile isDigit)

/-- a directive of a format -/
inductive Conv where
  | space
  | lit (c : Char)
  | d
  | lld
deriving DecidableEq

/-- a number that does not fit the variable it is stored in: undefined behaviour -/
def fits : Conv → ℤ → Bool
  | .d, z => -2 ^ 31 ≤ z && z < 2 ^ 31
  | _, z => -2 ^ 63 ≤ z && z < 2 ^ 63

/-- `sscanf(s, format, ...)`: the numbers that are stored before the first directive that fails -/
def sscanf : List Conv → Text → Outcome (List ℤ)
  | [], _ => .ok []
  | .space :: f, s => sscanf f (s.dropWhile isSpace)
  | .lit c :: f, s =>
    match s with
    | [] => .ok []
    | x :: xs => if x = c then sscanf f xs else .ok []
  | .d :: f, s =>
    match scanInt s with
    | none => .ok []
    | some (z, r) => if fits .d z then do return z :: (← sscanf f r) else .undefined
  | .lld :: f, s =>
    match scanInt s with
    | none => .ok []
    | some (z, r) => if fits .lld z then do return z :: (← sscanf f r) else .undefined

/-- the lines `std::getline` returns until it fails; `cur` is the beginning of the line -/
def linesFrom (cur : Text) : Text → List Text
  | [] => if cur.isEmpty then [] else [cur]
  | c :: s => if c = '\n' then cur :: linesFrom [] s else linesFrom (cur ++ [c]) s

/-- `while(getline(in, line))` -/
def lines (s : Text) : List Text := linesFrom [] s

/-- one digit -/
def digitChar (n : ℕ) : Char := Char.ofNat (48 + n)

/-- the decimal digits of a number -/
def decDigits (n : ℕ) : Text := if _h : n < 10 then [digitChar n] else decDigits (n / 10) ++ [digitChar (n % 10)]
termination_by n
decreasing_by omega

/-- `%d` and `%lld` of `fprintf`, and `%d` in Python -/
def showInt (z : ℤ) : Text := if z < 0 then '-' :: decDigits z.natAbs else decDigits z.natAbs

/-- `%015lld`: zeros after the sign up to 15 characters -/
def showInt15 (z : ℤ) : Text :=
  if z < 0 then '-' :: (List.replicate (14 - (decDigits z.natAbs).length) '0' ++ decDigits z.natAbs)
  else List.replicate (15 - (decDigits z.natAbs).length) '0' ++ decDigits z.natAbs

/-- one `%d` or `%lld` conversion of `fscanf`: the number and the rest of the file; a variable that is not
assigned is not initialised -/
def fscan (k : Conv) (s : Text) : Outcome (ℤ × Text) :=
  match scanInt s with
  | none => .undefined
  | some (z, r) => if fits k z then .ok (z, r) else .undefined

/-- the numbers that `n` conversions read one after the other, up to the first that fails -/
def numbersN : ℕ → Text → List ℤ
  | 0, _ => []
  | n + 1, s =>
    match scanInt s with
    | none => []
    | some (z, r) => z :: numbersN n r

/-- the numbers in a text; every number takes at least one character -/
def numbers (s : Text) : List ℤ := numbersN s.length s

end Libra.Txt
