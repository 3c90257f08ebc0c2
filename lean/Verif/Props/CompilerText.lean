import Verif.Proofs.CompilerText
import Verif.Props.Compiler

/-!
# The texts the compiler reads and writes
-/

namespace Libra.Props
open Libra Spec Compiler Reader Txt

/-! ### Programs -/

/-- The text of a program is read as the program it says: the compiler goes on with the statements of the program, and it stops on the
text exactly if it stops on the statements, in the same way. -/
theorem C83_program (var : Compiler.Variant) (src : List Char) (P : List Stmt) (h : TextOf src P)
    (hs : ∀ st ∈ P, SmallNumbers st) : Prod.snd <$> readProgramText var src = readProgram var P :=
  Sim.map (readProgram_sim var h hs)

/-- Only programs are accepted: every line of a text that is read says a statement, and the statements are the ones the compiler goes on
with, except that operands of `2 ^ 32` and more are reduced. -/
theorem C83_accepted (var : Compiler.Variant) (src : List Char) (r : Vars × Dag × ℕ)
    (h : readProgramText var src = .ok r) :
    ∃ P, List.Forall₂ LineOf (lines src) P ∧ readProgram var (P.map reduceOperands) = .ok r.2 :=
  readProgram_inv h

/-- the parts of a line -/
def parts (s : List Char) : ℕ × ℕ × ℕ × List Char :=
  (decimal ((s.drop 3).takeWhile isDigit), decimal (((afterTarget s).drop 4).takeWhile isDigit),
    decimal (((((afterTarget s).drop 4).dropWhile isDigit).drop (3 + (opWord s).length)).takeWhile isDigit), opWord s)

theorem parts_bin {s op : List Char} {t a b : ℕ} (hop : IsWord op) (h : BinLine s op t a b) :
    parts s = (t, a, b, op) ∧ s[2]? = some 'V' ∧ (afterTarget s)[3]? = some 'V' := by
  obtain ⟨nt, na, nb, h1, h2, h3, rfl⟩ := h
  obtain ⟨d1, rfl⟩ := numeral_digits h1
  obtain ⟨d2, rfl⟩ := numeral_digits h2
  obtain ⟨d3, rfl⟩ := numeral_digits h3
  have e1 : ((binText nt na op nb).drop 3).takeWhile isDigit = nt := by
    rw [binText, List.append_assoc]
    exact take_digits d1.2 (by decide) _
  have e2 : (((afterTarget (binText nt na op nb)).drop 4).takeWhile isDigit) = na := by
    rw [bin_after d1, List.append_assoc]
    exact take_digits d2.2 (by decide) _
  have e3 : ((afterTarget (binText nt na op nb)).drop 4).dropWhile isDigit =
      [' '] ++ op ++ ([' ', 'V'] ++ nb ++ [' ', 'E']) := by
    rw [bin_after d1, List.append_assoc]
    exact drop_digits d2.2 (by decide) _
  have e4 : opWord (binText nt na op nb) = op := bin_opWord d1 d2 hop
  refine ⟨?_, rfl, bin_letter d1⟩
  show parts (binText nt na op nb) = _
  rw [parts, e1, e2, e3, e4]
  have e5 : ([' '] ++ op ++ ([' ', 'V'] ++ nb ++ [' ', 'E'])).drop (3 + op.length) = nb ++ ' ' :: ['E'] := by
    have : [' '] ++ op ++ ([' ', 'V'] ++ nb ++ [' ', 'E']) = ([' '] ++ op ++ [' ', 'V']) ++ (nb ++ ' ' :: ['E']) := by simp
    rw [this, List.drop_left']
    simp; omega
  rw [e5, take_digits d3.2 (by decide)]

theorem parts_un {s : List Char} {x y : Char} {t a : ℕ} (h : UnLine s x y t a) :
    (parts s).1 = t ∧ (parts s).2.1 = a ∧ s[2]? = some x ∧ (afterTarget s)[3]? = some y := by
  obtain ⟨nt, na, h1, h2, rfl⟩ := h
  obtain ⟨d1, rfl⟩ := numeral_digits h1
  obtain ⟨d2, rfl⟩ := numeral_digits h2
  have e1 : ((unText x y nt na).drop 3).takeWhile isDigit = nt := by
    rw [unText, List.append_assoc]
    exact take_digits d1.2 (by decide) _
  have e2 : (((afterTarget (unText x y nt na)).drop 4).takeWhile isDigit) = na := by
    rw [un_after d1]
    exact take_digits d2.2 (by decide) _
  exact ⟨congrArg decimal e1, congrArg decimal e2, rfl, un_letter d1⟩

/-- the constant of a line -/
def constPart (s : List Char) : ℤ :=
  let r := (afterTarget s).drop 3
  if r.head? = some '-' then -(decimal ((r.drop 1).takeWhile isDigit) : ℤ) else decimal (r.takeWhile isDigit)

theorem parts_const {s : List Char} {t : ℕ} {c : ℤ} (h : ConstLine s t c) :
    (parts s).1 = t ∧ constPart s = c ∧ (∃ x, (afterTarget s)[3]? = some x ∧ (x = '-' ∨ isDigit x = true)) := by
  obtain ⟨nt, nc, h1, h2, rfl⟩ := h
  obtain ⟨d1, rfl⟩ := numeral_digits h1
  have e1 : ∀ r, (['P', ' ', 'V'] ++ nt ++ ' ' :: r).drop 3 = nt ++ ' ' :: r := fun r => by
    rw [List.append_assoc]; rfl
  rcases h2 with ⟨n, h2, rfl⟩ | ⟨u, n, rfl, h2, rfl⟩
  · obtain ⟨d2, rfl⟩ := numeral_digits h2
    have e := const_after (k := 0) (nc := nc) d1
    refine ⟨?_, ?_, const_letter (k := 0) d1 d2⟩
    · show decimal (((['P', ' ', 'V'] ++ nt ++ ' ' :: _).drop 3).takeWhile isDigit) = _
      rw [e1, take_digits d1.2 (by decide)]
    · show constPart (constText nt 0 nc) = _
      unfold constPart
      rw [e]
      show (if (nc ++ ' ' :: ['E']).head? = some '-' then
        -(decimal (((nc ++ ' ' :: ['E']).drop 1).takeWhile isDigit) : ℤ)
        else decimal ((nc ++ ' ' :: ['E']).takeWhile isDigit)) = _
      rw [take_digits d2.2 (by decide), if_neg]
      obtain ⟨x, l, rfl⟩ := List.exists_cons_of_ne_nil d2.1
      intro hx
      exact (digit_not_sign (d2.2 x (by simp))).1 (Option.some.inj hx)
  · obtain ⟨d2, rfl⟩ := numeral_digits h2
    have e := const_after (k := 1) (nc := u) d1
    refine ⟨?_, ?_, const_letter (k := 1) d1 d2⟩
    · show decimal (((['P', ' ', 'V'] ++ nt ++ ' ' :: _).drop 3).takeWhile isDigit) = _
      rw [e1, take_digits d1.2 (by decide)]
    · show constPart (constText nt 1 u) = _
      unfold constPart
      rw [e]
      show (if some '-' = some '-' then
        -(decimal ((u ++ ' ' :: ['E']).takeWhile isDigit) : ℤ) else _) = _
      rw [if_pos rfl, take_digits d2.2 (by decide)]

/-- the word of a statement with two operands, and its numbers -/
def binaryOf : Stmt → Option (ℕ × ℕ × ℕ × List Char)
  | .gate op t a b => some (t, a, b, opName op)
  | .sum t a b => some (t, a, b, ['S', 'S'])
  | .expSum t a b => some (t, a, b, ['E', 'X', 'P', 'S', 'U', 'M'])
  | .bit t a b => some (t, a, b, ['B', 'I', 'T'])
  | _ => none

theorem binaryOf_line {s : List Char} {st : Stmt} {x : ℕ × ℕ × ℕ × List Char} (h : LineOf s st)
    (hx : binaryOf st = some x) : parts s = x ∧ s[2]? = some 'V' ∧ (afterTarget s)[3]? = some 'V' := by
  cases st <;> simp only [binaryOf, Option.some.injEq, reduceCtorEq] at hx <;> subst hx
  · rename_i op t a b; exact parts_bin (opName_word op).1 h
  · exact parts_bin (by decide) h
  · exact parts_bin (by decide) h
  · exact parts_bin (by decide) h

theorem binaryOf_inj {st st' : Stmt} (h : binaryOf st = binaryOf st') (hn : binaryOf st ≠ none) : st = st' := by
  cases st <;> cases st' <;> simp only [binaryOf, Option.some.injEq, Prod.mk.injEq, reduceCtorEq, ne_eq, not_true_eq_false] at h hn
  · rename_i op t a b op' t' a' b'
    obtain ⟨rfl, rfl, rfl, h⟩ := h
    congr 1
    revert h
    cases op <;> cases op' <;> decide
  all_goals first
    | (obtain ⟨rfl, rfl, rfl, -⟩ := h; rfl)
    | (exfalso; obtain ⟨-, -, -, h⟩ := h; revert h; decide)
    | (rename_i op _ _ _ _ _ _; exfalso; obtain ⟨-, -, -, h⟩ := h; revert h; cases op <;> decide)
    | (rename_i op _ _ _; exfalso; obtain ⟨-, -, -, h⟩ := h; revert h; cases op <;> decide)

/-- A line says at most one statement. -/
theorem C83_unambiguous (s : List Char) (st st' : Stmt) (h : LineOf s st) (h' : LineOf s st') : st = st' := by
  have letter : ∀ st, LineOf s st → binaryOf st = none →
      (∃ t a, st = .input t a ∧ (parts s).1 = t ∧ (parts s).2.1 = a ∧ s[2]? = some 'V' ∧ (afterTarget s)[3]? = some 'I') ∨
      (∃ t a, st = .output t a ∧ (parts s).1 = t ∧ (parts s).2.1 = a ∧ s[2]? = some 'O' ∧ (afterTarget s)[3]? = some 'V') ∨
      (∃ t c, st = .const t c ∧ (parts s).1 = t ∧ constPart s = c ∧
        ∃ x, (afterTarget s)[3]? = some x ∧ (x = '-' ∨ isDigit x = true)) := by
    intro st h hb
    cases st <;> simp only [binaryOf, reduceCtorEq] at hb
    · obtain ⟨h1, h2, h3, h4⟩ := parts_un h; exact Or.inl ⟨_, _, rfl, h1, h2, h3, h4⟩
    · obtain ⟨h1, h2, h3, h4⟩ := parts_un h; exact Or.inr (Or.inl ⟨_, _, rfl, h1, h2, h3, h4⟩)
    · obtain ⟨h1, h2, h3⟩ := parts_const h; exact Or.inr (Or.inr ⟨_, _, rfl, h1, h2, h3⟩)
  have clash : ∀ st st', LineOf s st → LineOf s st' → binaryOf st ≠ none → binaryOf st' = none → False := by
    intro st st' h h' hb hb'
    obtain ⟨x, hx⟩ := Option.ne_none_iff_exists'.1 hb
    obtain ⟨-, h2, h3⟩ := binaryOf_line h hx
    rcases letter st' h' hb' with ⟨_, _, -, -, -, -, h4⟩ | ⟨_, _, -, -, -, h4, -⟩ | ⟨_, _, -, -, -, y, h4, h5⟩
    · rw [h3] at h4; revert h4; decide
    · rw [h2] at h4; revert h4; decide
    · rw [h3] at h4
      cases Option.some.inj h4
      revert h5; decide
  by_cases hb : binaryOf st = none
  · by_cases hb' : binaryOf st' = none
    · rcases letter st h hb with ⟨t, a, rfl, h1, h2, h3, h4⟩ | ⟨t, a, rfl, h1, h2, h3, h4⟩ | ⟨t, c, rfl, h1, h2, x, h3, h4⟩ <;>
      rcases letter st' h' hb' with ⟨t', a', rfl, g1, g2, g3, g4⟩ | ⟨t', a', rfl, g1, g2, g3, g4⟩ | ⟨t', c', rfl, g1, g2, y, g3, g4⟩
      · rw [← h1, ← h2, ← g1, ← g2]
      · rw [h3] at g3; exact absurd g3 (by decide)
      · rw [h4] at g3
        cases Option.some.inj g3
        exact absurd g4 (by decide)
      · rw [h3] at g3; exact absurd g3 (by decide)
      · rw [← h1, ← h2, ← g1, ← g2]
      · rw [h4] at g3
        cases Option.some.inj g3
        exact absurd g4 (by decide)
      · rw [h3] at g4
        cases Option.some.inj g4
        exact absurd h4 (by decide)
      · rw [h3] at g4
        cases Option.some.inj g4
        exact absurd h4 (by decide)
      · rw [← h1, ← h2, ← g1, ← g2]
    · exact (clash st' st h' h hb' hb).elim
  · by_cases hb' : binaryOf st' = none
    · exact (clash st st' h h' hb hb').elim
    · obtain ⟨x, hx⟩ := Option.ne_none_iff_exists'.1 hb
      obtain ⟨y, hy⟩ := Option.ne_none_iff_exists'.1 hb'
      have e1 := (binaryOf_line h hx).1
      have e2 := (binaryOf_line h' hy).1
      exact binaryOf_inj (by rw [hx, hy, ← e1, ← e2]) hb

/-- every number has a numeral -/
theorem numeral_dec (n : ℕ) : Numeral (decDigits n) n :=
  (numeral_iff _ _).2 (decDigits_spec n)

/-- Every program has a text. -/
theorem C83_text (P : List Stmt) : ∃ src, TextOf src P := by
  have key : ∀ st, ∃ s, LineOf s st := by
    intro st
    have bin : ∀ op t a b, ∃ s, BinLine s op t a b := fun op t a b =>
      ⟨_, decDigits t, decDigits a, decDigits b, numeral_dec t, numeral_dec a, numeral_dec b, rfl⟩
    have un : ∀ x y t a, ∃ s, UnLine s x y t a := fun x y t a =>
      ⟨_, decDigits t, decDigits a, numeral_dec t, numeral_dec a, rfl⟩
    cases st with
    | gate op t a b => exact bin _ t a b
    | sum t a b => exact bin _ t a b
    | expSum t a b => exact bin _ t a b
    | bit t a b => exact bin _ t a b
    | input t a => exact un _ _ t a
    | output t a => exact un _ _ t a
    | const t c =>
      by_cases hc : 0 ≤ c
      · exact ⟨_, decDigits t, decDigits c.toNat, numeral_dec t, Or.inl ⟨c.toNat, numeral_dec _, by omega⟩, rfl⟩
      · exact ⟨_, decDigits t, '-' :: decDigits (-c).toNat, numeral_dec t,
          Or.inr ⟨_, (-c).toNat, rfl, numeral_dec _, by omega⟩, rfl⟩
  induction P with
  | nil => exact ⟨[], [], rfl, .nil⟩
  | cons st P ih =>
    obtain ⟨src, ls, -, hl⟩ := ih
    obtain ⟨s, hs⟩ := key st
    exact ⟨_, s :: ls, rfl, .cons hs hl⟩

/-- Numbers of `2 ^ 31` and more are not read as written: an operand of `2 ^ 32` is read as `0`. -/
theorem C83_large (v : Vars) :
    LineOf "P V1 = V4294967296 + V0 E".toList (.gate .add 1 (2 ^ 32) 0) ∧
      lexLine .root v "P V1 = V4294967296 + V0 E".toList = .ok (.gate .add 1 0 0, ⟨1, 2 ^ 32, 0⟩) := by
  constructor
  · exact ⟨['1'], "4294967296".toList, ['0'], by decide, by decide, by decide, by decide⟩
  · have d1 : Digits ['1'] := by constructor <;> decide
    have d2 : Digits "4294967296".toList := by constructor <;> decide
    have d3 : Digits ['0'] := by constructor <;> decide
    have e := lex_gate .root v .add d1 d2 d3
    rw [show "P V1 = V4294967296 + V0 E".toList = binText ['1'] "4294967296".toList (opName .add) ['0'] from by decide, e,
      binLine, scan_bin d1 d2 d3 (by decide) (by decide), if_pos (by decide), Outcome.ok_bind]
    rfl

/-! ### Wirings -/

/-- The text of a wiring is read as the wiring it says, with the results of `rand()` as the values of the inputs. The missing part: only
texts of wirings are accepted; see `C84_false`. -/
theorem C84_wiring_partial (rand : ℕ → ℤ) (v : Vars) (rdl : List Char) (W : List RStmt) (h : RTextOf rdl W)
    (hs : ∀ st ∈ W, RSmallNumbers st) (hx : inputValues W = (List.range (inputValues W).length).map rand) :
    readRdlText rand v rdl = .ok (W.foldl readRStmt {}) :=
  readRdl_eq rand v h hs hx

/-- A constant with two or more minus signs is accepted; its value is the last number that was read before. -/
theorem C84_signs (rand : ℕ → ℤ) (v : Vars) (j t n k : ℕ) (nt nc : List Char) (ht : Numeral nt t) (hc : Numeral nc n)
    (hs : t < 2 ^ 31) :
    lexRLine rand v j (['P', ' ', 'V'] ++ nt ++ ([' ', '=', ' '] ++ (List.replicate (k + 2) '-' ++ nc) ++ [' ', 'E'])) =
      .ok (.const t v.src0, { v with tgt := t }, j) := by
  obtain ⟨d1, rfl⟩ := numeral_digits ht
  obtain ⟨d2, rfl⟩ := numeral_digits hc
  refine (lexR_const rand v j (k := k + 2) d1 d2).trans ?_
  rw [scan_const2 d1 d2 k, if_pos hs, Outcome.ok_bind]
  dsimp only [Vars.assign]
  rw [varNum_nat]; rfl

/-- two constants, 7 and `--5` -/
def signsText : List Char := "P V1 = 7 E\nP V2 = --5 E\n".toList

/-- The text is not the text of a wiring, but it is accepted, and the second constant is read as 7. -/
theorem C84_false (rand : ℕ → ℤ) (v : Vars) : (∀ W, ¬RTextOf signsText W) ∧
    readRdlText rand v signsText = .ok ([.const 1 7, .const 2 7].foldl readRStmt {}) := by
  constructor
  · rintro W ⟨ls, h1, h2⟩
    have hl : lines signsText = ls := by
      rw [h1]; exact lines_join ls (forall₂_mem h2 (fun _ _ h => rline_noNewline h))
    have hl' : lines signsText = ["P V1 = 7 E".toList, "P V2 = --5 E".toList] := by decide
    rw [hl'] at hl
    subst hl
    cases h2 with
    | cons _ h2 =>
    cases h2 with
    | cons h3 _ =>
    rename_i st _ _
    cases st with
    | const t c =>
      obtain ⟨nt, nc, h1, h2, h3⟩ := h3
      obtain ⟨d1, -⟩ := numeral_digits h1
      have e : "P V2 = --5 E".toList = constText ['2'] 2 ['5'] := by decide
      have e2 := congrArg (fun l : List Char => (afterTarget l)[4]?) (e.symm.trans h3)
      rw [const_after (by constructor <;> decide)] at e2
      rcases h2 with ⟨n, h2, -⟩ | ⟨u, n, rfl, h2, -⟩
      · obtain ⟨d2, -⟩ := numeral_digits h2
        have e3 := congrArg (fun l : List Char => (afterTarget l)[3]?) (e.symm.trans h3)
        rw [const_after (by constructor <;> decide)] at e3
        have e4 := const_after (k := 0) (nc := nc) d1
        have e5 : afterTarget (['P', ' ', 'V'] ++ nt ++ ([' ', '=', ' '] ++ nc ++ [' ', 'E'])) =
            [' ', '=', ' '] ++ (List.replicate 0 '-' ++ nc) ++ [' ', 'E'] := e4
        rw [e5] at e3
        obtain ⟨x, l, rfl⟩ := List.exists_cons_of_ne_nil d2.1
        have : some '-' = some x := e3
        exact (digit_not_sign (d2.2 x (by simp))).1 (Option.some.inj this).symm
      · obtain ⟨d2, -⟩ := numeral_digits h2
        have e4 := const_after (k := 1) (nc := u) d1
        have e5 : afterTarget (['P', ' ', 'V'] ++ nt ++ ([' ', '=', ' '] ++ ('-' :: u) ++ [' ', 'E'])) =
            [' ', '=', ' '] ++ (List.replicate 1 '-' ++ u) ++ [' ', 'E'] := e4
        rw [e5] at e2
        obtain ⟨x, l, rfl⟩ := List.exists_cons_of_ne_nil d2.1
        have : some '-' = some x := e2
        exact (digit_not_sign (d2.2 x (by simp))).1 (Option.some.inj this).symm
    | input t i x =>
      have := (parts_un h3).2.2.2
      revert this; decide
    | output t a =>
      have := (parts_un h3).2.2.1
      revert this; decide
    | pass t a b =>
      have := (parts_bin (by decide) h3).2.2
      revert this; decide
  · have e : lines signsText = [constText ['1'] 0 ['7'], constText ['2'] 2 ['5']] := by decide
    have d1 : Digits ['1'] := by constructor <;> decide
    have d2 : Digits ['7'] := by constructor <;> decide
    have n2 : Numeral ['2'] 2 := by decide
    have n5 : Numeral ['5'] 5 := by decide
    have l1 : lexRLine rand v 0 (constText ['1'] 0 ['7']) = .ok (.const 1 7, ⟨1, 7, v.src1⟩, 0) := by
      rw [lexR_const rand v 0 d1 d2, scan_const0 d1 d2, if_pos (by decide), Outcome.ok_bind]
      rfl
    have l2 : lexRLine rand ⟨1, 7, v.src1⟩ 0 (constText ['2'] 2 ['5']) = .ok (.const 2 7, ⟨2, 7, v.src1⟩, 0) :=
      C84_signs rand ⟨1, 7, v.src1⟩ 0 2 5 0 ['2'] ['5'] n2 n5 (by norm_num)
    rw [readRdlText, e, List.foldlM_cons]
    dsimp only
    rw [l1, Outcome.ok_bind]
    dsimp only
    rw [Outcome.pure_eq, Outcome.ok_bind, List.foldlM_cons]
    dsimp only
    rw [l2]
    rfl

/-! ### Files of numbers -/

/-- One `fscanf` conversion on a text is one conversion on the list of the numbers in it. -/
theorem C85_scan (s : List Char) :
    (fun zr : ℤ × List Char => (zr.1, numbers zr.2)) <$> fscan .d s = readD (numbers s) ∧
    (fun zr : ℤ × List Char => (zr.1, numbers zr.2)) <$> fscan .lld s = readLL (numbers s) :=
  ⟨fscan_d s, fscan_lld s⟩

/-- A printed number is read back, whatever follows. -/
theorem C85_print (z : ℤ) (c : Char) (hc : c = ' ' ∨ c = '\n') (rest : List Char) :
    numbers (showInt z ++ [c] ++ rest) = z :: numbers rest ∧ numbers (showInt15 z ++ [c] ++ rest) = z :: numbers rest := by
  have hs : isSpace c = true := by rcases hc with rfl | rfl <;> decide
  exact ⟨writes_showInt z hs rest, writes_showInt15 z hs rest⟩

/-- From the text of a program and the text of a wiring, the compiler makes the texts of two files; the numbers in the files are the ones
of `compile`. It fails on the texts exactly if it fails on the statements, in the same way. -/
theorem C85_compile (var : Compiler.Variant) (rand : ℕ → ℤ) (src rdl : List Char) (P : List Stmt) (W : List RStmt)
    (h : TextOf src P) (hs : ∀ st ∈ P, SmallNumbers st) (h' : RTextOf rdl W) (hs' : ∀ st ∈ W, RSmallNumbers st)
    (hx : inputValues W = (List.range (inputValues W).length).map rand) :
    (fun f => (numbers f.1, numbers f.2)) <$> compileText var rand src rdl = compile var P W := by
  apply Sim.map
  have := compile_sim var rand h hs h' hs' hx
  revert this
  cases compileText var rand src rdl <;> cases compile var P W <;> first | exact id | skip
  rintro ⟨h1, h2⟩
  exact Prod.ext h1.numbers h2.numbers

/-- The circuit the verifier reads from the texts of the files: for a program of the language, its values are those the program
describes (`CompilesTo` with the texts). -/
theorem C85_circuit (var : Compiler.Variant) (P : List Stmt) (hP : ProgramOk P) (hss : ∀ t a b, .sum t a b ∉ P)
    (hs : ∀ st ∈ P, SmallNumbers st) : ∃ layer pos size : ℕ → ℕ,
    ∀ (rand : ℕ → ℤ) (src rdl file metaFile : List Char) (W : List RStmt) (base : ℕ),
    TextOf src P → RTextOf rdl W → (∀ st ∈ W, RSmallNumbers st) →
    inputValues W = (List.range (inputValues W).length).map rand →
    compileText var rand src rdl = .ok (file, metaFile) → WiringOk W →
    IsLeast {o | ∃ a, .output o a ∈ W} base → base ≤ 0x3f3f3f3f →
    (∃ e, outputCount W = inputCount P * 2 ^ e) → FitsReader (numbers file) →
    ∃ C, readZk (numbers file) (numbers metaFile) = .ok C ∧ WellFormed true C ∧
      ∀ (F : Type) [CommRing F] (out v : ℕ → F), (∀ l ∈ W, RHolds out v l.asRead) →
        ∀ r, inputCount P * r < outputCount W →
          (∃ w, ∀ st ∈ P, Spec.Holds (fun i => out (base + (r * inputCount P + i))) w st) ∧
          ∀ w, (∀ st ∈ P, Spec.Holds (fun i => out (base + (r * inputCount P + i))) w st) →
            ∀ st ∈ P, ∀ t, target st = some t → layer t < C.depth ∧ pos t < size (layer t) ∧
              value C (layer t) (r * size (layer t) + pos t) = w t := by
  obtain ⟨layer, pos, size, H⟩ := C50_compile var P hP hss
  refine ⟨layer, pos, size, fun rand src rdl file metaFile W base h h' hs' hx hc hW hb hbase hrep hfit => ?_⟩
  have e := C85_compile var rand src rdl P W h hs h' hs' hx
  rw [hc] at e
  obtain ⟨C, h1, h2, -, h3⟩ := H W (numbers file) (numbers metaFile) base e.symm hW hb hbase hrep hfit
  exact ⟨C, h1, h2, fun F _ out v hR r hr => (h3 F out v hR).2 r hr⟩

/-! ### A text -/

/-- the text of `outputProgram` -/
def outputText : List Char :=
  "P V0 = I0 E\nP V1 = V0 + V0 E\nP V2 = V1 + V0 E\nP O0 = V1 E\n".toList

/-- the text of `outputWiring` -/
def outputWiringText : List Char := "P V0 = I0 E\nP V2 = V0 PASS V0 E\nP O0 = V2 E\n".toList

theorem outputText_ok : TextOf outputText outputProgram :=
  ⟨["P V0 = I0 E".toList, "P V1 = V0 + V0 E".toList, "P V2 = V1 + V0 E".toList, "P O0 = V1 E".toList], by decide,
    .cons ⟨['0'], ['0'], by decide, by decide, by decide⟩
      (.cons ⟨['1'], ['0'], ['0'], by decide, by decide, by decide, by decide⟩
      (.cons ⟨['2'], ['1'], ['0'], by decide, by decide, by decide, by decide⟩
      (.cons ⟨['0'], ['1'], by decide, by decide, by decide⟩ .nil)))⟩

theorem outputWiringText_ok : RTextOf outputWiringText outputWiring :=
  ⟨["P V0 = I0 E".toList, "P V2 = V0 PASS V0 E".toList, "P O0 = V2 E".toList], by decide,
    .cons ⟨['0'], ['0'], by decide, by decide, by decide⟩
      (.cons ⟨['2'], ['0'], ['0'], by decide, by decide, by decide, by decide⟩
      (.cons ⟨['0'], ['2'], by decide, by decide, by decide⟩ .nil))⟩

/-- the text is accepted and the files are written -/
example : ∃ f m, compileText .root (fun _ => 1) outputText outputWiringText = .ok (f, m) ∧
    numbers m = [0, 0, 0, 0, 0, 0, 2, 1, 1, 0, 1, 2, 1, 1, 0, 1, 4, 1, 2, 0, 1, 2, 1, 1, 0] := by
  have h := C85_compile .root (fun _ => 1) outputText outputWiringText outputProgram outputWiring outputText_ok
    (by intro st hst; simp only [outputProgram, List.mem_cons, List.not_mem_nil, or_false] at hst
        rcases hst with rfl | rfl | rfl | rfl <;> simp [SmallNumbers]) outputWiringText_ok
    (by intro st hst; simp only [outputWiring, List.mem_cons, List.not_mem_nil, or_false] at hst
        rcases hst with rfl | rfl | rfl <;> simp [RSmallNumbers]) (by decide)
  obtain ⟨file, metaFile, C, h1, -⟩ := C52_false
  have h2 : compile .root outputProgram outputWiring = .ok
    ([5, 2, 3, 0, 1, 0, 3, 1, 0, 0, 2, 10, 0, 0, 0, 2, 1, 0, 0, 2, 10, 0, 0, 0, 2, 1, 0, 0, 4, 10, 0, 0, 0, 0, 1, 0, 0,
      2, 2, 0, 0, 2, 3, 0, 0, 2, 0, 0, 1, 0, 2, 1, 0, 0],
      [0, 0, 0, 0, 0, 0, 2, 1, 1, 0, 1, 2, 1, 1, 0, 1, 4, 1, 2, 0, 1, 2, 1, 1, 0]) := by decide +kernel
  rw [h2] at h
  obtain ⟨⟨f, m⟩, hf, e⟩ := Outcome.bind_eq_ok' h
  exact ⟨f, m, hf, (Prod.mk.inj (Outcome.ok.inj e)).2⟩

end Libra.Props
