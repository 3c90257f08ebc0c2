import Verif.Proofs.Text

/-! The lines of the compiler: what the patterns recognise and what the formats read. -/

namespace Libra.Compiler

open Txt

/-- the characters of `P Vt = Va op Vb E` -/
def binText (nt na op nb : Text) : Text :=
  ['P', ' ', 'V'] ++ nt ++ ([' ', '=', ' ', 'V'] ++ na ++ ([' '] ++ op ++ ([' ', 'V'] ++ nb ++ [' ', 'E'])))

/-- the characters of `P xt = ya E` -/
def unText (x y : Char) (nt na : Text) : Text :=
  ['P', ' ', x] ++ nt ++ ([' ', '=', ' ', y] ++ na ++ [' ', 'E'])

/-- the characters of `P Vt = c E`, with any number of signs -/
def constText (nt : Text) (k : ℕ) (nc : Text) : Text :=
  ['P', ' ', 'V'] ++ nt ++ ([' ', '=', ' '] ++ (List.replicate k '-' ++ nc) ++ [' ', 'E'])

theorem match_bin (op s : Text) : regexMatch (binPat op) s = true ↔
    ∃ nt na nb, Digits nt ∧ Digits na ∧ Digits nb ∧ s = binText nt na op nb := by
  simp only [binPat, match_lits, match_digits, match_lits_end]
  constructor
  · rintro ⟨_, rfl, nt, _, ht, rfl, _, rfl, na, _, ha, rfl, _, rfl, nb, _, hb, rfl, rfl⟩
    exact ⟨nt, na, nb, ht, ha, hb, by simp [binText]⟩
  · rintro ⟨nt, na, nb, ht, ha, hb, rfl⟩
    exact ⟨_, by rw [binText, List.append_assoc], nt, _, ht, rfl, _, by rw [List.append_assoc], na, _, ha, rfl, _,
      by simp, nb, _, hb, rfl, rfl⟩

theorem match_un (x y : Char) (s : Text) : regexMatch (unPat x y) s = true ↔
    ∃ nt na, Digits nt ∧ Digits na ∧ s = unText x y nt na := by
  simp only [unPat, match_lits, match_digits, match_lits_end]
  constructor
  · rintro ⟨_, rfl, nt, _, ht, rfl, _, rfl, na, _, ha, rfl, rfl⟩
    exact ⟨nt, na, ht, ha, by simp [unText]⟩
  · rintro ⟨nt, na, ht, ha, rfl⟩
    exact ⟨_, by rw [unText, List.append_assoc], nt, _, ht, rfl, _, by rw [List.append_assoc], na, _, ha, rfl, rfl⟩

theorem match_const (s : Text) : regexMatch constPat s = true ↔
    ∃ nt k nc, Digits nt ∧ Digits nc ∧ s = constText nt k nc := by
  simp only [constPat, match_lits, match_digits, match_dashes, match_lits_end]
  constructor
  · rintro ⟨_, rfl, nt, _, ht, rfl, _, rfl, k, _, rfl, nc, _, hc, rfl, rfl⟩
    exact ⟨nt, k, nc, ht, hc, by simp [constText]⟩
  · rintro ⟨nt, k, nc, ht, hc, rfl⟩
    exact ⟨_, by rw [constText, List.append_assoc], nt, _, ht, rfl, _, by rw [List.append_assoc], k, _,
      by rw [List.append_assoc], nc, _, hc, rfl, rfl⟩

/-! What distinguishes the kinds of lines: the letter of the target, the first character after ` = `, and the word after
the first operand. -/

/-- the text after the number of the target -/
def afterTarget (s : Text) : Text := (s.drop 3).dropWhile isDigit

/-- the word between the operands -/
def opWord (s : Text) : Text :=
  ((((afterTarget s).drop 4).dropWhile isDigit).drop 1).takeWhile (fun c => !isSpace c)

/-- no white space -/
def IsWord (op : Text) : Prop := ∀ c ∈ op, isSpace c = false

instance (op : Text) : Decidable (IsWord op) := inferInstanceAs (Decidable (∀ c ∈ op, isSpace c = false))

theorem afterTarget_eq (x : Char) {nt : Text} (ht : Digits nt) (r : Text) :
    afterTarget (['P', ' ', x] ++ nt ++ ' ' :: r) = ' ' :: r := by
  rw [List.append_assoc]
  show (nt ++ ' ' :: r).dropWhile isDigit = _
  exact drop_digits ht.2 (by decide) r

theorem bin_after {nt na nb op : Text} (ht : Digits nt) :
    afterTarget (binText nt na op nb) =
      [' ', '=', ' ', 'V'] ++ na ++ ([' '] ++ op ++ ([' ', 'V'] ++ nb ++ [' ', 'E'])) :=
  afterTarget_eq 'V' ht _

theorem un_after {x y : Char} {nt na : Text} (ht : Digits nt) :
    afterTarget (unText x y nt na) = [' ', '=', ' ', y] ++ na ++ [' ', 'E'] :=
  afterTarget_eq x ht _

theorem const_after {nt nc : Text} {k : ℕ} (ht : Digits nt) :
    afterTarget (constText nt k nc) = [' ', '=', ' '] ++ (List.replicate k '-' ++ nc) ++ [' ', 'E'] :=
  afterTarget_eq 'V' ht _

theorem bin_opWord {nt na nb op : Text} (ht : Digits nt) (ha : Digits na) (hop : IsWord op) :
    opWord (binText nt na op nb) = op := by
  rw [opWord, bin_after ht, List.append_assoc]
  show ((((na ++ ' ' :: (op ++ ([' ', 'V'] ++ nb ++ [' ', 'E']))).dropWhile isDigit).drop 1).takeWhile _) = _
  rw [drop_digits ha.2 (by decide)]
  show (op ++ ' ' :: ('V' :: (nb ++ [' ', 'E']))).takeWhile _ = _
  rw [List.takeWhile_append_of_pos (fun c hc => by simp [hop c hc])]
  simp [isSpace]

theorem bin_letter {nt na nb op : Text} (ht : Digits nt) : (afterTarget (binText nt na op nb))[3]? = some 'V' := by
  rw [bin_after ht]; rfl

theorem un_letter {x y : Char} {nt na : Text} (ht : Digits nt) : (afterTarget (unText x y nt na))[3]? = some y := by
  rw [un_after ht]; rfl

theorem const_letter {nt nc : Text} {k : ℕ} (ht : Digits nt) (hc : Digits nc) :
    ∃ c, (afterTarget (constText nt k nc))[3]? = some c ∧ (c = '-' ∨ isDigit c = true) := by
  rw [const_after ht]
  cases k with
  | zero =>
    obtain ⟨x, l, rfl⟩ := List.exists_cons_of_ne_nil hc.1
    exact ⟨x, rfl, Or.inr (hc.2 x (by simp))⟩
  | succ k => exact ⟨'-', rfl, Or.inl rfl⟩

theorem bin_target {nt na nb op : Text} : (binText nt na op nb)[2]? = some 'V' := rfl
theorem un_target {x y : Char} {nt na : Text} : (unText x y nt na)[2]? = some x := rfl
theorem const_target {nt nc : Text} {k : ℕ} : (constText nt k nc)[2]? = some 'V' := rfl

/-- the patterns are exclusive -/
theorem bin_not_bin {nt na nb op op' : Text} (ht : Digits nt) (ha : Digits na) (h : IsWord op)
    (h' : IsWord op') (hne : op ≠ op') : regexMatch (binPat op') (binText nt na op nb) = false := by
  by_contra hm
  rw [Bool.not_eq_false, match_bin] at hm
  obtain ⟨nt', na', nb', ht', ha', -, he⟩ := hm
  have := congrArg opWord he
  rw [bin_opWord ht ha h, bin_opWord ht' ha' h'] at this
  exact hne this

theorem bin_not_un {nt na nb op : Text} (ht : Digits nt) {x y : Char} (hxy : x ≠ 'V' ∨ y ≠ 'V') :
    regexMatch (unPat x y) (binText nt na op nb) = false := by
  by_contra hm
  rw [Bool.not_eq_false, match_un] at hm
  obtain ⟨nt', na', ht', -, he⟩ := hm
  rcases hxy with h | h
  · have := congrArg (fun l : Text => l[2]?) he
    rw [bin_target, un_target] at this
    exact h (Option.some.inj this).symm
  · have := congrArg (fun l : Text => (afterTarget l)[3]?) he
    rw [bin_letter ht, un_letter ht'] at this
    exact h (Option.some.inj this).symm

theorem bin_not_const {nt na nb op : Text} (ht : Digits nt) :
    regexMatch constPat (binText nt na op nb) = false := by
  by_contra hm
  rw [Bool.not_eq_false, match_const] at hm
  obtain ⟨nt', k, nc, ht', hc, he⟩ := hm
  have := congrArg (fun l : Text => (afterTarget l)[3]?) he
  obtain ⟨c, h, h1⟩ := const_letter (k := k) ht' hc
  rw [bin_letter ht, h] at this
  cases Option.some.inj this
  revert h1; decide

theorem un_not_bin {x y : Char} {nt na op : Text} (ht : Digits nt) (hxy : x ≠ 'V' ∨ y ≠ 'V') :
    regexMatch (binPat op) (unText x y nt na) = false := by
  by_contra hm
  rw [Bool.not_eq_false, match_bin] at hm
  obtain ⟨nt', na', nb', ht', -, -, he⟩ := hm
  rcases hxy with h | h
  · have := congrArg (fun l : Text => l[2]?) he
    rw [bin_target, un_target] at this
    exact h (Option.some.inj this)
  · have := congrArg (fun l : Text => (afterTarget l)[3]?) he
    rw [bin_letter ht', un_letter ht] at this
    exact h (Option.some.inj this)

theorem un_not_un {x y x' y' : Char} {nt na : Text} (h : x ≠ x') :
    regexMatch (unPat x' y') (unText x y nt na) = false := by
  by_contra hm
  rw [Bool.not_eq_false, match_un] at hm
  obtain ⟨nt', na', -, -, he⟩ := hm
  have := congrArg (fun l : Text => l[2]?) he
  rw [un_target, un_target] at this
  exact h (Option.some.inj this)

theorem un_not_const {x y : Char} {nt na : Text} (ht : Digits nt) (h1 : y ≠ '-') (h2 : isDigit y = false) :
    regexMatch constPat (unText x y nt na) = false := by
  by_contra hm
  rw [Bool.not_eq_false, match_const] at hm
  obtain ⟨nt', k, nc, ht', hc, he⟩ := hm
  have := congrArg (fun l : Text => (afterTarget l)[3]?) he
  obtain ⟨c, h, h3⟩ := const_letter (k := k) ht' hc
  rw [un_letter ht, h] at this
  cases Option.some.inj this
  rcases h3 with h3 | h3
  · exact h1 h3
  · rw [h2] at h3; cases h3

theorem const_not_bin {nt nc op : Text} {k : ℕ} (ht : Digits nt) (hc : Digits nc) :
    regexMatch (binPat op) (constText nt k nc) = false := by
  by_contra hm
  rw [Bool.not_eq_false, match_bin] at hm
  obtain ⟨nt', na', nb', ht', -, -, he⟩ := hm
  have := congrArg (fun l : Text => (afterTarget l)[3]?) he
  obtain ⟨c, h, h3⟩ := const_letter (k := k) ht hc
  rw [bin_letter ht', h] at this
  cases Option.some.inj this
  revert h3; decide

/-! What the formats read. -/

theorem sscanf_space {c : Char} (hc : isSpace c = false) (f : List Conv) (r : Text) :
    sscanf (.space :: f) (' ' :: c :: r) = sscanf f (c :: r) := by
  show sscanf f ((' ' :: c :: r).dropWhile isSpace) = _
  rw [List.dropWhile_cons_of_pos (by decide), List.dropWhile_cons_of_neg (by simp [hc])]

theorem sscanf_lit (c : Char) (f : List Conv) (r : Text) : sscanf (.lit c :: f) (c :: r) = sscanf f r := by
  show (if c = c then sscanf f r else .ok []) = _
  rw [if_pos rfl]

/-- the numbers of a line with two operands -/
theorem scan_bin {nt na nb op : Text} (ht : Digits nt) (ha : Digits na) (hb : Digits nb) (hop : IsWord op)
    (hne : op ≠ []) :
    sscanf (binFmt op) (binText nt na op nb) =
      if Spec.decimal nt < 2 ^ 31 ∧ Spec.decimal na < 2 ^ 63 ∧ Spec.decimal nb < 2 ^ 63 then
        .ok [(Spec.decimal nt : ℤ), (Spec.decimal na : ℤ), (Spec.decimal nb : ℤ)] else .undefined := by
  have e1 : sscanf (binFmt op) (binText nt na op nb) =
      sscanf (.d :: ([.space, .lit '=', .space, .lit 'V', .lld, .space] ++
        op.map .lit ++ [.space, .lit 'V', .lld, .space, .lit 'E']))
        (nt ++ ' ' :: ('=' :: (' ' :: 'V' :: (na ++ ([' '] ++ op ++ ([' ', 'V'] ++ nb ++ [' ', 'E'])))))) := by
    rw [binText, List.append_assoc]
    show sscanf (.lit 'P' :: .space :: .lit 'V' :: _) ('P' :: ' ' :: 'V' :: _) = _
    rw [sscanf_lit, sscanf_space (by decide), sscanf_lit]
    rfl
  have e2 : sscanf ([.space, .lit '=', .space, .lit 'V', .lld, .space] ++
        op.map .lit ++ [.space, .lit 'V', .lld, .space, .lit 'E'])
        (' ' :: ('=' :: (' ' :: 'V' :: (na ++ ([' '] ++ op ++ ([' ', 'V'] ++ nb ++ [' ', 'E'])))))) =
      sscanf (.lld :: (.space :: (op.map .lit ++ [.space, .lit 'V', .lld, .space, .lit 'E'])))
        (na ++ ' ' :: (op ++ ([' ', 'V'] ++ nb ++ [' ', 'E']))) := by
    show sscanf (.space :: .lit '=' :: .space :: .lit 'V' :: _) _ = _
    rw [sscanf_space (by decide), sscanf_lit, sscanf_space (by decide), sscanf_lit]
    rfl
  have e3 : sscanf (.space :: (op.map .lit ++ [.space, .lit 'V', .lld, .space, .lit 'E']))
        (' ' :: (op ++ ([' ', 'V'] ++ nb ++ [' ', 'E']))) =
      sscanf (.lld :: [.space, .lit 'E']) (nb ++ ' ' :: ['E']) := by
    have : sscanf (.space :: (op.map .lit ++ [.space, .lit 'V', .lld, .space, .lit 'E']))
        (' ' :: (op ++ ([' ', 'V'] ++ nb ++ [' ', 'E']))) =
        sscanf (op.map .lit ++ [.space, .lit 'V', .lld, .space, .lit 'E'])
          (op ++ ([' ', 'V'] ++ nb ++ [' ', 'E'])) := by
      obtain ⟨x, l, rfl⟩ := List.exists_cons_of_ne_nil hne
      exact sscanf_space (hop x (by simp)) _ _
    rw [this, sscanf_lits]
    show sscanf (.space :: .lit 'V' :: _) (' ' :: 'V' :: _) = _
    rw [sscanf_space (by decide), sscanf_lit]
    rfl
  have e4 : sscanf [.space, .lit 'E'] (' ' :: ['E']) = .ok [] := by decide
  rw [e1, sscanf_d ht (by decide), e2, sscanf_lld ha (by decide), e3, sscanf_lld hb (by decide), e4]
  by_cases h1 : Spec.decimal nt < 2 ^ 31
  · by_cases h2 : Spec.decimal na < 2 ^ 63
    · by_cases h3 : Spec.decimal nb < 2 ^ 63
      · rw [if_pos h1, if_pos h2, if_pos h3, if_pos ⟨h1, h2, h3⟩]; rfl
      · rw [if_pos h1, if_pos h2, if_neg h3, if_neg (fun h => h3 h.2.2)]; rfl
    · rw [if_pos h1, if_neg h2, if_neg (fun h => h2 h.2.1)]; rfl
  · rw [if_neg h1, if_neg (fun h => h1 h.1)]

/-- the numbers of a line with one operand -/
theorem scan_un {nt na : Text} (ht : Digits nt) (ha : Digits na) {x y : Char} (hx : isSpace x = false)
    (hy : isSpace y = false) :
    sscanf (unFmt x y) (unText x y nt na) =
      if Spec.decimal nt < 2 ^ 31 ∧ Spec.decimal na < 2 ^ 63 then
        .ok [(Spec.decimal nt : ℤ), (Spec.decimal na : ℤ)] else .undefined := by
  have e1 : sscanf (unFmt x y) (unText x y nt na) =
      sscanf (.d :: [.space, .lit '=', .space, .lit y, .lld, .space, .lit 'E'])
        (nt ++ ' ' :: ('=' :: (' ' :: y :: (na ++ [' ', 'E'])))) := by
    rw [unText, List.append_assoc]
    show sscanf (.lit 'P' :: .space :: .lit x :: _) ('P' :: ' ' :: x :: _) = _
    rw [sscanf_lit, sscanf_space hx, sscanf_lit]
    rfl
  have e2 : sscanf [.space, .lit '=', .space, .lit y, .lld, .space, .lit 'E']
        (' ' :: ('=' :: (' ' :: y :: (na ++ [' ', 'E'])))) =
      sscanf (.lld :: [.space, .lit 'E']) (na ++ ' ' :: ['E']) := by
    rw [sscanf_space (by decide), sscanf_lit, sscanf_space hy, sscanf_lit]
  have e4 : sscanf [.space, .lit 'E'] (' ' :: ['E']) = .ok [] := by decide
  rw [e1, sscanf_d ht (by decide), e2, sscanf_lld ha (by decide), e4]
  by_cases h1 : Spec.decimal nt < 2 ^ 31
  · by_cases h2 : Spec.decimal na < 2 ^ 63
    · rw [if_pos h1, if_pos h2, if_pos ⟨h1, h2⟩]; rfl
    · rw [if_pos h1, if_neg h2, if_neg (fun h => h2 h.2)]; rfl
  · rw [if_neg h1, if_neg (fun h => h1 h.1)]

theorem scan_const_head {nt : Text} (ht : Digits nt) (k : ℕ) (nc : Text) (hc : Digits nc) :
    sscanf constFmt (constText nt k nc) =
      if Spec.decimal nt < 2 ^ 31 then
        do return (Spec.decimal nt : ℤ) :: (← sscanf (.lld :: [.space, .lit 'E'])
          (List.replicate k '-' ++ (nc ++ ' ' :: ['E']))) else .undefined := by
  have e1 : sscanf constFmt (constText nt k nc) =
      sscanf (.d :: [.space, .lit '=', .space, .lld, .space, .lit 'E'])
        (nt ++ ' ' :: ('=' :: (' ' :: (List.replicate k '-' ++ (nc ++ ' ' :: ['E']))))) := by
    rw [constText, List.append_assoc]
    show sscanf (.lit 'P' :: .space :: .lit 'V' :: _) ('P' :: ' ' :: 'V' :: _) = _
    rw [sscanf_lit, sscanf_space (by decide), sscanf_lit]
    simp
  have e2 : sscanf [.space, .lit '=', .space, .lld, .space, .lit 'E']
        (' ' :: ('=' :: (' ' :: (List.replicate k '-' ++ (nc ++ ' ' :: ['E']))))) =
      sscanf (.lld :: [.space, .lit 'E']) (List.replicate k '-' ++ (nc ++ ' ' :: ['E'])) := by
    rw [sscanf_space (by decide), sscanf_lit]
    cases k with
    | zero =>
      obtain ⟨x, l, rfl⟩ := List.exists_cons_of_ne_nil hc.1
      exact sscanf_space (digit_not_space (hc.2 x (by simp))) _ _
    | succ k => exact sscanf_space (by decide) _ _
  rw [e1, sscanf_d ht (by decide), e2]

/-- a constant without a sign -/
theorem scan_const0 {nt nc : Text} (ht : Digits nt) (hc : Digits nc) :
    sscanf constFmt (constText nt 0 nc) =
      if Spec.decimal nt < 2 ^ 31 ∧ Spec.decimal nc < 2 ^ 63 then
        .ok [(Spec.decimal nt : ℤ), (Spec.decimal nc : ℤ)] else .undefined := by
  have e4 : sscanf [.space, .lit 'E'] (' ' :: ['E']) = .ok [] := by decide
  rw [scan_const_head ht 0 nc hc, List.replicate_zero, List.nil_append, sscanf_lld hc (by decide), e4]
  by_cases h1 : Spec.decimal nt < 2 ^ 31
  · by_cases h2 : Spec.decimal nc < 2 ^ 63
    · rw [if_pos h1, if_pos h2, if_pos ⟨h1, h2⟩]; rfl
    · rw [if_pos h1, if_neg h2, if_neg (fun h => h2 h.2)]; rfl
  · rw [if_neg h1, if_neg (fun h => h1 h.1)]

/-- a constant with a minus sign -/
theorem scan_const1 {nt nc : Text} (ht : Digits nt) (hc : Digits nc) :
    sscanf constFmt (constText nt 1 nc) =
      if Spec.decimal nt < 2 ^ 31 ∧ Spec.decimal nc ≤ 2 ^ 63 then
        .ok [(Spec.decimal nt : ℤ), -(Spec.decimal nc : ℤ)] else .undefined := by
  have e4 : sscanf [.space, .lit 'E'] (' ' :: ['E']) = .ok [] := by decide
  rw [scan_const_head ht 1 nc hc, show List.replicate 1 '-' ++ (nc ++ ' ' :: ['E']) = '-' :: (nc ++ ' ' :: ['E']) from rfl,
    sscanf_lld_neg hc (by decide), e4]
  by_cases h1 : Spec.decimal nt < 2 ^ 31
  · by_cases h2 : Spec.decimal nc ≤ 2 ^ 63
    · rw [if_pos h1, if_pos h2, if_pos ⟨h1, h2⟩]; rfl
    · rw [if_pos h1, if_neg h2, if_neg (fun h => h2 h.2)]; rfl
  · rw [if_neg h1, if_neg (fun h => h1 h.1)]

/-- two or more minus signs: only the target is read -/
theorem scan_const2 {nt nc : Text} (ht : Digits nt) (hc : Digits nc) (k : ℕ) :
    sscanf constFmt (constText nt (k + 2) nc) =
      if Spec.decimal nt < 2 ^ 31 then .ok [(Spec.decimal nt : ℤ)] else .undefined := by
  have : scanInt ('-' :: '-' :: (List.replicate k '-' ++ (nc ++ ' ' :: ['E']))) = none := by
    rw [scanInt, List.dropWhile_cons_of_neg (by decide)]
    show (if (List.takeWhile isDigit ('-' :: _)).isEmpty then none else _) = none
    rw [List.takeWhile_cons_of_neg (by decide)]
    rfl
  rw [scan_const_head ht (k + 2) nc hc, show List.replicate (k + 2) '-' ++ (nc ++ ' ' :: ['E']) =
    '-' :: '-' :: (List.replicate k '-' ++ (nc ++ ' ' :: ['E'])) from rfl, sscanf_lld_eq, this]
  rfl

end Libra.Compiler
