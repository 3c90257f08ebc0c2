import Verif.Model.CompilerText
import Verif.Spec.Text
import Verif.Proofs.Outcome
import Mathlib.Tactic.NormNum
import Mathlib.Tactic.Linarith

/-! Lemmas on the recognition and the scanning of texts. -/

namespace Libra.Txt

/-- a non-empty string of digits -/
def Digits (ds : Text) : Prop := ds ≠ [] ∧ ∀ c ∈ ds, isDigit c = true

theorem isDigit_iff (c : Char) : isDigit c = true ↔ '0' ≤ c ∧ c ≤ '9' := by
  simp only [isDigit, Bool.and_eq_true, decide_eq_true_eq]

theorem numeral_iff (s : Text) (n : ℕ) : Spec.Numeral s n ↔ Digits s ∧ Spec.decimal s = n := by
  simp only [Spec.Numeral, Digits, isDigit_iff, and_assoc]

theorem match_lits (l : Text) (ps : List Piece) (s : Text) :
    regexMatch (lits l ++ ps) s = true ↔ ∃ r, s = l ++ r ∧ regexMatch ps r = true := by
  induction l generalizing s with
  | nil => simp [lits]
  | cons c l ih =>
    cases s with
    | nil => simp [lits, regexMatch]
    | cons x s =>
      have := ih s
      simp only [lits, List.map_cons, List.cons_append, regexMatch, Bool.and_eq_true, beq_iff_eq] at this ⊢
      rw [this]
      constructor
      · rintro ⟨rfl, r, rfl, h⟩; exact ⟨r, rfl, h⟩
      · rintro ⟨r, e, h⟩
        obtain ⟨rfl, rfl⟩ := List.cons.inj e
        exact ⟨rfl, r, rfl, h⟩

theorem match_lits_end (l : Text) (s : Text) : regexMatch (lits l) s = true ↔ s = l := by
  have := match_lits l [] s
  rw [List.append_nil] at this
  rw [this]
  constructor
  · rintro ⟨r, rfl, h⟩
    cases r with
    | nil => simp
    | cons => simp [regexMatch] at h
  · rintro rfl; exact ⟨[], by simp, rfl⟩

theorem match_digits (ps : List Piece) (s : Text) :
    regexMatch (.digits :: ps) s = true ↔ ∃ ds r, Digits ds ∧ s = ds ++ r ∧ regexMatch ps r = true := by
  simp only [regexMatch, List.any_eq_true, List.mem_range, Bool.and_eq_true, List.all_eq_true]
  constructor
  · rintro ⟨n, hn, hd, hm⟩
    refine ⟨s.take (n + 1), s.drop (n + 1), ⟨?_, hd⟩, (List.take_append_drop _ _).symm, hm⟩
    intro h0
    have := congrArg List.length h0
    rw [List.length_take, List.length_nil] at this
    omega
  · rintro ⟨ds, r, ⟨hne, hd⟩, rfl, hm⟩
    have hl : 0 < ds.length := List.length_pos_iff.2 hne
    refine ⟨ds.length - 1, by rw [List.length_append]; omega, ?_, ?_⟩
    · rw [Nat.sub_add_cancel hl, List.take_left']
      · exact hd
      · rfl
    · rw [Nat.sub_add_cancel hl, List.drop_left']
      · exact hm
      · rfl

theorem match_dashes (ps : List Piece) (s : Text) :
    regexMatch (.dashes :: ps) s = true ↔ ∃ k r, s = List.replicate k '-' ++ r ∧ regexMatch ps r = true := by
  simp only [regexMatch, List.any_eq_true, List.mem_range, Bool.and_eq_true, List.all_eq_true, beq_iff_eq]
  constructor
  · rintro ⟨n, hn, hd, hm⟩
    refine ⟨n, s.drop n, ?_, hm⟩
    have : s.take n = List.replicate n '-' := by
      rw [List.eq_replicate_iff, List.length_take]
      exact ⟨by omega, hd⟩
    rw [← this, List.take_append_drop]
  · rintro ⟨k, r, rfl, hm⟩
    refine ⟨k, by simp, ?_, ?_⟩
    · intro c hc
      rw [List.take_left' (by simp)] at hc
      exact List.eq_of_mem_replicate hc
    · rw [List.drop_left' (by simp)]; exact hm

theorem take_digits {ds : Text} (hd : ∀ c ∈ ds, isDigit c = true) {c : Char} (hc : isDigit c = false) (r : Text) :
    (ds ++ c :: r).takeWhile isDigit = ds := by
  rw [List.takeWhile_append_of_pos hd]
  simp [hc]

theorem drop_digits {ds : Text} (hd : ∀ c ∈ ds, isDigit c = true) {c : Char} (hc : isDigit c = false) (r : Text) :
    (ds ++ c :: r).dropWhile isDigit = c :: r := by
  rw [List.dropWhile_append_of_pos hd]
  simp [hc]

theorem digit_not_space {c : Char} (h : isDigit c = true) : isSpace c = false := by
  rw [isDigit_iff] at h
  by_contra hs
  rw [Bool.not_eq_false] at hs
  simp only [isSpace, Bool.or_eq_true, decide_eq_true_eq] at hs
  rcases hs with ((((rfl | rfl) | rfl) | rfl) | rfl) | rfl <;> revert h <;> decide

theorem digit_not_sign {c : Char} (h : isDigit c = true) : c ≠ '-' ∧ c ≠ '+' := by
  rw [isDigit_iff] at h
  constructor <;> rintro rfl <;> revert h <;> decide

theorem scanSign_digit {c : Char} (h : isDigit c = true) (s : Text) : scanSign (c :: s) = (false, c :: s) := by
  obtain ⟨h1, h2⟩ := digit_not_sign h
  unfold scanSign
  split
  · rename_i t e; exact absurd (List.cons.inj e).1 h1
  · rename_i t e; exact absurd (List.cons.inj e).1 h2
  · rfl

/-- a numeral is read -/
theorem scan_digits {ds : Text} (hd : Digits ds) {c : Char} (hc : isDigit c = false) (r : Text) :
    scanInt (ds ++ c :: r) = some ((Spec.decimal ds : ℤ), c :: r) := by
  obtain ⟨x, l, rfl⟩ := List.exists_cons_of_ne_nil hd.1
  have hx := hd.2 x (by simp)
  rw [scanInt, List.cons_append, List.dropWhile_cons_of_neg (by simp [digit_not_space hx]), scanSign_digit hx]
  dsimp only
  rw [← List.cons_append, take_digits hd.2 hc, drop_digits hd.2 hc]
  rfl

/-- a numeral with a minus sign is read -/
theorem scan_neg {ds : Text} (hd : Digits ds) {c : Char} (hc : isDigit c = false) (r : Text) :
    scanInt ('-' :: (ds ++ c :: r)) = some (-(Spec.decimal ds : ℤ), c :: r) := by
  have hs : isSpace '-' = false := by decide
  rw [scanInt, List.dropWhile_cons_of_neg (by simp [hs])]
  show (let ds' := (ds ++ c :: r).takeWhile isDigit
    if ds'.isEmpty then none else some (-(Spec.decimal ds' : ℤ), (ds ++ c :: r).dropWhile isDigit)) = _
  dsimp only
  rw [take_digits hd.2 hc, drop_digits hd.2 hc, if_neg (by simpa using hd.1)]

/-- white space before a number is skipped -/
theorem scan_space {c : Char} (hc : isSpace c = true) (s : Text) : scanInt (c :: s) = scanInt s := by
  rw [scanInt, scanInt, List.dropWhile_cons_of_pos hc]

theorem sscanf_lits (l : Text) (f : List Conv) (r : Text) :
    sscanf (l.map .lit ++ f) (l ++ r) = sscanf f r := by
  induction l with
  | nil => rfl
  | cons c l ih => simp only [List.map_cons, List.cons_append, sscanf, if_true, ih]

theorem fits_d (n : ℕ) : fits .d (n : ℤ) = decide (n < 2 ^ 31) := by
  have h : fits .d (n : ℤ) = (decide (-2 ^ 31 ≤ (n : ℤ)) && decide ((n : ℤ) < 2 ^ 31)) := rfl
  rw [h, ← Bool.decide_and]
  apply decide_eq_decide.2
  omega

theorem fits_lld (n : ℕ) : fits .lld (n : ℤ) = decide (n < 2 ^ 63) := by
  have h : fits .lld (n : ℤ) = (decide (-2 ^ 63 ≤ (n : ℤ)) && decide ((n : ℤ) < 2 ^ 63)) := rfl
  rw [h, ← Bool.decide_and]
  apply decide_eq_decide.2
  omega

theorem fits_lld_neg (n : ℕ) : fits .lld (-(n : ℤ)) = decide (n ≤ 2 ^ 63) := by
  have h : fits .lld (-(n : ℤ)) = (decide (-2 ^ 63 ≤ -(n : ℤ)) && decide (-(n : ℤ) < 2 ^ 63)) := rfl
  rw [h, ← Bool.decide_and]
  apply decide_eq_decide.2
  omega

theorem sscanf_d_eq (f : List Conv) (s : Text) : sscanf (.d :: f) s =
    match scanInt s with
    | none => .ok []
    | some (z, r) => if fits .d z then do return z :: (← sscanf f r) else .undefined := rfl

theorem sscanf_lld_eq (f : List Conv) (s : Text) : sscanf (.lld :: f) s =
    match scanInt s with
    | none => .ok []
    | some (z, r) => if fits .lld z then do return z :: (← sscanf f r) else .undefined := rfl

theorem sscanf_d {ds : Text} (hd : Digits ds) {c : Char} (hc : isDigit c = false) (f : List Conv) (r : Text) :
    sscanf (.d :: f) (ds ++ c :: r) =
      if Spec.decimal ds < 2 ^ 31 then do return (Spec.decimal ds : ℤ) :: (← sscanf f (c :: r)) else .undefined := by
  rw [sscanf_d_eq, scan_digits hd hc]
  dsimp only
  rw [fits_d]
  by_cases h : Spec.decimal ds < 2 ^ 31
  · rw [if_pos h, if_pos (decide_eq_true h)]
  · rw [if_neg h, if_neg (by simpa using h)]

theorem sscanf_lld {ds : Text} (hd : Digits ds) {c : Char} (hc : isDigit c = false) (f : List Conv) (r : Text) :
    sscanf (.lld :: f) (ds ++ c :: r) =
      if Spec.decimal ds < 2 ^ 63 then do return (Spec.decimal ds : ℤ) :: (← sscanf f (c :: r)) else .undefined := by
  rw [sscanf_lld_eq, scan_digits hd hc]
  dsimp only
  rw [fits_lld]
  by_cases h : Spec.decimal ds < 2 ^ 63
  · rw [if_pos h, if_pos (decide_eq_true h)]
  · rw [if_neg h, if_neg (by simpa using h)]

theorem sscanf_lld_neg {ds : Text} (hd : Digits ds) {c : Char} (hc : isDigit c = false) (f : List Conv) (r : Text) :
    sscanf (.lld :: f) ('-' :: (ds ++ c :: r)) =
      if Spec.decimal ds ≤ 2 ^ 63 then do return -(Spec.decimal ds : ℤ) :: (← sscanf f (c :: r)) else .undefined := by
  rw [sscanf_lld_eq, scan_neg hd hc]
  dsimp only
  rw [fits_lld_neg]
  by_cases h : Spec.decimal ds ≤ 2 ^ 63
  · rw [if_pos h, if_pos (decide_eq_true h)]
  · rw [if_neg h, if_neg (by simpa using h)]

end Libra.Txt
