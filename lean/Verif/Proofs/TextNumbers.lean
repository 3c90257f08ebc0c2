import Verif.Proofs.Text
import Verif.Proofs.FieldBits
import Verif.Model.Reader

/-! Numbers in texts: what is printed is read back. -/

namespace Libra.Txt

theorem scanSign_le (s : Text) : (scanSign s).2.length ≤ s.length := by
  unfold scanSign
  split <;> simp

theorem scanInt_lt {s : Text} {z : ℤ} {r : Text} (h : scanInt s = some (z, r)) : r.length < s.length := by
  unfold scanInt at h
  dsimp only at h
  split at h
  · cases h
  · rename_i hne
    have e := (Prod.mk.inj (Option.some.inj h)).2
    have h1 := scanSign_le (s.dropWhile isSpace)
    have h2 : (s.dropWhile isSpace).length ≤ s.length := (List.dropWhile_sublist _).length_le
    have h3 := congrArg List.length (List.takeWhile_append_dropWhile (p := isDigit)
      (l := (scanSign (s.dropWhile isSpace)).2))
    rw [List.length_append] at h3
    have h4 : 0 < ((scanSign (s.dropWhile isSpace)).2.takeWhile isDigit).length := by
      rw [List.length_pos_iff]
      simpa using hne
    rw [← e]
    omega

theorem numbersN_eq (n : ℕ) (s : Text) (h : s.length ≤ n) : numbersN n s = numbers s := by
  unfold numbers
  induction n using Nat.strong_induction_on generalizing s with
  | _ n ih =>
    cases hs : scanInt s with
    | none =>
      cases n <;> cases hl : s.length <;> simp [numbersN, hs]
    | some zr =>
      obtain ⟨z, r⟩ := zr
      have hlt := scanInt_lt hs
      obtain ⟨m, rfl⟩ : ∃ m, n = m + 1 := ⟨n - 1, by omega⟩
      obtain ⟨l, hl⟩ : ∃ l, s.length = l + 1 := ⟨s.length - 1, by omega⟩
      rw [hl]
      simp only [numbersN, hs]
      rw [ih m (by omega) r (by omega)]
      by_cases hlm : l = m
      · rw [hlm, ih m (by omega) r (by omega)]
      · rw [ih l (by omega) r (by omega)]

/-- the first number, then the numbers of the rest -/
theorem numbers_scan (s : Text) : numbers s =
    match scanInt s with
    | none => []
    | some (z, r) => z :: numbers r := by
  rw [← numbersN_eq (s.length + 1) s (by omega)]
  cases h : scanInt s with
  | none => simp [numbersN, h]
  | some zr =>
    obtain ⟨z, r⟩ := zr
    have := scanInt_lt h
    simp only [numbersN, h]
    rw [numbersN_eq _ _ (by omega)]

/-- the text `t` ends with a separator and contributes the numbers `xs` -/
def Writes (t : Text) (xs : List ℤ) : Prop := ∀ rest, numbers (t ++ rest) = xs ++ numbers rest

theorem Writes.nil : Writes [] [] := fun _ => rfl

theorem Writes.append {t t' : Text} {xs xs' : List ℤ} (h : Writes t xs) (h' : Writes t' xs') :
    Writes (t ++ t') (xs ++ xs') := by
  intro rest
  rw [List.append_assoc, h, h', List.append_assoc]

theorem Writes.numbers {t : Text} {xs : List ℤ} (h : Writes t xs) : numbers t = xs := by
  have := h []
  rw [List.append_nil] at this
  rw [this]
  show xs ++ Txt.numbers [] = xs
  rw [show Txt.numbers [] = [] from rfl, List.append_nil]

theorem numbers_space {c : Char} (hc : isSpace c = true) (s : Text) : numbers (c :: s) = numbers s := by
  rw [numbers_scan, scan_space hc, ← numbers_scan]

theorem Writes.space {c : Char} (hc : isSpace c = true) : Writes [c] [] := fun rest => numbers_space hc rest

theorem writes_digits {ds : Text} (hd : Digits ds) {c : Char} (hc : isSpace c = true) :
    Writes (ds ++ [c]) [(Spec.decimal ds : ℤ)] := by
  have hc' : isDigit c = false := by
    by_contra h
    rw [Bool.not_eq_false] at h
    rw [digit_not_space h] at hc; cases hc
  intro rest
  rw [List.append_assoc, numbers_scan, List.singleton_append, scan_digits hd hc']
  dsimp only
  rw [numbers_space hc]
  rfl

theorem writes_neg {ds : Text} (hd : Digits ds) {c : Char} (hc : isSpace c = true) :
    Writes ('-' :: ds ++ [c]) [-(Spec.decimal ds : ℤ)] := by
  have hc' : isDigit c = false := by
    by_contra h
    rw [Bool.not_eq_false] at h
    rw [digit_not_space h] at hc; cases hc
  intro rest
  rw [List.append_assoc, numbers_scan, List.singleton_append, List.cons_append, scan_neg hd hc']
  dsimp only
  rw [numbers_space hc]
  rfl

theorem digitChar_eq (n : ℕ) (h : n < 10) : isDigit (digitChar n) = true ∧ Spec.digit (digitChar n) = n := by
  have : ∀ n < 10, isDigit (digitChar n) = true ∧ Spec.digit (digitChar n) = n := by decide
  exact this n h

theorem decimal_snoc (s : Text) (c : Char) : Spec.decimal (s ++ [c]) = 10 * Spec.decimal s + Spec.digit c := by
  simp [Spec.decimal]

theorem decDigits_spec (n : ℕ) : Digits (decDigits n) ∧ Spec.decimal (decDigits n) = n := by
  induction n using Nat.strong_induction_on with
  | _ n ih =>
    rw [decDigits]
    by_cases h : n < 10
    · rw [dif_pos h]
      obtain ⟨h1, h2⟩ := digitChar_eq n h
      refine ⟨⟨by simp, ?_⟩, ?_⟩
      · intro c hc
        rw [List.mem_singleton.1 hc]; exact h1
      · show Spec.decimal ([] ++ [_]) = _
        rw [decimal_snoc, h2]
        simp [Spec.decimal]
    · rw [dif_neg h]
      obtain ⟨⟨h1, h2⟩, h3⟩ := ih (n / 10) (by omega)
      obtain ⟨h4, h5⟩ := digitChar_eq (n % 10) (by omega)
      refine ⟨⟨by simp, ?_⟩, ?_⟩
      · intro c hc
        rcases List.mem_append.1 hc with hc | hc
        · exact h2 c hc
        · rw [List.mem_singleton.1 hc]; exact h4
      · rw [decimal_snoc, h3, h5]; omega

theorem zeros_spec (k : ℕ) {ds : Text} (hd : Digits ds) :
    Digits (List.replicate k '0' ++ ds) ∧ Spec.decimal (List.replicate k '0' ++ ds) = Spec.decimal ds := by
  induction k with
  | zero => exact ⟨hd, rfl⟩
  | succ k ih =>
    rw [List.replicate_succ, List.cons_append]
    refine ⟨⟨by simp, ?_⟩, ?_⟩
    · intro c hc
      rcases List.mem_cons.1 hc with rfl | hc
      · decide
      · exact ih.1.2 c hc
    · rw [decimal_cons, ih.2, show Spec.digit '0' = 0 from rfl]
      omega

theorem writes_showInt (z : ℤ) {c : Char} (hc : isSpace c = true) : Writes (showInt z ++ [c]) [z] := by
  obtain ⟨h1, h2⟩ := decDigits_spec z.natAbs
  unfold showInt
  by_cases hz : z < 0
  · rw [if_pos hz]
    have := writes_neg h1 hc
    rwa [h2, show -(z.natAbs : ℤ) = z by omega] at this
  · rw [if_neg hz]
    have := writes_digits h1 hc
    rwa [h2, show (z.natAbs : ℤ) = z by omega] at this

theorem writes_showInt15 (z : ℤ) {c : Char} (hc : isSpace c = true) : Writes (showInt15 z ++ [c]) [z] := by
  obtain ⟨h1, h2⟩ := decDigits_spec z.natAbs
  unfold showInt15
  by_cases hz : z < 0
  · rw [if_pos hz]
    obtain ⟨h3, h4⟩ := zeros_spec (14 - (decDigits z.natAbs).length) h1
    have := writes_neg h3 hc
    rwa [h4, h2, show -(z.natAbs : ℤ) = z by omega] at this
  · rw [if_neg hz]
    obtain ⟨h3, h4⟩ := zeros_spec (15 - (decDigits z.natAbs).length) h1
    have := writes_digits h3 hc
    rwa [h4, h2, show (z.natAbs : ℤ) = z by omega] at this

/-- a conversion of `fscanf` on a text is a conversion on the list of its numbers -/
theorem fscan_d (s : Text) :
    (fun zr : ℤ × Text => (zr.1, numbers zr.2)) <$> fscan .d s = Reader.readD (numbers s) := by
  rw [numbers_scan, fscan]
  cases scanInt s with
  | none => rfl
  | some zr =>
    obtain ⟨z, r⟩ := zr
    have h : fits .d z = decide (-2 ^ 31 ≤ z ∧ z < 2 ^ 31) := by
      rw [Bool.decide_and]; rfl
    dsimp only [Reader.readD]
    by_cases hz : -2 ^ 31 ≤ z ∧ z < 2 ^ 31
    · rw [if_pos hz, if_pos (by rw [h]; exact decide_eq_true hz)]; rfl
    · rw [if_neg hz, if_neg (by rw [h]; simpa using hz)]; rfl

theorem fscan_lld (s : Text) :
    (fun zr : ℤ × Text => (zr.1, numbers zr.2)) <$> fscan .lld s = Reader.readLL (numbers s) := by
  rw [numbers_scan, fscan]
  cases scanInt s with
  | none => rfl
  | some zr =>
    obtain ⟨z, r⟩ := zr
    have h : fits .lld z = decide (-2 ^ 63 ≤ z ∧ z < 2 ^ 63) := by
      rw [Bool.decide_and]; rfl
    dsimp only [Reader.readLL]
    by_cases hz : -2 ^ 63 ≤ z ∧ z < 2 ^ 63
    · rw [if_pos hz, if_pos (by rw [h]; exact decide_eq_true hz)]; rfl
    · rw [if_neg hz, if_neg (by rw [h]; simpa using hz)]; rfl

theorem linesFrom_append (cur l s : Text) (h : '\n' ∉ l) :
    linesFrom cur (l ++ '\n' :: s) = (cur ++ l) :: linesFrom [] s := by
  induction l generalizing cur with
  | nil => simp [linesFrom]
  | cons c l ih =>
    rw [List.mem_cons, not_or] at h
    rw [List.cons_append, linesFrom, if_neg (fun e => h.1 e.symm), ih _ h.2, List.append_assoc]
    rfl

/-- `getline` returns the lines -/
theorem lines_join (ls : List Text) (h : ∀ l ∈ ls, '\n' ∉ l) : lines (Spec.joinLines ls) = ls := by
  induction ls with
  | nil => rfl
  | cons l ls ih =>
    have e : Spec.joinLines (l :: ls) = l ++ '\n' :: Spec.joinLines ls := by
      simp [Spec.joinLines]
    rw [e, lines, linesFrom_append _ _ _ (h l (by simp))]
    have := ih (fun x hx => h x (List.mem_cons_of_mem _ hx))
    rw [lines] at this
    rw [this]; rfl

end Libra.Txt
