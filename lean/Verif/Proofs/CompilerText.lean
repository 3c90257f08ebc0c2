import Verif.Proofs.CompilerLines
import Verif.Proofs.TextNumbers

/-! The compiler on texts and the compiler on statements and numbers. -/

namespace Libra.Compiler

open Txt Spec

/-- two runs end alike, and if both succeed the results are related -/
def Sim {α β : Type} (r : α → β → Prop) : Outcome α → Outcome β → Prop
  | .ok a, .ok b => r a b
  | .reject, .reject => True
  | .assertFail, .assertFail => True
  | .exit, .exit => True
  | .undefined, .undefined => True
  | .diverges, .diverges => True
  | _, _ => False

theorem Sim.bind {α β γ δ : Type} {r : α → β → Prop} {r' : γ → δ → Prop} {x : Outcome α} {y : Outcome β}
    {f : α → Outcome γ} {g : β → Outcome δ} (h : Sim r x y) (hf : ∀ a b, r a b → Sim r' (f a) (g b)) :
    Sim r' (x >>= f) (y >>= g) := by
  cases x <;> cases y <;> first | exact hf _ _ h | exact trivial | exact h.elim

theorem Sim.ok {α β : Type} {r : α → β → Prop} {a : α} {b : β} (h : r a b) : Sim r (.ok a) (.ok b) := h

theorem Sim.same {α : Type} (x : Outcome α) : Sim (· = ·) x x := by
  cases x <;> first | rfl | trivial

theorem Sim.foldlM {α β ι κ : Type} {r : α → β → Prop} {q : ι → κ → Prop} {xs : List ι} {ys : List κ}
    (hxy : List.Forall₂ q xs ys) {f : α → ι → Outcome α} {g : β → κ → Outcome β}
    (h : ∀ a b i k, r a b → q i k → Sim r (f a i) (g b k)) {a : α} {b : β} (hab : r a b) :
    Sim r (xs.foldlM f a) (ys.foldlM g b) := by
  induction hxy generalizing a b with
  | nil => exact hab
  | cons hq _ ih =>
    rw [List.foldlM_cons, List.foldlM_cons]
    exact (h _ _ _ _ hab hq).bind (fun a b hab => ih hab)

theorem Sim.loopM {α β : Type} {r : α → β → Prop} (n : ℕ) {f : ℕ → α → Outcome α} {g : ℕ → β → Outcome β}
    (h : ∀ i a b, r a b → Sim r (f i a) (g i b)) {a : α} {b : β} (hab : r a b) :
    Sim r (Libra.loopM n f a) (Libra.loopM n g b) := by
  induction n with
  | zero => exact hab
  | succ n ih =>
    rw [loopM_succ, loopM_succ]
    exact Sim.bind ih (h n)

theorem Sim.map {α β : Type} {x : Outcome α} {y : Outcome β} {φ : α → β} (h : Sim (fun a b => φ a = b) x y) :
    φ <$> x = y := by
  cases x <;> cases y <;> first | exact congrArg Outcome.ok h | exact h.elim | rfl

theorem forall₂_refl {α : Type} (l : List α) : List.Forall₂ (· = ·) l l := by
  induction l with
  | nil => exact .nil
  | cons _ _ ih => exact .cons rfl ih

/-! ## Lines -/

theorem numeral_digits {s : Text} {n : ℕ} (h : Numeral s n) : Digits s ∧ decimal s = n := (numeral_iff s n).1 h

theorem toInt_small {n : ℕ} (h : n < 2 ^ 31) : toInt n = n := by
  unfold toInt; omega

theorem varNum_nat (n : ℕ) : varNum (n : ℤ) = .ok n := by
  rw [varNum, if_pos (by omega), Int.toNat_natCast]

theorem opName_word (op : Op) : IsWord (opName op) ∧ opName op ≠ [] := by
  cases op <;> decide

theorem binLine_small {nt na nb op : Text} (ht : Digits nt) (ha : Digits na) (hb : Digits nb) (hop : IsWord op)
    (hne : op ≠ []) (h1 : decimal nt < 2 ^ 31) (h2 : decimal na < 2 ^ 31) (h3 : decimal nb < 2 ^ 31)
    (mk : ℕ → ℕ → ℕ → Stmt) (v : Vars) :
    binLine op mk v (binText nt na op nb) =
      .ok (mk (decimal nt) (decimal na) (decimal nb), ⟨decimal nt, decimal na, decimal nb⟩) := by
  rw [binLine, scan_bin ht ha hb hop hne, if_pos ⟨h1, by omega, by omega⟩]
  rw [Outcome.ok_bind]
  dsimp only [Vars.assign]
  rw [toInt_small h2, toInt_small h3, varNum_nat, varNum_nat, varNum_nat]
  rfl

/-- which line is recognised -/
theorem lex_gate (var : Variant) (v : Vars) (op : Op) {nt na nb : Text} (ht : Digits nt) (ha : Digits na)
    (hb : Digits nb) : lexLine var v (binText nt na (opName op) nb) =
      binLine (opName op) (.gate op) v (binText nt na (opName op) nb) := by
  have hm : regexMatch (binPat (opName op)) (binText nt na (opName op) nb) = true :=
    (match_bin _ _).2 ⟨nt, na, nb, ht, ha, hb, rfl⟩
  have hc : regexMatch constPat (binText nt na (opName op) nb) = false := bin_not_const ht
  have hi : regexMatch (unPat 'V' 'I') (binText nt na (opName op) nb) = false := bin_not_un ht (by decide)
  have ho : regexMatch (unPat 'O' 'V') (binText nt na (opName op) nb) = false := bin_not_un ht (by decide)
  have hb' : ∀ op', IsWord op' → opName op ≠ op' →
      regexMatch (binPat op') (binText nt na (opName op) nb) = false :=
    fun op' h1 h2 => bin_not_bin ht ha (opName_word op).1 h1 h2
  unfold lexLine
  rw [hc, hi, ho]
  cases op
  all_goals
    dsimp only [opName] at *
    simp only [hm, if_true]
    try rw [hb' ['+'] (by decide) (by decide)]
    try rw [hb' ['*'] (by decide) (by decide)]
    try rw [hb' ['X', 'O', 'R'] (by decide) (by decide)]
    try rw [hb' ['N', 'A', 'A', 'B'] (by decide) (by decide)]
    try rw [hb' ['m', 'i', 'n', 'u', 's'] (by decide) (by decide)]
    try rfl

theorem lex_other (var : Variant) (v : Vars) {nt na nb op : Text} (ht : Digits nt) (ha : Digits na)
    (hw : IsWord op) (hn : ∀ o, opName o ≠ op) : lexLine var v (binText nt na op nb) =
      if var = .root ∧ regexMatch (binPat ['S', 'S']) (binText nt na op nb) then
        binLine ['S', 'S'] .sum v (binText nt na op nb)
      else if var = .sha256 ∧ regexMatch (binPat ['E', 'X', 'P', 'S', 'U', 'M']) (binText nt na op nb) then
        binLine ['E', 'X', 'P', 'S', 'U', 'M'] .expSum v (binText nt na op nb)
      else if var = .sha256 ∧ regexMatch (binPat ['B', 'I', 'T']) (binText nt na op nb) then
        binLine ['B', 'I', 'T'] .bit v (binText nt na op nb)
      else .assertFail := by
  have hc : regexMatch constPat (binText nt na op nb) = false := bin_not_const ht
  have hi : regexMatch (unPat 'V' 'I') (binText nt na op nb) = false := bin_not_un ht (by decide)
  have ho : regexMatch (unPat 'O' 'V') (binText nt na op nb) = false := bin_not_un ht (by decide)
  have hb' : ∀ o, regexMatch (binPat (opName o)) (binText nt na op nb) = false :=
    fun o => bin_not_bin ht ha hw (opName_word o).1 (hn o).symm
  have h1 := hb' .add
  have h2 := hb' .mult
  have h3 := hb' .xor
  have h4 := hb' .naab
  have h5 := hb' .minus
  have h6 := hb' .not
  dsimp only [opName] at h1 h2 h3 h4 h5 h6
  unfold lexLine
  rw [hc, hi, ho, h1, h2, h3, h4, h5, h6]
  rfl

theorem lex_input (var : Variant) (v : Vars) {nt na : Text} (ht : Digits nt) (ha : Digits na) :
    lexLine var v (unText 'V' 'I' nt na) = (do
      let v := v.assign (← sscanf (unFmt 'V' 'I') (unText 'V' 'I' nt na))
      return (.input (← varNum v.tgt) (← varNum (toInt v.src0)), v)) := by
  have hm : regexMatch (unPat 'V' 'I') (unText 'V' 'I' nt na) = true := (match_un _ _ _).2 ⟨nt, na, ht, ha, rfl⟩
  have hc : regexMatch constPat (unText 'V' 'I' nt na) = false := un_not_const ht (by decide) (by decide)
  have hb' : ∀ op, regexMatch (binPat op) (unText 'V' 'I' nt na) = false := fun op => un_not_bin ht (by decide)
  unfold lexLine
  rw [hb' ['+'], hb' ['*'], hc, hm]
  rfl

theorem lex_output (var : Variant) (v : Vars) {nt na : Text} (ht : Digits nt) (ha : Digits na) :
    lexLine var v (unText 'O' 'V' nt na) = (do
      let v := v.assign (← sscanf (unFmt 'O' 'V') (unText 'O' 'V' nt na))
      return (.output (← varNum v.tgt) (← varNum (toInt v.src0)), v)) := by
  have hm : regexMatch (unPat 'O' 'V') (unText 'O' 'V' nt na) = true := (match_un _ _ _).2 ⟨nt, na, ht, ha, rfl⟩
  have hc : regexMatch constPat (unText 'O' 'V' nt na) = false := un_not_const ht (by decide) (by decide)
  have hb' : ∀ op, regexMatch (binPat op) (unText 'O' 'V' nt na) = false := fun op => un_not_bin ht (by decide)
  have hi : regexMatch (unPat 'V' 'I') (unText 'O' 'V' nt na) = false := un_not_un (by decide)
  unfold lexLine
  rw [hb' ['+'], hb' ['*'], hc, hi, hm]
  rfl

theorem lex_const (var : Variant) (v : Vars) {nt nc : Text} {k : ℕ} (ht : Digits nt) (hc : Digits nc) :
    lexLine var v (constText nt k nc) = .assertFail := by
  have hm : regexMatch constPat (constText nt k nc) = true := (match_const _).2 ⟨nt, k, nc, ht, hc, rfl⟩
  have hb' : ∀ op, regexMatch (binPat op) (constText nt k nc) = false := fun op => const_not_bin ht hc
  unfold lexLine
  rw [hb' ['+'], hb' ['*'], hm]
  rfl

theorem un_small {nt na : Text} (ht : Digits nt) (ha : Digits na) {x y : Char} (hx : isSpace x = false)
    (hy : isSpace y = false) (h1 : decimal nt < 2 ^ 31) (h2 : decimal na < 2 ^ 31) :
    sscanf (unFmt x y) (unText x y nt na) = .ok [(decimal nt : ℤ), (decimal na : ℤ)] := by
  rw [scan_un ht ha hx hy, if_pos ⟨h1, by omega⟩]

/-- a line of a program is read as the statement it says, or stops both -/
theorem lex_line (var : Variant) (v : Vars) {s : Text} {st : Stmt} (h : LineOf s st) (hs : SmallNumbers st) :
    (∃ v', lexLine var v s = .ok (st, v')) ∨
      (lexLine var v s = .assertFail ∧ ∀ d, readStmt var d st = .assertFail) := by
  cases st with
  | gate op t a b =>
    obtain ⟨nt, na, nb, h1, h2, h3, rfl⟩ := h
    obtain ⟨d1, rfl⟩ := numeral_digits h1
    obtain ⟨d2, rfl⟩ := numeral_digits h2
    obtain ⟨d3, rfl⟩ := numeral_digits h3
    refine Or.inl ⟨_, (lex_gate var v op d1 d2 d3).trans
      (binLine_small d1 d2 d3 (opName_word op).1 (opName_word op).2 hs.1 hs.2.1 hs.2.2 _ _)⟩
  | sum t a b =>
    obtain ⟨nt, na, nb, h1, h2, h3, rfl⟩ := h
    obtain ⟨d1, rfl⟩ := numeral_digits h1
    obtain ⟨d2, rfl⟩ := numeral_digits h2
    obtain ⟨d3, rfl⟩ := numeral_digits h3
    have e := lex_other var v (nb := nb) (op := ['S', 'S']) d1 d2 (by decide) (by intro o; cases o <;> decide)
    have hm : regexMatch (binPat ['S', 'S']) (binText nt na ['S', 'S'] nb) = true :=
      (match_bin _ _).2 ⟨nt, na, nb, d1, d2, d3, rfl⟩
    have hb' : ∀ op', IsWord op' → ['S', 'S'] ≠ op' → regexMatch (binPat op') (binText nt na ['S', 'S'] nb) = false :=
      fun op' h1 h2 => bin_not_bin d1 d2 (by decide) h1 h2
    rw [hm, hb' ['E', 'X', 'P', 'S', 'U', 'M'] (by decide) (by decide), hb' ['B', 'I', 'T'] (by decide) (by decide)] at e
    by_cases hv : var = .root
    · rw [if_pos ⟨hv, rfl⟩] at e
      exact Or.inl ⟨_, e.trans (binLine_small d1 d2 d3 (by decide) (by decide) hs.1 hs.2.1 hs.2.2 _ _)⟩
    · rw [if_neg (fun h => hv h.1), if_neg (by simp), if_neg (by simp)] at e
      exact Or.inr ⟨e, fun d => by rw [readStmt, if_neg hv]⟩
  | expSum t a b =>
    obtain ⟨nt, na, nb, h1, h2, h3, rfl⟩ := h
    obtain ⟨d1, rfl⟩ := numeral_digits h1
    obtain ⟨d2, rfl⟩ := numeral_digits h2
    obtain ⟨d3, rfl⟩ := numeral_digits h3
    have e := lex_other var v (nb := nb) (op := ['E', 'X', 'P', 'S', 'U', 'M']) d1 d2 (by decide)
      (by intro o; cases o <;> decide)
    have hm : regexMatch (binPat ['E', 'X', 'P', 'S', 'U', 'M']) (binText nt na ['E', 'X', 'P', 'S', 'U', 'M'] nb) = true :=
      (match_bin _ _).2 ⟨nt, na, nb, d1, d2, d3, rfl⟩
    have hb' : ∀ op', IsWord op' → ['E', 'X', 'P', 'S', 'U', 'M'] ≠ op' →
        regexMatch (binPat op') (binText nt na ['E', 'X', 'P', 'S', 'U', 'M'] nb) = false :=
      fun op' h1 h2 => bin_not_bin d1 d2 (by decide) h1 h2
    rw [hm, hb' ['S', 'S'] (by decide) (by decide), hb' ['B', 'I', 'T'] (by decide) (by decide), if_neg (by simp)] at e
    by_cases hv : var = .sha256
    · rw [if_pos ⟨hv, rfl⟩] at e
      exact Or.inl ⟨_, e.trans (binLine_small d1 d2 d3 (by decide) (by decide) hs.1 hs.2.1 hs.2.2 _ _)⟩
    · rw [if_neg (fun h => hv h.1), if_neg (by simp)] at e
      exact Or.inr ⟨e, fun d => by rw [readStmt, if_neg hv]⟩
  | bit t a b =>
    obtain ⟨nt, na, nb, h1, h2, h3, rfl⟩ := h
    obtain ⟨d1, rfl⟩ := numeral_digits h1
    obtain ⟨d2, rfl⟩ := numeral_digits h2
    obtain ⟨d3, rfl⟩ := numeral_digits h3
    have e := lex_other var v (nb := nb) (op := ['B', 'I', 'T']) d1 d2 (by decide) (by intro o; cases o <;> decide)
    have hm : regexMatch (binPat ['B', 'I', 'T']) (binText nt na ['B', 'I', 'T'] nb) = true :=
      (match_bin _ _).2 ⟨nt, na, nb, d1, d2, d3, rfl⟩
    have hb' : ∀ op', IsWord op' → ['B', 'I', 'T'] ≠ op' → regexMatch (binPat op') (binText nt na ['B', 'I', 'T'] nb) = false :=
      fun op' h1 h2 => bin_not_bin d1 d2 (by decide) h1 h2
    rw [hm, hb' ['S', 'S'] (by decide) (by decide), hb' ['E', 'X', 'P', 'S', 'U', 'M'] (by decide) (by decide),
      if_neg (by simp), if_neg (by simp)] at e
    by_cases hv : var = .sha256
    · rw [if_pos ⟨hv, rfl⟩] at e
      exact Or.inl ⟨_, e.trans (binLine_small d1 d2 d3 (by decide) (by decide) hs.1 hs.2.1 hs.2.2 _ _)⟩
    · rw [if_neg (fun h => hv h.1)] at e
      exact Or.inr ⟨e, fun d => by rw [readStmt, if_neg hv]⟩
  | input t i =>
    obtain ⟨nt, na, h1, h2, rfl⟩ := h
    obtain ⟨d1, rfl⟩ := numeral_digits h1
    obtain ⟨d2, rfl⟩ := numeral_digits h2
    refine Or.inl ⟨⟨decimal nt, decimal na, v.src1⟩, (lex_input var v d1 d2).trans ?_⟩
    rw [un_small d1 d2 (by decide) (by decide) hs.1 hs.2]
    rw [Outcome.ok_bind]
    dsimp only [Vars.assign]
    rw [toInt_small hs.2, varNum_nat, varNum_nat]
    rfl
  | output t i =>
    obtain ⟨nt, na, h1, h2, rfl⟩ := h
    obtain ⟨d1, rfl⟩ := numeral_digits h1
    obtain ⟨d2, rfl⟩ := numeral_digits h2
    refine Or.inl ⟨⟨decimal nt, decimal na, v.src1⟩, (lex_output var v d1 d2).trans ?_⟩
    rw [un_small d1 d2 (by decide) (by decide) hs.1 hs.2]
    rw [Outcome.ok_bind]
    dsimp only [Vars.assign]
    rw [toInt_small hs.2, varNum_nat, varNum_nat]
    rfl
  | const t c =>
    obtain ⟨nt, nc, h1, h2, rfl⟩ := h
    obtain ⟨d1, rfl⟩ := numeral_digits h1
    refine Or.inr ⟨?_, fun d => rfl⟩
    rcases h2 with ⟨n, h2, -⟩ | ⟨u, n, rfl, h2, -⟩
    · exact lex_const var v (k := 0) d1 (numeral_digits h2).1
    · exact lex_const var v (k := 1) d1 (numeral_digits h2).1

theorem digits_noNewline {s : Text} (h : Digits s) : '\n' ∉ s := fun hn => by
  have := h.2 _ hn
  revert this; decide

theorem line_noNewline {s : Text} {st : Stmt} (h : LineOf s st) : '\n' ∉ s := by
  have key : ∀ op : Text, '\n' ∉ op → ∀ t a b, BinLine s op t a b → '\n' ∉ s := by
    rintro op hop t a b ⟨nt, na, nb, h1, h2, h3, rfl⟩
    have := digits_noNewline (numeral_digits h1).1
    have := digits_noNewline (numeral_digits h2).1
    have := digits_noNewline (numeral_digits h3).1
    simp_all
  have key2 : ∀ x y : Char, x ≠ '\n' → y ≠ '\n' → ∀ t a, UnLine s x y t a → '\n' ∉ s := by
    rintro x y hx hy t a ⟨nt, na, h1, h2, rfl⟩
    have := digits_noNewline (numeral_digits h1).1
    have := digits_noNewline (numeral_digits h2).1
    simp_all [eq_comm]
  cases st with
  | gate op t a b => exact key _ (by cases op <;> decide) t a b h
  | sum t a b => exact key _ (by decide) t a b h
  | expSum t a b => exact key _ (by decide) t a b h
  | bit t a b => exact key _ (by decide) t a b h
  | input t a => exact key2 _ _ (by decide) (by decide) t a h
  | output t a => exact key2 _ _ (by decide) (by decide) t a h
  | const t c =>
    obtain ⟨nt, nc, h1, h2, rfl⟩ := h
    have := digits_noNewline (numeral_digits h1).1
    rcases h2 with ⟨n, h2, -⟩ | ⟨u, n, rfl, h2, -⟩ <;>
    · have := digits_noNewline (numeral_digits h2).1
      simp_all

theorem forall₂_mem {α β : Type} {q : α → β → Prop} {xs : List α} {ys : List β} (h : List.Forall₂ q xs ys)
    {P : α → Prop} (hP : ∀ x y, q x y → P x) : ∀ x ∈ xs, P x := by
  induction h with
  | nil => simp
  | cons hq _ ih =>
    intro x hx
    rcases List.mem_cons.1 hx with rfl | hx
    · exact hP _ _ hq
    · exact ih x hx

theorem forall₂_and {α β : Type} {q : α → β → Prop} {xs : List α} {ys : List β} (h : List.Forall₂ q xs ys)
    {P : β → Prop} (hP : ∀ y ∈ ys, P y) : List.Forall₂ (fun x y => q x y ∧ P y) xs ys := by
  induction h with
  | nil => exact .nil
  | cons hq _ ih => exact .cons ⟨hq, hP _ (by simp)⟩ (ih (fun y hy => hP y (List.mem_cons_of_mem _ hy)))

/-- the program is read as written -/
theorem readProgram_sim (var : Variant) {src : Text} {P : List Stmt} (h : TextOf src P)
    (hs : ∀ st ∈ P, SmallNumbers st) :
    Sim (fun a b => a.2 = b) (readProgramText var src) (readProgram var P) := by
  obtain ⟨ls, rfl, hl⟩ := h
  rw [readProgramText, lines_join ls (forall₂_mem hl (fun _ _ h => line_noNewline h)), readProgram]
  refine Sim.foldlM (forall₂_and hl hs) ?_ rfl
  rintro ⟨v, d⟩ b line st rfl ⟨h1, h2⟩
  rcases lex_line var v h1 h2 with ⟨v', e⟩ | ⟨e, e'⟩
  · dsimp only
    rw [e, Outcome.ok_bind]
    dsimp only
    cases readStmt var d st <;> first | rfl | trivial
  · dsimp only
    rw [e, e']
    trivial

theorem varNum_toInt {n x : ℕ} (h : varNum (toInt n) = .ok x) : x = n % 2 ^ 32 := by
  unfold varNum at h
  by_cases h0 : 0 ≤ toInt n
  · rw [if_pos h0] at h
    have e := Outcome.ok.inj h
    have e2 : ((n : ℤ) + 2 ^ 31) % 2 ^ 32 - 2 ^ 31 = toInt n := rfl
    omega
  · rw [if_neg h0] at h; cases h

theorem varNum_cast {n x : ℕ} (h : varNum (n : ℤ) = .ok x) : x = n := by
  rw [varNum_nat] at h
  exact (Outcome.ok.inj h).symm

theorem binLine_inv {op s : Text} (hop : IsWord op) (hne : op ≠ []) (hm : regexMatch (binPat op) s = true)
    {mk : ℕ → ℕ → ℕ → Stmt} {v v' : Vars} {st : Stmt} (h : binLine op mk v s = .ok (st, v')) :
    ∃ t a b, BinLine s op t a b ∧ st = mk t (a % 2 ^ 32) (b % 2 ^ 32) ∧ t < 2 ^ 31 := by
  obtain ⟨nt, na, nb, d1, d2, d3, rfl⟩ := (match_bin op s).1 hm
  rw [binLine, scan_bin d1 d2 d3 hop hne] at h
  by_cases hc : decimal nt < 2 ^ 31 ∧ decimal na < 2 ^ 63 ∧ decimal nb < 2 ^ 63
  · rw [if_pos hc, Outcome.ok_bind] at h
    dsimp only [Vars.assign] at h
    obtain ⟨x, hx, h⟩ := Outcome.bind_eq_ok' h
    obtain ⟨y, hy, h⟩ := Outcome.bind_eq_ok' h
    obtain ⟨z, hz, h⟩ := Outcome.bind_eq_ok' h
    refine ⟨decimal nt, decimal na, decimal nb, ⟨nt, na, nb, (numeral_iff _ _).2 ⟨d1, rfl⟩,
      (numeral_iff _ _).2 ⟨d2, rfl⟩, (numeral_iff _ _).2 ⟨d3, rfl⟩, rfl⟩, ?_, hc.1⟩
    have := (Prod.mk.inj (Outcome.ok.inj h)).1
    rw [← this, varNum_cast hx, varNum_toInt hy, varNum_toInt hz]
  · rw [if_neg hc] at h; cases h

theorem unLine_inv {x y : Char} {s : Text} (hx : isSpace x = false) (hy : isSpace y = false)
    (hm : regexMatch (unPat x y) s = true) {mk : ℕ → ℕ → Stmt} {v v' : Vars} {st : Stmt}
    (h : (do
      let v := v.assign (← sscanf (unFmt x y) s)
      return (mk (← varNum v.tgt) (← varNum (toInt v.src0)), v)) = Outcome.ok (st, v')) :
    ∃ t a, UnLine s x y t a ∧ st = mk t (a % 2 ^ 32) ∧ t < 2 ^ 31 := by
  obtain ⟨nt, na, d1, d2, rfl⟩ := (match_un x y s).1 hm
  rw [scan_un d1 d2 hx hy] at h
  by_cases hc : decimal nt < 2 ^ 31 ∧ decimal na < 2 ^ 63
  · rw [if_pos hc, Outcome.ok_bind] at h
    dsimp only [Vars.assign] at h
    obtain ⟨a, ha, h⟩ := Outcome.bind_eq_ok' h
    obtain ⟨b, hb, h⟩ := Outcome.bind_eq_ok' h
    refine ⟨decimal nt, decimal na, ⟨nt, na, (numeral_iff _ _).2 ⟨d1, rfl⟩,
      (numeral_iff _ _).2 ⟨d2, rfl⟩, rfl⟩, ?_, hc.1⟩
    have := (Prod.mk.inj (Outcome.ok.inj h)).1
    rw [← this, varNum_cast ha, varNum_toInt hb]
  · rw [if_neg hc] at h; cases h

theorem of_ite {α : Type} {c : Prop} [Decidable c] {x y z : α} (h : (if c then x else y) = z) :
    (c ∧ x = z) ∨ (¬c ∧ y = z) := by
  by_cases hc : c
  · rw [if_pos hc] at h; exact Or.inl ⟨hc, h⟩
  · rw [if_neg hc] at h; exact Or.inr ⟨hc, h⟩

/-- a line that is accepted says a statement -/
theorem lex_inv {var : Variant} {v v' : Vars} {s : Text} {st : Stmt} (h : lexLine var v s = .ok (st, v')) :
    ∃ st', LineOf s st' ∧ st = reduceOperands st' := by
  unfold lexLine at h
  rcases of_ite h with ⟨hm, h⟩ | ⟨-, h⟩
  · obtain ⟨t, a, b, h1, h2, -⟩ := binLine_inv (by decide) (by decide) hm h
    exact ⟨.gate .add t a b, h1, h2⟩
  rcases of_ite h with ⟨hm, h⟩ | ⟨-, h⟩
  · obtain ⟨t, a, b, h1, h2, -⟩ := binLine_inv (by decide) (by decide) hm h
    exact ⟨.gate .mult t a b, h1, h2⟩
  rcases of_ite h with ⟨hm, h⟩ | ⟨-, h⟩
  · cases h
  rcases of_ite h with ⟨hm, h⟩ | ⟨-, h⟩
  · obtain ⟨t, a, h1, h2, -⟩ := unLine_inv (mk := Stmt.input) (by decide) (by decide) hm h
    exact ⟨.input t a, h1, h2⟩
  rcases of_ite h with ⟨hm, h⟩ | ⟨-, h⟩
  · obtain ⟨t, a, h1, h2, -⟩ := unLine_inv (mk := Stmt.output) (by decide) (by decide) hm h
    exact ⟨.output t a, h1, h2⟩
  rcases of_ite h with ⟨hm, h⟩ | ⟨-, h⟩
  · obtain ⟨t, a, b, h1, h2, -⟩ := binLine_inv (by decide) (by decide) hm h
    exact ⟨.gate .xor t a b, h1, h2⟩
  rcases of_ite h with ⟨hm, h⟩ | ⟨-, h⟩
  · obtain ⟨t, a, b, h1, h2, -⟩ := binLine_inv (by decide) (by decide) hm h
    exact ⟨.gate .naab t a b, h1, h2⟩
  rcases of_ite h with ⟨hm, h⟩ | ⟨-, h⟩
  · obtain ⟨t, a, b, h1, h2, -⟩ := binLine_inv (by decide) (by decide) hm h
    exact ⟨.gate .minus t a b, h1, h2⟩
  rcases of_ite h with ⟨hm, h⟩ | ⟨-, h⟩
  · obtain ⟨t, a, b, h1, h2, -⟩ := binLine_inv (by decide) (by decide) hm h
    exact ⟨.gate .not t a b, h1, h2⟩
  rcases of_ite h with ⟨hm, h⟩ | ⟨-, h⟩
  · obtain ⟨t, a, b, h1, h2, -⟩ := binLine_inv (by decide) (by decide) hm.2 h
    exact ⟨.sum t a b, h1, h2⟩
  rcases of_ite h with ⟨hm, h⟩ | ⟨-, h⟩
  · obtain ⟨t, a, b, h1, h2, -⟩ := binLine_inv (by decide) (by decide) hm.2 h
    exact ⟨.expSum t a b, h1, h2⟩
  rcases of_ite h with ⟨hm, h⟩ | ⟨-, h⟩
  · obtain ⟨t, a, b, h1, h2, -⟩ := binLine_inv (by decide) (by decide) hm.2 h
    exact ⟨.bit t a b, h1, h2⟩
  · cases h

/-- a text that is accepted is a program -/
theorem readProgram_inv {var : Variant} {src : Text} {r : Vars × Dag × ℕ} (h : readProgramText var src = .ok r) :
    ∃ P, List.Forall₂ LineOf (lines src) P ∧ readProgram var (P.map reduceOperands) = .ok r.2 := by
  unfold readProgramText at h
  unfold readProgram
  have key : ∀ (ls : List Text) (s : Vars × Dag × ℕ),
      ls.foldlM (fun (s : Vars × Dag × ℕ) line => do
        let (stmt, v) ← lexLine var s.1 line
        return (v, ← readStmt var s.2 stmt)) s = .ok r →
      ∃ P, List.Forall₂ LineOf ls P ∧ (P.map reduceOperands).foldlM (readStmt var) s.2 = .ok r.2 := by
    intro ls
    induction ls with
    | nil =>
      intro s h
      exact ⟨[], .nil, by rw [show s = r from Outcome.ok.inj h]; rfl⟩
    | cons l ls ih =>
      intro s h
      rw [List.foldlM_cons] at h
      obtain ⟨s1, h1, h2⟩ := Outcome.bind_eq_ok' h
      obtain ⟨⟨st, v⟩, h3, h4⟩ := Outcome.bind_eq_ok' h1
      obtain ⟨d, h5, h6⟩ := Outcome.bind_eq_ok' h4
      obtain ⟨st', h7, rfl⟩ := lex_inv h3
      have e : s1 = (v, d) := (Outcome.ok.inj h6).symm
      subst e
      obtain ⟨P, h8, h9⟩ := ih _ h2
      refine ⟨st' :: P, .cons h7 h8, ?_⟩
      rw [List.map_cons, List.foldlM_cons, h5]
      exact h9
  exact key _ _ h

/-! ## The wiring -/

theorem lexR_const (rand : ℕ → ℤ) (v : Vars) (j : ℕ) {nt nc : Text} {k : ℕ} (ht : Digits nt) (hc : Digits nc) :
    lexRLine rand v j (constText nt k nc) = (do
      let v := v.assign (← sscanf constFmt (constText nt k nc))
      return (.const (← varNum v.tgt) v.src0, v, j)) := by
  have hm : regexMatch constPat (constText nt k nc) = true := (match_const _).2 ⟨nt, k, nc, ht, hc, rfl⟩
  unfold lexRLine
  rw [hm]
  rfl

theorem lexR_input (rand : ℕ → ℤ) (v : Vars) (j : ℕ) {nt na : Text} (ht : Digits nt) (ha : Digits na) :
    lexRLine rand v j (unText 'V' 'I' nt na) = (do
      let v := v.assign (← sscanf (unFmt 'V' 'I') (unText 'V' 'I' nt na))
      return (.input (← varNum v.tgt) (← varNum v.src0) (rand j), v, j + 1)) := by
  have hm : regexMatch (unPat 'V' 'I') (unText 'V' 'I' nt na) = true := (match_un _ _ _).2 ⟨nt, na, ht, ha, rfl⟩
  have hc : regexMatch constPat (unText 'V' 'I' nt na) = false := un_not_const ht (by decide) (by decide)
  unfold lexRLine
  rw [hc, hm]
  rfl

theorem lexR_output (rand : ℕ → ℤ) (v : Vars) (j : ℕ) {nt na : Text} (ht : Digits nt) (ha : Digits na) :
    lexRLine rand v j (unText 'O' 'V' nt na) = (do
      let v := v.assign (← sscanf (unFmt 'O' 'V') (unText 'O' 'V' nt na))
      return (.output (← varNum v.tgt) (← varNum (toInt v.src0)), v, j)) := by
  have hm : regexMatch (unPat 'O' 'V') (unText 'O' 'V' nt na) = true := (match_un _ _ _).2 ⟨nt, na, ht, ha, rfl⟩
  have hc : regexMatch constPat (unText 'O' 'V' nt na) = false := un_not_const ht (by decide) (by decide)
  have hi : regexMatch (unPat 'V' 'I') (unText 'O' 'V' nt na) = false := un_not_un (by decide)
  unfold lexRLine
  rw [hc, hi, hm]
  rfl

theorem lexR_pass (rand : ℕ → ℤ) (v : Vars) (j : ℕ) {nt na nb : Text} (ht : Digits nt) (ha : Digits na)
    (hb : Digits nb) :
    lexRLine rand v j (binText nt na ['P', 'A', 'S', 'S'] nb) = (do
      let v := v.assign (← sscanf (binFmt ['P', 'A', 'S', 'S']) (binText nt na ['P', 'A', 'S', 'S'] nb))
      return (.pass (← varNum v.tgt) (← varNum v.src0) (← varNum v.src1), v, j)) := by
  have hm : regexMatch (binPat ['P', 'A', 'S', 'S']) (binText nt na ['P', 'A', 'S', 'S'] nb) = true :=
    (match_bin _ _).2 ⟨nt, na, nb, ht, ha, hb, rfl⟩
  have hc : regexMatch constPat (binText nt na ['P', 'A', 'S', 'S'] nb) = false := bin_not_const ht
  have hi : regexMatch (unPat 'V' 'I') (binText nt na ['P', 'A', 'S', 'S'] nb) = false := bin_not_un ht (by decide)
  have ho : regexMatch (unPat 'O' 'V') (binText nt na ['P', 'A', 'S', 'S'] nb) = false := bin_not_un ht (by decide)
  unfold lexRLine
  rw [hc, hi, ho, hm]
  rfl

/-- a line of a wiring is read as the statement it says -/
theorem lexR_line (rand : ℕ → ℤ) (v : Vars) (j : ℕ) {s : Text} {st : RStmt} (h : RLineOf s st) (hs : RSmallNumbers st)
    (hx : ∀ x ∈ inputValues [st], x = rand j) :
    ∃ v', lexRLine rand v j s = .ok (st, v', j + (inputValues [st]).length) := by
  cases st with
  | const t c =>
    obtain ⟨nt, nc, h1, h2, rfl⟩ := h
    obtain ⟨d1, rfl⟩ := numeral_digits h1
    obtain ⟨hs1, hs2, hs3⟩ := hs
    rcases h2 with ⟨n, h2, rfl⟩ | ⟨u, n, rfl, h2, rfl⟩
    · obtain ⟨d2, rfl⟩ := numeral_digits h2
      refine ⟨⟨decimal nt, decimal nc, v.src1⟩, (lexR_const rand v j (k := 0) d1 d2).trans ?_⟩
      rw [scan_const0 d1 d2, if_pos ⟨hs1, by omega⟩]
      rw [Outcome.ok_bind]
      dsimp only [Vars.assign]
      rw [varNum_nat]; rfl
    · obtain ⟨d2, rfl⟩ := numeral_digits h2
      refine ⟨⟨decimal nt, -(decimal u : ℤ), v.src1⟩, (lexR_const rand v j (k := 1) d1 d2).trans ?_⟩
      rw [scan_const1 d1 d2, if_pos ⟨hs1, by omega⟩]
      rw [Outcome.ok_bind]
      dsimp only [Vars.assign]
      rw [varNum_nat]; rfl
  | input t i x =>
    obtain ⟨nt, na, h1, h2, rfl⟩ := h
    obtain ⟨d1, rfl⟩ := numeral_digits h1
    obtain ⟨d2, rfl⟩ := numeral_digits h2
    have hx' : x = rand j := hx x (by simp [inputValues])
    subst hx'
    refine ⟨⟨decimal nt, decimal na, v.src1⟩, (lexR_input rand v j d1 d2).trans ?_⟩
    rw [un_small d1 d2 (by decide) (by decide) hs.1 hs.2]
    rw [Outcome.ok_bind]
    dsimp only [Vars.assign]
    rw [varNum_nat, varNum_nat]; rfl
  | output t i =>
    obtain ⟨nt, na, h1, h2, rfl⟩ := h
    obtain ⟨d1, rfl⟩ := numeral_digits h1
    obtain ⟨d2, rfl⟩ := numeral_digits h2
    refine ⟨⟨decimal nt, decimal na, v.src1⟩, (lexR_output rand v j d1 d2).trans ?_⟩
    rw [un_small d1 d2 (by decide) (by decide) hs.1 hs.2]
    rw [Outcome.ok_bind]
    dsimp only [Vars.assign]
    rw [toInt_small hs.2, varNum_nat, varNum_nat]; rfl
  | pass t a b =>
    obtain ⟨nt, na, nb, h1, h2, h3, rfl⟩ := h
    obtain ⟨d1, rfl⟩ := numeral_digits h1
    obtain ⟨d2, rfl⟩ := numeral_digits h2
    obtain ⟨d3, rfl⟩ := numeral_digits h3
    obtain ⟨hs1, hs2, hs3⟩ := hs
    refine ⟨⟨decimal nt, decimal na, decimal nb⟩, (lexR_pass rand v j d1 d2 d3).trans ?_⟩
    rw [scan_bin d1 d2 d3 (by decide) (by decide), if_pos ⟨hs1, by omega, by omega⟩]
    rw [Outcome.ok_bind]
    dsimp only [Vars.assign]
    rw [varNum_nat, varNum_nat, varNum_nat]; rfl

theorem rline_noNewline {s : Text} {st : RStmt} (h : RLineOf s st) : '\n' ∉ s := by
  cases st with
  | const t c => exact line_noNewline (st := .const t c) h
  | input t a x => exact line_noNewline (st := .input t a) h
  | output t a => exact line_noNewline (st := .output t a) h
  | pass t a b =>
    obtain ⟨nt, na, nb, h1, h2, h3, rfl⟩ := h
    have := digits_noNewline (numeral_digits h1).1
    have := digits_noNewline (numeral_digits h2).1
    have := digits_noNewline (numeral_digits h3).1
    simp_all

theorem inputValues_cons (st : RStmt) (W : List RStmt) : inputValues (st :: W) = inputValues [st] ++ inputValues W := by
  unfold inputValues
  rw [← List.filterMap_append]; rfl

/-- the wiring is read as written -/
theorem readRdl_eq (rand : ℕ → ℤ) (v : Vars) {rdl : Text} {W : List RStmt} (h : RTextOf rdl W)
    (hs : ∀ st ∈ W, RSmallNumbers st) (hx : inputValues W = (List.range (inputValues W).length).map rand) :
    readRdlText rand v rdl = .ok (W.foldl readRStmt {}) := by
  obtain ⟨ls, rfl, hl⟩ := h
  rw [readRdlText, lines_join ls (forall₂_mem hl (fun _ _ h => rline_noNewline h))]
  suffices H : ∀ (s : RState) (v : Vars) (j : ℕ),
      (inputValues W = (List.range (inputValues W).length).map (fun i => rand (j + i))) →
      ∃ v' j', ls.foldlM (fun (s : RState × Vars × ℕ) line => do
        let (stmt, v, k) ← lexRLine rand s.2.1 s.2.2 line
        return (readRStmt s.1 stmt, v, k)) (s, v, j) = .ok (W.foldl readRStmt s, v', j') by
    obtain ⟨v', j', e⟩ := H {} v 0 (by simpa using hx)
    rw [e]; rfl
  clear hx
  induction hl with
  | nil => intro s v j _; exact ⟨v, j, rfl⟩
  | cons hq _ ih =>
    rename_i l st ls W hl'
    intro s v j hx
    rw [inputValues_cons, List.length_append, List.range_add, List.map_append] at hx
    obtain ⟨hx1, hx2⟩ := List.append_inj hx (by simp)
    have hx1' : ∀ x ∈ inputValues [st], x = rand j := by
      intro x hxm
      have hlen : (inputValues [st]).length ≤ 1 := List.length_filterMap_le _ _
      rw [hx1] at hxm
      obtain ⟨i, hi, rfl⟩ := List.mem_map.1 hxm
      have := List.mem_range.1 hi
      rw [show i = 0 by omega, Nat.add_zero]
    obtain ⟨v1, e⟩ := lexR_line rand v j hq (hs st (by simp)) hx1'
    rw [List.foldlM_cons]
    dsimp only
    rw [e, Outcome.ok_bind]
    exact ih (fun st hst => hs st (List.mem_cons_of_mem _ hst)) (readRStmt s st) v1 _ (by
      rw [List.map_map] at hx2
      rw [hx2]
      simp [Function.comp_def, Nat.add_assoc])

/-! ## The files -/

theorem writes_gate (ty g u v : ℤ) : Writes (gateText ty g u v) [ty, g, u, v] := by
  have h := (((writes_showInt ty (c := ' ') rfl).append (writes_showInt g (c := ' ') rfl)).append
    (writes_showInt15 u (c := ' ') rfl)).append (writes_showInt v (c := ' ') rfl)
  simpa [gateText] using h

theorem writes_meta {c : Char} {n : ℤ} (hc : Writes [c, ' '] [n]) (w x y z : ℤ) :
    Writes (metaText c w x y z) [n, w, x, y, z] := by
  have h := (((hc.append (writes_showInt w (c := ' ') rfl)).append (writes_showInt x (c := ' ') rfl)).append
    (writes_showInt y (c := ' ') rfl)).append (writes_showInt z (c := '\n') rfl)
  simpa [metaText] using h

theorem writes_count (n : ℤ) : Writes (['\n'] ++ showInt n ++ [' ']) [n] := by
  have h := (Writes.space (c := '\n') rfl).append (writes_showInt n (c := ' ') rfl)
  simpa using h

theorem writes_digit {c : Char} (h : isDigit c = true) {s : Char} (hs : isSpace s = true) :
    Writes [c, s] [(Spec.digit c : ℤ)] := by
  have := writes_digits (ds := [c]) ⟨by simp, by simpa using h⟩ hs
  simpa [Spec.decimal] using this

theorem printBlocks_sim (n : ℕ) (gates : List LGate) (copy : ℕ → LGate → Outcome LGate) {t : Text} {xs : List ℤ}
    (h : Writes t xs) : Sim Writes (printBlocksText n gates copy t) (printBlocks n gates copy xs) := by
  refine Sim.loopM n (fun r a b hab => ?_) h
  refine Sim.foldlM (forall₂_refl gates) (fun a b i k hab hik => ?_) hab
  subst hik
  exact (Sim.same (copy r i)).bind (fun g g' hg => by subst hg; exact hab.append (writes_gate _ _ _ _))

/-- the files contain the numbers of `merge` -/
theorem merge_sim (var : Variant) (W : Wiring) (L : Layered) :
    Sim (fun a b => Writes a.1 b.1 ∧ Writes a.2 b.2) (mergeText var W L) (merge var W L) := by
  have w0 : Writes ['0', ' '] [0] := writes_digit rfl rfl
  have w0n : Writes ['0', '\n'] [0] := writes_digit rfl rfl
  have w1 : Writes ['1', ' '] [1] := writes_digit rfl rfl
  have hmeta : Writes (if var = .sha256 then ['0', ' ', '0', ' ', '1', ' ', '0', ' ', '0', '\n']
      else ['0', ' ', '0', ' ', '0', ' ', '0', ' ', '0', '\n'])
      (if var = .sha256 then [0, 0, 1, 0, 0] else [0, 0, 0, 0, 0]) := by
    by_cases hv : var = .sha256
    · rw [if_pos hv, if_pos hv]
      exact (((w0.append w0).append w1).append w0).append w0n
    · rw [if_neg hv, if_neg hv]
      exact (((w0.append w0).append w0).append w0).append w0n
  have hin : ∀ (l : List LGate) (t : Text) (xs : List ℤ), Writes t xs →
      Writes (l.foldl (fun file g => file ++ gateText 3 g.g g.u g.v) t)
        (l.foldl (fun file g => file ++ [3, g.g, g.u, g.v]) xs) := by
    intro l
    induction l with
    | nil => intro t xs h; exact h
    | cons g l ih => intro t xs h; exact ih _ _ (h.append (writes_gate _ _ _ _))
  have hhead : Writes (showInt ((2 + L.depth : ℕ) : ℤ) ++ ['\n'] ++ (showInt (W.inputs.length : ℤ) ++ [' ']))
      [((2 + L.depth : ℕ) : ℤ), (W.inputs.length : ℤ)] :=
    (writes_showInt _ (c := '\n') rfl).append (writes_showInt _ (c := ' ') rfl)
  unfold mergeText merge
  refine Sim.bind (r := Writes) ?_ (fun file xs hf => ?_)
  · refine Sim.foldlM (forall₂_refl _) (fun a b i k hab hik => ?_) ((hin _ _ _ hhead).append (writes_count _))
    subst hik
    exact (Sim.same (Outcome.read i)).bind (fun g g' hg => by subst hg; exact hab.append (writes_gate _ _ _ _))
  · by_cases hr : W.repeatNum = 0
    · rw [if_pos hr, if_pos hr]; trivial
    · rw [if_neg hr, if_neg hr]
      refine Sim.bind (printBlocks_sim _ _ _ (hf.append (writes_count _))) (fun file xs hf => ?_)
      refine Sim.loopM _ (fun i a b hab => ?_) ⟨hf, (hmeta.append (writes_meta w0 _ _ _ _)).append (writes_meta w1 _ _ _ _)⟩
      refine Sim.bind (printBlocks_sim _ _ _ (hab.1.append (writes_count _))) (fun file xs hf => ?_)
      exact ⟨hf, hab.2.append (writes_meta w1 _ _ _ _)⟩

/-- the compiler on texts -/
theorem compile_sim (var : Variant) (rand : ℕ → ℤ) {src rdl : Text} {P : List Stmt} {W : List RStmt}
    (h : TextOf src P) (hs : ∀ st ∈ P, SmallNumbers st) (h' : RTextOf rdl W)
    (hs' : ∀ st ∈ W, RSmallNumbers st) (hx : inputValues W = (List.range (inputValues W).length).map rand) :
    Sim (fun a b => Writes a.1 b.1 ∧ Writes a.2 b.2) (compileText var rand src rdl) (compile var P W) := by
  unfold compileText compile
  refine Sim.bind (readProgram_sim var h hs) ?_
  rintro ⟨v, d, n⟩ b rfl
  refine Sim.bind (Sim.same (dagToLayered d)) ?_
  rintro L _ rfl
  rw [readRdl_eq rand v h' hs' hx, Outcome.ok_bind]
  refine Sim.bind (Sim.same _) ?_
  rintro w _ rfl
  exact merge_sim var w L

end Libra.Compiler
