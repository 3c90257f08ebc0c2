import Verif.Proofs.Sha256Str

/-!
# The equations of the SHA-256 program and the compression function
-/

namespace Libra.Sha256Gen
open Compiler Spec

variable {F : Type} [Field F]

/-- small numbers are different in the field -/
def SmallInj (F : Type) [Field F] : Prop := ∀ m n : ℕ, m < 2 ^ 40 → n < 2 ^ 40 → (m : F) = n → m = n

variable {w : ℕ → F} {x : Wit}

theorem SmallInj.word (hF : SmallInj F) {a b : Sha256.Word} (h : (a.toNat : F) = b.toNat) : a = b :=
  BitVec.eq_of_toNat_eq (hF _ _ (by have := a.isLt; omega) (by have := b.isLt; omega) h)

/-- the message in the inputs -/
def message (m0 : Sha256.Word) (x : Wit) (i : ℕ) : Sha256.Word := if i = 0 then m0 else x.word i

theorem schedule_eq (hF : SmallInj F) (h : Eqs w x) {m0 : Sha256.Word} (h0 : w 34 = (m0.toNat : F)) :
    ∀ t < 64, Sha256.schedule (message m0 x) t = message m0 x t ∧ w (34 + t) = ((message m0 x t).toNat : F) := by
  have hw : ∀ t < 64, w (34 + t) = ((message m0 x t).toNat : F) := by
    intro t ht
    unfold message
    split_ifs with h1
    · rw [h1]; exact h0
    · rw [h.W t (by omega) ht]
  intro t
  induction t using Nat.strong_induction_on with
  | _ t ih =>
    intro ht
    refine ⟨?_, hw t ht⟩
    rw [Sha256.schedule]
    split_ifs with h16
    · rfl
    have e := h.S t (by omega) ht
    rw [(ih (t - 2) (by omega) (by omega)).1, (ih (t - 7) (by omega) (by omega)).1, (ih (t - 15) (by omega) (by omega)).1,
      (ih (t - 16) (by omega) (by omega)).1]
    rw [hw _ (by omega), hw _ (by omega)] at e
    have m2 : message m0 x (t - 2) = x.word (t - 2) := if_neg (by omega)
    have m15 : message m0 x (t - 15) = x.word (t - 15) := if_neg (by omega)
    have mt : message m0 x t = (x.S t).setWidth 32 := by
      unfold message Wit.word
      rw [if_neg (by omega), if_neg (by omega)]
    rw [← m2, ← m15] at e
    rw [mt]
    generalize message m0 x (t - 2) = w2 at *
    generalize message m0 x (t - 7) = w7 at *
    generalize message m0 x (t - 15) = w15 at *
    generalize message m0 x (t - 16) = w16 at *
    have b1 := (Sha256.sigma0 w15).isLt
    have b2 := (Sha256.sigma1 w2).isLt
    have b3 := w7.isLt
    have b4 := w16.isLt
    have b5 := (x.S t).isLt
    have e' := hF (x.S t).toNat (w16.toNat + w7.toNat + ((Sha256.sigma0 w15).toNat + (Sha256.sigma1 w2).toNat))
      (by omega) (by omega) (by push_cast; exact e)
    refine BitVec.eq_of_toNat_eq ?_
    simp only [BitVec.toNat_setWidth, BitVec.toNat_add]
    omega

/-- the working variables of the standard -/
def toF (F : Type) [Field F] (s : Sha256.Vars) : FVars F :=
  ⟨s.a, s.b, s.c, (s.d.toNat : F), s.e, s.f, s.g, (s.h.toNat : F)⟩

theorem trace_eq (hF : SmallInj F) (h : Eqs w x) {m0 : Sha256.Word} (h0 : w 34 = (m0.toNat : F)) {K : ℕ → Sha256.Word}
    (hK : ∀ i < 64, w (2210 + i) = ((K i).toNat : F)) {h3 h7 : Sha256.Word}
    (e3 : w (2274 + 3) = (h3.toNat : F)) (e7 : w (2274 + 7) = (h7.toNat : F)) :
    ∀ n ≤ 64, trace w x n =
      toF F (Sha256.rounds K (Sha256.schedule (message m0 x)) ⟨x.a, x.b, x.c, h3, x.e, x.f, x.g, h7⟩ n) := by
  intro n
  induction n with
  | zero => intro _; simp only [trace, toF, Sha256.rounds, e3, e7]
  | succ n ih =>
    intro hn
    have hs := schedule_eq hF h h0 n (by omega)
    have eA := h.A n (by omega)
    have eE := h.E n (by omega)
    simp only [trace, Sha256.rounds]
    rw [ih (by omega)] at eA eE ⊢
    rw [hs.2, ← hs.1, hK n (by omega)] at eA eE
    generalize Sha256.schedule (message m0 x) n = wn at *
    generalize Sha256.rounds K (Sha256.schedule (message m0 x)) ⟨x.a, x.b, x.c, h3, x.e, x.f, x.g, h7⟩ n = s at *
    simp only [toF] at eA eE ⊢
    have b1 := (Sha256.bigSigma0 s.a).isLt
    have b2 := (Sha256.Maj s.a s.b s.c).isLt
    have b3 := (Sha256.bigSigma1 s.e).isLt
    have b4 := (Sha256.Ch s.e s.f s.g).isLt
    have b5 := s.d.isLt
    have b6 := s.h.isLt
    have b7 := (K n).isLt
    have b8 := wn.isLt
    have b9 := (x.A n).isLt
    have b10 := (x.E n).isLt
    have nA := hF (x.A n).toNat ((Sha256.bigSigma0 s.a).toNat + (Sha256.Maj s.a s.b s.c).toNat + s.h.toNat +
      ((K n).toNat + wn.toNat) + ((Sha256.bigSigma1 s.e).toNat + (Sha256.Ch s.e s.f s.g).toNat))
      (by omega) (by omega) (by push_cast; exact eA)
    have nE := hF (x.E n).toNat (((K n).toNat + wn.toNat) + (s.d.toNat + s.h.toNat) +
      ((Sha256.bigSigma1 s.e).toNat + (Sha256.Ch s.e s.f s.g).toNat))
      (by omega) (by omega) (by push_cast; exact eE)
    simp only [Sha256.round, FVars.mk.injEq, and_true, true_and]
    constructor
    · refine BitVec.eq_of_toNat_eq ?_
      simp only [BitVec.toNat_setWidth, BitVec.toNat_add]
      omega
    · refine BitVec.eq_of_toNat_eq ?_
      simp only [BitVec.toNat_setWidth, BitVec.toNat_add]
      omega

/-- the result is the sum of two words -/
theorem low_eq (hF : SmallInj F) {o : BitVec 33} {a b : Sha256.Word} (h : (o.toNat : F) = a.toNat + b.toNat) :
    o.setWidth 32 = a + b := by
  have b1 := a.isLt
  have b2 := b.isLt
  have b3 := o.isLt
  have := hF o.toNat (a.toNat + b.toNat) (by omega) (by omega) (by push_cast; exact h)
  refine BitVec.eq_of_toNat_eq ?_
  simp only [BitVec.toNat_setWidth, BitVec.toNat_add]
  omega

/-- If the equations hold and the inputs that are not checked are words, then the result is the compression function. -/
theorem eqs_compress (hF : SmallInj F) (h : Eqs w x) {m0 : Sha256.Word} (h0 : w 34 = (m0.toNat : F))
    {K H : ℕ → Sha256.Word} (hK : ∀ i < 64, w (2210 + i) = ((K i).toNat : F))
    (hH : ∀ i < 8, w (2274 + i) = ((H i).toNat : F)) :
    ∀ i < 8, w (2282 + i) = ((Sha256.compress K (message m0 x) H i).toNat : F) := by
  have ea : x.a = H 0 := hF.word (h.H0.trans (hH 0 (by decide)))
  have eb : x.b = H 1 := hF.word (h.H1.trans (hH 1 (by decide)))
  have ec : x.c = H 2 := hF.word (h.H2.trans (hH 2 (by decide)))
  have ee : x.e = H 4 := hF.word (h.H4.trans (hH 4 (by decide)))
  have ef : x.f = H 5 := hF.word (h.H5.trans (hH 5 (by decide)))
  have eg : x.g = H 6 := hF.word (h.H6.trans (hH 6 (by decide)))
  have ht := trace_eq hF h h0 hK (hH 3 (by decide)) (hH 7 (by decide)) 64 (Nat.le_refl _)
  rw [ea, eb, ec, ee, ef, eg] at ht
  have o0 := h.O0; have o1 := h.O1; have o2 := h.O2; have o3 := h.O3
  have o4 := h.O4; have o5 := h.O5; have o6 := h.O6; have o7 := h.O7
  rw [ht, hH _ (by decide)] at o0 o1 o2 o3 o4 o5 o6 o7
  intro i hi
  rw [← h.Hout i hi]
  unfold Sha256.compress
  generalize Sha256.rounds K (Sha256.schedule (message m0 x)) ⟨H 0, H 1, H 2, H 3, H 4, H 5, H 6, H 7⟩ 64 = s at *
  simp only [toF] at o0 o1 o2 o3 o4 o5 o6 o7
  have key : (x.Ho i).setWidth 32 = s.word i + H i := by
    have : i = 0 ∨ i = 1 ∨ i = 2 ∨ i = 3 ∨ i = 4 ∨ i = 5 ∨ i = 6 ∨ i = 7 := by omega
    rcases this with rfl | rfl | rfl | rfl | rfl | rfl | rfl | rfl
    exacts [low_eq hF o0, low_eq hF o1, low_eq hF o2, low_eq hF o3, low_eq hF o4, low_eq hF o5, low_eq hF o6, low_eq hF o7]
  rw [key]

/-! ### Inputs that satisfy the equations -/

/-- the values of the schedule in the inputs, with `n0` for word 0 -/
def schedVal (n0 : ℕ) (M : ℕ → Sha256.Word) (t : ℕ) : ℕ := if t = 0 then n0 else (Sha256.schedule M t).toNat

/-- the working variables before round `n` -/
def state (K M H : ℕ → Sha256.Word) (n : ℕ) : Sha256.Vars :=
  Sha256.rounds K (Sha256.schedule M) ⟨H 0, H 1, H 2, H 3, H 4, H 5, H 6, H 7⟩ n

/-- the witness for message `M`, with `n0` for word 0 -/
def witness (n0 : ℕ) (K M H : ℕ → Sha256.Word) : Wit where
  M := Sha256.schedule M
  S t := BitVec.ofNat 34 (schedVal n0 M (t - 16) + schedVal n0 M (t - 7) +
    ((Sha256.sigma0 (Sha256.schedule M (t - 15))).toNat + (Sha256.sigma1 (Sha256.schedule M (t - 2))).toNat))
  Ho i := BitVec.ofNat 33 (((state K M H 64).word i).toNat + (H i).toNat)
  a := H 0
  b := H 1
  c := H 2
  e := H 4
  f := H 5
  g := H 6
  A i :=
    let s := state K M H i
    BitVec.ofNat 35 ((Sha256.bigSigma0 s.a).toNat + (Sha256.Maj s.a s.b s.c).toNat + s.h.toNat +
      ((K i).toNat + schedVal n0 M i) + ((Sha256.bigSigma1 s.e).toNat + (Sha256.Ch s.e s.f s.g).toNat))
  E i :=
    let s := state K M H i
    BitVec.ofNat 35 (((K i).toNat + schedVal n0 M i) + (s.d.toNat + s.h.toNat) +
      ((Sha256.bigSigma1 s.e).toNat + (Sha256.Ch s.e s.f s.g).toNat))

/-- what word 0 may be: equal to the word of the message modulo `2^32`, and small enough -/
structure Admissible (n0 : ℕ) (M : ℕ → Sha256.Word) : Prop where
  mod : n0 % 2 ^ 32 = (M 0).toNat
  small : n0 < 2 ^ 33
  sum : n0 + (M 9).toNat + ((Sha256.sigma0 (M 1)).toNat + (Sha256.sigma1 (M 14)).toNat) < 2 ^ 34

theorem schedule_early (M : ℕ → Sha256.Word) {t : ℕ} (h : t < 16) : Sha256.schedule M t = M t := by
  rw [Sha256.schedule, if_pos h]

theorem schedVal_lt {n0 : ℕ} {M : ℕ → Sha256.Word} (h : Admissible n0 M) (t : ℕ) : schedVal n0 M t < 2 ^ 33 := by
  unfold schedVal
  split_ifs
  · exact h.small
  · have := (Sha256.schedule M t).isLt; omega

theorem schedVal_pos {n0 : ℕ} {M : ℕ → Sha256.Word} {t : ℕ} (ht : t ≠ 0) :
    schedVal n0 M t = (Sha256.schedule M t).toNat := if_neg ht

theorem schedVal_mod {n0 : ℕ} {M : ℕ → Sha256.Word} (h : Admissible n0 M) (t : ℕ) :
    schedVal n0 M t % 2 ^ 32 = (Sha256.schedule M t).toNat := by
  unfold schedVal
  split_ifs with ht
  · rw [ht, schedule_early M (by decide), h.mod]
  · exact Nat.mod_eq_of_lt (Sha256.schedule M t).isLt

theorem sched_sum {n0 : ℕ} {M : ℕ → Sha256.Word} (h : Admissible n0 M) {t : ℕ} (h1 : 16 ≤ t) :
    schedVal n0 M (t - 16) + schedVal n0 M (t - 7) +
    ((Sha256.sigma0 (Sha256.schedule M (t - 15))).toNat + (Sha256.sigma1 (Sha256.schedule M (t - 2))).toNat) < 2 ^ 34 := by
  by_cases ht : t = 16
  · subst ht
    have := h.sum
    rw [schedVal_pos (t := 16 - 7) (by decide), schedule_early M (t := 16 - 7) (by decide),
      schedule_early M (t := 16 - 15) (by decide), schedule_early M (t := 16 - 2) (by decide)]
    have e : schedVal n0 M (16 - 16) = n0 := rfl
    rw [e]
    omega
  · rw [schedVal_pos (t := t - 16) (by omega), schedVal_pos (t := t - 7) (by omega)]
    have := (Sha256.schedule M (t - 16)).isLt
    have := (Sha256.schedule M (t - 7)).isLt
    have := (Sha256.sigma0 (Sha256.schedule M (t - 15))).isLt
    have := (Sha256.sigma1 (Sha256.schedule M (t - 2))).isLt
    omega

theorem witness_word {n0 : ℕ} {K M H : ℕ → Sha256.Word} (h : Admissible n0 M) (t : ℕ) :
    (witness n0 K M H).word t = Sha256.schedule M t := by
  unfold Wit.word
  split_ifs with h16
  · rfl
  · rw [witness, Sha256.schedule, if_neg h16]
    have s := sched_sum h (t := t) (by omega)
    have m16 := schedVal_mod h (t - 16)
    have m7 := schedVal_mod h (t - 7)
    refine BitVec.eq_of_toNat_eq ?_
    simp only [BitVec.toNat_setWidth, BitVec.toNat_add, BitVec.toNat_ofNat]
    omega

theorem witness_trace {n0 : ℕ} {K M H : ℕ → Sha256.Word} (h : Admissible n0 M)
    (e3 : w (2274 + 3) = ((H 3).toNat : F)) (e7 : w (2274 + 7) = ((H 7).toNat : F)) :
    ∀ n, trace w (witness n0 K M H) n = toF F (state K M H n) := by
  intro n
  induction n with
  | zero => simp only [trace, toF, state, Sha256.rounds, e3, e7, witness]
  | succ n ih =>
    have m := schedVal_mod h n
    have lt := schedVal_lt h n
    have e : state K M H (n + 1) = Sha256.round (K n) (Sha256.schedule M n) (state K M H n) := rfl
    simp only [trace]
    rw [ih, e]
    simp only [witness]
    generalize state K M H n = s at *
    simp only [toF, Sha256.round, FVars.mk.injEq, and_true, true_and]
    have b1 := (Sha256.bigSigma0 s.a).isLt
    have b2 := (Sha256.Maj s.a s.b s.c).isLt
    have b3 := (Sha256.bigSigma1 s.e).isLt
    have b4 := (Sha256.Ch s.e s.f s.g).isLt
    have b5 := s.d.isLt
    have b6 := s.h.isLt
    have b7 := (K n).isLt
    constructor
    · refine BitVec.eq_of_toNat_eq ?_
      simp only [BitVec.toNat_setWidth, BitVec.toNat_add, BitVec.toNat_ofNat]
      omega
    · refine BitVec.eq_of_toNat_eq ?_
      simp only [BitVec.toNat_setWidth, BitVec.toNat_add, BitVec.toNat_ofNat]
      omega

theorem witness_eqs {n0 : ℕ} {K M H : ℕ → Sha256.Word} (h : Admissible n0 M)
    (hW : ∀ t < 64, w (34 + t) = (schedVal n0 M t : F)) (hK : ∀ i < 64, w (2210 + i) = ((K i).toNat : F))
    (hH : ∀ i < 8, w (2274 + i) = ((H i).toNat : F))
    (hO : ∀ i < 8, w (2282 + i) = ((Sha256.compress K M H i).toNat : F)) : Eqs w (witness n0 K M H) := by
  have ht := witness_trace (w := w) (K := K) h (hH 3 (by decide)) (hH 7 (by decide))
  have hout : ∀ i, (((witness n0 K M H).Ho i).toNat : F) = ((state K M H 64).word i).toNat + (H i).toNat := by
    intro i
    have b1 := ((state K M H 64).word i).isLt
    have b2 := (H i).isLt
    have : ((witness n0 K M H).Ho i).toNat = ((state K M H 64).word i).toNat + (H i).toNat := by
      simp only [witness, BitVec.toNat_ofNat]
      omega
    rw [this]; push_cast; rfl
  refine ⟨?_, (hH 0 (by decide)).symm, (hH 1 (by decide)).symm, (hH 2 (by decide)).symm, (hH 4 (by decide)).symm,
    (hH 5 (by decide)).symm, (hH 6 (by decide)).symm, ?_, ?_, ?_, ?_, ?_, ?_, ?_, ?_, ?_, ?_, ?_, ?_⟩
  · intro i h1 h2
    rw [witness_word h, hW i h2, schedVal_pos (by omega)]
  · intro i hi
    rw [hO i hi]
    congr 1
    unfold Sha256.compress
    simp only [witness, BitVec.toNat_setWidth, BitVec.toNat_ofNat, BitVec.toNat_add, state]
    have b1 := ((state K M H 64).word i).isLt
    have b2 := (H i).isLt
    simp only [state] at b1
    omega
  · intro t h1 h2
    have s := sched_sum h (t := t) (by omega)
    rw [hW _ (by omega), hW _ (by omega), witness_word h, witness_word h]
    have : ((witness n0 K M H).S t).toNat = schedVal n0 M (t - 16) + schedVal n0 M (t - 7) +
      ((Sha256.sigma0 (Sha256.schedule M (t - 15))).toNat + (Sha256.sigma1 (Sha256.schedule M (t - 2))).toNat) := by
      simp only [witness, BitVec.toNat_ofNat]
      exact Nat.mod_eq_of_lt s
    rw [this]; push_cast; rfl
  · intro i hi
    rw [ht i, hK i hi, hW i hi]
    have lt := schedVal_lt h i
    have : ((witness n0 K M H).A i).toNat = (Sha256.bigSigma0 (state K M H i).a).toNat +
      (Sha256.Maj (state K M H i).a (state K M H i).b (state K M H i).c).toNat + (state K M H i).h.toNat +
      ((K i).toNat + schedVal n0 M i) + ((Sha256.bigSigma1 (state K M H i).e).toNat +
      (Sha256.Ch (state K M H i).e (state K M H i).f (state K M H i).g).toNat) := by
      simp only [witness, BitVec.toNat_ofNat]
      generalize state K M H i = s
      have b1 := (Sha256.bigSigma0 s.a).isLt
      have b2 := (Sha256.Maj s.a s.b s.c).isLt
      have b3 := (Sha256.bigSigma1 s.e).isLt
      have b4 := (Sha256.Ch s.e s.f s.g).isLt
      have b6 := s.h.isLt
      have b7 := (K i).isLt
      exact Nat.mod_eq_of_lt (by omega)
    rw [this]; push_cast; rfl
  · intro i hi
    rw [ht i, hK i hi, hW i hi]
    have lt := schedVal_lt h i
    have : ((witness n0 K M H).E i).toNat = ((K i).toNat + schedVal n0 M i) + ((state K M H i).d.toNat +
      (state K M H i).h.toNat) + ((Sha256.bigSigma1 (state K M H i).e).toNat +
      (Sha256.Ch (state K M H i).e (state K M H i).f (state K M H i).g).toNat) := by
      simp only [witness, BitVec.toNat_ofNat]
      generalize state K M H i = s
      have b3 := (Sha256.bigSigma1 s.e).isLt
      have b4 := (Sha256.Ch s.e s.f s.g).isLt
      have b5 := s.d.isLt
      have b6 := s.h.isLt
      have b7 := (K i).isLt
      exact Nat.mod_eq_of_lt (by omega)
    rw [this]; push_cast; rfl
  all_goals rw [hout, ht, hH _ (by decide)]; rfl

end Libra.Sha256Gen
