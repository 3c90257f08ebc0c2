import Verif.Proofs.Soundness
import Verif.Spec.Coins

/-!
# The soundness error of the plain protocol
-/

namespace Libra.FastTrack
open Libra Spec Finset Counting
variable {F : Type} [CommRing F] [DecidableEq F] {σ : Type}

/-- the state before layer `i`, when the layers `top, …, i+1` have been processed -/
def runTo (fixed : Bool) (C : Circuit) (A : ProverApi σ F) (ch : Challenges F) (s0 : VState σ F)
    (top i : ℕ) : Outcome (VState σ F) :=
  loopDownM (top - i) (fun k => layerStep fixed C A ch (k + i)) s0

theorem loopDownM_split' {τ : Type _} {n i : ℕ} (hn : i ≤ n) (b : ℕ → τ → Outcome τ) (s : τ) :
    loopDownM n b s = (loopDownM (n - i) (fun k => b (k + i)) s).bind (loopDownM i b) := by
  obtain ⟨m, rfl⟩ : ∃ m, n = m + i := ⟨n - i, by omega⟩
  rw [Nat.add_sub_cancel]
  clear hn
  induction m generalizing s with
  | zero => rw [Nat.zero_add]; rfl
  | succ m ih =>
    rw [show m + 1 + i = (m + i) + 1 by omega, loopDownM_succ, loopDownM_succ]
    rw [show m + i + 1 = m + 1 + i by omega]
    cases e : b (m + 1 + i) s with
    | ok t => exact ih t
    | _ => rfl

theorem loopDownM_congr {τ : Type _} {n : ℕ} {b b' : ℕ → τ → Outcome τ} {s : τ}
    (h : ∀ i, 1 ≤ i → i ≤ n → ∀ s, b i s = b' i s) : loopDownM n b s = loopDownM n b' s := by
  induction n generalizing s with
  | zero => rfl
  | succ n ih =>
    rw [loopDownM_succ, loopDownM_succ, h (n + 1) (by omega) le_rfl]
    cases e : b' (n + 1) s with
    | ok t => exact ih (fun i hi hn => h i hi (by omega))
    | _ => rfl

theorem runTo_succ {fixed : Bool} {C : Circuit} {A : ProverApi σ F} {ch : Challenges F}
    {s0 : VState σ F} {top i : ℕ} (hi : i < top) :
    runTo fixed C A ch s0 top i =
      (runTo fixed C A ch s0 top (i + 1)).bind (layerStep fixed C A ch (i + 1)) := by
  rw [runTo, runTo, loopDownM_split (by omega)]
  have : (fun k => layerStep fixed C A ch (k + 1 + i)) =
      fun k => layerStep fixed C A ch (k + (i + 1)) := by
    funext k; rw [show k + 1 + i = k + (i + 1) by omega]
  rw [this, show top - i - 1 = top - (i + 1) by omega, show 1 + i = i + 1 by omega]

theorem runTo_congr {fixed : Bool} {C : Circuit} {A : ProverApi σ F} {ch ch' : Challenges F}
    {s0 : VState σ F} {top i : ℕ}
    (h : ∀ k, i < k → ch.ru k = ch'.ru k ∧ ch.rv k = ch'.rv k ∧ ch.alpha k = ch'.alpha k ∧
      ch.beta k = ch'.beta k) :
    runTo fixed C A ch s0 top i = runTo fixed C A ch' s0 top i := by
  refine loopDownM_congr (fun k hk _ s => ?_)
  obtain ⟨h1, h2, h3, h4⟩ := h (k + i) (by omega)
  rw [layerStep, layerStep, h1, h2, h3, h4]

theorem round1_congr (A : ProverApi σ F) {ru ru' : ℕ → F} {n : ℕ} (h : ∀ j < n, ru j = ru' j)
    (s : σ × F × F) : loopM n (round1 A ru) s = loopM n (round1 A ru') s :=
  loopM_congr_inv (fun _ => True) trivial (fun _ _ _ _ _ _ => trivial)
    (fun j hj s _ => by rw [round1, round1, h j hj])

theorem round2_congr (fixed : Bool) (A : ProverApi σ F) (i : ℕ) (relay : F) {rv rv' : ℕ → F} {n : ℕ}
    (h : ∀ j < n, rv j = rv' j) (s : σ × F × F) :
    loopM n (round2 fixed A i rv relay) s = loopM n (round2 fixed A i rv' relay) s :=
  loopM_congr_inv (fun _ => True) trivial (fun _ _ _ _ _ _ => trivial)
    (fun j hj s _ => by rw [round2, round2, h j hj])

/-! ## the output -/

/-- the claimed output minus the true one -/
def outputError (C : Circuit) (result : ℕ → F) (g : ℕ) : F :=
  result g - value C (C.depth - 1) g

/-- The prover is lucky with coordinate `j` of the first point. -/
def Lucky0 (C : Circuit) (result : ℕ → F) (j : ℕ) (r : ℕ → F) : Prop :=
  (∃ b < 2 ^ (C.bl (C.depth - 1) - j), foldK r j (outputError C result) b ≠ 0) ∧
  ∀ b < 2 ^ (C.bl (C.depth - 1) - (j + 1)), foldK r (j + 1) (outputError C result) b = 0

omit [DecidableEq F] in
theorem output_sound (C : Circuit) (result : ℕ → F) (r : ℕ → F)
    (h : ∃ g < 2 ^ C.bl (C.depth - 1), result g ≠ value C (C.depth - 1) g) :
    mle (C.bl (C.depth - 1)) result r ≠ mle (C.bl (C.depth - 1)) (value C (C.depth - 1)) r ∨
    ∃ j < C.bl (C.depth - 1), Lucky0 C result j r := by
  set n := C.bl (C.depth - 1) with hn
  have key : ∀ m ≤ n, (∃ b < 2 ^ (n - m), foldK r m (outputError C result) b ≠ 0) ∨
      ∃ j < m, Lucky0 C result j r := by
    intro m
    induction m with
    | zero =>
      intro _
      obtain ⟨g, hg, hne⟩ := h
      exact .inl ⟨g, by simpa using hg, sub_ne_zero.2 hne⟩
    | succ m ih =>
      intro hm
      rcases ih (by omega) with h | ⟨j, hj, hl⟩
      · by_cases hz : ∃ b < 2 ^ (n - (m + 1)), foldK r (m + 1) (outputError C result) b ≠ 0
        · exact .inl hz
        · right
          refine ⟨m, by omega, h, fun b hb => ?_⟩
          by_contra hne
          exact hz ⟨b, hb, hne⟩
      · exact .inr ⟨j, by omega, hl⟩
  rcases key n le_rfl with ⟨b, hb, hne⟩ | h
  · left
    have : b = 0 := by simpa using hb
    subst this
    rw [foldK_mle] at hne
    intro hcon
    apply hne
    have : outputError C result = fun g => result g + (-1) * value C (C.depth - 1) g := by
      funext g; rw [outputError]; ring
    rw [this, mle_add, mle_smul, hcon]; ring
  · exact .inr h

/-! ## events -/

variable [IsDomain F] [Fintype F]

/-- the initial state of the layer loop -/
def initState (p : σ) (a0 : F) (tables : BetaTables F) (ch : Challenges F) : VState σ F :=
  { prover := p, alpha := 1, beta := 0, sum := a0, r0 := ch.r0, r1 := ch.r1, omr0 := oneMinus ch.r0,
    omr1 := oneMinus ch.r1, tables := tables }

/-- the initial state for a claimed output -/
def startState (C : Circuit) (p : σ) (result : ℕ → F) (tables : BetaTables F) (ch : Challenges F) :
    VState σ F :=
  initState p (mle (C.bl (C.depth - 1)) result ch.r0) tables ch

/-- For every coin, the event that the prover is lucky with it. -/
def Event (fixed : Bool) (C : Circuit) (A : ProverApi σ F) (p : σ) (result : ℕ → F)
    (tables : BetaTables F) (c : Coin C) (ω : Coin C → F) : Prop :=
  let ch := challenges C ω
  let run := runTo fixed C A ch (startState C p result tables ch) (C.depth - 1)
  match c with
  | .inl j => Lucky0 C result j ch.r0
  | .inr (.inl _) => False
  | .inr (.inr (.inl ⟨i, k⟩)) => i.1 ≠ 0 ∧ ∃ s, run i = .ok s ∧ Lucky1 C A i k (ch.ru i) s
  | .inr (.inr (.inr (.inl ⟨i, k⟩))) =>
    2 ≤ i.1 ∧ ∃ s, run i = .ok s ∧ Lucky2 fixed C A i k (ch.ru i) (ch.rv i) s
  | .inr (.inr (.inr (.inr (.inl i)))) => 2 ≤ i.1 ∧ ∃ s, run i = .ok s ∧
      LuckyA fixed C A i (ch.ru i) (ch.rv i) (ch.alpha i) (ch.beta i) s
  | .inr (.inr (.inr (.inr (.inr i)))) => 2 ≤ i.1 ∧ ∃ s, run i = .ok s ∧
      LuckyB fixed C A i (ch.ru i) (ch.rv i) (ch.beta i) s

/-- how many values of the coin can be lucky -/
def degree (C : Circuit) : Coin C → ℕ
  | .inl _ => 1
  | .inr (.inl _) => 0
  | .inr (.inr (.inl ⟨i, _⟩)) => if i.1 = 0 then 0 else 2
  | .inr (.inr (.inr (.inl ⟨i, _⟩))) => if 2 ≤ i.1 then 2 else 0
  | .inr (.inr (.inr (.inr (.inl i)))) => if 2 ≤ i.1 then 1 else 0
  | .inr (.inr (.inr (.inr (.inr i)))) => if 2 ≤ i.1 then 1 else 0

omit [DecidableEq F] [IsDomain F] [Fintype F] in
theorem sum_degree (C : Circuit) : ∑ c : Coin C, degree C c = soundnessError C := by
  simp only [Fintype.sum_sum_type, degree, Fintype.sum_sigma, sum_const, card_univ, Fintype.card_fin,
    smul_eq_mul, mul_one, zero_mul, mul_zero, zero_add, soundnessError]
  rw [← Fin.sum_univ_eq_sum_range (fun i => if i = 0 then 0 else if i = 1 then 2 * C.bl 0 else
    4 * C.bl (i - 1) + 2) C.depth]
  simp only [← sum_add_distrib]
  congr 1
  refine sum_congr rfl (fun i _ => ?_)
  by_cases h0 : i.1 = 0
  · simp [h0]
  by_cases h1 : i.1 = 1
  · simp [h1]; omega
  · simp [h0, h1, show 2 ≤ i.1 by omega]; omega

omit [DecidableEq F] [IsDomain F] [Fintype F] in
/-- the challenges that do not involve the coin `c` -/
theorem challenges_update {C : Circuit} (ω : Coin C → F) (c : Coin C) (x y : F) :
    let ch := challenges C (Function.update ω c x)
    let ch' := challenges C (Function.update ω c y)
    ((∀ j, c ≠ .inl j) → ch.r0 = ch'.r0) ∧
    ((∀ j, c ≠ .inr (.inl j)) → ch.r1 = ch'.r1) ∧
    (∀ i j, (∀ hi hj, c ≠ .ru ⟨i, hi⟩ ⟨j, hj⟩) → ch.ru i j = ch'.ru i j) ∧
    (∀ i j, (∀ hi hj, c ≠ .rv ⟨i, hi⟩ ⟨j, hj⟩) → ch.rv i j = ch'.rv i j) ∧
    (∀ i, (∀ hi, c ≠ .alpha ⟨i, hi⟩) → ch.alpha i = ch'.alpha i) ∧
    (∀ i, (∀ hi, c ≠ .beta ⟨i, hi⟩) → ch.beta i = ch'.beta i) := by
  refine ⟨fun h => ?_, fun h => ?_, fun i j h => ?_, fun i j h => ?_, fun i h => ?_, fun i h => ?_⟩
  · funext j
    simp only [challenges]
    split_ifs with hj
    · rw [Function.update_of_ne (h _).symm, Function.update_of_ne (h _).symm]
    · rfl
  · funext j
    simp only [challenges]
    split_ifs with hj
    · rw [Function.update_of_ne (h _).symm, Function.update_of_ne (h _).symm]
    · rfl
  · simp only [challenges]
    split_ifs with hi hj
    · rw [Function.update_of_ne (h _ _).symm, Function.update_of_ne (h _ _).symm]
    · rfl
    · rfl
  · simp only [challenges]
    split_ifs with hi hj
    · rw [Function.update_of_ne (h _ _).symm, Function.update_of_ne (h _ _).symm]
    · rfl
    · rfl
  · simp only [challenges]
    split_ifs with hi
    · rw [Function.update_of_ne (h _).symm, Function.update_of_ne (h _).symm]
    · rfl
  · simp only [challenges]
    split_ifs with hi
    · rw [Function.update_of_ne (h _).symm, Function.update_of_ne (h _).symm]
    · rfl

omit [IsDomain F] [Fintype F] in
theorem run_update (fixed : Bool) (C : Circuit) (A : ProverApi σ F) (p : σ) (result : ℕ → F)
    (tables : BetaTables F) (ω : Coin C → F) (i : Fin C.depth) (c : Coin C)
    (hc : (∃ k, c = .ru i k) ∨ (∃ k, c = .rv i k) ∨ c = .alpha i ∨ c = .beta i) (x y : F) :
    runTo fixed C A (challenges C (Function.update ω c x)) (startState C p result tables
      (challenges C (Function.update ω c x))) (C.depth - 1) i =
    runTo fixed C A (challenges C (Function.update ω c y)) (startState C p result tables
      (challenges C (Function.update ω c y))) (C.depth - 1) i := by
  obtain ⟨h0, h1, h2, h3, h4, h5⟩ := challenges_update ω c x y
  have e0 := h0 (fun j hj => by rcases hc with ⟨k, rfl⟩ | ⟨k, rfl⟩ | rfl | rfl <;> simp at hj)
  have e1 := h1 (fun j hj => by rcases hc with ⟨k, rfl⟩ | ⟨k, rfl⟩ | rfl | rfl <;> simp at hj)
  have es : startState C p result tables (challenges C (Function.update ω c x)) =
      startState C p result tables (challenges C (Function.update ω c y)) := by
    rw [startState, startState, initState, initState, e0, e1]
  rw [es]
  refine runTo_congr (fun k hk => ⟨?_, ?_, ?_, ?_⟩)
  · funext j
    refine h2 k j (fun hi hj hcon => ?_)
    rcases hc with ⟨k', rfl⟩ | ⟨k', rfl⟩ | rfl | rfl <;> simp [Coin.ru] at hcon
    have := hcon.1; subst this; simp at hk
  · funext j
    refine h3 k j (fun hi hj hcon => ?_)
    rcases hc with ⟨k', rfl⟩ | ⟨k', rfl⟩ | rfl | rfl <;> simp [Coin.rv] at hcon
    have := hcon.1; subst this; simp at hk
  · refine h4 k (fun hi hcon => ?_)
    rcases hc with ⟨k', rfl⟩ | ⟨k', rfl⟩ | rfl | rfl <;> simp [Coin.alpha] at hcon
    subst hcon; simp at hk
  · refine h5 k (fun hi hcon => ?_)
    rcases hc with ⟨k', rfl⟩ | ⟨k', rfl⟩ | rfl | rfl <;> simp [Coin.beta] at hcon
    subst hcon; simp at hk

omit [IsDomain F] [DecidableEq F] in
/-- to bound a fibre it is enough to look at fibres that contain a point -/
theorem fiberBound_of {ι : Type} [DecidableEq ι] {E : (ι → F) → Prop} {c : ι} {d : ℕ}
    (h : ∀ ω x0, E (Function.update ω c x0) →
      ∃ S : Finset F, S.card ≤ d ∧ ∀ x, E (Function.update ω c x) → x ∈ S) :
    FiberBound E c d := by
  intro ω
  by_cases hx : ∃ x0, E (Function.update ω c x0)
  · obtain ⟨x0, h0⟩ := hx
    exact h ω x0 h0
  · exact ⟨∅, by simp, fun x h => absurd ⟨x, h⟩ hx⟩

theorem event_bound (fixed : Bool) (C : Circuit) (A : ProverApi σ F) (p : σ) (result : ℕ → F)
    (tables : BetaTables F) (c : Coin C) :
    FiberBound (Event fixed C A p result tables c) c (degree C c) := by
  apply fiberBound_of
  intro ω x0 hx0
  match c with
  | .inl j =>
    obtain ⟨⟨b, hb, hne⟩, -⟩ := hx0
    set T := foldK (challenges C (Function.update ω (.inl j : Coin C) x0)).r0 j (outputError C result)
      with hT
    have hjn : j.1 < C.bl (C.depth - 1) := j.2
    have hpow := pow_sub_succ hjn
    obtain ⟨S, hS, hr⟩ := Counting.line_root (T (2 * (b / 2) + 1) - T (2 * (b / 2))) (T (2 * (b / 2)))
      (by
        by_contra hcon
        simp only [not_or, not_not] at hcon
        have h1 : T (2 * (b / 2)) = 0 := hcon.2
        have h2 : T (2 * (b / 2) + 1) = 0 := by have := hcon.1; rwa [h1, sub_zero] at this
        rcases Nat.mod_two_eq_zero_or_one b with h | h
        · exact hne (by rw [show b = 2 * (b / 2) by omega]; exact h1)
        · exact hne (by rw [show b = 2 * (b / 2) + 1 by omega]; exact h2))
    refine ⟨S, hS, fun x hx => hr x ?_⟩
    have h2 := hx.2 (b / 2) (by omega)
    rw [foldK] at h2
    have hcong : foldK (challenges C (Function.update ω (.inl j : Coin C) x)).r0 j
        (outputError C result) = T := by
      refine foldK_congr _ (fun k hk => ?_)
      simp only [challenges]
      split_ifs with h
      · rw [Function.update_of_ne, Function.update_of_ne]
        · simp [Coin.r0]; intro h; rw [← h] at hk; simp at hk
        · simp [Coin.r0]; intro h; rw [← h] at hk; simp at hk
      · rfl
    have hval : (challenges C (Function.update ω (.inl j : Coin C) x)).r0 j = x := by
      simp [challenges]
    rw [hcong, hval, foldT] at h2
    linear_combination h2
  | .inr (.inl _) => exact hx0.elim
  | .inr (.inr (.inl ⟨i, k⟩)) =>
    obtain ⟨hi0, s, hs, st, h1, h2, -⟩ := hx0
    obtain ⟨S, hS, hr⟩ := Counting.quadratic_agree _ _ h2
    refine ⟨S, by simpa [degree, hi0] using hS, fun x hx => hr x ?_⟩
    obtain ⟨-, s', hs', st', g1, -, g3⟩ := hx
    have hrun := run_update fixed C A p result tables ω i (.ru i k) (.inl ⟨k, rfl⟩) x x0
    rw [hs, hs'] at hrun
    cases hrun
    obtain ⟨-, -, hru, -⟩ := challenges_update ω (.ru i k) x x0
    have hcong : ∀ j < k.1, (challenges C (Function.update ω (.ru i k) x)).ru i j =
        (challenges C (Function.update ω (.ru i k) x0)).ru i j := by
      intro j hj
      refine hru i j (fun hi hj' hcon => ?_)
      simp [Coin.ru] at hcon
      rw [hcon] at hj; simp at hj
    rw [round1_congr A hcong, h1] at g1
    cases g1
    have hval : (challenges C (Function.update ω (.ru i k) x)).ru i k = x := by
      simp [challenges, Coin.ru]
    rw [hval, truth1, roundMsg_congr _ hcong] at g3
    exact g3
  | .inr (.inr (.inr (.inl ⟨i, k⟩))) =>
    obtain ⟨hi2, s, hs, b, hb, st, h1, h2, -⟩ := hx0
    obtain ⟨S, hS, hr⟩ := Counting.quadratic_agree _ _ h2
    refine ⟨S, by simpa [degree, hi2] using hS, fun x hx => hr x ?_⟩
    obtain ⟨-, s', hs', b', hb', st', g1, -, g3⟩ := hx
    have hrun := run_update fixed C A p result tables ω i (.rv i k) (.inr (.inl ⟨k, rfl⟩)) x x0
    rw [hs, hs'] at hrun
    cases hrun
    obtain ⟨-, -, hru, hrv, -⟩ := challenges_update ω (.rv i k) x x0
    have hu : (challenges C (Function.update ω (.rv i k) x)).ru i =
        (challenges C (Function.update ω (.rv i k) x0)).ru i := by
      funext j; exact hru i j (fun _ _ => by simp [Coin.ru])
    have hcong : ∀ j < k.1, (challenges C (Function.update ω (.rv i k) x)).rv i j =
        (challenges C (Function.update ω (.rv i k) x0)).rv i j := by
      intro j hj
      refine hrv i j (fun hi hj' hcon => ?_)
      simp [Coin.rv] at hcon
      rw [hcon] at hj; simp at hj
    rw [hu, hb] at hb'
    cases hb'
    rw [hu, round2_congr fixed A i _ hcong, h1] at g1
    cases g1
    have hval : (challenges C (Function.update ω (.rv i k) x)).rv i k = x := by
      simp [challenges, Coin.rv]
    rw [hval, hu, truth2, roundMsg_congr _ hcong] at g3
    exact g3
  | .inr (.inr (.inr (.inr (.inl i)))) =>
    obtain ⟨hi2, s, hs, e, he, hne, -⟩ := hx0
    obtain ⟨S, hS, hr⟩ := Counting.line_root e.1
      ((challenges C (Function.update ω (.alpha i) x0)).beta i * e.2) (.inl hne)
    refine ⟨S, by simpa [degree, hi2] using hS, fun x hx => hr x ?_⟩
    obtain ⟨-, s', hs', e', he', -, g3⟩ := hx
    have hrun := run_update fixed C A p result tables ω i (.alpha i) (.inr (.inr (.inl rfl))) x x0
    rw [hs, hs'] at hrun
    cases hrun
    obtain ⟨-, -, hru, hrv, -, hbe⟩ := challenges_update ω (.alpha i) x x0
    have hu : (challenges C (Function.update ω (.alpha i) x)).ru i =
        (challenges C (Function.update ω (.alpha i) x0)).ru i := by
      funext j; exact hru i j (fun _ _ => by simp [Coin.ru])
    have hv : (challenges C (Function.update ω (.alpha i) x)).rv i =
        (challenges C (Function.update ω (.alpha i) x0)).rv i := by
      funext j; exact hrv i j (fun _ _ => by simp [Coin.rv])
    have hb := hbe i (fun _ => by simp [Coin.beta])
    rw [hu, hv, he] at he'
    cases he'
    have hval : (challenges C (Function.update ω (.alpha i) x)).alpha i = x := by
      simp [challenges, Coin.alpha]
    rw [hval, hb] at g3
    rw [mul_comm]; exact g3
  | .inr (.inr (.inr (.inr (.inr i)))) =>
    obtain ⟨hi2, s, hs, e, he, hne, -⟩ := hx0
    obtain ⟨S, hS, hr⟩ := Counting.line_root e.2 0 (.inl hne)
    refine ⟨S, by simpa [degree, hi2] using hS, fun x hx => hr x ?_⟩
    obtain ⟨-, s', hs', e', he', -, g3⟩ := hx
    have hrun := run_update fixed C A p result tables ω i (.beta i) (.inr (.inr (.inr rfl))) x x0
    rw [hs, hs'] at hrun
    cases hrun
    obtain ⟨-, -, hru, hrv, -, -⟩ := challenges_update ω (.beta i) x x0
    have hu : (challenges C (Function.update ω (.beta i) x)).ru i =
        (challenges C (Function.update ω (.beta i) x0)).ru i := by
      funext j; exact hru i j (fun _ _ => by simp [Coin.ru])
    have hv : (challenges C (Function.update ω (.beta i) x)).rv i =
        (challenges C (Function.update ω (.beta i) x0)).rv i := by
      funext j; exact hrv i j (fun _ _ => by simp [Coin.rv])
    rw [hu, hv, he] at he'
    cases he'
    have hval : (challenges C (Function.update ω (.beta i) x)).beta i = x := by
      simp [challenges, Coin.beta]
    rw [hval] at g3
    rw [mul_comm, add_zero]; exact g3

omit [IsDomain F] [Fintype F] in
/-- If the claimed output is wrong and the run reaches layer `i`, the claim about layer `i` is false or
the prover was lucky. -/
theorem reach_sound {fixed : Bool} {C : Circuit} (hwf : WellFormed false C) (A : ProverApi σ F)
    (p : σ) (result : ℕ → F) (tables : BetaTables F)
    (hbad : ∃ g < 2 ^ C.bl (C.depth - 1), result g ≠ value C (C.depth - 1) g) (ω : Coin C → F) :
    let ch := challenges C ω
    ∀ m i, i = C.depth - 1 - m → m ≤ C.depth - 2 → ∀ s,
      runTo fixed C A ch (startState C p result tables ch) (C.depth - 1) i = .ok s →
      (VInv C i s ∧ s.sum ≠ trueClaim C i s) ∨ ∃ c, Event fixed C A p result tables c ω := by
  intro ch m
  have hd := hwf.deep
  induction m with
  | zero =>
    rintro i rfl _ s hs
    rw [runTo, Nat.sub_zero, Nat.sub_self] at hs
    cases hs
    rcases output_sound C result ch.r0 hbad with h | ⟨j, hj, h⟩
    · left
      refine ⟨⟨fun _ _ => rfl, fun _ _ _ => rfl⟩, ?_⟩
      simp only [startState, initState, trueClaim, one_mul, zero_mul, add_zero, Nat.sub_zero]
      exact h
    · exact .inr ⟨.inl ⟨j, hj⟩, h⟩
  | succ m ih =>
    rintro i hi hm s hs
    rw [runTo_succ (by omega)] at hs
    obtain ⟨s1, e1, e2⟩ := Outcome.bind_eq_ok hs
    rcases ih (i + 1) (by omega) (by omega) s1 e1 with ⟨hv, hne⟩ | h
    · have hlt : i + 1 < C.depth := by omega
      have hl := layerOk hwf (show 1 ≤ i + 1 by omega) hlt
      have h2 : 2 ≤ i + 1 := by omega
      rcases layer_sound hwf h2 hlt hv e2 hne with h | ⟨k, hk, h⟩ | ⟨k, hk, h⟩ | h | h
      · exact .inl ⟨layer_vinv hl (by omega) e2, h⟩
      · exact .inr ⟨.ru ⟨i + 1, hlt⟩ ⟨k, hk⟩, by simp, s1, e1, h⟩
      · exact .inr ⟨.rv ⟨i + 1, hlt⟩ ⟨k, hk⟩, h2, s1, e1, h⟩
      · exact .inr ⟨.alpha ⟨i + 1, hlt⟩, h2, s1, e1, h⟩
      · exact .inr ⟨.beta ⟨i + 1, hlt⟩, h2, s1, e1, h⟩
    · exact .inr h

omit [IsDomain F] [Fintype F] in
/-- the run of an accepting verifier, when `V_res` is computed from the claimed output -/
theorem verify_run {fixed : Bool} {C : Circuit} (hwf : WellFormed false C) {A : ProverApi σ F}
    {p : σ} {result : ℕ → F} (hA : A.evaluate A.start = .ok (p, result))
    (hres : ∀ omr r n N, A.vRes p omr r result n N = foldOutput omr r result n N)
    {tables : BetaTables F} {ch : Challenges F} (h : verifyWith fixed C A tables ch = .ok ()) :
    ∃ s s', runTo fixed C A ch (startState C p result tables ch) (C.depth - 1) 1 = .ok s ∧
      layerStep fixed C A ch 1 s = .ok s' ∧
      s'.sum = mle (C.bl 0) (value C 0) s'.r0 := by
  have hd := hwf.deep
  rw [verifyWith, hA, Outcome.ok_bind] at h
  obtain ⟨s', e1, h⟩ := Outcome.bind_eq_ok' h
  obtain ⟨T, e2, h⟩ := Outcome.bind_eq_ok' h
  obtain ⟨T', hT', hTv⟩ := verifierInput_ok (F := F) hwf.toEvaluable
  have : T = T' := by
    have := e2.symm.trans hT'
    cases this; rfl
  subst this
  have h := Outcome.check_ok_iff.1 h
  rw [beq_iff_eq] at h
  rw [loopDownM_split' (i := 1) (by omega)] at e1
  obtain ⟨s, f1, f2⟩ := Outcome.bind_eq_ok e1
  have f2 : layerStep fixed C A ch 1 s = .ok s' := by
    rw [loopDownM_succ] at f2
    obtain ⟨s2, g1, g2⟩ := Outcome.bind_eq_ok f2
    cases g2; exact g1
  refine ⟨s, s', ?_, f2, ?_⟩
  · rw [runTo, startState, initState, ← f1]
    congr 1
    rw [hres, one_mul, foldOutput_spec (oneMinus ch.r0) _ _ _ (fun _ _ => rfl)]
  · have hl := layerOk hwf le_rfl (show 1 < C.depth by omega)
    have hv := layer_vinv hl le_rfl f2
    rw [h, foldOutput_spec _ _ _ _ hv.om0]
    exact mle_congr hTv (fun _ _ => rfl)

omit [IsDomain F] [Fintype F] in
theorem accept_event {C : Circuit} (hwf : WellFormed false C) {A : ProverApi σ F}
    {p : σ} {result : ℕ → F} (hA : A.evaluate A.start = .ok (p, result))
    (hres : ∀ omr r n N, A.vRes p omr r result n N = foldOutput omr r result n N)
    (hbad : ∃ g < 2 ^ C.bl (C.depth - 1), result g ≠ value C (C.depth - 1) g)
    {tables : BetaTables F} {ω : Coin C → F}
    (h : verifyWith true C A tables (challenges C ω) = .ok ()) :
    ∃ c, Event true C A p result tables c ω := by
  have hd := hwf.deep
  obtain ⟨s, s', e1, e2, hsum⟩ := verify_run hwf hA hres h
  rcases reach_sound hwf A p result tables hbad ω (C.depth - 2) 1 (by omega) le_rfl s e1 with
    ⟨hv, hne⟩ | h
  · rcases layer_one_sound hwf e2 hne with h | ⟨k, hk, h⟩
    · exact absurd hsum h
    · exact ⟨.ru ⟨1, by omega⟩ ⟨k, hk⟩, by simp, s, e1, h⟩
  · exact h

theorem soundness {C : Circuit} (hwf : WellFormed false C) {A : ProverApi σ F}
    {p : σ} {result : ℕ → F} (hA : A.evaluate A.start = .ok (p, result))
    (hres : ∀ omr r n N, A.vRes p omr r result n N = foldOutput omr r result n N)
    (hbad : ∃ g < 2 ^ C.bl (C.depth - 1), result g ≠ value C (C.depth - 1) g)
    (tables : BetaTables F) :
    (univ.filter (fun ω : Coin C → F =>
      verifyWith true C A tables (challenges C ω) = .ok ())).card * Fintype.card F ≤
      soundnessError C * Fintype.card (Coin C → F) := by
  rw [← sum_degree]
  exact card_union univ (Event true C A p result tables) id (degree C)
    (fun c _ => event_bound true C A p result tables c) _
    (fun ω h => by obtain ⟨c, hc⟩ := accept_event hwf hA hres hbad h; exact ⟨c, mem_univ _, hc⟩)

open Classical in
/-- The code as it is: the part above layer 1. -/
theorem soundness_above {C : Circuit} (hwf : WellFormed false C) (A : ProverApi σ F)
    (p : σ) (result : ℕ → F)
    (hbad : ∃ g < 2 ^ C.bl (C.depth - 1), result g ≠ value C (C.depth - 1) g)
    (tables : BetaTables F) :
    (univ.filter (fun ω : Coin C → F => ∃ s, runTo false C A (challenges C ω)
        (startState C p result tables (challenges C ω)) (C.depth - 1) 1 = .ok s ∧
        s.sum = trueClaim C 1 s)).card * Fintype.card F ≤
      soundnessError C * Fintype.card (Coin C → F) := by
  rw [← sum_degree]
  have hd := hwf.deep
  exact card_union univ (Event false C A p result tables) id (degree C)
    (fun c _ => event_bound false C A p result tables c) _
    (fun ω ⟨s, h1, h2⟩ => by
      rcases reach_sound hwf A p result tables hbad ω (C.depth - 2) 1 (by omega) le_rfl s h1 with
        ⟨_, hne⟩ | ⟨c, hc⟩
      · exact absurd h2 hne
      · exact ⟨c, mem_univ _, hc⟩)

end Libra.FastTrack
