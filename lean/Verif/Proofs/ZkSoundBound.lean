import Verif.Proofs.ZkSound
import Verif.Proofs.SoundnessBound

/-!
# The soundness error of the repaired zero-knowledge verifier
-/

namespace Libra.Zk
open Libra Spec Finset FastTrack Props Counting

/-! ## agreement of different polynomial functions -/

section
variable {F : Type} [CommRing F] [IsDomain F] [DecidableEq F]

theorem poly_agree {f g : F → F} (hfg : f ≠ g) (q : Polynomial F) (d : ℕ) (hd : q.natDegree ≤ d)
    (hq : ∀ x, q.eval x = f x - g x) : ∃ S : Finset F, S.card ≤ d ∧ ∀ x, f x = g x → x ∈ S := by
  have h0 : q ≠ 0 := by
    rintro rfl
    apply hfg
    funext x
    exact sub_eq_zero.1 (by rw [← hq x]; simp)
  refine ⟨q.roots.toFinset, (Multiset.toFinset_card_le _).trans ((Polynomial.card_roots' q).trans hd), fun x hx => ?_⟩
  rw [Multiset.mem_toFinset, Polynomial.mem_roots h0, Polynomial.IsRoot, hq, hx, sub_self]

theorem deg2_agree {f g : F → F} (hfg : f ≠ g) (hf : Deg2 f) (hg : Deg2 g) :
    ∃ S : Finset F, S.card ≤ 2 ∧ ∀ x, f x = g x → x ∈ S := by
  obtain ⟨a, ha⟩ := hf
  obtain ⟨b, hb⟩ := hg
  open Polynomial in
  refine poly_agree hfg (C (a.a - b.a) * X ^ 2 + C (a.b - b.b) * X + C (a.c - b.c)) 2
    Polynomial.natDegree_quadratic_le (fun x => ?_)
  rw [ha, hb]
  simp only [QuadraticPoly.eval, Polynomial.eval_add, Polynomial.eval_mul, Polynomial.eval_C,
      Polynomial.eval_pow, Polynomial.eval_X]
  ring

theorem deg5_agree {f g : F → F} (hfg : f ≠ g) (hf : Deg5 f) (hg : Deg5 g) :
    ∃ S : Finset F, S.card ≤ 5 ∧ ∀ x, f x = g x → x ∈ S := by
  obtain ⟨a, ha⟩ := hf
  obtain ⟨b, hb⟩ := hg
  open Polynomial in
  refine poly_agree hfg (C (a.a - b.a) * X ^ 5 + C (a.b - b.b) * X ^ 4 + C (a.c - b.c) * X ^ 3
    + C (a.d - b.d) * X ^ 2 + C (a.e - b.e) * X + C (a.f - b.f)) 5 (by compute_degree) (fun x => ?_)
  rw [ha, hb]
  simp only [QuintuplePoly.eval, Polynomial.eval_add, Polynomial.eval_mul, Polynomial.eval_C,
      Polynomial.eval_pow, Polynomial.eval_X]
  ring

end

variable {F : Type} [CommRing F]
variable {G1 G2 GT : Type} [AddCommGroup G1] [AddCommGroup G2] [AddCommGroup GT]
  [Module (ZMod p) G1] [Module (ZMod p) G2] [Module (ZMod p) GT] [Gmp F]
  [DecidableEq F] [DecidableEq GT] {σ : Type}

/-! ## runs -/

/-- the state before layer `i`, when the layers `top, …, i+1` have been processed -/
def runTo (E : Pairing G1 G2 GT) (C : Circuit) (A : ProverApi σ F G1 G2) (X : Committed σ F)
    (ch : Challenges F) (s0 : VState σ F) (top i : ℕ) : Outcome (VState σ F) :=
  loopDownM (top - i) (fun k => layerStepFixed E C A X ch (k + i)) s0

theorem runTo_succ {E : Pairing G1 G2 GT} {C : Circuit} {A : ProverApi σ F G1 G2} {X : Committed σ F}
    {ch : Challenges F} {s0 : VState σ F} {top i : ℕ} (hi : i < top) :
    runTo E C A X ch s0 top i = (runTo E C A X ch s0 top (i + 1)).bind (layerStepFixed E C A X ch (i + 1)) := by
  rw [runTo, runTo, loopDownM_split (by omega)]
  have : (fun k => layerStepFixed E C A X ch (k + 1 + i)) =
      fun k => layerStepFixed E C A X ch (k + (i + 1)) := by
    funext k; rw [show k + 1 + i = k + (i + 1) by omega]
  rw [this, show top - i - 1 = top - (i + 1) by omega, show 1 + i = i + 1 by omega]

theorem runTo_congr {E : Pairing G1 G2 GT} {C : Circuit} {A : ProverApi σ F G1 G2} {X : Committed σ F}
    {ch ch' : Challenges F} {s0 : VState σ F} {top i : ℕ}
    (h : ∀ k, i < k → ch.ru k = ch'.ru k ∧ ch.rv k = ch'.rv k ∧ ch.alpha k = ch'.alpha k ∧
      ch.beta k = ch'.beta k ∧ ch.rho k = ch'.rho k ∧ ch.rc k = ch'.rc k) :
    runTo E C A X ch s0 top i = runTo E C A X ch' s0 top i := by
  refine loopDownM_congr (fun k hk _ s => ?_)
  obtain ⟨h1, h2, h3, h4, h5, h6⟩ := h (k + i) (by omega)
  rw [layerStepFixed, layerStepFixed, h1, h2, h3, h4, h5, h6]

omit [AddCommGroup G1] [AddCommGroup G2] [Module (ZMod p) G1] [Module (ZMod p) G2] [Gmp F] in
theorem round1_congr (A : ProverApi σ F G1 G2) (n : ℕ) {ru ru' : ℕ → F} {k : ℕ} (h : ∀ j < k, ru j = ru' j)
    (s : σ × F × F) : loopM k (round1 A n ru) s = loopM k (round1 A n ru') s :=
  loopM_congr_inv (fun _ => True) trivial (fun _ _ _ _ _ _ => trivial)
    (fun j hj s _ => by rw [round1, round1, h j hj])

omit [AddCommGroup G1] [AddCommGroup G2] [Module (ZMod p) G1] [Module (ZMod p) G2] [Gmp F] in
theorem round2_congr (A : ProverApi σ F G1 G2) (n : ℕ) (relay vu : F) {rv rv' : ℕ → F} {k : ℕ}
    (h : ∀ j < k, rv j = rv' j) (s : σ × F × F) :
    loopM k (round2Fixed A n rv relay vu) s = loopM k (round2Fixed A n rv' relay vu) s :=
  loopM_congr_inv (fun _ => True) trivial (fun _ _ _ _ _ _ => trivial)
    (fun j hj s _ => by rw [round2Fixed, round2Fixed, round2, round2, h j hj])

/-- the initial state for a claimed output -/
def startState (C : Circuit) (p : σ) (result : ℕ → F) (tables : VTables F) (ch : Challenges F) : VState σ F :=
  { prover := p, alpha := 1, beta := 0, sum := mle (C.bl (C.depth - 1)) result ch.r0, r0 := ch.r0, r1 := ch.r1,
    omr0 := oneMinus ch.r0, omr1 := oneMinus ch.r1, tables := tables }

/-- For every coin, the event that the prover is lucky with it. -/
def Event (E : Pairing G1 G2 GT) (C : Circuit) (A : ProverApi σ F G1 G2) (X : Committed σ F) (p : σ)
    (result : ℕ → F) (tables : VTables F) (c : ZkCoin C) (ω : ZkCoin C → F) : Prop :=
  let ch := zkChallenges C ω
  let run := runTo E C A X ch (startState C p result tables ch) (C.depth - 1)
  match c with
  | .inl (.inl j) => Lucky0 C result j ch.r0
  | .inl (.inr (.inl _)) => False
  | .inl (.inr (.inr (.inl ⟨i, k⟩))) => i.1 ≠ 0 ∧ ∃ s, run i = .ok s ∧ Lucky1 C A X i k (ch.rho i) (ch.ru i) s
  | .inl (.inr (.inr (.inr (.inl ⟨i, k⟩)))) =>
    i.1 ≠ 0 ∧ ∃ s, run i = .ok s ∧ Lucky2 C A X i k (ch.rho i) (ch.ru i) (ch.rv i) s
  | .inl (.inr (.inr (.inr (.inr (.inl i))))) => 2 ≤ i.1 ∧ ∃ s, run i = .ok s ∧
      LuckyA C A X i (ch.rho i) (ch.ru i) (ch.rv i) (ch.alpha i) (ch.beta i) s
  | .inl (.inr (.inr (.inr (.inr (.inr i))))) => 2 ≤ i.1 ∧ ∃ s, run i = .ok s ∧
      LuckyB C A X i (ch.rho i) (ch.ru i) (ch.rv i) (ch.beta i) s
  | .inr (.inl _) => False
  | .inr (.inr i) => i.1 ≠ 0 ∧ ∃ s, run i = .ok s ∧ Lucky3 C A X i (ch.rho i) (ch.ru i) (ch.rv i) (ch.rc i) s

/-- how many values of the coin can be lucky -/
def degree (C : Circuit) : ZkCoin C → ℕ
  | .inl (.inl _) => 1
  | .inl (.inr (.inl _)) => 0
  | .inl (.inr (.inr (.inl ⟨i, k⟩))) => if i.1 = 0 then 0 else if k.1 + 1 = C.bl (i - 1) then 5 else 2
  | .inl (.inr (.inr (.inr (.inl ⟨i, k⟩)))) => if i.1 = 0 then 0 else if k.1 + 1 = C.bl (i - 1) then 5 else 2
  | .inl (.inr (.inr (.inr (.inr (.inl i))))) => if 2 ≤ i.1 then 1 else 0
  | .inl (.inr (.inr (.inr (.inr (.inr i))))) => if 2 ≤ i.1 then 1 else 0
  | .inr (.inl _) => 0
  | .inr (.inr i) => if i.1 = 0 then 0 else 2

theorem sum_last {n : ℕ} (hn : 1 ≤ n) :
    ∑ k : Fin n, (if k.1 + 1 = n then 5 else 2) = 2 * (n - 1) + 5 := by
  obtain ⟨m, rfl⟩ : ∃ m, n = m + 1 := ⟨n - 1, by omega⟩
  rw [Fin.sum_univ_castSucc]
  simp only [Fin.val_castSucc, Fin.val_last, if_true]
  rw [sum_congr rfl (fun k _ => if_neg (show ¬ (k : Fin m).1 + 1 = m + 1 by omega))]
  simp [mul_comm]

theorem sum_degree (C : Circuit) (hlen : ∀ i, i + 1 < C.depth → 1 ≤ C.bl i) :
    ∑ c : ZkCoin C, degree C c = zkSoundnessError C := by
  simp only [Fintype.sum_sum_type, degree, Fintype.sum_sigma, sum_const, card_univ, Fintype.card_fin,
    smul_eq_mul, mul_one, mul_zero, zero_add, zkSoundnessError]
  rw [← Fin.sum_univ_eq_sum_range (fun i => if i = 0 then 0 else 2 * (2 * (C.bl (i - 1) - 1) + 5) + 2 +
    if i = 1 then 0 else 2) C.depth]
  simp only [add_assoc, ← sum_add_distrib]
  congr 1
  refine sum_congr rfl (fun i _ => ?_)
  by_cases h0 : i.1 = 0
  · simp [h0]
  have hs : ∑ k : Fin (C.bl (i.1 - 1)), (if i.1 = 0 then 0 else if k.1 + 1 = C.bl (i.1 - 1) then 5 else 2) =
      2 * (C.bl (i.1 - 1) - 1) + 5 := by
    rw [← sum_last (hlen (i.1 - 1) (by have := i.2; omega))]
    exact sum_congr rfl (fun k _ => if_neg h0)
  rw [hs, if_neg h0]
  by_cases h1 : i.1 = 1
  · rw [if_neg h0, if_neg (by omega), if_pos h1]; omega
  · rw [if_neg h0, if_pos (by omega), if_neg h1]; omega

/-! ## the events are small -/

omit [Gmp F] [DecidableEq F] in
/-- the challenges that do not involve the coin `c` -/
theorem zkChallenges_update {C : Circuit} (ω : ZkCoin C → F) (c : ZkCoin C) (x y : F) :
    let ch := zkChallenges C (Function.update ω c x)
    let ch' := zkChallenges C (Function.update ω c y)
    ((∀ j, c ≠ .inl (.inl j)) → ch.r0 = ch'.r0) ∧
    ((∀ j, c ≠ .inl (.inr (.inl j))) → ch.r1 = ch'.r1) ∧
    (∀ i j, (∀ hi hj, c ≠ .inl (.ru ⟨i, hi⟩ ⟨j, hj⟩)) → ch.ru i j = ch'.ru i j) ∧
    (∀ i j, (∀ hi hj, c ≠ .inl (.rv ⟨i, hi⟩ ⟨j, hj⟩)) → ch.rv i j = ch'.rv i j) ∧
    (∀ i, (∀ hi, c ≠ .inl (.alpha ⟨i, hi⟩)) → ch.alpha i = ch'.alpha i) ∧
    (∀ i, (∀ hi, c ≠ .inl (.beta ⟨i, hi⟩)) → ch.beta i = ch'.beta i) ∧
    (∀ i, (∀ hi, c ≠ .inr (.inl ⟨i, hi⟩)) → ch.rho i = ch'.rho i) ∧
    (∀ i, (∀ hi, c ≠ .inr (.inr ⟨i, hi⟩)) → ch.rc i = ch'.rc i) := by
  refine ⟨fun h => ?_, fun h => ?_, fun i j h => ?_, fun i j h => ?_, fun i h => ?_, fun i h => ?_,
    fun i h => ?_, fun i h => ?_⟩
  · funext j
    simp only [zkChallenges, challenges]
    split_ifs with hj
    · rw [Function.update_of_ne (h _).symm, Function.update_of_ne (h _).symm]
    · rfl
  · funext j
    simp only [zkChallenges, challenges]
    split_ifs with hj
    · rw [Function.update_of_ne (h _).symm, Function.update_of_ne (h _).symm]
    · rfl
  · simp only [zkChallenges, challenges]
    split_ifs with hi hj
    · rw [Function.update_of_ne (h _ _).symm, Function.update_of_ne (h _ _).symm]
    · rfl
    · rfl
  · simp only [zkChallenges, challenges]
    split_ifs with hi hj
    · rw [Function.update_of_ne (h _ _).symm, Function.update_of_ne (h _ _).symm]
    · rfl
    · rfl
  all_goals
    simp only [zkChallenges, challenges]
    split_ifs with hi
    · rw [Function.update_of_ne (h _).symm, Function.update_of_ne (h _).symm]
    · rfl

/-- the layer a coin belongs to -/
def OfLayer {C : Circuit} (i : Fin C.depth) (c : ZkCoin C) : Prop :=
  (∃ k, c = .inl (.ru i k)) ∨ (∃ k, c = .inl (.rv i k)) ∨ c = .inl (.alpha i) ∨ c = .inl (.beta i) ∨
    c = .inr (.inr i)

theorem run_update (E : Pairing G1 G2 GT) (C : Circuit) (A : ProverApi σ F G1 G2) (X : Committed σ F) (p : σ)
    (result : ℕ → F) (tables : VTables F) (ω : ZkCoin C → F) (i : Fin C.depth) (c : ZkCoin C)
    (hc : OfLayer i c) (x y : F) :
    runTo E C A X (zkChallenges C (Function.update ω c x)) (startState C p result tables
      (zkChallenges C (Function.update ω c x))) (C.depth - 1) i =
    runTo E C A X (zkChallenges C (Function.update ω c y)) (startState C p result tables
      (zkChallenges C (Function.update ω c y))) (C.depth - 1) i := by
  obtain ⟨h0, h1, h2, h3, h4, h5, h6, h7⟩ := zkChallenges_update ω c x y
  have e0 := h0 (fun j hj => by rcases hc with ⟨k, rfl⟩ | ⟨k, rfl⟩ | rfl | rfl | rfl <;> simp at hj)
  have e1 := h1 (fun j hj => by rcases hc with ⟨k, rfl⟩ | ⟨k, rfl⟩ | rfl | rfl | rfl <;> simp at hj)
  have es : startState C p result tables (zkChallenges C (Function.update ω c x)) =
      startState C p result tables (zkChallenges C (Function.update ω c y)) := by
    rw [startState, startState, e0, e1]
  rw [es]
  refine runTo_congr (fun k hk => ⟨?_, ?_, ?_, ?_, ?_, ?_⟩)
  · funext j
    refine h2 k j (fun hi hj hcon => ?_)
    rcases hc with ⟨k', rfl⟩ | ⟨k', rfl⟩ | rfl | rfl | rfl <;> simp [Coin.ru] at hcon
    have := hcon.1; subst this; simp at hk
  · funext j
    refine h3 k j (fun hi hj hcon => ?_)
    rcases hc with ⟨k', rfl⟩ | ⟨k', rfl⟩ | rfl | rfl | rfl <;> simp [Coin.rv] at hcon
    have := hcon.1; subst this; simp at hk
  · refine h4 k (fun hi hcon => ?_)
    rcases hc with ⟨k', rfl⟩ | ⟨k', rfl⟩ | rfl | rfl | rfl <;> simp [Coin.alpha] at hcon
    subst hcon; simp at hk
  · refine h5 k (fun hi hcon => ?_)
    rcases hc with ⟨k', rfl⟩ | ⟨k', rfl⟩ | rfl | rfl | rfl <;> simp [Coin.beta] at hcon
    subst hcon; simp at hk
  · refine h6 k (fun hi hcon => ?_)
    rcases hc with ⟨k', rfl⟩ | ⟨k', rfl⟩ | rfl | rfl | rfl <;> simp at hcon
  · refine h7 k (fun hi hcon => ?_)
    rcases hc with ⟨k', rfl⟩ | ⟨k', rfl⟩ | rfl | rfl | rfl <;> simp at hcon
    subst hcon; simp at hk

omit [AddCommGroup G1] [AddCommGroup G2] [Module (ZMod p) G1] [Module (ZMod p) G2] [Gmp F] in
/-- the masks found at the start of a layer have the right form -/
theorem start1_form {C : Circuit} {A : ProverApi σ F G1 G2} {X : Committed σ F} {i : ℕ} {rho : F}
    {s : VState σ F} {a} (h : start1 C A X i rho s = .ok a) : MaskForm i a.2.2 := by
  rw [start1] at h
  obtain ⟨⟨p1, d1⟩, e1, h⟩ := Outcome.bind_eq_ok' h
  obtain ⟨⟨p2, d2⟩, e2, h⟩ := Outcome.bind_eq_ok' h
  obtain ⟨_, e3, h⟩ := Outcome.bind_eq_ok' h
  cases h
  exact maskForm C X A.start i _ _ _ _ _

omit [AddCommGroup G1] [AddCommGroup G2] [Module (ZMod p) G1] [Module (ZMod p) G2] [Gmp F] in
theorem pre2_form {C : Circuit} {A : ProverApi σ F G1 G2} {X : Committed σ F} {i : ℕ} {rho : F} {ru : ℕ → F}
    {s : VState σ F} {b} (h : pre2 C A X i rho ru s = .ok b) : MaskForm i b.2.2 := by
  rw [pre2] at h
  obtain ⟨a, e1, h⟩ := Outcome.bind_eq_ok' h
  obtain ⟨t, e2, h⟩ := Outcome.bind_eq_ok' h
  obtain ⟨q, e3, h⟩ := Outcome.bind_eq_ok' h
  cases h
  have := start1_form e1
  exact this

omit [AddCommGroup G1] [AddCommGroup G2] [Module (ZMod p) G1] [Module (ZMod p) G2] [Gmp F] in
theorem pre3_form {C : Circuit} {A : ProverApi σ F G1 G2} {X : Committed σ F} {i : ℕ} {rho : F} {ru rv : ℕ → F}
    {s : VState σ F} {c} (h : pre3 C A X i rho ru rv s = .ok c) : MaskForm i c.2.2 := by
  rw [pre3] at h
  obtain ⟨b, e1, h⟩ := Outcome.bind_eq_ok' h
  obtain ⟨t, e2, h⟩ := Outcome.bind_eq_ok' h
  cases h
  have := pre2_form e1
  exact this

variable [LawfulGmp F] [IsDomain F] [Fintype F]

theorem event_bound (E : Pairing G1 G2 GT) {C : Circuit} (hwf : WellFormed true C)
    (hlen : ∀ i, i + 1 < C.depth → 1 ≤ C.bl i) (A : ProverApi σ F G1 G2) (X : Committed σ F) (p : σ)
    (result : ℕ → F) (tables : VTables F) (c : ZkCoin C) :
    FiberBound (Event E C A X p result tables c) c (degree C c) := by
  apply fiberBound_of
  intro ω x0 hx0
  match c with
  | .inl (.inl j) =>
    obtain ⟨⟨b, hb, hne⟩, -⟩ := hx0
    set T := foldK (zkChallenges C (Function.update ω (.inl (.inl j) : ZkCoin C) x0)).r0 j (outputError C result)
      with hT
    have hjn : j.1 < C.bl (C.depth - 1) := j.2
    have hpow := pow_sub_succ hjn
    obtain ⟨S, hS, hr⟩ := Counting.line_root (T (2 * (b / 2) + 1) - T (2 * (b / 2))) (T (2 * (b / 2)))
      (by
        by_contra hcon
        simp only [not_or, not_not] at hcon
        have h1 : T (2 * (b / 2)) = 0 := hcon.2
        have h2 : T (2 * (b / 2) + 1) = 0 := by have := hcon.1; rwa [h1, sub_zero] at this
        rcases Nat.mod_two_eq_zero_or_one b with h | h
        · exact hne (by rw [show b = 2 * (b / 2) by omega]; exact h1)
        · exact hne (by rw [show b = 2 * (b / 2) + 1 by omega]; exact h2))
    refine ⟨S, hS, fun x hx => hr x ?_⟩
    have h2 := hx.2 (b / 2) (by omega)
    rw [foldK] at h2
    have hcong : foldK (zkChallenges C (Function.update ω (.inl (.inl j) : ZkCoin C) x)).r0 j
        (outputError C result) = T := by
      refine foldK_congr _ (fun k hk => ?_)
      simp only [zkChallenges, challenges]
      split_ifs with h
      · rw [Function.update_of_ne, Function.update_of_ne]
        · simp [Coin.r0]; intro h; rw [← h] at hk; simp at hk
        · simp [Coin.r0]; intro h; rw [← h] at hk; simp at hk
      · rfl
    have hval : (zkChallenges C (Function.update ω (.inl (.inl j) : ZkCoin C) x)).r0 j = x := by
      simp [zkChallenges, challenges]
    rw [hcong, hval, foldT] at h2
    linear_combination h2
  | .inl (.inr (.inl _)) => exact hx0.elim
  | .inr (.inl _) => exact hx0.elim
  | .inl (.inr (.inr (.inl ⟨i, k⟩))) =>
    obtain ⟨hi0, s, hs, a, ha, st, h1, h2, -⟩ := hx0
    have hn1 : 1 ≤ C.bl (i - 1) := hlen (i.1 - 1) (by have := i.2; omega)
    obtain ⟨t1, t2, -⟩ := truth E hwf (show 1 ≤ i.1 by omega) i.2 hn1 (start1_form ha) s.alpha s.beta s.r0 s.r1
      ((zkChallenges C (Function.update ω (.inl (.ru i k)) x0)).ru i) (fun _ => 0)
    have hS : ∃ S : Finset F, S.card ≤ degree C (.inl (.ru i k)) ∧ ∀ x,
        m1 A (C.bl (i - 1)) k st x = T1 C i s.alpha s.beta s.r0 s.r1 a.2.2
          ((zkChallenges C (Function.update ω (.inl (.ru i k)) x0)).ru i) k x → x ∈ S := by
      simp only [degree, if_neg hi0]
      have hk := k.2
      split_ifs with hk1
      · refine deg5_agree h2 ⟨(A.phase1Last st.1 st.2.2 k).2, fun x => by rw [m1, if_pos hk1]⟩ ?_
        rw [show (k : ℕ) = C.bl (i - 1) - 1 by omega]; exact t2
      · exact deg2_agree h2 ⟨(A.phase1Update st.1 st.2.2 k).2, fun x => by rw [m1, if_neg hk1]⟩ (t1 k (by omega))
    obtain ⟨S, hS, hr⟩ := hS
    refine ⟨S, hS, fun x hx => hr x ?_⟩
    obtain ⟨-, s', hs', a', ha', st', g1, -, g3⟩ := hx
    have hrun := run_update E C A X p result tables ω i (.inl (.ru i k)) (.inl ⟨k, rfl⟩) x x0
    rw [hs, hs'] at hrun
    cases hrun
    obtain ⟨-, -, hru, -, -, -, hrho, -⟩ := zkChallenges_update ω (.inl (.ru i k)) x x0
    have hcong : ∀ j < k.1, (zkChallenges C (Function.update ω (.inl (.ru i k)) x)).ru i j =
        (zkChallenges C (Function.update ω (.inl (.ru i k)) x0)).ru i j := by
      intro j hj
      refine hru i j (fun hi hj' hcon => ?_)
      simp [Coin.ru] at hcon
      rw [hcon] at hj; simp at hj
    rw [hrho i (fun _ => by simp), ha] at ha'
    cases ha'
    rw [round1_congr A _ hcong, h1] at g1
    cases g1
    have hval : (zkChallenges C (Function.update ω (.inl (.ru i k)) x)).ru i k = x := by
      simp [zkChallenges, challenges, Coin.ru]
    rw [hval, T1_congr _ _ _ _ _ hcong] at g3
    exact g3
  | .inl (.inr (.inr (.inr (.inl ⟨i, k⟩)))) =>
    obtain ⟨hi0, s, hs, b, hb, st, h1, h2, -⟩ := hx0
    have hn1 : 1 ≤ C.bl (i - 1) := hlen (i.1 - 1) (by have := i.2; omega)
    obtain ⟨-, -, -, t1, t2, -⟩ := truth E hwf (show 1 ≤ i.1 by omega) i.2 hn1 (pre2_form hb) s.alpha s.beta s.r0 s.r1
      ((zkChallenges C (Function.update ω (.inl (.rv i k)) x0)).ru i)
      ((zkChallenges C (Function.update ω (.inl (.rv i k)) x0)).rv i)
    have hS : ∃ S : Finset F, S.card ≤ degree C (.inl (.rv i k)) ∧ ∀ x,
        m2 A (C.bl (i - 1)) k st x = T2 C i s.alpha s.beta s.r0 s.r1 b.2.2
          ((zkChallenges C (Function.update ω (.inl (.rv i k)) x0)).ru i)
          ((zkChallenges C (Function.update ω (.inl (.rv i k)) x0)).rv i) k x → x ∈ S := by
      simp only [degree, if_neg hi0]
      have hk := k.2
      split_ifs with hk1
      · refine deg5_agree h2 ⟨(A.phase2Last st.1 st.2.2 k).2, fun x => by rw [m2, if_pos hk1]⟩ ?_
        rw [show (k : ℕ) = C.bl (i - 1) - 1 by omega]; exact t2
      · exact deg2_agree h2 ⟨(A.phase2Update st.1 st.2.2 k).2, fun x => by rw [m2, if_neg hk1]⟩ (t1 k (by omega))
    obtain ⟨S, hS, hr⟩ := hS
    refine ⟨S, hS, fun x hx => hr x ?_⟩
    obtain ⟨-, s', hs', b', hb', st', g1, -, g3⟩ := hx
    have hrun := run_update E C A X p result tables ω i (.inl (.rv i k)) (.inr (.inl ⟨k, rfl⟩)) x x0
    rw [hs, hs'] at hrun
    cases hrun
    obtain ⟨-, -, hru, hrv, -, -, hrho, -⟩ := zkChallenges_update ω (.inl (.rv i k)) x x0
    have hu : (zkChallenges C (Function.update ω (.inl (.rv i k)) x)).ru i =
        (zkChallenges C (Function.update ω (.inl (.rv i k)) x0)).ru i := by
      funext j; exact hru i j (fun _ _ => by simp [Coin.ru])
    have hcong : ∀ j < k.1, (zkChallenges C (Function.update ω (.inl (.rv i k)) x)).rv i j =
        (zkChallenges C (Function.update ω (.inl (.rv i k)) x0)).rv i j := by
      intro j hj
      refine hrv i j (fun hi hj' hcon => ?_)
      simp [Coin.rv] at hcon
      rw [hcon] at hj; simp at hj
    rw [hu, hrho i (fun _ => by simp), hb] at hb'
    cases hb'
    rw [hu, round2_congr A _ _ _ hcong, h1] at g1
    cases g1
    have hval : (zkChallenges C (Function.update ω (.inl (.rv i k)) x)).rv i k = x := by
      simp [zkChallenges, challenges, Coin.rv]
    rw [hval, hu, T2_congr _ _ _ _ _ _ hcong] at g3
    exact g3
  | .inl (.inr (.inr (.inr (.inr (.inl i))))) =>
    obtain ⟨hi2, s, hs, e, he, hne, -⟩ := hx0
    obtain ⟨S, hS, hr⟩ := Counting.line_root e.1
      ((zkChallenges C (Function.update ω (.inl (.alpha i)) x0)).beta i * e.2) (.inl hne)
    refine ⟨S, by simpa [degree, hi2] using hS, fun x hx => hr x ?_⟩
    obtain ⟨-, s', hs', e', he', -, g3⟩ := hx
    have hrun := run_update E C A X p result tables ω i (.inl (.alpha i)) (.inr (.inr (.inl rfl))) x x0
    rw [hs, hs'] at hrun
    cases hrun
    obtain ⟨-, -, hru, hrv, -, hbe, hrho, -⟩ := zkChallenges_update ω (.inl (.alpha i)) x x0
    have hu : (zkChallenges C (Function.update ω (.inl (.alpha i)) x)).ru i =
        (zkChallenges C (Function.update ω (.inl (.alpha i)) x0)).ru i := by
      funext j; exact hru i j (fun _ _ => by simp [Coin.ru])
    have hv : (zkChallenges C (Function.update ω (.inl (.alpha i)) x)).rv i =
        (zkChallenges C (Function.update ω (.inl (.alpha i)) x0)).rv i := by
      funext j; exact hrv i j (fun _ _ => by simp [Coin.rv])
    have hb := hbe i (fun _ => by simp [Coin.beta])
    rw [hu, hv, hrho i (fun _ => by simp), he] at he'
    cases he'
    have hval : (zkChallenges C (Function.update ω (.inl (.alpha i)) x)).alpha i = x := by
      simp [zkChallenges, challenges, Coin.alpha]
    rw [hval, hb] at g3
    rw [mul_comm]; exact g3
  | .inl (.inr (.inr (.inr (.inr (.inr i))))) =>
    obtain ⟨hi2, s, hs, e, he, hne, -⟩ := hx0
    obtain ⟨S, hS, hr⟩ := Counting.line_root e.2 0 (.inl hne)
    refine ⟨S, by simpa [degree, hi2] using hS, fun x hx => hr x ?_⟩
    obtain ⟨-, s', hs', e', he', -, g3⟩ := hx
    have hrun := run_update E C A X p result tables ω i (.inl (.beta i)) (.inr (.inr (.inr (.inl rfl)))) x x0
    rw [hs, hs'] at hrun
    cases hrun
    obtain ⟨-, -, hru, hrv, -, -, hrho, -⟩ := zkChallenges_update ω (.inl (.beta i)) x x0
    have hu : (zkChallenges C (Function.update ω (.inl (.beta i)) x)).ru i =
        (zkChallenges C (Function.update ω (.inl (.beta i)) x0)).ru i := by
      funext j; exact hru i j (fun _ _ => by simp [Coin.ru])
    have hv : (zkChallenges C (Function.update ω (.inl (.beta i)) x)).rv i =
        (zkChallenges C (Function.update ω (.inl (.beta i)) x0)).rv i := by
      funext j; exact hrv i j (fun _ _ => by simp [Coin.rv])
    rw [hu, hv, hrho i (fun _ => by simp), he] at he'
    cases he'
    have hval : (zkChallenges C (Function.update ω (.inl (.beta i)) x)).beta i = x := by
      simp [zkChallenges, challenges, Coin.beta]
    rw [hval] at g3
    rw [mul_comm, add_zero]; exact g3
  | .inr (.inr i) =>
    obtain ⟨hi0, s, hs, c, hc, pv, hpv, h2, -⟩ := hx0
    have hn1 : 1 ≤ C.bl (i - 1) := hlen (i.1 - 1) (by have := i.2; omega)
    obtain ⟨-, -, -, -, -, t1⟩ := truth E hwf (show 1 ≤ i.1 by omega) i.2 hn1 (pre3_form hc) s.alpha s.beta s.r0 s.r1
      ((zkChallenges C (Function.update ω (.inr (.inr i)) x0)).ru i)
      ((zkChallenges C (Function.update ω (.inr (.inr i)) x0)).rv i)
    obtain ⟨S, hS, hr⟩ := deg2_agree h2 ⟨_, fun x => rfl⟩ t1
    refine ⟨S, by simpa [degree, hi0] using hS, fun x hx => hr x ?_⟩
    obtain ⟨-, s', hs', c', hc', pv', hpv', -, g3⟩ := hx
    have hrun := run_update E C A X p result tables ω i (.inr (.inr i)) (.inr (.inr (.inr (.inr rfl)))) x x0
    rw [hs, hs'] at hrun
    cases hrun
    obtain ⟨-, -, hru, hrv, -, -, hrho, -⟩ := zkChallenges_update ω (.inr (.inr i)) x x0
    have hu : (zkChallenges C (Function.update ω (.inr (.inr i)) x)).ru i =
        (zkChallenges C (Function.update ω (.inr (.inr i)) x0)).ru i := by
      funext j; exact hru i j (fun _ _ => by simp)
    have hv : (zkChallenges C (Function.update ω (.inr (.inr i)) x)).rv i =
        (zkChallenges C (Function.update ω (.inr (.inr i)) x0)).rv i := by
      funext j; exact hrv i j (fun _ _ => by simp)
    rw [hu, hv, hrho i (fun _ => by simp), hc] at hc'
    cases hc'
    rw [hu, hv, hpv] at hpv'
    cases hpv'
    have hval : (zkChallenges C (Function.update ω (.inr (.inr i)) x)).rc i = x := by
      simp [zkChallenges]
    rw [hval, hu, hv] at g3
    exact g3

/-! ## the run -/

omit [IsDomain F] [Fintype F] in
/-- If the claimed output is wrong and the run reaches layer `i`, the claim about layer `i` is false or
the prover was lucky. -/
theorem reach_sound {E : Pairing G1 G2 GT} {C : Circuit} (hwf : WellFormed true C) (hpar : ParallelOk C)
    (hlen : ∀ i, i + 1 < C.depth → 1 ≤ C.bl i)
    (A : ProverApi σ F G1 G2) {X : Committed σ F} (hX : X.Early)
    (p : σ) (result : ℕ → F) (tables : VTables F)
    (hbad : ∃ g < 2 ^ C.bl (C.depth - 1), result g ≠ value C (C.depth - 1) g) (ω : ZkCoin C → F) :
    let ch := zkChallenges C ω
    ∀ m i, i = C.depth - 1 - m → m ≤ C.depth - 2 → ∀ s,
      runTo E C A X ch (startState C p result tables ch) (C.depth - 1) i = .ok s →
      (VInv C i s ∧ s.sum ≠ trueClaim C X A.start i s) ∨ ∃ c, Event E C A X p result tables c ω := by
  intro ch m
  have hd := hwf.deep
  induction m with
  | zero =>
    rintro i rfl _ s hs
    rw [runTo, Nat.sub_zero, Nat.sub_self] at hs
    cases hs
    rcases output_sound C result ch.r0 hbad with h | ⟨j, hj, h⟩
    · left
      refine ⟨⟨fun _ _ => rfl, fun _ _ => rfl⟩, ?_⟩
      simp only [startState, trueClaim, one_mul, zero_mul, add_zero, Nat.sub_zero, tv, maskFactor, if_true,
        if_neg (show C.depth - 1 ≠ 0 by omega)]
      exact h
    · exact .inr ⟨.inl (.inl ⟨j, hj⟩), h⟩
  | succ m ih =>
    rintro i hi hm s hs
    rw [runTo_succ (by omega)] at hs
    obtain ⟨s1, e1, e2⟩ := Outcome.bind_eq_ok hs
    rcases ih (i + 1) (by omega) (by omega) s1 e1 with ⟨hv, hne⟩ | h
    · have hlt : i + 1 < C.depth := by omega
      have h2 : 2 ≤ i + 1 := by omega
      rcases layer_sound hwf hpar hX (by omega) hlt (hlen _ hlt) hv e2 hne with
        h | h | ⟨k, hk, h⟩ | ⟨k, hk, h⟩ | h | h | h
      · exact .inl ⟨layer_vinv hX e2, h.2⟩
      · omega
      · exact .inr ⟨.inl (.ru ⟨i + 1, hlt⟩ ⟨k, hk⟩), by simp, s1, e1, h⟩
      · exact .inr ⟨.inl (.rv ⟨i + 1, hlt⟩ ⟨k, hk⟩), by simp, s1, e1, h⟩
      · exact .inr ⟨.inr (.inr ⟨i + 1, hlt⟩), by simp, s1, e1, h⟩
      · exact .inr ⟨.inl (.alpha ⟨i + 1, hlt⟩), h2, s1, e1, h.2⟩
      · exact .inr ⟨.inl (.beta ⟨i + 1, hlt⟩), h2, s1, e1, h.2⟩
    · exact .inr h

omit [LawfulGmp F] [IsDomain F] [Fintype F] in
theorem verify_run {E : Pairing G1 G2 GT} {C : Circuit} (hwf : WellFormed true C) {A : ProverApi σ F G1 G2}
    {X : Committed σ F} {p : σ} {result : ℕ → F} (hA : A.evaluate A.start = .ok (p, result))
    {p' : σ} {dg} (hC : A.keygenAndCommit p (C.bl 0) = .ok (p', dg))
    {tables : VTables F} {ch : Challenges F} (h : verifyFixed E C A X tables ch = .ok ()) :
    ∃ s s', runTo E C A X ch (startState C p' result tables ch) (C.depth - 1) 1 = .ok s ∧
      layerStepFixed E C A X ch 1 s = .ok s' ∧ s'.sum = tv C X A.start 0 s'.r0 := by
  have hd := hwf.deep
  rw [verifyFixed, hA, Outcome.ok_bind] at h
  dsimp only at h
  rw [hC, Outcome.ok_bind] at h
  obtain ⟨s', e1, h⟩ := Outcome.bind_eq_ok' h
  obtain ⟨⟨p2, o⟩, e2, h⟩ := Outcome.bind_eq_ok' h
  obtain ⟨v, e3, h⟩ := Outcome.bind_eq_ok' h
  obtain ⟨_, e4, h⟩ := Outcome.bind_eq_ok' h
  obtain ⟨_, e5, h⟩ := Outcome.bind_eq_ok' h
  have h := Outcome.check_ok_iff.1 h
  have e5 := Outcome.check_ok_iff.1 e5
  rw [beq_iff_eq] at h e5
  rw [loopDownM_split' (i := 1) (by omega)] at e1
  obtain ⟨s, f1, f2⟩ := Outcome.bind_eq_ok e1
  have f2 : layerStepFixed E C A X ch 1 s = .ok s' := by
    rw [loopDownM_succ] at f2
    obtain ⟨s2, g1, g2⟩ := Outcome.bind_eq_ok f2
    cases g2; exact g1
  refine ⟨s, s', ?_, f2, ?_⟩
  · rw [runTo, startState, ← f1]
    congr 1
    rw [one_mul, foldOutput_spec (oneMinus ch.r0) _ _ _ (fun _ _ => rfl)]
  · rw [h, e5, tv, if_pos rfl]

omit [IsDomain F] [Fintype F] in
theorem accept_event {E : Pairing G1 G2 GT} {C : Circuit} (hwf : WellFormed true C) (hpar : ParallelOk C)
    (hlen : ∀ i, i + 1 < C.depth → 1 ≤ C.bl i) {A : ProverApi σ F G1 G2} {X : Committed σ F} (hX : X.Early)
    {p : σ} {result : ℕ → F} (hA : A.evaluate A.start = .ok (p, result))
    {p' : σ} {dg} (hC : A.keygenAndCommit p (C.bl 0) = .ok (p', dg))
    (hbad : ∃ g < 2 ^ C.bl (C.depth - 1), result g ≠ value C (C.depth - 1) g)
    {tables : VTables F} {ω : ZkCoin C → F}
    (h : verifyFixed E C A X tables (zkChallenges C ω) = .ok ()) :
    ∃ c, Event E C A X p' result tables c ω := by
  have hd := hwf.deep
  obtain ⟨s, s', e1, e2, hsum⟩ := verify_run hwf hA hC h
  rcases reach_sound hwf hpar hlen A hX p' result tables hbad ω (C.depth - 2) 1 (by omega) le_rfl s e1 with
    ⟨hv, hne⟩ | h
  · rcases layer_sound hwf hpar hX le_rfl (by omega) (hlen 0 (by omega)) hv e2 hne with
        h | h | ⟨k, hk, h⟩ | ⟨k, hk, h⟩ | h | h | h
    · exact absurd rfl h.1
    · exact absurd hsum h.2
    · exact ⟨.inl (.ru ⟨1, by omega⟩ ⟨k, hk⟩), by simp, s, e1, h⟩
    · exact ⟨.inl (.rv ⟨1, by omega⟩ ⟨k, hk⟩), by simp, s, e1, h⟩
    · exact ⟨.inr (.inr ⟨1, by omega⟩), by simp, s, e1, h⟩
    · exact absurd rfl h.1
    · exact absurd rfl h.1
  · exact h

theorem soundness {E : Pairing G1 G2 GT} {C : Circuit} (hwf : WellFormed true C) (hpar : ParallelOk C)
    (hlen : ∀ i, i + 1 < C.depth → 1 ≤ C.bl i) {A : ProverApi σ F G1 G2} {X : Committed σ F} (hX : X.Early)
    {p : σ} {result : ℕ → F} (hA : A.evaluate A.start = .ok (p, result))
    (hbad : ∃ g < 2 ^ C.bl (C.depth - 1), result g ≠ value C (C.depth - 1) g)
    (tables : VTables F) :
    (univ.filter (fun ω : ZkCoin C → F =>
      verifyFixed E C A X tables (zkChallenges C ω) = .ok ())).card * Fintype.card F ≤
      zkSoundnessError C * Fintype.card (ZkCoin C → F) := by
  cases hC : A.keygenAndCommit p (C.bl 0) with
  | ok q =>
    rw [← sum_degree C hlen]
    exact card_union univ (Event E C A X q.1 result tables) id (degree C)
      (fun c _ => event_bound E hwf hlen A X q.1 result tables c) _
      (fun ω h => by obtain ⟨c, hc⟩ := accept_event hwf hpar hlen hX hA hC hbad h; exact ⟨c, mem_univ _, hc⟩)
  | _ =>
    have : (univ.filter (fun ω : ZkCoin C → F =>
        verifyFixed E C A X tables (zkChallenges C ω) = .ok ())) = ∅ := by
      refine filter_eq_empty_iff.2 (fun ω _ h => ?_)
      rw [verifyFixed, hA, Outcome.ok_bind] at h
      dsimp only at h
      rw [hC] at h
      cases h
    rw [this, card_empty, zero_mul]
    exact Nat.zero_le _

end Libra.Zk
