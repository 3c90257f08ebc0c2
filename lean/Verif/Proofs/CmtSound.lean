import Verif.Proofs.CmtComplete
import Verif.Proofs.SoundnessBound

/-!
# Soundness of the traditional protocol
-/

namespace Libra.Cmt
open Libra Spec Finset FastTrack Counting
variable {F : Type} [CommRing F]

/-! ## the true messages -/

/-- the coefficients of `x ↦ foldT x A b * foldT x V b + foldT x B b`, summed over `b < m` -/
def quadOf (m : ℕ) (A V B : ℕ → F) : QuadraticPoly F :=
  ⟨∑ b ∈ range m, (A (2 * b + 1) - A (2 * b)) * (V (2 * b + 1) - V (2 * b)),
   ∑ b ∈ range m, (A (2 * b) * (V (2 * b + 1) - V (2 * b)) +
    V (2 * b) * (A (2 * b + 1) - A (2 * b)) + (B (2 * b + 1) - B (2 * b))),
   ∑ b ∈ range m, (A (2 * b) * V (2 * b) + B (2 * b))⟩

theorem quadOf_eval (m : ℕ) (A V B : ℕ → F) (x : F) :
    (quadOf m A V B).eval x = ∑ b ∈ range m, (foldT x A b * foldT x V b + foldT x B b) := by
  rw [QuadraticPoly.eval, quadOf]
  simp only [sum_mul, add_mul, ← sum_add_distrib]
  refine sum_congr rfl (fun b _ => ?_)
  simp only [foldT]
  ring

/-- the true message of round `k` -/
def truthQ (n : ℕ) (A V B r : ℕ → F) (k : ℕ) : QuadraticPoly F :=
  quadOf (2 ^ (n - (k + 1))) (foldK r k A) (foldK r k V) (foldK r k B)

theorem truthQ_eval (n : ℕ) (A V B r : ℕ → F) (k : ℕ) (x : F) :
    (truthQ n A V B r k).eval x = polyAt n r A V B k x := by
  rw [truthQ, quadOf_eval]; rfl

theorem truthQ_congr (n : ℕ) (A V B : ℕ → F) {r r' : ℕ → F} {k : ℕ} (h : ∀ j < k, r j = r' j) :
    truthQ n A V B r k = truthQ n A V B r' k := by
  rw [truthQ, truthQ, foldK_congr A h, foldK_congr V h, foldK_congr B h]

theorem truthQ_honest (n : ℕ) (A V B r : ℕ → F) :
    Honest n r (truthQ n A V B r) (claimAt n r A V B) where
  sum k hk := by rw [truthQ_eval, truthQ_eval]; exact polyAt_sum hk _ _ _ _
  next k hk := by rw [truthQ_eval]; exact polyAt_next _ _ _ _ _ _

/-! ## one phase -/

variable [DecidableEq F] {σ : Type}

/-- The prover is lucky with the challenge of round `k`: it sent a wrong message that agrees with the
true one at the challenge. -/
def LuckyRound (upd : σ → F → ℕ → Outcome (σ × QuadraticPoly F)) (r : ℕ → F)
    (q : ℕ → QuadraticPoly F) (s0 : σ × F × F) (k : ℕ) : Prop :=
  ∃ st p m, loopM k (round upd r) s0 = .ok st ∧ upd st.1 st.2.2 k = .ok (p, m) ∧ m ≠ q k ∧
    m.eval (r k) = (q k).eval (r k)

theorem phase_sound (upd : σ → F → ℕ → Outcome (σ × QuadraticPoly F)) {n : ℕ} {r : ℕ → F}
    {q : ℕ → QuadraticPoly F} {c : ℕ → F} (hq : Honest n r q c) {p : σ} {sum z : F} {t : σ × F × F}
    (h : loopM n (round upd r) (p, sum, z) = .ok t) (hne : sum ≠ c 0) :
    t.2.1 ≠ c n ∨ ∃ k < n, LuckyRound upd r q (p, sum, z) k := by
  have key : ∀ m ≤ n, ∀ t, loopM m (round upd r) (p, sum, z) = .ok t →
      t.2.1 ≠ c m ∨ ∃ k < m, LuckyRound upd r q (p, sum, z) k := by
    intro m
    induction m with
    | zero => intro _ t ht; cases ht; exact .inl hne
    | succ m ih =>
      intro hm t ht
      obtain ⟨s, e1, e2⟩ := Outcome.bind_eq_ok ht
      rcases ih (by omega) s e1 with hs | ⟨k, hk, hst⟩
      · rw [round] at e2
        obtain ⟨⟨p', msg⟩, e0, e2⟩ := Outcome.bind_eq_ok' e2
        obtain ⟨_, e3, e4⟩ := Outcome.bind_eq_ok' e2
        cases e4
        have e3 := Outcome.check_ok_iff.1 e3
        rw [beq_iff_eq] at e3
        have hpq : msg ≠ q m := by
          intro hh
          rw [hh, hq.sum m (by omega)] at e3
          exact hs e3.symm
        by_cases hh : msg.eval (r m) = (q m).eval (r m)
        · exact .inr ⟨m, by omega, s, p', msg, e1, e0, hpq, hh⟩
        · left
          dsimp only
          rw [← hq.next m (by omega)]; exact hh
      · exact .inr ⟨k, by omega, hst⟩
  exact key n le_rfl t h

theorem round_congr (upd : σ → F → ℕ → Outcome (σ × QuadraticPoly F)) {r r' : ℕ → F} {n : ℕ}
    (h : ∀ j < n, r j = r' j) (s : σ × F × F) :
    loopM n (round upd r) s = loopM n (round upd r') s :=
  loopM_congr_inv (fun _ => True) trivial (fun _ _ _ _ _ _ => trivial)
    (fun j hj s _ => by rw [round, round, h j hj])

/-! ## one layer -/

/-- the prover and the claim before phase 1 -/
def pre1 (C : Circuit) (A : ProverApi σ F) (i : ℕ) (s : VState σ F) : σ × F × F :=
  (A.phase1Init (A.sumcheckInit s.prover i (C.bl i) (C.bl (i - 1)) (C.bl (i - 1)) s.alpha s.beta s.r0
    s.r1 s.omr0 s.omr1), s.sum, 0)

/-- phase 1 and the initialisation of phase 2 -/
def pre2 (C : Circuit) (A : ProverApi σ F) (i : ℕ) (ru : ℕ → F) (s : VState σ F) :
    Outcome (σ × F × F) := do
  let t ← loopM (C.bl (i - 1)) (round A.phase1Update ru) (pre1 C A i s)
  let p ← A.phase2Init t.1 t.2.2 ru (oneMinus ru)
  return (p, t.2.1, 0)

/-- the combination of the two claims about layer `i` -/
def combOf (C : Circuit) (i : ℕ) (s : VState σ F) : ℕ → F := comb (C.bl i) s.alpha s.beta s.r0 s.r1

/-- the true messages of phase 1 -/
def truth1 (C : Circuit) (i : ℕ) (s : VState σ F) (ru : ℕ → F) : ℕ → QuadraticPoly F :=
  truthQ (C.bl (i - 1)) (A1 C i (combOf C i s) (value C (i - 1))) (value C (i - 1))
    (B1 C i (combOf C i s) (value C (i - 1))) ru

/-- the true messages of phase 2 -/
def truth2 (C : Circuit) (i : ℕ) (s : VState σ F) (ru rv : ℕ → F) : ℕ → QuadraticPoly F :=
  truthQ (C.bl (i - 1))
    (A2 C i (combOf C i s) (eqPoly (C.bl (i - 1)) ru) (mle (C.bl (i - 1)) (value C (i - 1)) ru))
    (value C (i - 1))
    (B2 C i (combOf C i s) (eqPoly (C.bl (i - 1)) ru) (mle (C.bl (i - 1)) (value C (i - 1)) ru)) rv

theorem layerStep_ok {C : Circuit} {A : ProverApi σ F} {ch : Challenges F} {i : ℕ}
    {s s' : VState σ F} (h : layerStep C A ch i s = .ok s') :
    ∃ b st, pre2 C A i (ch.ru i) s = .ok b ∧
      loopM (C.bl (i - 1)) (round A.phase2Update (ch.rv i)) b = .ok st ∧
      let vu := (A.finalize st.1 st.2.2).2.1
      let vv := (A.finalize st.1 st.2.2).2.2
      let T := betaInit C s.tables i s.alpha s.beta s.r0 s.r1 (ch.ru i) (ch.rv i) s.omr0 s.omr1
        (oneMinus (ch.ru i)) (oneMinus (ch.rv i))
      st.2.1 = endClaim C i (fun g => T.g0 g + T.g1 g) T.u T.v vu vv ∧
      s'.alpha = ch.alpha i ∧ s'.beta = ch.beta i ∧ s'.r0 = ch.ru i ∧ s'.r1 = ch.rv i ∧
      s'.omr0 = oneMinus (ch.ru i) ∧ s'.omr1 = oneMinus (ch.rv i) ∧
      s'.sum = ch.alpha i * vu + ch.beta i * vv := by
  rw [layerStep] at h
  obtain ⟨⟨t1, t2, t3⟩, e1, h⟩ := Outcome.bind_eq_ok' h
  obtain ⟨p, e2, h⟩ := Outcome.bind_eq_ok' h
  obtain ⟨⟨q1, q2, q3⟩, e3, h⟩ := Outcome.bind_eq_ok' h
  refine ⟨(p, t2, 0), (q1, q2, q3), ?_, e3, ?_⟩
  · rw [pre2]
    change (loopM _ _ _ >>= _) = _
    rw [pre1, e1, Outcome.ok_bind]
    change (A.phase2Init t1 t3 _ _ >>= _) = _
    rw [e2, Outcome.ok_bind]
    rfl
  intro vu vv T
  obtain ⟨_, hc, h⟩ := Outcome.bind_eq_ok' h
  have hc := Outcome.check_ok_iff.1 hc
  rw [beq_iff_eq] at hc
  cases h
  refine ⟨?_, rfl, rfl, rfl, rfl, rfl, rfl, rfl⟩
  rw [← pred_end]
  exact hc

/-- what the verifier keeps about its own variables before layer `i` -/
structure VInv (C : Circuit) (i : ℕ) (s : VState σ F) : Prop where
  om0 : ∀ j < C.bl i, s.omr0 j = 1 - s.r0 j
  om1 : ∀ j < C.bl i, s.omr1 j = 1 - s.r1 j

def Lucky1 (C : Circuit) (A : ProverApi σ F) (i k : ℕ) (ru : ℕ → F) (s : VState σ F) : Prop :=
  LuckyRound A.phase1Update ru (truth1 C i s ru) (pre1 C A i s) k

def Lucky2 (C : Circuit) (A : ProverApi σ F) (i k : ℕ) (ru rv : ℕ → F) (s : VState σ F) : Prop :=
  ∃ b, pre2 C A i ru s = .ok b ∧ LuckyRound A.phase2Update rv (truth2 C i s ru rv) b k

/-- The two claims at the end of the layer: their errors. -/
def errors (C : Circuit) (A : ProverApi σ F) (i : ℕ) (ru rv : ℕ → F) (s : VState σ F) :
    Outcome (F × F) := do
  let b ← pre2 C A i ru s
  let st ← loopM (C.bl (i - 1)) (round A.phase2Update rv) b
  return ((A.finalize st.1 st.2.2).2.1 - mle (C.bl (i - 1)) (value C (i - 1)) ru,
    (A.finalize st.1 st.2.2).2.2 - mle (C.bl (i - 1)) (value C (i - 1)) rv)

def LuckyA (C : Circuit) (A : ProverApi σ F) (i : ℕ) (ru rv : ℕ → F) (α β : F)
    (s : VState σ F) : Prop :=
  ∃ e, errors C A i ru rv s = .ok e ∧ e.1 ≠ 0 ∧ α * e.1 + β * e.2 = 0

def LuckyB (C : Circuit) (A : ProverApi σ F) (i : ℕ) (ru rv : ℕ → F) (β : F)
    (s : VState σ F) : Prop :=
  ∃ e, errors C A i ru rv s = .ok e ∧ e.2 ≠ 0 ∧ β * e.2 = 0

theorem layer_vinv {C : Circuit} {A : ProverApi σ F} {ch : Challenges F} {i : ℕ}
    {s s' : VState σ F} (h : layerStep C A ch i s = .ok s') : VInv C (i - 1) s' := by
  obtain ⟨b, st, e1, e2, hfin, -, -, a3, a4, a5, a6, -⟩ := layerStep_ok h
  exact ⟨fun j _ => by rw [a5, a3]; rfl, fun j _ => by rw [a6, a4]; rfl⟩

/-- a false claim stays false, or the prover is lucky -/
theorem layer_sound {C : Circuit} (hwf : AddMult C) {A : ProverApi σ F}
    {ch : Challenges F} {i : ℕ} (h1 : 1 ≤ i) (hd : i < C.depth) {s s' : VState σ F}
    (hs : VInv C i s) (h : layerStep C A ch i s = .ok s') (hne : s.sum ≠ trueClaim C i s) :
    s'.sum ≠ trueClaim C (i - 1) s' ∨
    (∃ k < C.bl (i - 1), Lucky1 C A i k (ch.ru i) s) ∨
    (∃ k < C.bl (i - 1), Lucky2 C A i k (ch.ru i) (ch.rv i) s) ∨
    LuckyA C A i (ch.ru i) (ch.rv i) (ch.alpha i) (ch.beta i) s ∨
    LuckyB C A i (ch.ru i) (ch.rv i) (ch.beta i) s := by
  have hl := layerAM hwf.toAddMultGates h1 hd
  obtain ⟨b, st, e1, e2, hfin, a1, a2, a3, a4, a5, a6, a7⟩ := layerStep_ok h
  have e1' := e1
  rw [pre2] at e1'
  obtain ⟨t, f1, e1'⟩ := Outcome.bind_eq_ok' e1'
  obtain ⟨p, f2, e1'⟩ := Outcome.bind_eq_ok' e1'
  cases e1'
  rcases phase_sound A.phase1Update (truthQ_honest (C.bl (i - 1))
    (A1 C i (combOf C i s) (value C (i - 1))) (value C (i - 1))
    (B1 C i (combOf C i s) (value C (i - 1))) (ch.ru i)) f1
    (by rw [combOf, claim1_zero hl h1]; exact hne) with ht | hk
  swap
  · exact .inr (.inl hk)
  rw [claim1_last hl, ← claim2_zero hl _ _ _ (ch.rv i)] at ht
  rcases phase_sound A.phase2Update (truthQ_honest (C.bl (i - 1)) _ (value C (i - 1)) _ (ch.rv i)) e2 ht
    with hq | ⟨k, hk, hL⟩
  swap
  · exact .inr (.inr (.inl ⟨k, hk, _, e1, hL⟩))
  rw [claim2_last hl] at hq
  set eu := (A.finalize st.1 st.2.2).2.1 - mle (C.bl (i - 1)) (value C (i - 1)) (ch.ru i) with heu
  set ev := (A.finalize st.1 st.2.2).2.2 - mle (C.bl (i - 1)) (value C (i - 1)) (ch.rv i) with hev
  have herr : errors C A i (ch.ru i) (ch.rv i) s = .ok (eu, ev) := by
    rw [errors, e1, Outcome.ok_bind, e2, Outcome.ok_bind]; rfl
  have hne2 : eu ≠ 0 ∨ ev ≠ 0 := by
    by_contra hcon
    simp only [not_or, not_not] at hcon
    have h3 := sub_eq_zero.1 hcon.1
    have h4 := sub_eq_zero.1 hcon.2
    apply hq
    rw [hfin, h3, h4]
    obtain ⟨b1, b2, b3⟩ := betaInit_spec C s.tables i s.alpha s.beta s.r0 s.r1 (ch.ru i)
      (ch.rv i) s.omr0 s.omr1
      (oneMinus (ch.ru i)) (oneMinus (ch.rv i)) hs.om0 hs.om1 (fun _ _ => rfl)
    exact endClaim_congr hl b1 b2 (b3 (fun _ _ => rfl)) _ _
  have hdiff : s'.sum - trueClaim C (i - 1) s' = ch.alpha i * eu + ch.beta i * ev := by
    rw [a7, trueClaim, a1, a2, a3, a4, heu, hev]; ring
  by_cases hz : ch.alpha i * eu + ch.beta i * ev = 0
  · right; right; right
    by_cases h0 : eu = 0
    · right
      refine ⟨_, herr, ?_, ?_⟩
      · rcases hne2 with h | h
        · exact absurd h0 h
        · exact h
      · rw [h0, mul_zero, zero_add] at hz; exact hz
    · exact .inl ⟨_, herr, h0, hz⟩
  · left
    intro hcon
    exact hz (by rw [← hdiff, hcon, sub_self])

/-! ## the whole protocol -/

/-- the state before layer `i`, when the layers `top, …, i+1` have been processed -/
def runTo (C : Circuit) (A : ProverApi σ F) (ch : Challenges F) (s0 : VState σ F)
    (top i : ℕ) : Outcome (VState σ F) :=
  loopDownM (top - i) (fun k => layerStep C A ch (k + i)) s0

theorem runTo_succ {C : Circuit} {A : ProverApi σ F} {ch : Challenges F}
    {s0 : VState σ F} {top i : ℕ} (hi : i < top) :
    runTo C A ch s0 top i = (runTo C A ch s0 top (i + 1)).bind (layerStep C A ch (i + 1)) := by
  rw [runTo, runTo, loopDownM_split (by omega)]
  have : (fun k => layerStep C A ch (k + 1 + i)) = fun k => layerStep C A ch (k + (i + 1)) := by
    funext k; rw [show k + 1 + i = k + (i + 1) by omega]
  rw [this, show top - i - 1 = top - (i + 1) by omega, show (1 + i) = i + 1 by omega]

theorem runTo_congr {C : Circuit} {A : ProverApi σ F} {ch ch' : Challenges F}
    {s0 : VState σ F} {top i : ℕ}
    (h : ∀ k, i < k → ch.ru k = ch'.ru k ∧ ch.rv k = ch'.rv k ∧ ch.alpha k = ch'.alpha k ∧
      ch.beta k = ch'.beta k) :
    runTo C A ch s0 top i = runTo C A ch' s0 top i := by
  refine loopDownM_congr (fun k hk _ s => ?_)
  obtain ⟨a1, a2, a3, a4⟩ := h (k + i) (by omega)
  simp only [layerStep, a1, a2, a3, a4]

/-- For every coin, the event that the prover is lucky with it. -/
def Event (C : Circuit) (A : ProverApi σ F) (p : σ) (result : ℕ → F)
    (tables : BetaTables F) (c : Coin C) (ω : Coin C → F) : Prop :=
  let ch := challenges C ω
  let run := runTo C A ch (startState C p result tables ch) (C.depth - 1)
  match c with
  | .inl j => Lucky0 C result j ch.r0
  | .inr (.inl _) => False
  | .inr (.inr (.inl ⟨i, k⟩)) => i.1 ≠ 0 ∧ ∃ s, run i = .ok s ∧ Lucky1 C A i k (ch.ru i) s
  | .inr (.inr (.inr (.inl ⟨i, k⟩))) =>
    i.1 ≠ 0 ∧ ∃ s, run i = .ok s ∧ Lucky2 C A i k (ch.ru i) (ch.rv i) s
  | .inr (.inr (.inr (.inr (.inl i)))) => i.1 ≠ 0 ∧ ∃ s, run i = .ok s ∧
      LuckyA C A i (ch.ru i) (ch.rv i) (ch.alpha i) (ch.beta i) s
  | .inr (.inr (.inr (.inr (.inr i)))) => i.1 ≠ 0 ∧ ∃ s, run i = .ok s ∧
      LuckyB C A i (ch.ru i) (ch.rv i) (ch.beta i) s

/-- how many values of the coin can be lucky -/
def degree (C : Circuit) : Coin C → ℕ
  | .inl _ => 1
  | .inr (.inl _) => 0
  | .inr (.inr (.inl ⟨i, _⟩)) => if i.1 = 0 then 0 else 2
  | .inr (.inr (.inr (.inl ⟨i, _⟩))) => if i.1 = 0 then 0 else 2
  | .inr (.inr (.inr (.inr (.inl i)))) => if i.1 = 0 then 0 else 1
  | .inr (.inr (.inr (.inr (.inr i)))) => if i.1 = 0 then 0 else 1

theorem sum_degree (C : Circuit) : ∑ c : Coin C, degree C c = cmtSoundnessError C := by
  simp only [Fintype.sum_sum_type, degree, Fintype.sum_sigma, sum_const, card_univ, Fintype.card_fin,
    smul_eq_mul, mul_one, zero_mul, mul_zero, zero_add, cmtSoundnessError]
  rw [← Fin.sum_univ_eq_sum_range (fun i => if i = 0 then 0 else 4 * C.bl (i - 1) + 2) C.depth]
  simp only [← sum_add_distrib]
  congr 1
  refine sum_congr rfl (fun i _ => ?_)
  by_cases h0 : i.1 = 0
  · simp [h0]
  · simp [h0]; omega

theorem run_update (C : Circuit) (A : ProverApi σ F) (p : σ) (result : ℕ → F)
    (tables : BetaTables F) (ω : Coin C → F) (i : Fin C.depth) (c : Coin C)
    (hc : (∃ k, c = .ru i k) ∨ (∃ k, c = .rv i k) ∨ c = .alpha i ∨ c = .beta i) (x y : F) :
    runTo C A (challenges C (Function.update ω c x)) (startState C p result tables
      (challenges C (Function.update ω c x))) (C.depth - 1) i =
    runTo C A (challenges C (Function.update ω c y)) (startState C p result tables
      (challenges C (Function.update ω c y))) (C.depth - 1) i := by
  obtain ⟨h0, h1, h2, h3, h4, h5⟩ := challenges_update ω c x y
  have e0 := h0 (fun j hj => by rcases hc with ⟨k, rfl⟩ | ⟨k, rfl⟩ | rfl | rfl <;> simp at hj)
  have e1 := h1 (fun j hj => by rcases hc with ⟨k, rfl⟩ | ⟨k, rfl⟩ | rfl | rfl <;> simp at hj)
  have es : startState C p result tables (challenges C (Function.update ω c x)) =
      startState C p result tables (challenges C (Function.update ω c y)) := by
    rw [startState, startState, initState, initState, e0, e1]
  rw [es]
  refine runTo_congr (fun k hk => ⟨?_, ?_, ?_, ?_⟩)
  · funext j
    refine h2 k j (fun hi hj hcon => ?_)
    rcases hc with ⟨k', rfl⟩ | ⟨k', rfl⟩ | rfl | rfl <;> simp [Coin.ru] at hcon
    have := hcon.1; subst this; simp at hk
  · funext j
    refine h3 k j (fun hi hj hcon => ?_)
    rcases hc with ⟨k', rfl⟩ | ⟨k', rfl⟩ | rfl | rfl <;> simp [Coin.rv] at hcon
    have := hcon.1; subst this; simp at hk
  · refine h4 k (fun hi hcon => ?_)
    rcases hc with ⟨k', rfl⟩ | ⟨k', rfl⟩ | rfl | rfl <;> simp [Coin.alpha] at hcon
    subst hcon; simp at hk
  · refine h5 k (fun hi hcon => ?_)
    rcases hc with ⟨k', rfl⟩ | ⟨k', rfl⟩ | rfl | rfl <;> simp [Coin.beta] at hcon
    subst hcon; simp at hk

/-- a prover of the other protocol that does nothing -/
def idleApi (p : σ) : FastTrack.ProverApi σ F :=
  ⟨p, fun s => .ok (s, fun _ => 0), fun _ _ _ _ _ _ => 0, fun s _ _ _ _ _ _ _ _ _ _ => s, id,
   fun s _ _ => (s, ⟨0, 0, 0⟩), fun s _ _ _ => .ok s, fun s _ _ => (s, ⟨0, 0, 0⟩), fun _ => 0,
   fun s _ => (s, 0, 0)⟩

variable [IsDomain F] [Fintype F]

theorem event_bound (C : Circuit) (A : ProverApi σ F) (p : σ) (result : ℕ → F)
    (tables : BetaTables F) (c : Coin C) :
    FiberBound (Event C A p result tables c) c (degree C c) := by
  match c with
  | .inl j =>
    -- this event is the same as for the other verifier
    exact FastTrack.event_bound true C (idleApi p) p result tables (.inl j)
  | .inr (.inl _) => exact fiberBound_of (fun _ _ h => h.elim)
  | .inr (.inr (.inl ⟨i, k⟩)) =>
    apply fiberBound_of
    intro ω x0 hx0
    obtain ⟨hi0, s, hs, st, p1, m, h1, hm, h2, -⟩ := hx0
    obtain ⟨S, hS, hr⟩ := Counting.quadratic_agree _ _ h2
    refine ⟨S, by simpa [degree, hi0] using hS, fun x hx => hr x ?_⟩
    obtain ⟨-, s', hs', st', p1', m', g1, gm, -, g3⟩ := hx
    have hrun := run_update C A p result tables ω i (.ru i k) (.inl ⟨k, rfl⟩) x x0
    rw [hs, hs'] at hrun
    cases hrun
    obtain ⟨-, -, hru, -⟩ := challenges_update ω (.ru i k) x x0
    have hcong : ∀ j < k.1, (challenges C (Function.update ω (.ru i k) x)).ru i j =
        (challenges C (Function.update ω (.ru i k) x0)).ru i j := by
      intro j hj
      refine hru i j (fun hi hj' hcon => ?_)
      simp [Coin.ru] at hcon
      rw [hcon] at hj; simp at hj
    rw [round_congr A.phase1Update hcong, h1] at g1
    cases g1
    rw [hm] at gm
    cases gm
    have hval : (challenges C (Function.update ω (.ru i k) x)).ru i k = x := by
      simp [challenges, Coin.ru]
    rw [hval, truth1, truthQ_congr _ _ _ _ hcong] at g3
    exact g3
  | .inr (.inr (.inr (.inl ⟨i, k⟩))) =>
    apply fiberBound_of
    intro ω x0 hx0
    obtain ⟨hi2, s, hs, b, hb, st, p1, m, h1, hm, h2, -⟩ := hx0
    obtain ⟨S, hS, hr⟩ := Counting.quadratic_agree _ _ h2
    refine ⟨S, by simpa [degree, hi2] using hS, fun x hx => hr x ?_⟩
    obtain ⟨-, s', hs', b', hb', st', p1', m', g1, gm, -, g3⟩ := hx
    have hrun := run_update C A p result tables ω i (.rv i k) (.inr (.inl ⟨k, rfl⟩)) x x0
    rw [hs, hs'] at hrun
    cases hrun
    obtain ⟨-, -, hru, hrv, -⟩ := challenges_update ω (.rv i k) x x0
    have hu : (challenges C (Function.update ω (.rv i k) x)).ru i =
        (challenges C (Function.update ω (.rv i k) x0)).ru i := by
      funext j; exact hru i j (fun _ _ => by simp [Coin.ru])
    have hcong : ∀ j < k.1, (challenges C (Function.update ω (.rv i k) x)).rv i j =
        (challenges C (Function.update ω (.rv i k) x0)).rv i j := by
      intro j hj
      refine hrv i j (fun hi hj' hcon => ?_)
      simp [Coin.rv] at hcon
      rw [hcon] at hj; simp at hj
    rw [hu, hb] at hb'
    cases hb'
    rw [round_congr A.phase2Update hcong, h1] at g1
    cases g1
    rw [hm] at gm
    cases gm
    have hval : (challenges C (Function.update ω (.rv i k) x)).rv i k = x := by
      simp [challenges, Coin.rv]
    rw [hval, hu, truth2, truthQ_congr _ _ _ _ hcong] at g3
    exact g3
  | .inr (.inr (.inr (.inr (.inl i)))) =>
    apply fiberBound_of
    intro ω x0 hx0
    obtain ⟨hi2, s, hs, e, he, hne, -⟩ := hx0
    obtain ⟨S, hS, hr⟩ := Counting.line_root e.1
      ((challenges C (Function.update ω (.alpha i) x0)).beta i * e.2) (.inl hne)
    refine ⟨S, by simpa [degree, hi2] using hS, fun x hx => hr x ?_⟩
    obtain ⟨-, s', hs', e', he', -, g3⟩ := hx
    have hrun := run_update C A p result tables ω i (.alpha i) (.inr (.inr (.inl rfl))) x x0
    rw [hs, hs'] at hrun
    cases hrun
    obtain ⟨-, -, hru, hrv, -, hbe⟩ := challenges_update ω (.alpha i) x x0
    have hu : (challenges C (Function.update ω (.alpha i) x)).ru i =
        (challenges C (Function.update ω (.alpha i) x0)).ru i := by
      funext j; exact hru i j (fun _ _ => by simp [Coin.ru])
    have hv : (challenges C (Function.update ω (.alpha i) x)).rv i =
        (challenges C (Function.update ω (.alpha i) x0)).rv i := by
      funext j; exact hrv i j (fun _ _ => by simp [Coin.rv])
    have hb := hbe i (fun _ => by simp [Coin.beta])
    rw [hu, hv, he] at he'
    cases he'
    have hval : (challenges C (Function.update ω (.alpha i) x)).alpha i = x := by
      simp [challenges, Coin.alpha]
    rw [hval, hb] at g3
    rw [mul_comm]; exact g3
  | .inr (.inr (.inr (.inr (.inr i)))) =>
    apply fiberBound_of
    intro ω x0 hx0
    obtain ⟨hi2, s, hs, e, he, hne, -⟩ := hx0
    obtain ⟨S, hS, hr⟩ := Counting.line_root e.2 0 (.inl hne)
    refine ⟨S, by simpa [degree, hi2] using hS, fun x hx => hr x ?_⟩
    obtain ⟨-, s', hs', e', he', -, g3⟩ := hx
    have hrun := run_update C A p result tables ω i (.beta i) (.inr (.inr (.inr rfl))) x x0
    rw [hs, hs'] at hrun
    cases hrun
    obtain ⟨-, -, hru, hrv, -, -⟩ := challenges_update ω (.beta i) x x0
    have hu : (challenges C (Function.update ω (.beta i) x)).ru i =
        (challenges C (Function.update ω (.beta i) x0)).ru i := by
      funext j; exact hru i j (fun _ _ => by simp [Coin.ru])
    have hv : (challenges C (Function.update ω (.beta i) x)).rv i =
        (challenges C (Function.update ω (.beta i) x0)).rv i := by
      funext j; exact hrv i j (fun _ _ => by simp [Coin.rv])
    rw [hu, hv, he] at he'
    cases he'
    have hval : (challenges C (Function.update ω (.beta i) x)).beta i = x := by
      simp [challenges, Coin.beta]
    rw [hval] at g3
    rw [mul_comm, add_zero]; exact g3

omit [IsDomain F] [Fintype F] in
/-- If the claimed output is wrong and the run reaches layer `i`, the claim about layer `i` is false or
the prover was lucky. -/
theorem reach_sound {C : Circuit} (hwf : AddMult C) (A : ProverApi σ F)
    (p : σ) (result : ℕ → F) (tables : BetaTables F)
    (hbad : ∃ g < 2 ^ C.bl (C.depth - 1), result g ≠ value C (C.depth - 1) g) (ω : Coin C → F) :
    let ch := challenges C ω
    ∀ m i, i = C.depth - 1 - m → m ≤ C.depth - 1 → ∀ s,
      runTo C A ch (startState C p result tables ch) (C.depth - 1) i = .ok s →
      (VInv C i s ∧ s.sum ≠ trueClaim C i s) ∨ ∃ c, Event C A p result tables c ω := by
  intro ch m
  have hd := hwf.nonempty
  induction m with
  | zero =>
    rintro i rfl _ s hs
    rw [runTo, Nat.sub_zero, Nat.sub_self] at hs
    cases hs
    rcases output_sound C result ch.r0 hbad with h | ⟨j, hj, h⟩
    · left
      refine ⟨⟨fun _ _ => rfl, fun _ _ => rfl⟩, ?_⟩
      simp only [startState, initState, trueClaim, one_mul, zero_mul, add_zero, Nat.sub_zero]
      exact h
    · exact .inr ⟨.inl ⟨j, hj⟩, h⟩
  | succ m ih =>
    rintro i hi hm s hs
    rw [runTo_succ (by omega)] at hs
    obtain ⟨s1, e1, e2⟩ := Outcome.bind_eq_ok hs
    rcases ih (i + 1) (by omega) (by omega) s1 e1 with ⟨hv, hne⟩ | h
    · have hlt : i + 1 < C.depth := by omega
      rcases layer_sound hwf (by omega) hlt hv e2 hne with h | ⟨k, hk, h⟩ | ⟨k, hk, h⟩ | h | h
      · exact .inl ⟨layer_vinv e2, h⟩
      · exact .inr ⟨.ru ⟨i + 1, hlt⟩ ⟨k, hk⟩, by simp, s1, e1, h⟩
      · exact .inr ⟨.rv ⟨i + 1, hlt⟩ ⟨k, hk⟩, by simp, s1, e1, h⟩
      · exact .inr ⟨.alpha ⟨i + 1, hlt⟩, by simp, s1, e1, h⟩
      · exact .inr ⟨.beta ⟨i + 1, hlt⟩, by simp, s1, e1, h⟩
    · exact .inr h

omit [IsDomain F] [Fintype F] in
theorem accept_event {C : Circuit} (hwf : AddMult C) {A : ProverApi σ F}
    {p : σ} {result : ℕ → F} (hA : A.evaluate A.start = .ok (p, result))
    (hres : ∀ omr r n N, A.vRes p omr r result n N = foldOutput omr r result n N)
    (hbad : ∃ g < 2 ^ C.bl (C.depth - 1), result g ≠ value C (C.depth - 1) g)
    {tables : BetaTables F} {ω : Coin C → F}
    (h : verify C A tables (challenges C ω) = .ok ()) :
    ∃ c, Event C A p result tables c ω := by
  have hd := hwf.nonempty
  rw [verify, hA, Outcome.ok_bind] at h
  obtain ⟨s, e1, h⟩ := Outcome.bind_eq_ok' h
  obtain ⟨T, e2, h⟩ := Outcome.bind_eq_ok' h
  obtain ⟨T', hT', hTv⟩ := verifierInput_ok (F := F) hwf.toEvaluable
  have : T = T' := by
    have := e2.symm.trans hT'
    cases this; rfl
  subst this
  have h := Outcome.check_ok_iff.1 h
  rw [beq_iff_eq] at h
  have hrun : runTo C A (challenges C ω) (startState C p result tables (challenges C ω))
      (C.depth - 1) 0 = .ok s := by
    rw [runTo, startState, initState, ← e1]
    simp only [Nat.add_zero, Nat.sub_zero]
    congr 1
    rw [hres, one_mul, foldOutput_spec (oneMinus (challenges C ω).r0) _ _ _ (fun _ _ => rfl)]
  rcases reach_sound hwf A p result tables hbad ω (C.depth - 1) 0 (by omega) le_rfl s hrun with
    ⟨hv, hne⟩ | h
  · refine absurd ?_ hne
    rw [h, foldOutput_spec _ _ _ _ hv.om0, foldOutput_spec _ _ _ _ hv.om1, trueClaim,
      mle_congr hTv (fun _ _ => rfl), mle_congr hTv (fun _ _ => rfl)]
    ring
  · exact h

theorem soundness {C : Circuit} (hwf : AddMult C) {A : ProverApi σ F}
    {p : σ} {result : ℕ → F} (hA : A.evaluate A.start = .ok (p, result))
    (hres : ∀ omr r n N, A.vRes p omr r result n N = foldOutput omr r result n N)
    (hbad : ∃ g < 2 ^ C.bl (C.depth - 1), result g ≠ value C (C.depth - 1) g)
    (tables : BetaTables F) :
    (univ.filter (fun ω : Coin C → F =>
      verify C A tables (challenges C ω) = .ok ())).card * Fintype.card F ≤
      cmtSoundnessError C * Fintype.card (Coin C → F) := by
  rw [← sum_degree]
  exact card_union univ (Event C A p result tables) id (degree C)
    (fun c _ => event_bound C A p result tables c) _
    (fun ω h => by obtain ⟨c, hc⟩ := accept_event hwf hA hres hbad h; exact ⟨c, mem_univ _, hc⟩)

end Libra.Cmt
