import Verif.Proofs.Attack
import Verif.Proofs.Counting

/-!
# Soundness of the plain protocol
-/

namespace Libra.FastTrack
open Libra Spec Finset
variable {F : Type} [CommRing F]

/-! ## the true messages -/

def zeroTabs : Tabs F := ⟨fun _ => ⟨0, 0⟩, fun _ => ⟨0, 0⟩, fun _ => ⟨0, 0⟩⟩

/-- a prover with all members 0 -/
def zeroProver : Prover F :=
  ⟨fun _ _ => 0, 0, 0, 0, 0, 0, 0, 0, 0, 0, fun _ => 0, fun _ => 0, fun _ => 0, fun _ => 0,
   zeroTabs, fun _ => 0, fun _ => 0, fun _ => 0, fun _ => 0, fun _ => 0, fun _ => 0, fun _ => 0,
   fun _ => 0⟩

/-- the honest prover at the start of layer `i` -/
def truthStart (C : Circuit) (i : ℕ) (α β : F) (r0 r1 : ℕ → F) : Prover F :=
  Prover.sumcheckInit { zeroProver with circuitValue := value C } i (C.bl i) (C.bl (i - 1))
    (C.bl (i - 1)) α β r0 r1 (oneMinus r0) (oneMinus r1)

def truthInit (C : Circuit) (i : ℕ) (α β : F) (r0 r1 : ℕ → F) : Prover F :=
  (truthStart C i α β r0 r1).phase1Init .fastTrack C

def truth1 (C : Circuit) (i : ℕ) (α β : F) (r0 r1 ru : ℕ → F) (k : ℕ) : QuadraticPoly F :=
  roundMsg (truthInit C i α β r0 r1) ru k

def truthMid (C : Circuit) (i : ℕ) (α β : F) (r0 r1 ru : ℕ → F) : Prover F :=
  match (roundState (truthInit C i α β r0 r1) ru (C.bl (i - 1))).phase2Init C
    (prevOf ru (C.bl (i - 1))) ru (oneMinus ru) with
  | .ok Q => Q
  | _ => zeroProver

def truth2 (C : Circuit) (i : ℕ) (α β : F) (r0 r1 ru rv : ℕ → F) (k : ℕ) : QuadraticPoly F :=
  roundMsg (truthMid C i α β r0 r1 ru) rv k

theorem prevOf_congr {r r' : ℕ → F} {k : ℕ} (h : ∀ j < k, r j = r' j) : prevOf r k = prevOf r' k := by
  unfold prevOf; split_ifs with h0
  · rfl
  · exact h _ (by omega)

theorem roundState_congr (P : Prover F) {r r' : ℕ → F} {k : ℕ} (h : ∀ j < k, r j = r' j) :
    roundState P r k = roundState P r' k := by
  induction k with
  | zero => rfl
  | succ k ih =>
    rw [roundState, roundState, ih (fun j hj => h j (by omega)),
      prevOf_congr (fun j hj => h j (by omega))]

theorem roundMsg_congr (P : Prover F) {r r' : ℕ → F} {k : ℕ} (h : ∀ j < k, r j = r' j) :
    roundMsg P r k = roundMsg P r' k := by
  rw [roundMsg, roundMsg, roundState_congr P h, prevOf_congr h]

/-- A sequence of true claims `c` and true messages `q` for `n` rounds. -/
structure Honest (n : ℕ) (r : ℕ → F) (q : ℕ → QuadraticPoly F) (c : ℕ → F) : Prop where
  sum : ∀ k < n, (q k).eval 0 + (q k).eval 1 = c k
  next : ∀ k < n, (q k).eval (r k) = c (k + 1)

theorem truthStart_ready (C : Circuit) (i : ℕ) (α β : F) (r0 r1 : ℕ → F) :
    Ready C i (truthStart C i α β r0 r1) :=
  ⟨fun _ _ _ _ _ => rfl, rfl, rfl, rfl, fun _ _ => rfl, fun _ _ => rfl⟩

theorem truth1_honest {C : Circuit} (hwf : WellFormed false C) {i : ℕ} (h1 : 1 ≤ i)
    (hd : i < C.depth) (α β : F) (r0 r1 ru : ℕ → F) :
    ∃ c, Honest (C.bl (i - 1)) ru (truth1 C i α β r0 r1 ru) c ∧
      c 0 = α * mle (C.bl i) (value C i) r0 + β * mle (C.bl i) (value C i) r1 ∧
      c (C.bl (i - 1)) = halfSum C i (comb (C.bl i) α β r0 r1) (eqPoly (C.bl (i - 1)) ru)
        (mle (C.bl (i - 1)) (value C (i - 1)) ru) (value C (i - 1)) +
        (α * directRelay C i r0 ru + β * directRelay C i r1 ru) *
          mle (C.bl (i - 1)) (value C (i - 1)) ru := by
  have hl := layerOk hwf h1 hd
  have hr := truthStart_ready C i α β r0 r1
  obtain ⟨ht, hV, hw, _⟩ := phase1_ready (var := .fastTrack) hr hl
  have he := fun k hk x => roundMsg_eval (P := truthInit C i α β r0 r1) ht hV ru (k := k) hk x
  refine ⟨claimAt (C.bl (i - 1)) ru (tabA (truthInit C i α β r0 r1)) (value C (i - 1))
    (tabB (truthInit C i α β r0 r1)), ⟨fun k hk => ?_, fun k hk => ?_⟩, ?_, ?_⟩
  · rw [truth1, he k hk, he k hk]; exact polyAt_sum hk _ _ _ _
  · rw [truth1, he k hk]; exact polyAt_next _ _ _ _ _ _
  · rw [claimAt_zero]; exact phase1_start (var := .fastTrack) h1 hr hd hl
  · rw [claimAt_last]
    refine (phase1_final (var := .fastTrack) hr hl _ _).trans ?_
    rw [← relayCoef_eq C i (fun h => (hl.relay h).1)]
    rfl

theorem truthMid_spec {C : Circuit} (hwf : WellFormed false C) {i : ℕ} (h1 : 1 ≤ i)
    (hd : i < C.depth) (α β : F) (r0 r1 ru rv : ℕ → F) :
    ∃ c, Honest (C.bl (i - 1)) rv (truth2 C i α β r0 r1 ru rv) c ∧
      c 0 = halfSum C i (comb (C.bl i) α β r0 r1) (eqPoly (C.bl (i - 1)) ru)
        (mle (C.bl (i - 1)) (value C (i - 1)) ru) (value C (i - 1)) ∧
      c (C.bl (i - 1)) = polySum C i (comb (C.bl i) α β r0 r1) (eqPoly (C.bl (i - 1)) ru)
        (eqPoly (C.bl (i - 1)) rv) (mle (C.bl (i - 1)) (value C (i - 1)) ru)
        (mle (C.bl (i - 1)) (value C (i - 1)) rv) := by
  have hl := layerOk hwf h1 hd
  have hr := truthStart_ready C i α β r0 r1
  obtain ⟨ht, hV, hw, _⟩ := phase1_ready (var := .fastTrack) hr hl
  have hwe : (comb (C.bl i) (truthStart C i α β r0 r1).alpha (truthStart C i α β r0 r1).beta
      (truthStart C i α β r0 r1).r0 (truthStart C i α β r0 r1).r1) = comb (C.bl i) α β r0 r1 := rfl
  rw [hwe] at hw
  have he := roundState_eq ht hV ru (le_refl _)
  have hvu := roundState_vV ht hV ru
  set P2 := roundState ((truthStart C i α β r0 r1).phase1Init .fastTrack C) ru (C.bl (i - 1)) with hP2
  obtain ⟨Q, hQ, hQe, hV3, tmpU, hU, hphi, _⟩ := phase2_ready (P := P2) hl (by rw [he]; rfl)
    (by rw [he]; rfl) (prevOf ru (C.bl (i - 1))) ru (oneMinus ru) (fun _ _ => rfl)
  have hm : truthMid C i α β r0 r1 ru = Q := by
    rw [truthMid]
    change (match P2.phase2Init C (prevOf ru (C.bl (i - 1))) ru (oneMinus ru) with
      | .ok Q => Q | _ => zeroProver) = Q
    rw [hQ]
  have htg : P2.tmpG = ((truthStart C i α β r0 r1).phase1Init .fastTrack C).tmpG := by rw [he]; rfl
  have hcv : P2.circuitValue = value C := by rw [he]; rfl
  rw [htg] at hphi
  have hV3' : ∀ k < 2 ^ C.bl (i - 1), (Q.tabs.vMultAdd k).b = value C (i - 1) k := fun k hk => by
    rw [hV3 k hk, hcv]
  have hu : Q.vU = mle (C.bl (i - 1)) (value C (i - 1)) ru := by rw [hQe]; exact hvu
  have htQ : Q.totalUv = 2 ^ C.bl (i - 1) := by rw [hQe]
  have hev := fun k hk x => roundMsg_eval htQ hV3' rv (k := k) hk x
  refine ⟨claimAt (C.bl (i - 1)) rv (tabA Q) (value C (i - 1)) (tabB Q),
    ⟨fun k hk => ?_, fun k hk => ?_⟩, ?_, ?_⟩
  · rw [truth2, hm, hev k hk, hev k hk]; exact polyAt_sum hk _ _ _ _
  · rw [truth2, hm, hev k hk]; exact polyAt_next _ _ _ _ _ _
  · rw [claimAt_zero, phase2_start hl hw hU hphi, hu]
  · rw [claimAt_last, phase2_final hl hw hU hphi, hu]

/-! ## one sumcheck phase with an arbitrary prover -/

variable [DecidableEq F] {σ : Type}

theorem phase1_sound (A : ProverApi σ F) {n : ℕ} {ru : ℕ → F} {q : ℕ → QuadraticPoly F} {c : ℕ → F}
    (hq : Honest n ru q c) {p : σ} {sum : F} {t : σ × F × F}
    (h : loopM n (round1 A ru) (p, sum, 0) = .ok t) (hne : sum ≠ c 0) :
    t.2.1 ≠ c n ∨ ∃ k < n, ∃ st, loopM k (round1 A ru) (p, sum, 0) = .ok st ∧
      (A.phase1Update st.1 st.2.2 k).2 ≠ q k ∧
      (A.phase1Update st.1 st.2.2 k).2.eval (ru k) = (q k).eval (ru k) := by
  have key : ∀ m ≤ n, ∀ t, loopM m (round1 A ru) (p, sum, 0) = .ok t →
      t.2.1 ≠ c m ∨ ∃ k < m, ∃ st, loopM k (round1 A ru) (p, sum, 0) = .ok st ∧
      (A.phase1Update st.1 st.2.2 k).2 ≠ q k ∧
      (A.phase1Update st.1 st.2.2 k).2.eval (ru k) = (q k).eval (ru k) := by
    intro m
    induction m with
    | zero => intro _ t ht; cases ht; exact .inl hne
    | succ m ih =>
      intro hm t ht
      obtain ⟨s, e1, e2⟩ := Outcome.bind_eq_ok ht
      rcases ih (by omega) s e1 with hs | ⟨k, hk, st, hst⟩
      · rw [round1] at e2
        obtain ⟨_, e3, e4⟩ := Outcome.bind_eq_ok' e2
        cases e4
        have e3 := Outcome.check_ok_iff.1 e3
        rw [beq_iff_eq] at e3
        have hpq : (A.phase1Update s.1 s.2.2 m).2 ≠ q m := by
          intro hh
          rw [hh, hq.sum m (by omega)] at e3
          exact hs e3.symm
        by_cases hh : (A.phase1Update s.1 s.2.2 m).2.eval (ru m) = (q m).eval (ru m)
        · exact .inr ⟨m, by omega, s, e1, hpq, hh⟩
        · left
          dsimp only
          rw [← hq.next m (by omega)]; exact hh
      · exact .inr ⟨k, by omega, st, hst⟩
  exact key n le_rfl t h

theorem phase2_sound (fixed : Bool) (A : ProverApi σ F) {n i : ℕ} (hi : i ≠ 1) {rv : ℕ → F}
    {q : ℕ → QuadraticPoly F} {c : ℕ → F}
    (hq : Honest n rv q c) {p : σ} {sum : F} {t : σ × F × F}
    (h : loopM n (round2 fixed A i rv 0) (p, sum, 0) = .ok t) (hne : sum ≠ c 0) :
    t.2.1 ≠ c n ∨ ∃ k < n, ∃ st, loopM k (round2 fixed A i rv 0) (p, sum, 0) = .ok st ∧
      (A.phase2Update st.1 st.2.2 k).2 ≠ q k ∧
      (A.phase2Update st.1 st.2.2 k).2.eval (rv k) = (q k).eval (rv k) := by
  have key : ∀ m ≤ n, ∀ t, loopM m (round2 fixed A i rv 0) (p, sum, 0) = .ok t →
      t.2.1 ≠ c m ∨ ∃ k < m, ∃ st, loopM k (round2 fixed A i rv 0) (p, sum, 0) = .ok st ∧
      (A.phase2Update st.1 st.2.2 k).2 ≠ q k ∧
      (A.phase2Update st.1 st.2.2 k).2.eval (rv k) = (q k).eval (rv k) := by
    intro m
    induction m with
    | zero => intro _ t ht; cases ht; exact .inl hne
    | succ m ih =>
      intro hm t ht
      obtain ⟨s, e1, e2⟩ := Outcome.bind_eq_ok ht
      rcases ih (by omega) s e1 with hs | ⟨k, hk, st, hst⟩
      · simp only [round2, if_neg hi, zero_mul, add_zero] at e2
        obtain ⟨_, e3, e4⟩ := Outcome.bind_eq_ok' e2
        obtain ⟨_, e5, e4⟩ := Outcome.bind_eq_ok' e4
        cases e4
        have e3 := Outcome.check_ok_iff.1 e3
        rw [beq_iff_eq] at e3
        have hpq : (A.phase2Update s.1 s.2.2 m).2 ≠ q m := by
          intro hh
          rw [hh, hq.sum m (by omega)] at e3
          exact hs e3.symm
        by_cases hh : (A.phase2Update s.1 s.2.2 m).2.eval (rv m) = (q m).eval (rv m)
        · exact .inr ⟨m, by omega, s, e1, hpq, hh⟩
        · left
          dsimp only
          rw [← hq.next m (by omega)]; exact hh
      · exact .inr ⟨k, by omega, st, hst⟩
  exact key n le_rfl t h

/-! ## one layer -/

/-- phase 1 and the initialisation of phase 2 -/
def pre2 (C : Circuit) (A : ProverApi σ F) (i : ℕ) (ru : ℕ → F) (s : VState σ F) :
    Outcome (σ × F × F) := do
  let n := C.bl (i - 1)
  let t ← loopM n (round1 A ru) (A.phase1Init (A.sumcheckInit s.prover i (C.bl i) n n s.alpha s.beta
    s.r0 s.r1 s.omr0 s.omr1), s.sum, 0)
  let p ← A.phase2Init t.1 t.2.2 ru (oneMinus ru)
  return (p, t.2.1, 0)

/-- the coefficient of the relay term -/
def relayOf (C : Circuit) (i : ℕ) (ru : ℕ → F) (s : VState σ F) : F :=
  s.alpha * directRelay C i s.r0 ru + s.beta * directRelay C i s.r1 ru

/-- what a layer that is accepted has passed -/
theorem layerStep_ok {fixed : Bool} {C : Circuit} {A : ProverApi σ F} {ch : Challenges F} {i : ℕ}
    {s s' : VState σ F} (hl : LayerOk false C i) (h : layerStep fixed C A ch i s = .ok s') :
    ∃ b st, pre2 C A i (ch.ru i) s = .ok b ∧
      loopM (C.bl (i - 1)) (round2 fixed A i (ch.rv i) (relayOf C i (ch.ru i) s)) b = .ok st ∧
      let vu := (A.finalize st.1 st.2.2).2.1
      let vv := (A.finalize st.1 st.2.2).2.2
      let rv := fun j => if i = 1 then 0 else ch.rv i j
      let T := betaInit C s.tables i s.alpha s.beta s.r0 s.r1 (ch.ru i) rv s.omr0 s.omr1
        (oneMinus (ch.ru i)) (oneMinus (ch.rv i))
      st.2.1 = polySum C i (fun g => T.g0 g + T.g1 g) T.u T.v vu vv + relayOf C i (ch.ru i) s * vu ∧
      s'.alpha = ch.alpha i ∧ s'.beta = ch.beta i ∧ s'.r0 = ch.ru i ∧ s'.r1 = rv ∧
      s'.omr0 = oneMinus (ch.ru i) ∧ s'.omr1 = oneMinus (ch.rv i) ∧
      s'.sum = if i ≠ 1 then ch.alpha i * vu + ch.beta i * vv else vu := by
  rw [layerStep] at h
  obtain ⟨⟨t1, t2, t3⟩, e1, h⟩ := Outcome.bind_eq_ok' h
  obtain ⟨p, e2, h⟩ := Outcome.bind_eq_ok' h
  obtain ⟨⟨q1, q2, q3⟩, e3, h⟩ := Outcome.bind_eq_ok' h
  refine ⟨(p, t2, 0), (q1, q2, q3), ?_, e3, ?_⟩
  · rw [pre2]
    change (loopM _ _ _ >>= _) = _
    rw [e1, Outcome.ok_bind]
    change (A.phase2Init t1 t3 _ _ >>= _) = _
    rw [e2, Outcome.ok_bind]
    rfl
  intro vu vv rv T
  obtain ⟨notV', relayV', e6, e10, hpred⟩ := predicates_eq hl T
  obtain ⟨notV, f6, h⟩ := Outcome.bind_eq_ok' h
  obtain ⟨relayV, f10, h⟩ := Outcome.bind_eq_ok' h
  obtain ⟨_, hc, h⟩ := Outcome.bind_eq_ok' h
  have : notV = notV' := by
    have := f6.symm.trans e6
    cases this; rfl
  subst this
  have : relayV = relayV' := by
    have := f10.symm.trans e10
    cases this; rfl
  subst this
  have hc := Outcome.check_ok_iff.1 hc
  rw [beq_iff_eq] at hc
  cases h
  refine ⟨?_, rfl, rfl, rfl, rfl, rfl, rfl, rfl⟩
  rw [← hpred]
  exact hc

/-- what the verifier keeps about its own variables before layer `i` -/
structure VInv (C : Circuit) (i : ℕ) (s : VState σ F) : Prop where
  om0 : ∀ j < C.bl i, s.omr0 j = 1 - s.r0 j
  om1 : i ≠ 0 → ∀ j < C.bl i, s.omr1 j = 1 - s.r1 j

/-- the true value of the claim before layer `i` -/
def trueClaim (C : Circuit) (i : ℕ) (s : VState σ F) : F :=
  s.alpha * mle (C.bl i) (value C i) s.r0 + s.beta * mle (C.bl i) (value C i) s.r1

/-- The prover is lucky with the challenge of round `k` of phase 1. -/
def Lucky1 (C : Circuit) (A : ProverApi σ F) (i k : ℕ) (ru : ℕ → F) (s : VState σ F) : Prop :=
  ∃ st, loopM k (round1 A ru) (A.phase1Init (A.sumcheckInit s.prover i (C.bl i) (C.bl (i - 1))
      (C.bl (i - 1)) s.alpha s.beta s.r0 s.r1 s.omr0 s.omr1), s.sum, 0) = .ok st ∧
    (A.phase1Update st.1 st.2.2 k).2 ≠ truth1 C i s.alpha s.beta s.r0 s.r1 ru k ∧
    (A.phase1Update st.1 st.2.2 k).2.eval (ru k) =
      (truth1 C i s.alpha s.beta s.r0 s.r1 ru k).eval (ru k)

/-- The prover is lucky with the challenge of round `k` of phase 2. -/
def Lucky2 (fixed : Bool) (C : Circuit) (A : ProverApi σ F) (i k : ℕ) (ru rv : ℕ → F)
    (s : VState σ F) : Prop :=
  ∃ b, pre2 C A i ru s = .ok b ∧ ∃ st, loopM k (round2 fixed A i rv (relayOf C i ru s)) b = .ok st ∧
    (A.phase2Update st.1 st.2.2 k).2 ≠ truth2 C i s.alpha s.beta s.r0 s.r1 ru rv k ∧
    (A.phase2Update st.1 st.2.2 k).2.eval (rv k) =
      (truth2 C i s.alpha s.beta s.r0 s.r1 ru rv k).eval (rv k)

/-- The two claims at the end of the layer: their errors. -/
def errors (fixed : Bool) (C : Circuit) (A : ProverApi σ F) (i : ℕ) (ru rv : ℕ → F)
    (s : VState σ F) : Outcome (F × F) := do
  let b ← pre2 C A i ru s
  let st ← loopM (C.bl (i - 1)) (round2 fixed A i rv (relayOf C i ru s)) b
  return ((A.finalize st.1 st.2.2).2.1 - mle (C.bl (i - 1)) (value C (i - 1)) ru,
    (A.finalize st.1 st.2.2).2.2 - mle (C.bl (i - 1)) (value C (i - 1)) rv)

/-- The prover is lucky with `alpha`, resp. `beta`. -/
def LuckyA (fixed : Bool) (C : Circuit) (A : ProverApi σ F) (i : ℕ) (ru rv : ℕ → F) (α β : F)
    (s : VState σ F) : Prop :=
  ∃ e, errors fixed C A i ru rv s = .ok e ∧ e.1 ≠ 0 ∧ α * e.1 + β * e.2 = 0

def LuckyB (fixed : Bool) (C : Circuit) (A : ProverApi σ F) (i : ℕ) (ru rv : ℕ → F) (β : F)
    (s : VState σ F) : Prop :=
  ∃ e, errors fixed C A i ru rv s = .ok e ∧ e.2 ≠ 0 ∧ β * e.2 = 0

theorem layer_vinv {fixed : Bool} {C : Circuit} {A : ProverApi σ F} {ch : Challenges F} {i : ℕ}
    {s s' : VState σ F} (hl : LayerOk false C i) (h1 : 1 ≤ i)
    (h : layerStep fixed C A ch i s = .ok s') : VInv C (i - 1) s' := by
  obtain ⟨b, st, e1, e2, hfin, -, -, a3, a4, a5, a6, -⟩ := layerStep_ok hl h
  refine ⟨fun j _ => by rw [a5, a3]; rfl, fun h0 j _ => ?_⟩
  rw [a6, a4]
  simp [oneMinus, show i ≠ 1 by omega]

/-- a false claim stays false, or the prover is lucky: layers above layer 1 -/
theorem layer_sound {fixed : Bool} {C : Circuit} (hwf : WellFormed false C) {A : ProverApi σ F}
    {ch : Challenges F} {i : ℕ} (h2 : 2 ≤ i) (hd : i < C.depth) {s s' : VState σ F}
    (hs : VInv C i s) (h : layerStep fixed C A ch i s = .ok s') (hne : s.sum ≠ trueClaim C i s) :
    s'.sum ≠ trueClaim C (i - 1) s' ∨
    (∃ k < C.bl (i - 1), Lucky1 C A i k (ch.ru i) s) ∨
    (∃ k < C.bl (i - 1), Lucky2 fixed C A i k (ch.ru i) (ch.rv i) s) ∨
    LuckyA fixed C A i (ch.ru i) (ch.rv i) (ch.alpha i) (ch.beta i) s ∨
    LuckyB fixed C A i (ch.ru i) (ch.rv i) (ch.beta i) s := by
  have hl := layerOk hwf (show 1 ≤ i by omega) hd
  have hi1 : i ≠ 1 := by omega
  obtain ⟨b, st, e1, e2, hfin, a1, a2, a3, a4, a5, a6, a7⟩ := layerStep_ok hl h
  obtain ⟨c, hc, c0, cn⟩ := truth1_honest hwf (show 1 ≤ i by omega) hd s.alpha s.beta s.r0 s.r1
    (ch.ru i)
  obtain ⟨d, hdd, d0, dn⟩ := truthMid_spec hwf (show 1 ≤ i by omega) hd s.alpha s.beta s.r0 s.r1
    (ch.ru i) (ch.rv i)
  have hrelay : relayOf C i (ch.ru i) s = 0 := by simp [relayOf, directRelay, hi1]
  have e1' := e1
  rw [pre2] at e1'
  obtain ⟨t, f1, e1'⟩ := Outcome.bind_eq_ok' e1'
  obtain ⟨p, f2, e1'⟩ := Outcome.bind_eq_ok' e1'
  cases e1'
  rcases phase1_sound A hc f1 (by rw [c0]; exact hne) with ht | ⟨k, hk, st', g1, g2, g3⟩
  swap
  · exact .inr (.inl ⟨k, hk, st', g1, g2, g3⟩)
  have e2' := e2
  rw [hrelay] at e2'
  have hcd : c (C.bl (i - 1)) = d 0 := by
    rw [cn, d0]; simp [directRelay, hi1]
  rcases phase2_sound fixed A hi1 hdd e2' (by rw [← hcd]; exact ht) with hq | ⟨k, hk, st', g1, g2, g3⟩
  swap
  · exact .inr (.inr (.inl ⟨k, hk, _, e1, st', by rw [hrelay]; exact g1, g2, g3⟩))
  set eu := (A.finalize st.1 st.2.2).2.1 - mle (C.bl (i - 1)) (value C (i - 1)) (ch.ru i) with heu
  set ev := (A.finalize st.1 st.2.2).2.2 - mle (C.bl (i - 1)) (value C (i - 1)) (ch.rv i) with hev
  have herr : errors fixed C A i (ch.ru i) (ch.rv i) s = .ok (eu, ev) := by
    rw [errors, e1, Outcome.ok_bind, e2, Outcome.ok_bind]; rfl
  have hne2 : eu ≠ 0 ∨ ev ≠ 0 := by
    by_contra hcon
    simp only [not_or, not_not] at hcon
    have h3 := sub_eq_zero.1 hcon.1
    have h4 := sub_eq_zero.1 hcon.2
    apply hq
    rw [hfin, hrelay, zero_mul, add_zero, h3, h4, dn]
    obtain ⟨b1, b2, b3⟩ := betaInit_spec C s.tables i s.alpha s.beta s.r0 s.r1 (ch.ru i)
      (fun j => if i = 1 then 0 else ch.rv i j) s.omr0 s.omr1
      (oneMinus (ch.ru i)) (oneMinus (ch.rv i)) hs.om0 (hs.om1 (by omega)) (fun _ _ => rfl)
    have b3' := b3 (fun j _ => by simp [oneMinus, hi1])
    have hrv : (fun j => if i = 1 then 0 else ch.rv i j) = ch.rv i := by simp [hi1]
    exact polySum_tables hl b1 b2 (fun _ k hk => by rw [b3' k hk, hrv]) _ _
  have hrv : (fun j => if i = 1 then 0 else ch.rv i j) = ch.rv i := by simp [hi1]
  have hdiff : s'.sum - trueClaim C (i - 1) s' = ch.alpha i * eu + ch.beta i * ev := by
    rw [a7, if_pos hi1, trueClaim, a1, a2, a3, a4, hrv, heu, hev]; ring
  by_cases hz : ch.alpha i * eu + ch.beta i * ev = 0
  · right; right; right
    by_cases h0 : eu = 0
    · right
      refine ⟨_, herr, ?_, ?_⟩
      · rcases hne2 with h | h
        · exact absurd h0 h
        · exact h
      · rw [h0, mul_zero, zero_add] at hz; exact hz
    · exact .inl ⟨_, herr, h0, hz⟩
  · left
    intro hcon
    exact hz (by rw [← hdiff, hcon, sub_self])

/-- in layer 1 with the additional check: the claim about the inputs stays false -/
theorem layer_one_sound {C : Circuit} (hwf : WellFormed false C) {A : ProverApi σ F}
    {ch : Challenges F} {s s' : VState σ F}
    (h : layerStep true C A ch 1 s = .ok s') (hne : s.sum ≠ trueClaim C 1 s) :
    s'.sum ≠ mle (C.bl 0) (value C 0) s'.r0 ∨ ∃ k < C.bl 0, Lucky1 C A 1 k (ch.ru 1) s := by
  have hd : 1 < C.depth := hwf.deep
  have hl := layerOk hwf le_rfl hd
  obtain ⟨b, st, e1, e2, hfin, a1, a2, a3, a4, a5, a6, a7⟩ := layerStep_ok hl h
  obtain ⟨c, hc, c0, cn⟩ := truth1_honest hwf le_rfl hd s.alpha s.beta s.r0 s.r1 (ch.ru 1)
  rw [pre2] at e1
  obtain ⟨t, f1, e1⟩ := Outcome.bind_eq_ok' e1
  obtain ⟨p, f2, e1⟩ := Outcome.bind_eq_ok' e1
  cases e1
  rcases phase1_sound A hc f1 (by rw [c0]; exact hne) with ht | ⟨k, hk, st', g1, g2, g3⟩
  swap
  · exact .inr ⟨k, hk, st', g1, g2, g3⟩
  left
  have hhalf : ∀ w ex a V, halfSum C 1 w ex a V = (0 : F) := by
    intro w ex a V
    refine sum_eq_zero (fun g hg => ?_)
    rw [(hl.relay rfl).2 g (mem_range.1 hg)]
    simp [gateHalf]
  rw [cn, hhalf, zero_add] at ht
  set relay := relayOf C 1 (ch.ru 1) s with hrel
  rw [polySum_one hl rfl, zero_add] at hfin
  -- the claim never changes in phase 2
  have key : ∀ m, ∀ st, loopM m (round2 true A 1 (ch.rv 1) relay) (p, t.2.1, 0) = .ok st →
      st.2.1 = t.2.1 := by
    intro m
    induction m with
    | zero => intro st hst; cases hst; rfl
    | succ m ih =>
      intro st hst
      obtain ⟨u, g1, g2⟩ := Outcome.bind_eq_ok hst
      simp only [round2] at g2
      obtain ⟨_, g3, g2⟩ := Outcome.bind_eq_ok' g2
      obtain ⟨_, g4, g2⟩ := Outcome.bind_eq_ok' g2
      cases g2
      have g3 := Outcome.check_ok_iff.1 g3
      have g4 := Outcome.check_ok_iff.1 g4
      rw [beq_iff_eq] at g3
      have g4 : (A.phase2Update u.1 u.2.2 m).2 = ⟨0, 0, 0⟩ := by simpa using g4
      rw [g4] at g3 ⊢
      rw [← ih u g1, ← g3]
      simp [QuadraticPoly.eval]
  have hst := key _ _ e2
  rw [a7, a3, if_neg (by omega)]
  intro hcon
  apply ht
  change t.2.1 = relay * mle (C.bl 0) (value C 0) (ch.ru 1)
  rw [← hst, hfin, hcon]

end Libra.FastTrack
