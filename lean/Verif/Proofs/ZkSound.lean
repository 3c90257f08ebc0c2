import Verif.Proofs.ZkTruth

/-!
# One layer of the repaired zero-knowledge verifier
-/

namespace Libra.Zk
open Libra Spec Finset FastTrack Props
variable {F : Type} [CommRing F]

/-- A sum-check with an arbitrary prover: `m` are the messages, `T` the true ones, `c` the true claims,
`e` a part of the claim that the messages leave out. -/
theorem chain {τ : Type} {n : ℕ} {body : ℕ → τ → Outcome τ} {sumOf : τ → F} {m : ℕ → τ → F → F}
    {r : ℕ → F} {e : F} {T : ℕ → F → F} {c : ℕ → F}
    (hb : ∀ j < n, ∀ s t, body j s = .ok t → m j s 0 + m j s 1 + e = sumOf s ∧ sumOf t = m j s (r j) + e)
    (hsum : ∀ k < n, T k 0 + T k 1 = c k) (hnext : ∀ k < n, T k (r k) = c (k + 1))
    {s0 t : τ} (h : loopM n body s0 = .ok t) (hne : sumOf s0 ≠ c 0 + e) :
    sumOf t ≠ c n + e ∨ ∃ k < n, ∃ st, loopM k body s0 = .ok st ∧ m k st ≠ T k ∧ m k st (r k) = T k (r k) := by
  have key : ∀ l ≤ n, ∀ t, loopM l body s0 = .ok t → sumOf t ≠ c l + e ∨
      ∃ k < l, ∃ st, loopM k body s0 = .ok st ∧ m k st ≠ T k ∧ m k st (r k) = T k (r k) := by
    intro l
    induction l with
    | zero => intro _ t ht; cases ht; exact .inl hne
    | succ l ih =>
      intro hl t ht
      obtain ⟨s, e1, e2⟩ := Outcome.bind_eq_ok ht
      rcases ih (by omega) s e1 with hs | ⟨k, hk, st, hst⟩
      · obtain ⟨h1, h2⟩ := hb l (by omega) s t e2
        have hpq : m l s ≠ T l := by
          intro hh
          rw [hh, hsum l (by omega)] at h1
          exact hs h1.symm
        by_cases hh : m l s (r l) = T l (r l)
        · exact .inr ⟨l, by omega, s, e1, hpq, hh⟩
        · left
          rw [h2, ← hnext l (by omega)]
          exact fun hc => hh (add_right_cancel hc)
      · exact .inr ⟨k, by omega, st, hst⟩
  exact key n le_rfl t h

variable {G1 G2 GT : Type} [AddCommGroup G1] [AddCommGroup G2] [AddCommGroup GT]
  [Module (ZMod p) G1] [Module (ZMod p) G2] [Module (ZMod p) GT] [Gmp F]
  [DecidableEq F] [DecidableEq GT] {σ : Type}

/-- the message of round `k` of phase 1, as a function of the point -/
def m1 (A : ProverApi σ F G1 G2) (n k : ℕ) (st : σ × F × F) (x : F) : F :=
  if k + 1 = n then (A.phase1Last st.1 st.2.2 k).2.eval x else (A.phase1Update st.1 st.2.2 k).2.eval x

@[inherit_doc m1]
def m2 (A : ProverApi σ F G1 G2) (n k : ℕ) (st : σ × F × F) (x : F) : F :=
  if k + 1 = n then (A.phase2Last st.1 st.2.2 k).2.eval x else (A.phase2Update st.1 st.2.2 k).2.eval x

omit [AddCommGroup G1] [AddCommGroup G2] [Module (ZMod p) G1] [Module (ZMod p) G2] [Gmp F] in
theorem round1_body (A : ProverApi σ F G1 G2) (n : ℕ) (ru : ℕ → F) :
    ∀ j < n, ∀ s t, round1 A n ru j s = .ok t → m1 A n j s 0 + m1 A n j s 1 + 0 = s.2.1 ∧
      t.2.1 = m1 A n j s (ru j) + 0 := by
  intro j _ s t h
  rw [round1] at h
  simp only [m1]
  split_ifs at h ⊢ with hj
  all_goals
    obtain ⟨_, e1, h⟩ := Outcome.bind_eq_ok' h
    cases h
    have e1 := Outcome.check_ok_iff.1 e1
    rw [beq_iff_eq] at e1
    exact ⟨by rw [add_zero]; exact e1, by rw [add_zero]⟩

omit [AddCommGroup G1] [AddCommGroup G2] [Module (ZMod p) G1] [Module (ZMod p) G2] [Gmp F] in
theorem round2_body (A : ProverApi σ F G1 G2) (n : ℕ) (rv : ℕ → F) (relay vu : F) :
    ∀ j < n, ∀ s t, round2Fixed A n rv relay vu j s = .ok t →
      m2 A n j s 0 + m2 A n j s 1 + relay * vu = s.2.1 ∧ t.2.1 = m2 A n j s (rv j) + relay * vu := by
  intro j _ s t h
  rw [round2Fixed] at h
  obtain ⟨u, e0, h⟩ := Outcome.bind_eq_ok' h
  obtain ⟨_, e2, h⟩ := Outcome.bind_eq_ok' h
  cases h
  have e2 := Outcome.check_ok_iff.1 e2
  rw [beq_iff_eq] at e2
  rw [round2] at e0
  simp only [m2, if_neg (show ¬ (2 : ℕ) = 1 by omega)] at e0 ⊢
  split_ifs at e0 ⊢ with hj
  all_goals
    obtain ⟨_, e1, e0⟩ := Outcome.bind_eq_ok' e0
    cases e0
    have e1 := Outcome.check_ok_iff.1 e1
    rw [beq_iff_eq] at e1
    dsimp only at e2
    rw [e2] at e1 ⊢
    exact ⟨e1, rfl⟩

/-! ## the parts of a layer -/

/-- the masks of layer `i`, given what is committed in it; `a` is any state of the prover -/
def truthMasks (C : Circuit) (X : Committed σ F) (a : σ) (i : ℕ) (r0 r1 R g : ℕ → F) (rho : F) : Masks F where
  R := R
  x0 := r0 (C.bl i - 1)
  Z0 := maskFactor C i r0
  x1 := r1 (C.bl i - 1)
  Z1 := maskFactor C i r1
  S x := if i = 1 then X.inputMask 0 + X.inputMask 1 * x
    else maskRPoly (X.R (i - 1) a) x 0 + maskRPoly (X.R (i - 1) a) x 1
  g := g
  rho := rho

/-- everything before the rounds of layer `i` -/
def start1 (C : Circuit) (A : ProverApi σ F G1 G2) (X : Committed σ F) (i : ℕ) (rho : F) (s : VState σ F) :
    Outcome (σ × F × Masks F) := do
  let n := C.bl (i - 1)
  let (p, _) ← A.sumcheckInit s.prover i (C.bl i) n n s.alpha s.beta s.r0 s.r1 s.omr0 s.omr1
  let R := X.R i p
  let (p, _) ← A.maskPreRho p (n * 2 + 1)
  let g := X.mask p
  let p := A.setRho p rho
  let p := A.maskAfterRho p (n * 2 + 1)
  Outcome.check (A.sumc p == ∑ b ∈ range (2 ^ (2 * n + 1)), rho * sumMaskPoly (2 * n + 1) g (corner b))
  return (A.phase1Init p, s.sum + A.sumc p, truthMasks C X A.start i s.r0 s.r1 R g rho)

/-- phase 1 and the initialisation of phase 2 -/
def pre2 (C : Circuit) (A : ProverApi σ F G1 G2) (X : Committed σ F) (i : ℕ) (rho : F) (ru : ℕ → F)
    (s : VState σ F) : Outcome (σ × F × Masks F) := do
  let a ← start1 C A X i rho s
  let t ← loopM (C.bl (i - 1)) (round1 A (C.bl (i - 1)) ru) (a.1, a.2.1, 0)
  let p ← A.phase2Init t.1 t.2.2 ru (oneMinus ru)
  return (p, t.2.1, a.2.2)

/-- the coefficient of the relay term -/
def relayOf (C : Circuit) (i : ℕ) (ru : ℕ → F) (s : VState σ F) : F :=
  s.alpha * directRelay C i s.r0 ru + s.beta * directRelay C i s.r1 ru

/-- up to the end of phase 2 -/
def pre3 (C : Circuit) (A : ProverApi σ F G1 G2) (X : Committed σ F) (i : ℕ) (rho : F) (ru rv : ℕ → F)
    (s : VState σ F) : Outcome ((σ × F × F) × F × Masks F) := do
  let b ← pre2 C A X i rho ru s
  let st ← loopM (C.bl (i - 1)) (round2Fixed A (C.bl (i - 1)) rv (relayOf C i ru s) (A.vU b.1)) (b.1, b.2.1, 0)
  return (st, A.vU b.1, b.2.2)

/-- the two claims about the layer below -/
def claims (A : ProverApi σ F G1 G2) (st : σ × F × F) : F × F := (A.finalize st.1 st.2.2).2

/-- the predicates at the point of the layer -/
def predsOf (C : Circuit) (i : ℕ) (ru rv : ℕ → F) (s : VState σ F) : Outcome (ℕ → F) :=
  predicates C (betaInit C s.tables i s.alpha s.beta s.r0 s.r1 ru rv s.omr0 s.omr1 (oneMinus ru) (oneMinus rv))
    i s.r0 s.r1 ru rv

/-- the last message of the layer -/
def m3 (C : Circuit) (A : ProverApi σ F G1 G2) (i : ℕ) (st : σ × F × F) (pv : ℕ → F) (x : F) : F :=
  (A.finalround (A.finalize st.1 st.2.2).1 st.2.2 (C.bl (i - 1) <<< 1)
    (general pv (claims A st).1 (claims A st).2)).2.eval x

/-- what an accepted layer has passed -/
theorem layerStepFixed_ok {E : Pairing G1 G2 GT} {C : Circuit} {A : ProverApi σ F G1 G2} {X : Committed σ F}
    (hX : X.Early) {ch : Challenges F} {i : ℕ} {s s' : VState σ F}
    (h : layerStepFixed E C A X ch i s = .ok s') :
    ∃ a t b st u M pv, start1 C A X i (ch.rho i) s = .ok a ∧
      loopM (C.bl (i - 1)) (round1 A (C.bl (i - 1)) (ch.ru i)) (a.1, a.2.1, 0) = .ok t ∧
      pre2 C A X i (ch.rho i) (ch.ru i) s = .ok b ∧ b.2.1 = t.2.1 ∧ b.2.2 = a.2.2 ∧ A.vU b.1 = u ∧
      loopM (C.bl (i - 1)) (round2Fixed A (C.bl (i - 1)) (ch.rv i) (relayOf C i (ch.ru i) s) u)
        (b.1, b.2.1, 0) = .ok st ∧
      pre3 C A X i (ch.rho i) (ch.ru i) (ch.rv i) s = .ok (st, u, M) ∧ M = a.2.2 ∧
      (∃ g, M = truthMasks C X A.start i s.r0 s.r1 (X.R i A.start) g (ch.rho i)) ∧
      a.2.1 = s.sum + ∑ b ∈ range (2 ^ (2 * C.bl (i - 1) + 1)), M.rho *
        sumMaskPoly (2 * C.bl (i - 1) + 1) M.g (corner b) ∧
      (claims A st).1 = u ∧ predsOf C i (ch.ru i) (ch.rv i) s = .ok pv ∧
      m3 C A i st pv 0 + m3 C A i st pv 1 + relayOf C i (ch.ru i) s * u = st.2.1 ∧
      m3 C A i st pv (ch.rc i) = (∏ j ∈ range (C.bl (i - 1)), (1 - ch.ru i j)) *
          (∏ j ∈ range (C.bl (i - 1)), (1 - ch.rv i j)) *
          (s.alpha * M.Z0 * maskRPoly M.R M.x0 (ch.rc i) + s.beta * M.Z1 * maskRPoly M.R M.x1 (ch.rc i))
        + ch.rc i * general pv u (claims A st).2
        + M.rho * sumMaskPoly (2 * C.bl (i - 1) + 1) M.g (joinPoint (C.bl (i - 1)) (ch.ru i) (ch.rv i) (ch.rc i)) ∧
      s'.alpha = ch.alpha i ∧ s'.beta = ch.beta i ∧ s'.r0 = ch.ru i ∧ s'.r1 = ch.rv i ∧
      s'.omr0 = oneMinus (ch.ru i) ∧ s'.omr1 = oneMinus (ch.rv i) ∧
      s'.sum = if i ≠ 1 then ch.alpha i * u + ch.beta i * (claims A st).2 else u := by
  rw [layerStepFixed] at h
  obtain ⟨⟨p1, dR⟩, e1, h⟩ := Outcome.bind_eq_ok' h
  obtain ⟨⟨p2, dM⟩, e2, h⟩ := Outcome.bind_eq_ok' h
  obtain ⟨_, e3, h⟩ := Outcome.bind_eq_ok' h
  obtain ⟨⟨t1, t2, t3⟩, e4, h⟩ := Outcome.bind_eq_ok' h
  obtain ⟨p3, e5, h⟩ := Outcome.bind_eq_ok' h
  obtain ⟨⟨q1, q2, q3⟩, e6, h⟩ := Outcome.bind_eq_ok' h
  obtain ⟨_, e7, h⟩ := Outcome.bind_eq_ok' h
  obtain ⟨pv, e8, h⟩ := Outcome.bind_eq_ok' h
  obtain ⟨_, e9, h⟩ := Outcome.bind_eq_ok' h
  obtain ⟨_, e10, h⟩ := Outcome.bind_eq_ok' h
  obtain ⟨_, e11, h⟩ := Outcome.bind_eq_ok' h
  obtain ⟨⟨p4, o1⟩, e12, h⟩ := Outcome.bind_eq_ok' h
  obtain ⟨v1, e13, h⟩ := Outcome.bind_eq_ok' h
  obtain ⟨_, e14, h⟩ := Outcome.bind_eq_ok' h
  obtain ⟨_, e15, h⟩ := Outcome.bind_eq_ok' h
  obtain ⟨⟨p5, o2⟩, e16, h⟩ := Outcome.bind_eq_ok' h
  obtain ⟨v2, e17, h⟩ := Outcome.bind_eq_ok' h
  obtain ⟨_, e18, h⟩ := Outcome.bind_eq_ok' h
  obtain ⟨_, e19, h⟩ := Outcome.bind_eq_ok' h
  obtain ⟨⟨p6, o3⟩, e20, h⟩ := Outcome.bind_eq_ok' h
  obtain ⟨v3, e21, h⟩ := Outcome.bind_eq_ok' h
  obtain ⟨_, e22, h⟩ := Outcome.bind_eq_ok' h
  obtain ⟨_, e23, h⟩ := Outcome.bind_eq_ok' h
  obtain ⟨_, e24, h⟩ := Outcome.bind_eq_ok' h
  obtain ⟨_, e25, h⟩ := Outcome.bind_eq_ok' h
  obtain ⟨_, e26, h⟩ := Outcome.bind_eq_ok' h
  cases h
  set n := C.bl (i - 1) with hn
  have c3 := Outcome.check_ok_iff.1 e3
  rw [beq_iff_eq] at c3
  have c7 := Outcome.check_ok_iff.1 e7
  rw [beq_iff_eq] at c7
  have c9 := Outcome.check_ok_iff.1 e9
  rw [beq_iff_eq] at c9
  have c10 := Outcome.check_ok_iff.1 e10
  rw [beq_iff_eq] at c10
  have c14 := Outcome.check_ok_iff.1 e14
  have c18 := Outcome.check_ok_iff.1 e18
  have c22 := Outcome.check_ok_iff.1 e22
  rw [beq_iff_eq] at c22
  have c24 := Outcome.check_ok_iff.1 e24
  rw [beq_iff_eq] at c24
  have c25 := Outcome.check_ok_iff.1 e25
  rw [Bool.and_eq_true, beq_iff_eq, beq_iff_eq] at c25
  have c26 := Outcome.check_ok_iff.1 e26
  rw [beq_iff_eq] at c26
  rw [Bool.or_eq_true, beq_iff_eq, beq_iff_eq] at c14 c18
  have hs1 : start1 C A X i (ch.rho i) s = .ok (A.phase1Init (A.maskAfterRho (A.setRho p2 (ch.rho i)) (n * 2 + 1)),
      s.sum + A.sumc (A.maskAfterRho (A.setRho p2 (ch.rho i)) (n * 2 + 1)),
      truthMasks C X A.start i s.r0 s.r1 (X.R i p1) (X.mask p2) (ch.rho i)) := by
    rw [start1]
    rw [e1, Outcome.ok_bind]
    change (A.maskPreRho _ _ >>= _) = _
    rw [e2, Outcome.ok_bind]
    change (Outcome.check _ >>= _) = _
    rw [show Outcome.check _ = Outcome.ok () from e3, Outcome.ok_bind]
    rfl
  have hs2 : pre2 C A X i (ch.rho i) (ch.ru i) s = .ok (p3, t2,
      truthMasks C X A.start i s.r0 s.r1 (X.R i p1) (X.mask p2) (ch.rho i)) := by
    rw [pre2, hs1, Outcome.ok_bind]
    rw [e4, Outcome.ok_bind]
    rw [e5, Outcome.ok_bind]
    rfl
  have hs3 : pre3 C A X i (ch.rho i) (ch.ru i) (ch.rv i) s = .ok ((q1, q2, q3), A.vU p3,
      truthMasks C X A.start i s.r0 s.r1 (X.R i p1) (X.mask p2) (ch.rho i)) := by
    rw [pre3, hs2, Outcome.ok_bind]
    rw [← hn]
    change (loopM n (round2Fixed A n (ch.rv i) (relayOf C i (ch.ru i) s) (A.vU p3)) (p3, t2, 0) >>= _) = _
    rw [show loopM n (round2Fixed A n (ch.rv i) (relayOf C i (ch.ru i) s) (A.vU p3)) (p3, t2, 0) =
      .ok (q1, q2, q3) from e6, Outcome.ok_bind]
    rfl
  refine ⟨_, (t1, t2, t3), _, (q1, q2, q3), A.vU p3, _, pv, hs1, e4, hs2, rfl, rfl, rfl, e6, hs3, rfl,
    ⟨X.mask p2, by rw [hX i p1 A.start]⟩, ?_, c7, e8, ?_, ?_, rfl, rfl, rfl, rfl, rfl, rfl, ?_⟩
  · dsimp only
    rw [c3]
    rfl
  · rw [c7] at c9
    unfold m3 claims
    rw [c7]
    exact c9
  · have hc : ∀ y, m3 C A i (q1, q2, q3) pv y = (A.finalround (A.finalize q1 q3).1 q3 (n <<< 1)
        (general pv (A.vU p3) (claims A (q1, q2, q3)).2)).2.eval y := by
      intro y; unfold m3 claims; rw [c7]
    rw [c7] at c26 c10
    rw [c10] at c26
    rw [hc]
    have c26 := add_right_cancel c26
    refine c26.trans ?_
    rw [c24, c25.1, c25.2, c22]
    change ch.rc i * general pv (A.vU p3) (claims A (q1, q2, q3)).2 + _ + _ + _ = _
    simp only [truthMasks]
    rcases c14 with c14 | c14
    · have hz : ∀ r : ℕ → F, maskFactor C i r = 0 := fun r => if_pos c14
      simp only [hz]
      ring
    · rcases c18 with c18 | c18
      · have hz : ∀ r : ℕ → F, maskFactor C i r = 0 := fun r => if_pos c18
        simp only [hz]
        ring
      · rw [c14, c18]
        ring
  · dsimp only
    rw [c7]
    rfl

/-! ## the true claims -/

/-- the masked value of layer `i` at the point `r` -/
def tv (C : Circuit) (X : Committed σ F) (a : σ) (i : ℕ) (r : ℕ → F) : F :=
  mle (C.bl i) (value C i) r + if i = 0 then
      (∏ j ∈ range (C.bl 0), (1 - r j) * r j) * (X.inputMask 0 + X.inputMask 1 * r (C.bl 0 - 1))
    else maskFactor C i r * sr (X.R i a) (r (C.bl i - 1))

/-- the true value of the claim before layer `i` -/
def trueClaim (C : Circuit) (X : Committed σ F) (a : σ) (i : ℕ) (s : VState σ F) : F :=
  s.alpha * tv C X a i s.r0 + s.beta * tv C X a i s.r1

omit [DecidableEq F] [Gmp F] in
theorem maskedValue_tv {C : Circuit} (X : Committed σ F) (a : σ) {i : ℕ} (h1 : 1 ≤ i) (hd : i < C.depth)
    (r0 r1 R g : ℕ → F) (rho : F) (u : ℕ → F) :
    maskedValue (C.bl (i - 1)) (value C (i - 1)) (truthMasks C X a i r0 r1 R g rho) u = tv C X a (i - 1) u := by
  rw [maskedValue, tv]
  congr 1
  by_cases h : i = 1
  · subst h; simp [truthMasks]
  · rw [if_neg (show i - 1 ≠ 0 by omega), maskFactor, if_neg (by omega)]
    simp only [truthMasks, if_neg h, sr]

/-- the verifier's own variables before layer `i` -/
structure VInv (C : Circuit) (i : ℕ) (s : VState σ F) : Prop where
  om0 : ∀ j < C.bl i, s.omr0 j = 1 - s.r0 j
  om1 : ∀ j < C.bl i, s.omr1 j = 1 - s.r1 j

/-! ## luck -/

/-- The prover is lucky with the challenge of round `k` of phase 1. -/
def Lucky1 (C : Circuit) (A : ProverApi σ F G1 G2) (X : Committed σ F) (i k : ℕ) (rho : F) (ru : ℕ → F)
    (s : VState σ F) : Prop :=
  ∃ a, start1 C A X i rho s = .ok a ∧ ∃ st,
    loopM k (round1 A (C.bl (i - 1)) ru) (a.1, a.2.1, 0) = .ok st ∧
    m1 A (C.bl (i - 1)) k st ≠ T1 C i s.alpha s.beta s.r0 s.r1 a.2.2 ru k ∧
    m1 A (C.bl (i - 1)) k st (ru k) = T1 C i s.alpha s.beta s.r0 s.r1 a.2.2 ru k (ru k)

/-- The prover is lucky with the challenge of round `k` of phase 2. -/
def Lucky2 (C : Circuit) (A : ProverApi σ F G1 G2) (X : Committed σ F) (i k : ℕ) (rho : F) (ru rv : ℕ → F)
    (s : VState σ F) : Prop :=
  ∃ b, pre2 C A X i rho ru s = .ok b ∧ ∃ st,
    loopM k (round2Fixed A (C.bl (i - 1)) rv (relayOf C i ru s) (A.vU b.1)) (b.1, b.2.1, 0) = .ok st ∧
    m2 A (C.bl (i - 1)) k st ≠ T2 C i s.alpha s.beta s.r0 s.r1 b.2.2 ru rv k ∧
    m2 A (C.bl (i - 1)) k st (rv k) = T2 C i s.alpha s.beta s.r0 s.r1 b.2.2 ru rv k (rv k)

/-- The prover is lucky with the extra variable. -/
def Lucky3 (C : Circuit) (A : ProverApi σ F G1 G2) (X : Committed σ F) (i : ℕ) (rho : F) (ru rv : ℕ → F) (rc : F)
    (s : VState σ F) : Prop :=
  ∃ c, pre3 C A X i rho ru rv s = .ok c ∧ ∃ pv, predsOf C i ru rv s = .ok pv ∧
    m3 C A i c.1 pv ≠ maskedPoly C i s.alpha s.beta s.r0 s.r1 (value C (i - 1)) c.2.2 ru rv ∧
    m3 C A i c.1 pv rc = maskedPoly C i s.alpha s.beta s.r0 s.r1 (value C (i - 1)) c.2.2 ru rv rc

/-- the errors of the two claims at the end of the layer -/
def errors (C : Circuit) (A : ProverApi σ F G1 G2) (X : Committed σ F) (i : ℕ) (rho : F) (ru rv : ℕ → F)
    (s : VState σ F) : Outcome (F × F) := do
  let c ← pre3 C A X i rho ru rv s
  return ((claims A c.1).1 - tv C X A.start (i - 1) ru, (claims A c.1).2 - tv C X A.start (i - 1) rv)

/-- The prover is lucky with `alpha`, resp. `beta`. -/
def LuckyA (C : Circuit) (A : ProverApi σ F G1 G2) (X : Committed σ F) (i : ℕ) (rho : F) (ru rv : ℕ → F)
    (α β : F) (s : VState σ F) : Prop :=
  ∃ e, errors C A X i rho ru rv s = .ok e ∧ e.1 ≠ 0 ∧ α * e.1 + β * e.2 = 0

@[inherit_doc LuckyA]
def LuckyB (C : Circuit) (A : ProverApi σ F G1 G2) (X : Committed σ F) (i : ℕ) (rho : F) (ru rv : ℕ → F)
    (β : F) (s : VState σ F) : Prop :=
  ∃ e, errors C A X i rho ru rv s = .ok e ∧ e.2 ≠ 0 ∧ β * e.2 = 0

variable [LawfulGmp F]

omit [DecidableEq F] [Gmp F] [LawfulGmp F] in
theorem maskForm (C : Circuit) (X : Committed σ F) (a : σ) (i : ℕ) (r0 r1 R g : ℕ → F) (rho : F) :
    MaskForm i (truthMasks C X a i r0 r1 R g rho) := ⟨X.inputMask, X.R (i - 1) a, fun _ => rfl⟩

omit [LawfulGmp F] in
theorem layer_vinv {E : Pairing G1 G2 GT} {C : Circuit} {A : ProverApi σ F G1 G2} {X : Committed σ F}
    (hX : X.Early) {ch : Challenges F} {i j : ℕ} {s s' : VState σ F}
    (h : layerStepFixed E C A X ch i s = .ok s') : VInv C j s' := by
  obtain ⟨a, t, b, st, u, M, pv, -, -, -, -, -, -, -, -, -, -, -, -, -, -, -, -, -, h3, h4, h5, h6, -⟩ :=
    layerStepFixed_ok hX h
  exact ⟨fun _ _ => by rw [h5, h3]; rfl, fun _ _ => by rw [h6, h4]; rfl⟩

/-- a false claim stays false, or the prover is lucky -/
theorem layer_sound {E : Pairing G1 G2 GT} {C : Circuit} (hwf : WellFormed true C) (hpar : ParallelOk C)
    {A : ProverApi σ F G1 G2} {X : Committed σ F} (hX : X.Early) {ch : Challenges F} {i : ℕ} (h1 : 1 ≤ i)
    (hd : i < C.depth) (hn1 : 1 ≤ C.bl (i - 1)) {s s' : VState σ F} (hs : VInv C i s)
    (h : layerStepFixed E C A X ch i s = .ok s') (hne : s.sum ≠ trueClaim C X A.start i s) :
    (i ≠ 1 ∧ s'.sum ≠ trueClaim C X A.start (i - 1) s') ∨ (i = 1 ∧ s'.sum ≠ tv C X A.start 0 s'.r0) ∨
    (∃ k < C.bl (i - 1), Lucky1 C A X i k (ch.rho i) (ch.ru i) s) ∨
    (∃ k < C.bl (i - 1), Lucky2 C A X i k (ch.rho i) (ch.ru i) (ch.rv i) s) ∨
    Lucky3 C A X i (ch.rho i) (ch.ru i) (ch.rv i) (ch.rc i) s ∨
    (i ≠ 1 ∧ LuckyA C A X i (ch.rho i) (ch.ru i) (ch.rv i) (ch.alpha i) (ch.beta i) s) ∨
    (i ≠ 1 ∧ LuckyB C A X i (ch.rho i) (ch.ru i) (ch.rv i) (ch.beta i) s) := by
  have hl := layerOk hwf h1 hd
  obtain ⟨a, t, b, st, u, M, pv, ha, ht, hb, hbt, hba, hu, hst, hc, hMa, ⟨g, hMg⟩, hsum, hcu, hpv, hc3, hfin,
    a1, a2, a3, a4, a5, a6, a7⟩ := layerStepFixed_ok hX h
  set n := C.bl (i - 1) with hn
  have hMF : MaskForm i M := by rw [hMg]; exact maskForm C X A.start i _ _ _ _ _
  obtain ⟨-, -, hst0, -, -, -⟩ := truth E hwf h1 hd hn1 hMF s.alpha s.beta s.r0 s.r1 (ch.ru i) (ch.rv i)
  have hmv : ∀ w, maskedValue n (value C (i - 1)) M w = tv C X A.start (i - 1) w := fun w => by
    rw [hMg]; exact maskedValue_tv X A.start h1 hd _ _ _ _ _ w
  -- the claim at the start
  have hclaim : a.2.1 ≠ T1 C i s.alpha s.beta s.r0 s.r1 M (ch.ru i) 0 0 +
      T1 C i s.alpha s.beta s.r0 s.r1 M (ch.ru i) 0 1 + 0 := by
    rw [hst0, hsum, add_zero]
    intro hcon
    apply hne
    have hcon := add_right_cancel hcon
    rw [hcon, trueClaim, tv, tv, if_neg (by omega), if_neg (by omega), hMg]
    rfl
  -- phase 1
  obtain hp1 := chain (sumOf := fun t : σ × F × F => t.2.1) (T := T1 C i s.alpha s.beta s.r0 s.r1 M (ch.ru i))
    (c := fun k => if k = n then T1 C i s.alpha s.beta s.r0 s.r1 M (ch.ru i) (n - 1) (ch.ru i (n - 1)) else
      T1 C i s.alpha s.beta s.r0 s.r1 M (ch.ru i) k 0 + T1 C i s.alpha s.beta s.r0 s.r1 M (ch.ru i) k 1)
    (round1_body A n (ch.ru i)) (fun k hk => by rw [if_neg (by omega)])
    (fun k hk => by
      split_ifs with hkn
      · rw [show n - 1 = k by omega]
      · exact T1_next _ _ _ _ _ _ (by omega)) ht (by rw [if_neg (by omega)]; exact hclaim)
  rcases hp1 with hp1 | ⟨k, hk, st', g1, g2, g3⟩
  swap
  · exact .inr (.inr (.inl ⟨k, hk, a, ha, st', g1, by rw [← hMa]; exact g2, by rw [← hMa]; exact g3⟩))
  rw [if_pos rfl, add_zero, T1_last hn1 _ _ _ _ _ _ (ch.rv i), ← hbt, hmv] at hp1
  have hrelay : ∀ x, relayPolyAt C i s.alpha s.beta s.r0 s.r1 (ch.ru i) x = relayOf C i (ch.ru i) s * x := by
    intro x
    have := relayCoef_eq C i (fun h => (hl.relay h).1) s.alpha s.beta s.r0 s.r1 (ch.ru i)
    rw [relayOf, ← this, relayPolyAt, relayCoef]
    split_ifs with h0
    · subst h0; rfl
    · rw [zero_mul]
  rw [hrelay] at hp1
  -- a false value of the input
  by_cases hi : i = 1 ∧ u ≠ tv C X A.start (i - 1) (ch.ru i)
  · refine .inr (.inl ⟨hi.1, ?_⟩)
    rw [a7, if_neg (by simp [hi.1]), a3]
    obtain ⟨rfl, hi⟩ := hi
    exact hi
  have hru : relayOf C i (ch.ru i) s * tv C X A.start (i - 1) (ch.ru i) = relayOf C i (ch.ru i) s * u := by
    by_cases h0 : i = 1
    · rw [not_and, not_not] at hi
      rw [hi h0]
    · simp [relayOf, directRelay, h0]
  rw [hru] at hp1
  obtain hp2 := chain (sumOf := fun t : σ × F × F => t.2.1) (T := T2 C i s.alpha s.beta s.r0 s.r1 M (ch.ru i) (ch.rv i))
    (c := fun k => if k = n then T2 C i s.alpha s.beta s.r0 s.r1 M (ch.ru i) (ch.rv i) (n - 1) (ch.rv i (n - 1)) else
      T2 C i s.alpha s.beta s.r0 s.r1 M (ch.ru i) (ch.rv i) k 0 +
      T2 C i s.alpha s.beta s.r0 s.r1 M (ch.ru i) (ch.rv i) k 1)
    (round2_body A n (ch.rv i) (relayOf C i (ch.ru i) s) u) (fun k hk => by rw [if_neg (by omega)])
    (fun k hk => by
      split_ifs with hkn
      · rw [show n - 1 = k by omega]
      · exact T2_next _ _ _ _ _ _ _ (by omega)) hst (by rw [if_neg (by omega)]; exact hp1)
  rcases hp2 with hp2 | ⟨k, hk, st', g1, g2, g3⟩
  swap
  · refine .inr (.inr (.inr (.inl ⟨k, hk, b, hb, st', by rw [hu]; exact g1, ?_, ?_⟩)))
    · rw [hba, ← hMa]; exact g2
    · rw [hba, ← hMa]; exact g3
  rw [if_pos rfl, T2_last hn1, ← hc3] at hp2
  have hm3 : m3 C A i st pv ≠ maskedPoly C i s.alpha s.beta s.r0 s.r1 (value C (i - 1)) M (ch.ru i) (ch.rv i) := by
    intro hcon
    rw [hcon] at hp2
    exact hp2 rfl
  by_cases hl3 : m3 C A i st pv (ch.rc i) =
      maskedPoly C i s.alpha s.beta s.r0 s.r1 (value C (i - 1)) M (ch.ru i) (ch.rv i) (ch.rc i)
  · exact .inr (.inr (.inr (.inr (.inl ⟨(st, u, M), hc, pv, hpv, hm3, hl3⟩))))
  -- the predicates
  obtain ⟨pv', hpv', hgen⟩ := predicates_general hl (fun h => hpar i (by omega) hd) s.tables s.alpha s.beta
    s.r0 s.r1 (ch.ru i) (ch.rv i) s.omr0 s.omr1 (oneMinus (ch.ru i)) (oneMinus (ch.rv i)) hs.om0 hs.om1
    (fun _ _ => rfl) (fun _ _ _ => rfl)
  have : pv' = pv := by
    have := hpv'.symm.trans hpv
    cases this; rfl
  subst this
  have hgen' : ∀ x y, general pv' x y = layerPolyAt C i s.alpha s.beta s.r0 s.r1 (ch.ru i) (ch.rv i) x y := hgen
  set eu := (claims A st).1 - tv C X A.start (i - 1) (ch.ru i) with heu
  set ev := (claims A st).2 - tv C X A.start (i - 1) (ch.rv i) with hev
  have herr : errors C A X i (ch.rho i) (ch.ru i) (ch.rv i) s = .ok (eu, ev) := by
    rw [errors, hc, Outcome.ok_bind]; rfl
  have hMrho : M.rho = ch.rho i := by rw [hMg]; rfl
  have hbad : ¬ general pv' u (claims A st).2 = layerPolyAt C i s.alpha s.beta s.r0 s.r1 (ch.ru i) (ch.rv i)
      (tv C X A.start (i - 1) (ch.ru i)) (tv C X A.start (i - 1) (ch.rv i)) := by
    intro hcon
    apply hl3
    rw [hfin, hcon, maskedPoly]
    rw [hmv, hmv]
  by_cases h0 : i = 1
  · exfalso
    apply hbad
    rw [hgen]
    change _ = polySum C i (comb (C.bl i) s.alpha s.beta s.r0 s.r1) (eqPoly (C.bl (i - 1)) (ch.ru i))
      (eqPoly (C.bl (i - 1)) (ch.rv i)) _ _
    rw [FastTrack.polySum_one hl h0, FastTrack.polySum_one hl h0]
  have hne2 : eu ≠ 0 ∨ ev ≠ 0 := by
    by_contra hcon
    simp only [not_or, not_not] at hcon
    have h3 := sub_eq_zero.1 hcon.1
    have h4 := sub_eq_zero.1 hcon.2
    apply hbad
    rw [hgen', ← hcu, h3, h4]
  have hdiff : s'.sum - trueClaim C X A.start (i - 1) s' = ch.alpha i * eu + ch.beta i * ev := by
    rw [a7, if_pos h0, trueClaim, a1, a2, a3, a4, heu, hev, hcu]; ring
  by_cases hz : ch.alpha i * eu + ch.beta i * ev = 0
  · right; right; right; right; right
    by_cases h00 : eu = 0
    · right
      refine ⟨h0, _, herr, ?_, ?_⟩
      · rcases hne2 with h | h
        · exact absurd h00 h
        · exact h
      · rw [h00, mul_zero, zero_add] at hz; exact hz
    · exact .inl ⟨h0, _, herr, h00, hz⟩
  · left
    refine ⟨h0, fun hcon => ?_⟩
    exact hz (by rw [← hdiff, hcon, sub_self])

end Libra.Zk
