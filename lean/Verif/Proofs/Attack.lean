import Verif.Proofs.FastTrackComplete

/-!
# A prover that cheats in phase 2 of layer 1
-/

namespace Libra.FastTrack
open Libra Spec Finset
variable {F : Type} [CommRing F] [DecidableEq F]

/-- The circuits differ only in their input gates. -/
structure SameGates (C C' : Circuit) : Prop where
  depth : C.depth = C'.depth
  bl : ∀ i, C.bl i = C'.bl i
  gate : ∀ i, i ≠ 0 → ∀ g, C.gate i g = C'.gate i g

/-- A prover for the verifier of `C`. It runs the honest prover on `C'`, but in phase 2 of layer 1
it sends `c x`, then zero polynomials, where `c` is the amount by which the claim is wrong, and
reports the true value for the input layer of `C`. -/
def cheat (C C' : Circuit) (junk : Prover F) : ProverApi (Prover F) F :=
  { honest C' junk with
    phase2Init := fun P prev ru omru =>
      if P.layerId = 1 then
        let vu := mle (C.bl 0) (value C 0) ru
        .ok { P with vU := vu, alpha := (P.alpha * directRelay C 1 P.r0 ru +
          P.beta * directRelay C 1 P.r1 ru) * ((P.tabs.vMultAdd 0).eval prev - vu) }
      else P.phase2Init C' prev ru omru
    phase2Update := fun P prev bit =>
      if P.layerId = 1 then (P, if bit = 0 then ⟨0, P.alpha, 0⟩ else ⟨0, 0, 0⟩)
      else P.update prev bit }

theorem layerStep_congr {σ : Type} {C C' : Circuit} (h : SameGates C C') (fixed : Bool)
    (A : ProverApi σ F) (ch : Challenges F) {i : ℕ} (hi : 1 ≤ i) (s : VState σ F) :
    layerStep fixed C A ch i s = layerStep fixed C' A ch i s := by
  have e1 : C.bl = C'.bl := funext h.bl
  have e2 : C.gate i = C'.gate i := funext (h.gate i (by omega))
  simp only [layerStep, pred1, pred2, sumGate, directRelay, betaInit, e1, e2]

theorem loopM_congr_inv {σ : Type _} {n : ℕ} {b b' : ℕ → σ → Outcome σ} {s : σ} (P : σ → Prop)
    (h0 : P s) (hs : ∀ i < n, ∀ s s', P s → b i s = .ok s' → P s')
    (h : ∀ i < n, ∀ s, P s → b i s = b' i s) : loopM n b s = loopM n b' s := by
  induction n with
  | zero => rfl
  | succ n ih =>
    have ih := ih (fun i hi => hs i (by omega)) (fun i hi => h i (by omega))
    rw [loopM_succ, loopM_succ, ← ih]
    cases e : loopM n b s with
    | ok t =>
      have : P t := loopM_eq_ok e (fun _ s => P s) h0 (fun i hi => hs i (by omega))
      exact h n (by omega) t this
    | _ => rfl

/-- above layer 1 it is the honest prover -/
theorem cheat_layer {C C' : Circuit} (junk : Prover F) (fixed : Bool) (ch : Challenges F) {i : ℕ}
    (hi : i ≠ 1) (s : VState (Prover F) F) :
    layerStep fixed C' (cheat C C' junk) ch i s = layerStep fixed C' (honest C' junk) ch i s := by
  set n := C'.bl (i - 1)
  set p := ((honest C' junk).phase1Init ((honest C' junk).sumcheckInit s.prover i (C'.bl i) n n
    s.alpha s.beta s.r0 s.r1 s.omr0 s.omr1)) with hp
  rw [layerStep, layerStep]
  change (loopM n (round1 (honest C' junk) (ch.ru i)) (p, s.sum, 0) >>= _) =
    (loopM n (round1 (honest C' junk) (ch.ru i)) (p, s.sum, 0) >>= _)
  cases e : loopM n (round1 (honest C' junk) (ch.ru i)) (p, s.sum, 0) with
  | ok t =>
    have ht : t.1.layerId = i := by
      refine loopM_eq_ok e (fun _ s => s.1.layerId = i) rfl (fun j _ s s' hs hs' => ?_)
      rw [round1] at hs'
      obtain ⟨_, _, h2⟩ := Outcome.bind_eq_ok' hs'
      cases h2
      exact hs
    rw [Outcome.ok_bind, Outcome.ok_bind]
    obtain ⟨t1, t2, t3⟩ := t
    dsimp only at ht ⊢
    have e2 : (cheat C C' junk).phase2Init t1 t3 (ch.ru i) (oneMinus (ch.ru i)) =
        (honest C' junk).phase2Init t1 t3 (ch.ru i) (oneMinus (ch.ru i)) := by
      simp only [cheat]; rw [if_neg (by omega)]; rfl
    rw [e2]
    cases e3 : (honest C' junk).phase2Init t1 t3 (ch.ru i) (oneMinus (ch.ru i)) with
    | ok q =>
      have hq : q.layerId = i := by
        simp only [honest, Prover.phase2Init] at e3
        obtain ⟨_, _, h2⟩ := Outcome.bind_eq_ok' e3
        cases h2
        exact ht
      rw [Outcome.ok_bind, Outcome.ok_bind]
      have e4 : ∀ relay, loopM n (round2 fixed (cheat C C' junk) i (ch.rv i) relay) (q, t2, 0) =
          loopM n (round2 fixed (honest C' junk) i (ch.rv i) relay) (q, t2, 0) := by
        intro relay
        have hr : ∀ j (s : Prover F × F × F), s.1.layerId = i →
            round2 fixed (cheat C C' junk) i (ch.rv i) relay j s =
            round2 fixed (honest C' junk) i (ch.rv i) relay j s := by
          intro j s hs
          have : (cheat C C' junk).phase2Update s.1 s.2.2 j =
              (honest C' junk).phase2Update s.1 s.2.2 j := by
            simp only [cheat]; rw [if_neg (by omega)]; rfl
          simp only [round2, this]
          rfl
        refine loopM_congr_inv (fun s => s.1.layerId = i) hq (fun j _ s s' hs hs' => ?_)
          (fun j _ s hs => hr j s hs)
        rw [hr j s hs, round2] at hs'
        obtain ⟨_, _, h2⟩ := Outcome.bind_eq_ok' hs'
        obtain ⟨_, _, h3⟩ := Outcome.bind_eq_ok' h2
        cases h3
        exact hs
      rw [e4]
      rfl
    | _ => rfl
  | _ => rfl

/-- layer 1: the cheating prover is accepted and its claim is true for `C` -/
theorem cheat_layer_one {C C' : Circuit} (hwf : WellFormed false C') (hsame : SameGates C C')
    (hn : 0 < C.bl 0) (junk : Prover F) (ch : Challenges F) {s : VState (Prover F) F}
    (hs : LayerInv C' 1 s) :
    ∃ s', layerStep false C' (cheat C C' junk) ch 1 s = .ok s' ∧
      (∀ j < C.bl 0, s'.omr0 j = 1 - s'.r0 j) ∧ s'.sum = mle (C.bl 0) (value C 0) s'.r0 := by
  have hd : 1 < C'.depth := hwf.deep
  have hl := layerOk hwf le_rfl hd
  set n := C'.bl 0 with hndef
  have hCn : C.bl 0 = n := hsame.bl 0
  set P : Prover F := s.prover.sumcheckInit 1 (C'.bl 1) n n s.alpha s.beta s.r0 s.r1 s.omr0 s.omr1
    with hP
  have hr : Ready C' 1 P := ⟨hs.val, rfl, rfl, rfl, hs.om0, hs.om1 (by omega)⟩
  set V := s.prover.circuitValue 0 with hVdef
  set P1 := P.phase1Init .fastTrack C' with hP1
  obtain ⟨ht1, hV1, hw, _⟩ := phase1_ready (var := .fastTrack) hr hl
  set w := comb (C'.bl 1) s.alpha s.beta s.r0 s.r1 with hwdef
  set ru := ch.ru 1 with hru
  set relay := s.alpha * directRelay C' 1 s.r0 ru + s.beta * directRelay C' 1 s.r1 ru with hrelay
  have hrel : relayCoef C' 1 w (eqPoly n ru) = relay :=
    relayCoef_eq C' 1 (fun h => (hl.relay h).1) s.alpha s.beta s.r0 s.r1 ru
  have hsum : s.sum = ∑ x ∈ range (2 ^ n), (tabA P1 x * V x + tabB P1 x) := by
    rw [hs.sum, if_neg (by omega)]; exact (phase1_start (var := .fastTrack) le_rfl hr hd hl).symm
  set P2 := roundState P1 ru n with hP2
  have hloop1 : loopM n (round1 (honest C' junk) ru)
      (P1, ∑ x ∈ range (2 ^ n), (tabA P1 x * V x + tabB P1 x), 0) =
      .ok (P2, claimAt n ru (tabA P1) V (tabB P1) n, prevOf ru n) :=
    rounds1 C' junk ht1 hV1 ru n le_rfl
  have hP2e := roundState_eq ht1 hV1 ru (le_refl n)
  rw [← hP2] at hP2e
  set vu := (P2.tabs.vMultAdd 0).eval (prevOf ru n) with hvu
  have hvu' : vu = mle n V ru := roundState_vV ht1 hV1 ru
  have hhalf : ∀ a, halfSum C' 1 w (eqPoly n ru) a V = 0 := by
    intro a
    refine sum_eq_zero (fun g hg => ?_)
    rw [(hl.relay rfl).2 g (mem_range.1 hg)]
    simp [gateHalf]
  have hc1 : claimAt n ru (tabA P1) V (tabB P1) n = relay * vu := by
    have := phase1_final (var := .fastTrack) hr hl ru vu
    rw [claimAt_last, ← hvu']
    refine this.trans ?_
    change halfSum C' 1 w (eqPoly n ru) vu V + relayCoef C' 1 w (eqPoly n ru) * vu = _
    rw [hhalf vu, zero_add, hrel]
  have e1 : loopM n (round1 (honest C' junk) ru) (P1, s.sum, 0) =
      .ok (P2, relay * vu, prevOf ru n) := by
    rw [hsum, hloop1, hc1]
  set tv := mle n (value C 0 : ℕ → F) ru with htv
  have hdr : ∀ r : ℕ → F, directRelay C 1 r ru = directRelay C' 1 r ru := by
    intro r; simp only [directRelay, hsame.bl]
  set P3 : Prover F := { P2 with vU := tv, alpha := relay * (vu - tv) } with hP3
  have hlid : P2.layerId = 1 := by rw [hP2e]; rfl
  have e2 : (cheat C C' junk).phase2Init P2 (prevOf ru n) ru (oneMinus ru) = .ok P3 := by
    simp only [cheat]
    rw [if_pos hlid, hP3, hdr, hdr, hCn]
    have : P2.alpha = s.alpha ∧ P2.beta = s.beta ∧ P2.r0 = s.r0 ∧ P2.r1 = s.r1 := by
      rw [hP2e]; exact ⟨rfl, rfl, rfl, rfl⟩
    rw [this.1, this.2.1, this.2.2.1, this.2.2.2]
  have e3 : ∀ k, loopM (k + 1) (round2 false (cheat C C' junk) 1 (ch.rv 1) relay)
      (P3, relay * vu, 0) = .ok (P3, relay * tv, 0) := by
    have hu : (cheat C C' junk).vU P3 = tv := rfl
    intro k
    induction k with
    | zero =>
      have h : (cheat C C' junk).phase2Update P3 0 0 = (P3, ⟨0, relay * (vu - tv), 0⟩) := by
        simp only [cheat]; rw [if_pos hlid]; rfl
      simp only [loopM_succ, loopM_zero, Outcome.bind_ok, round2, h, hu, QuadraticPoly.eval]
      have : ((0 * 0 + relay * (vu - tv)) * 0 + 0 + ((0 * 1 + relay * (vu - tv)) * 1 + 0) + relay * tv ==
          relay * vu) = true := by
        rw [beq_iff_eq]; ring
      rw [this]
      simp
    | succ k ih =>
      rw [loopM_succ, ih]
      have h : (cheat C C' junk).phase2Update P3 0 (k + 1) = (P3, ⟨0, 0, 0⟩) := by
        simp only [cheat]; rw [if_pos hlid]; simp
      simp only [Outcome.bind_ok, round2, h, hu, QuadraticPoly.eval]
      simp
  set rv : ℕ → F := fun j => if 1 = 1 then 0 else ch.rv 1 j with hrv
  set T := betaInit C' s.tables 1 s.alpha s.beta s.r0 s.r1 ru rv s.omr0 s.omr1 (oneMinus ru)
    (oneMinus (ch.rv 1)) with hT
  obtain ⟨notV, relayV, e6, e10, hpred⟩ := predicates_eq hl T
  obtain ⟨k, hk⟩ : ∃ k, n = k + 1 := ⟨n - 1, by omega⟩
  refine ⟨{ prover := (P3.finalize 0).1, alpha := ch.alpha 1, beta := ch.beta 1,
            sum := tv,
            r0 := ru, r1 := rv, omr0 := oneMinus ru, omr1 := oneMinus (ch.rv 1), tables := T },
    ?_, fun _ _ => rfl, by rw [hCn]⟩
  rw [layerStep]
  change (loopM n (round1 (honest C' junk) ru) (P1, s.sum, 0) >>= _) = _
  rw [e1, Outcome.ok_bind]
  change ((cheat C C' junk).phase2Init P2 (prevOf ru n) ru (oneMinus ru) >>= _) = _
  rw [e2, Outcome.ok_bind]
  change (loopM n (round2 false (cheat C C' junk) 1 (ch.rv 1) relay) (P3, _, 0) >>= _) = _
  have e3' := e3 k
  rw [← hk] at e3'
  rw [e3', Outcome.ok_bind]
  set vv := (P3.tabs.vMultAdd 0).eval 0
  change (pred1 C' T 1 6 >>= fun notV => pred1 C' T 1 10 >>= fun relayV =>
    Outcome.check (relay * tv ==
      pred2 C' T 1 0 * (tv + vv) + pred2 C' T 1 1 * tv * vv + relay * tv
      + notV * (1 - tv) + pred2 C' T 1 7 * (tv - vv)
      + pred2 C' T 1 8 * (tv + vv - 2 * tv * vv)
      + pred2 C' T 1 9 * (vv - tv * vv) + sumGate C' T 1 * tv + relayV * tv) >>= fun _ =>
    Outcome.ok (VState.mk (P3.finalize 0).1 (ch.alpha 1) (ch.beta 1)
      (if 1 ≠ 1 then ch.alpha 1 * tv + ch.beta 1 * vv else tv) ru rv (oneMinus ru)
      (oneMinus (ch.rv 1)) T)) = _
  rw [e6, Outcome.ok_bind, e10, Outcome.ok_bind, hpred, polySum_one hl rfl, zero_add,
    beq_self_eq_true, Outcome.check_true, Outcome.ok_bind]
  simp

theorem loopDownM_split {σ : Type _} {n : ℕ} (hn : 1 ≤ n) (b : ℕ → σ → Outcome σ) (s : σ) :
    loopDownM n b s = (loopDownM (n - 1) (fun i => b (i + 1)) s).bind (b 1) := by
  obtain ⟨m, rfl⟩ : ∃ m, n = m + 1 := ⟨n - 1, by omega⟩
  clear hn
  induction m generalizing s with
  | zero =>
    change (b 1 s).bind _ = b 1 s
    cases b 1 s <;> rfl
  | succ m ih =>
    rw [loopDownM_succ]
    change _ = ((b (m + 2) s).bind (loopDownM m (fun i => b (i + 1)))).bind (b 1)
    cases e : b (m + 2) s with
    | ok t => exact ih t
    | _ => rfl

theorem cheat_accepted {C C' : Circuit} (hC : Evaluable false C) (hwf : WellFormed false C')
    (hsame : SameGates C C')
    (hn : 0 < C.bl 0) (junk : Prover F) (tables : BetaTables F) (ch : Challenges F) :
    verify C (cheat C C' junk) tables ch = .ok () := by
  have hev := evaluate_ok (F := F) (var := .fastTrack) (C := C') (by simpa using hwf.toEvaluable)
  have hd := hwf.deep
  rw [verify, verifyWith]
  have he : (cheat C C' junk).evaluate (cheat C C' junk).start =
      .ok ({ junk with circuitValue := valueFn (allValues C' C'.depth) },
        valueFn (allValues C' C'.depth) (C'.depth - 1)) := by
    simp [cheat, honest, hev]
  rw [he, Outcome.ok_bind]
  dsimp only
  have hv := fun {i j} (hi : i < C'.depth) (hj : j < 2 ^ C'.bl i) =>
    valueFn_allValues (F := F) C' hi hj
  have hdep : C.depth = C'.depth := hsame.depth
  set s0 : VState (Prover F) F :=
    { prover := { junk with circuitValue := valueFn (allValues C' C'.depth) }, alpha := 1, beta := 0,
      sum := 1 * (cheat C C' junk).vRes { junk with circuitValue := valueFn (allValues C' C'.depth) }
        (oneMinus ch.r0) ch.r0 (valueFn (allValues C' C'.depth) (C'.depth - 1)) (C.bl (C.depth - 1))
        (2 ^ C.bl (C.depth - 1)),
      r0 := ch.r0, r1 := ch.r1, omr0 := oneMinus ch.r0, omr1 := oneMinus ch.r1,
      tables := tables } with hs0
  have hinv : LayerInv C' (C'.depth - 1) s0 := by
    refine ⟨fun j hj _ g hg => hv hj hg, fun _ _ => rfl, fun _ _ _ => rfl, ?_⟩
    rw [if_neg (by omega)]
    change 1 * foldOutput (oneMinus ch.r0) ch.r0 _ _ _ = 1 * mle _ _ _ + 0 * _
    rw [foldOutput_spec (oneMinus ch.r0) _ _ _ (fun _ _ => rfl), zero_mul, add_zero, hdep, hsame.bl]
    congr 1
    exact mle_congr (fun g hg => hv (by omega) hg) (fun _ _ => rfl)
  obtain ⟨s1, e1, hs1⟩ := loopDownM_ok (b := fun i => layerStep false C (cheat C C' junk) ch (i + 1))
    (n := C'.depth - 2) (s := s0)
    (fun i s => LayerInv C' (i + 1) s)
    (by rw [show C'.depth - 2 + 1 = C'.depth - 1 by omega]; exact hinv)
    (fun i hi hn s hs => by
      rw [layerStep_congr hsame _ _ _ (by omega), cheat_layer junk false ch (by omega)]
      have := honest_layer hwf false junk ch (i := i + 1) (by omega) (by omega) hs
      rwa [show i + 1 - 1 = i - 1 + 1 by omega] at this)
  obtain ⟨s2, e2, h2, h3⟩ := cheat_layer_one hwf hsame hn junk ch hs1
  obtain ⟨T, hT, hTv⟩ := verifierInput_ok (F := F) hC
  rw [hdep, loopDownM_split (by omega), show C'.depth - 1 - 1 = C'.depth - 2 by omega]
  rw [e1, Outcome.bind_ok, layerStep_congr hsame _ _ _ le_rfl, e2, Outcome.ok_bind, hT, Outcome.ok_bind,
    foldOutput_spec _ _ _ _ h2, h3, mle_congr hTv (fun _ _ => rfl), beq_self_eq_true,
    Outcome.check_true]

end Libra.FastTrack
