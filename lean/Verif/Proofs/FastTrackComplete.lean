import Verif.Proofs.FastTrack

/-!
# Completeness of the plain protocol
-/

namespace Libra.FastTrack
open Libra Spec Finset
variable {F : Type} [CommRing F] [DecidableEq F]

/-- invariant of the layer loop before layer `i` -/
structure LayerInv (C : Circuit) (i : ℕ) (s : VState (Prover F) F) : Prop where
  val : ∀ j < C.depth, j < i → ∀ g < 2 ^ C.bl j, s.prover.circuitValue j g = value C j g
  om0 : ∀ j < C.bl i, s.omr0 j = 1 - s.r0 j
  om1 : i ≠ 0 → ∀ j < C.bl i, s.omr1 j = 1 - s.r1 j
  sum : s.sum = if i = 0 then mle (C.bl 0) (value C 0) s.r0 else
    s.alpha * mle (C.bl i) (value C i) s.r0 + s.beta * mle (C.bl i) (value C i) s.r1

theorem honest_layer_of {C : Circuit} (fixed : Bool) (junk : Prover F)
    (ch : Challenges F) {i : ℕ} (h1 : 1 ≤ i) (hd : i < C.depth) (hl : LayerOk false C i)
    {s : VState (Prover F) F} (hs : LayerInv C i s) :
    ∃ s', layerStep fixed C (honest C junk) ch i s = .ok s' ∧ LayerInv C (i - 1) s' := by
  set n := C.bl (i - 1) with hn
  set P : Prover F := s.prover.sumcheckInit i (C.bl i) n n s.alpha s.beta s.r0 s.r1 s.omr0 s.omr1
    with hP
  have hr : Ready C i P := ⟨hs.val, rfl, rfl, rfl, hs.om0, hs.om1 (by omega)⟩
  set V := s.prover.circuitValue (i - 1) with hVdef
  have hVv : ∀ k < 2 ^ n, V k = value C (i - 1) k := hs.val (i - 1) (by omega) (by omega)
  set P1 := P.phase1Init .fastTrack C with hP1
  obtain ⟨ht1, hV1, hw, _⟩ := phase1_ready (var := .fastTrack) hr hl
  set w := comb (C.bl i) s.alpha s.beta s.r0 s.r1 with hwdef
  set ru := ch.ru i with hru
  set relay := s.alpha * directRelay C i s.r0 ru + s.beta * directRelay C i s.r1 ru with hrelay
  have hrel : relayCoef C i w (eqPoly n ru) = relay :=
    relayCoef_eq C i (fun h => (hl.relay h).1) s.alpha s.beta s.r0 s.r1 ru
  have hsum : s.sum = ∑ x ∈ range (2 ^ n), (tabA P1 x * V x + tabB P1 x) := by
    rw [hs.sum, if_neg (by omega)]; exact (phase1_start (var := .fastTrack) h1 hr hd hl).symm
  set P2 := roundState P1 ru n with hP2
  have hloop1 : loopM n (round1 (honest C junk) ru)
      (P1, ∑ x ∈ range (2 ^ n), (tabA P1 x * V x + tabB P1 x), 0) =
      .ok (P2, claimAt n ru (tabA P1) V (tabB P1) n, prevOf ru n) :=
    rounds1 C junk ht1 hV1 ru n le_rfl
  have hP2e := roundState_eq ht1 hV1 ru (le_refl n)
  rw [← hP2] at hP2e
  set vu := (P2.tabs.vMultAdd 0).eval (prevOf ru n) with hvu
  have hvu' : vu = mle n V ru := roundState_vV ht1 hV1 ru
  have hc1 : claimAt n ru (tabA P1) V (tabB P1) n =
      halfSum C i w (eqPoly n ru) vu V + relay * vu := by
    rw [claimAt_last, ← hvu', phase1_final (var := .fastTrack) hr hl, ← hrel]; rfl
  obtain ⟨P3, hP3, hP3e, hV3, tmpU, hU, hphi, hone⟩ :=
    phase2_ready (P := P2) hl (by rw [hP2e]; rfl) (by rw [hP2e]; rfl) (prevOf ru n) ru (oneMinus ru)
      (fun _ _ => rfl)
  have hcv : P2.circuitValue = s.prover.circuitValue := by rw [hP2e]; rfl
  rw [hcv] at hV3
  have htg : P2.tmpG = P1.tmpG := by rw [hP2e]; rfl
  rw [htg] at hphi
  have ht3 : P3.totalUv = 2 ^ n := by rw [hP3e]
  have hu3 : P3.vU = vu := by rw [hP3e]
  set rv : ℕ → F := fun j => if i = 1 then 0 else ch.rv i j with hrv
  have hz : i = 1 → ∀ k < n, roundMsg P3 rv k = ⟨0, 0, 0⟩ := by
    intro h k hk
    refine roundMsg_zero ht3 (fun j hj => ?_) (fun j hj => ?_) rv k hk
    · rw [hone h, init_addMultSum, if_pos hj]
    · rw [hone h, init_addVArray, if_pos hj]
  have hloop2 := rounds2 fixed C junk i ht3 hV3 (ch.rv i) relay rv (fun _ => rfl) hz n le_rfl
  have hs2 : ∑ x ∈ range (2 ^ n), (tabA P3 x * V x + tabB P3 x) =
      halfSum C i w (eqPoly n ru) vu V := by
    rw [← hu3]; exact phase2_start hl hw hU hphi V
  rw [hu3] at hloop2
  set P4 := roundState P3 rv n with hP4
  have hP4e := roundState_eq ht3 hV3 rv (le_refl n)
  rw [← hP4] at hP4e
  set vv := (P4.tabs.vMultAdd 0).eval (prevOf rv n) with hvv
  have hvv' : vv = mle n V rv := roundState_vV ht3 hV3 rv
  have hu4 : P4.vU = vu := by rw [hP4e]; exact hu3
  set T := betaInit C s.tables i s.alpha s.beta s.r0 s.r1 ru rv s.omr0 s.omr1 (oneMinus ru)
    (oneMinus (ch.rv i)) with hT
  obtain ⟨notV, relayV, e6, e10, hpred⟩ := predicates_eq hl T
  obtain ⟨b1, b2, b3⟩ := betaInit_spec C s.tables i s.alpha s.beta s.r0 s.r1 ru rv s.omr0 s.omr1
    (oneMinus ru) (oneMinus (ch.rv i)) hs.om0 (hs.om1 (by omega)) (fun _ _ => rfl)
  have hc2 : claimAt n rv (tabA P3) V (tabB P3) n + relay * vu =
      polySum C i (fun g => T.g0 g + T.g1 g) T.u T.v vu vv + relay * vu := by
    rw [claimAt_last, ← hvv', phase2_final hl hw hU hphi, hu3]
    congr 1
    refine (polySum_tables hl b1 b2 (fun h => b3 (fun j _ => ?_)) vu vv).symm
    simp [hrv, oneMinus, h]
  have e1 : loopM n (round1 (honest C junk) ru) (P1, s.sum, 0) =
      .ok (P2, ∑ x ∈ range (2 ^ n), (tabA P3 x * V x + tabB P3 x) + relay * vu, prevOf ru n) := by
    rw [hsum, hloop1, hc1, ← hs2]
  refine ⟨{ prover := (P4.finalize (prevOf rv n)).1, alpha := ch.alpha i, beta := ch.beta i,
            sum := if i ≠ 1 then ch.alpha i * vu + ch.beta i * vv else vu,
            r0 := ru, r1 := rv, omr0 := oneMinus ru, omr1 := oneMinus (ch.rv i), tables := T },
    ?_, ?_⟩
  · rw [layerStep]
    change (loopM n (round1 (honest C junk) ru) (P1, s.sum, 0) >>= _) = _
    rw [e1, Outcome.ok_bind]
    change (Prover.phase2Init C P2 (prevOf ru n) ru (oneMinus ru) >>= _) = _
    rw [hP3, Outcome.ok_bind]
    change (loopM n (round2 fixed (honest C junk) i (ch.rv i) relay) (P3, _, 0) >>= _) = _
    rw [hloop2, Outcome.ok_bind]
    change (pred1 C T i 6 >>= fun notV => pred1 C T i 10 >>= fun relayV =>
      Outcome.check (claimAt n rv (tabA P3) V (tabB P3) n + relay * vu ==
        pred2 C T i 0 * (P4.vU + vv) + pred2 C T i 1 * P4.vU * vv + relay * P4.vU
        + notV * (1 - P4.vU) + pred2 C T i 7 * (P4.vU - vv)
        + pred2 C T i 8 * (P4.vU + vv - 2 * P4.vU * vv)
        + pred2 C T i 9 * (vv - P4.vU * vv) + sumGate C T i * P4.vU + relayV * P4.vU) >>= fun _ =>
      Outcome.ok (VState.mk (P4.finalize (prevOf rv n)).1 (ch.alpha i) (ch.beta i)
        (if i ≠ 1 then ch.alpha i * P4.vU + ch.beta i * vv else P4.vU) ru rv (oneMinus ru)
        (oneMinus (ch.rv i)) T)) = _
    rw [e6, Outcome.ok_bind, e10, Outcome.ok_bind, hu4, hpred, ← hc2, beq_self_eq_true,
      Outcome.check_true, Outcome.ok_bind]
  · refine ⟨?_, fun _ _ => rfl, ?_, ?_⟩
    · intro j hj hji g hg
      have : ((P4.finalize (prevOf rv n)).1).circuitValue = s.prover.circuitValue := by
        rw [hP4e, hP3e]; exact hcv
      dsimp only
      rw [this]; exact hs.val j hj (by omega) g hg
    · intro h j _
      have : i ≠ 1 := by omega
      simp [oneMinus, hrv, this]
    · dsimp only
      have eu : vu = mle n (value C (i - 1)) ru := by
        rw [hvu']; exact mle_congr hVv (fun _ _ => rfl)
      have ev : vv = mle n (value C (i - 1)) rv := by
        rw [hvv']; exact mle_congr hVv (fun _ _ => rfl)
      by_cases h : i = 1
      · subst h; simpa using eu
      · rw [if_pos h, if_neg (by omega), eu, ev]

theorem honest_layer {C : Circuit} (hwf : WellFormed false C) (fixed : Bool) (junk : Prover F)
    (ch : Challenges F) {i : ℕ} (h1 : 1 ≤ i) (hd : i < C.depth) {s : VState (Prover F) F}
    (hs : LayerInv C i s) :
    ∃ s', layerStep fixed C (honest C junk) ch i s = .ok s' ∧ LayerInv C (i - 1) s' :=
  honest_layer_of fixed junk ch h1 hd (layerOk hwf h1 hd) hs

theorem loopDownM_ok {σ : Type _} {n : ℕ} {b : ℕ → σ → Outcome σ} {s : σ} (P : ℕ → σ → Prop)
    (h0 : P n s) (hs : ∀ i, 1 ≤ i → i ≤ n → ∀ s, P i s → ∃ s', b i s = .ok s' ∧ P (i - 1) s') :
    ∃ s', loopDownM n b s = .ok s' ∧ P 0 s' := by
  induction n generalizing s with
  | zero => exact ⟨s, rfl, h0⟩
  | succ n ih =>
    obtain ⟨s1, e1, h1⟩ := hs (n + 1) (by omega) le_rfl s h0
    obtain ⟨s2, e2, h2⟩ := ih h1 (fun i hi hn => hs i hi (by omega))
    exact ⟨s2, by rw [loopDownM_succ, e1, Outcome.bind_ok, e2], h2⟩

theorem verifierInput_ok {zk : Bool} {C : Circuit} (h : Evaluable zk C) :
    ∃ T : ℕ → F, verifierInput C = .ok T ∧ ∀ g < 2 ^ C.bl 0, T g = value C 0 g := by
  have : verifierInput C = .ok (loop (2 ^ C.bl 0) (fun g T =>
      Function.update T g (value C 0 g : F)) (fun _ => 0)) := by
    refine loopM_pure (fun g hg T => ?_)
    rcases h.inputs g hg with ⟨a, b, c⟩ | ⟨a, b⟩
    · simp [a, value, inputValue, ofCInt_input b c]
    · simp [a, value, inputValue]
  exact ⟨_, this, fun g hg => by rw [loop_write, if_pos hg]⟩

theorem complete {C : Circuit} (hwf : WellFormed false C) (fixed : Bool) (junk : Prover F)
    (tables : BetaTables F) (ch : Challenges F) :
    verifyWith fixed C (honest C junk) tables ch = .ok () := by
  have hev := evaluate_ok (F := F) (var := .fastTrack) (C := C) (by simpa using hwf.toEvaluable)
  have hd := hwf.deep
  rw [verifyWith]
  have he : (honest C junk).evaluate (honest C junk).start =
      .ok ({ junk with circuitValue := valueFn (allValues C C.depth) },
        valueFn (allValues C C.depth) (C.depth - 1)) := by
    simp [honest, hev]
  rw [he, Outcome.ok_bind]
  dsimp only
  have hv := fun {i j} (hi : i < C.depth) (hj : j < 2 ^ C.bl i) =>
    valueFn_allValues (F := F) C hi hj
  set s0 : VState (Prover F) F :=
    { prover := { junk with circuitValue := valueFn (allValues C C.depth) }, alpha := 1, beta := 0,
      sum := 1 * (honest C junk).vRes { junk with circuitValue := valueFn (allValues C C.depth) }
        (oneMinus ch.r0) ch.r0 (valueFn (allValues C C.depth) (C.depth - 1)) (C.bl (C.depth - 1))
        (2 ^ C.bl (C.depth - 1)),
      r0 := ch.r0, r1 := ch.r1, omr0 := oneMinus ch.r0, omr1 := oneMinus ch.r1,
      tables := tables } with hs0
  have hinv : LayerInv C (C.depth - 1) s0 := by
    refine ⟨fun j hj _ g hg => hv hj hg, fun _ _ => rfl, fun _ _ _ => rfl, ?_⟩
    rw [if_neg (by omega)]
    change 1 * foldOutput (oneMinus ch.r0) ch.r0 _ _ _ = 1 * mle _ _ _ + 0 * _
    rw [foldOutput_spec (oneMinus ch.r0) _ _ _ (fun _ _ => rfl), zero_mul, add_zero]
    congr 1
    exact mle_congr (fun g hg => hv (by omega) hg) (fun _ _ => rfl)
  obtain ⟨s', e, hs'⟩ := loopDownM_ok (LayerInv C) hinv
    (fun i hi hn s hs => honest_layer hwf fixed junk ch hi (by omega) hs)
  obtain ⟨T, hT, hTv⟩ := verifierInput_ok (F := F) hwf.toEvaluable
  rw [e, Outcome.ok_bind, hT, Outcome.ok_bind, foldOutput_spec _ _ _ _ hs'.om0, hs'.sum, if_pos rfl,
    mle_congr hTv (fun _ _ => rfl), beq_self_eq_true, Outcome.check_true]

end Libra.FastTrack
