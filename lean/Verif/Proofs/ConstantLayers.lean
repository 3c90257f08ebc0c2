import Verif.Proofs.Constants
import Verif.Spec.Constants

/-!
# Constants in any layer
-/

namespace Libra.FastTrack
open Libra Spec Finset
variable {F : Type} [CommRing F] [DecidableEq F]

theorem dropConst_ty (g : Gate) {t : ℤ} (h2 : t ≠ 2) (h3 : t ≠ 3) : (dropConst g).ty = t ↔ g.ty = t := by
  unfold dropConst
  split_ifs with h
  · constructor
    · intro e; exact absurd e.symm h2
    · intro e; exact absurd (e.symm.trans h) h3
  · rfl

theorem dropConst_of (g : Gate) {t : ℤ} (h3 : t ≠ 3) (h : g.ty = t) : dropConst g = g := by
  unfold dropConst
  rw [if_neg (fun e => h3 (h.symm.trans e))]

omit [DecidableEq F] in
theorem noConst_pred2 (C : Circuit) (T : BetaTables F) (i : ℕ) {t : ℤ} (h2 : t ≠ 2) (h3 : t ≠ 3) :
    pred2 (noConst C i) T i t = pred2 C T i t := by
  unfold pred2
  rw [noConst_bl]
  congr 1
  funext g ret
  simp only [noConst_gate, dropConst_ty _ h2 h3]
  by_cases h : (C.gate i g).ty = t
  · rw [if_pos h, if_pos h, dropConst_of _ h3 h]
  · rw [if_neg h, if_neg h]

omit [DecidableEq F] in
theorem noConst_pred1 (C : Circuit) (T : BetaTables F) (i : ℕ) {t : ℤ} (h2 : t ≠ 2) (h3 : t ≠ 3) :
    pred1 (noConst C i) T i t = pred1 C T i t := by
  unfold pred1
  rw [noConst_bl]
  congr 1
  funext g ret
  simp only [noConst_gate, dropConst_ty _ h2 h3]
  by_cases h : (C.gate i g).ty = t
  · rw [if_pos h, if_pos h, dropConst_of _ h3 h]
  · rw [if_neg h, if_neg h]

omit [DecidableEq F] in
theorem noConst_sumGate (C : Circuit) (T : BetaTables F) (i : ℕ) : sumGate (noConst C i) T i = sumGate C T i := by
  unfold sumGate
  rw [noConst_bl]
  congr 1
  funext g ret
  simp only [noConst_gate, dropConst_ty _ (show (5 : ℤ) ≠ 2 by norm_num) (show (5 : ℤ) ≠ 3 by norm_num)]
  by_cases h : (C.gate i g).ty = 5
  · rw [if_pos h, if_pos h, dropConst_of _ (by norm_num) h]
  · rw [if_neg h, if_neg h]

omit [DecidableEq F] in
theorem noConst_phase2Init (C : Circuit) (P : Prover F) (prev : F) (ru omru : ℕ → F) :
    P.phase2Init (noConst C P.layerId) prev ru omru = P.phase2Init C prev ru omru := by
  unfold Prover.phase2Init Prover.phase2Tables
  simp only [noConst_bl, noConst_gate]
  congr 2
  funext i T
  by_cases h : (C.gate P.layerId i).ty = 3
  · simp [dropConst, h, phase2Gate]
  · simp [dropConst, h]

/-- prover and verifier act as if there were no constants -/
theorem noConst_layerStep (C : Circuit) (fixed : Bool) (junk : Prover F) (ch : Challenges F) (i : ℕ) (s : VState (Prover F) F) :
    layerStep fixed (noConst C i) (honest (noConst C i) junk) ch i s = layerStep fixed C (honest C junk) ch i s := by
  set n := C.bl (i - 1)
  have e1 : (noConst C i).bl = C.bl := funext (noConst_bl C i)
  set p := ((honest C junk).phase1Init ((honest C junk).sumcheckInit s.prover i (C.bl i) n n
    s.alpha s.beta s.r0 s.r1 s.omr0 s.omr1)) with hp
  have hp' : ((honest (noConst C i) junk).phase1Init ((honest (noConst C i) junk).sumcheckInit s.prover i (C.bl i) n n
    s.alpha s.beta s.r0 s.r1 s.omr0 s.omr1)) = p := noConst_phase1Init C _
  rw [layerStep, layerStep]
  simp only [e1]
  rw [hp']
  change (loopM n (round1 (honest C junk) (ch.ru i)) (p, s.sum, 0) >>= _) =
    (loopM n (round1 (honest C junk) (ch.ru i)) (p, s.sum, 0) >>= _)
  cases e : loopM n (round1 (honest C junk) (ch.ru i)) (p, s.sum, 0) with
  | ok t =>
    have ht : t.1.layerId = i := by
      refine loopM_eq_ok e (fun _ s => s.1.layerId = i) rfl (fun j _ s s' hs hs' => ?_)
      rw [round1] at hs'
      obtain ⟨_, _, h2⟩ := Outcome.bind_eq_ok' hs'
      cases h2
      exact hs
    rw [Outcome.ok_bind, Outcome.ok_bind]
    obtain ⟨t1, t2, t3⟩ := t
    dsimp only at ht ⊢
    have e3 : (honest (noConst C i) junk).phase2Init t1 t3 (ch.ru i) (oneMinus (ch.ru i)) =
        (honest C junk).phase2Init t1 t3 (ch.ru i) (oneMinus (ch.ru i)) := by
      subst ht; exact noConst_phase2Init C t1 t3 _ _
    have e4 : directRelay (F := F) (noConst C i) i = directRelay C i := by
      funext rg ru; simp only [directRelay, e1]
    have e5 : betaInit (F := F) (noConst C i) = betaInit C := by
      funext; simp only [betaInit, e1]
    rw [e3, e4, e5]
    simp only [noConst_pred2 C _ i (show (1 : ℤ) ≠ 2 by norm_num) (show (1 : ℤ) ≠ 3 by norm_num),
      noConst_pred2 C _ i (show (0 : ℤ) ≠ 2 by norm_num) (show (0 : ℤ) ≠ 3 by norm_num),
      noConst_pred2 C _ i (show (7 : ℤ) ≠ 2 by norm_num) (show (7 : ℤ) ≠ 3 by norm_num),
      noConst_pred2 C _ i (show (8 : ℤ) ≠ 2 by norm_num) (show (8 : ℤ) ≠ 3 by norm_num),
      noConst_pred2 C _ i (show (9 : ℤ) ≠ 2 by norm_num) (show (9 : ℤ) ≠ 3 by norm_num),
      noConst_pred1 C _ i (show (6 : ℤ) ≠ 2 by norm_num) (show (6 : ℤ) ≠ 3 by norm_num),
      noConst_pred1 C _ i (show (10 : ℤ) ≠ 2 by norm_num) (show (10 : ℤ) ≠ 3 by norm_num), noConst_sumGate]
    rfl
  | _ => rfl

theorem noConst_layerOk {zk : Bool} {C : Circuit} (h : WellFormedUpToConstants zk C) {i : ℕ} (h1 : 1 ≤ i) (hd : i < C.depth) :
    LayerOk zk (noConst C i) i := by
  obtain ⟨k, rfl⟩ : ∃ k, i = k + 1 := ⟨i - 1, by omega⟩
  have hg := h.gates k hd
  have hb := noConst_bl C (k + 1)
  have key : ∀ g < 2 ^ C.bl (k + 1), (C.gate (k + 1) g).ty = 6 ∨ (C.gate (k + 1) g).ty = 10 → (C.gate (k + 1) g).v = 0 := by
    intro g hgl
    rcases k with _ | k
    · rw [h.relay g hgl]; simp
    · exact (h.provable k hd g hgl).2
  refine ⟨?_, ?_, ?_, ?_, ?_⟩
  · intro g hgl
    rw [hb] at hgl ⊢
    rw [noConst_gate]
    unfold dropConst
    split_ifs
    · right; left; rfl
    · exact hg g hgl
  · intro g hgl
    rw [hb] at hgl
    rw [noConst_gate]
    unfold dropConst
    split_ifs
    · intro _; rfl
    · exact key g hgl
  · intro g hgl
    rw [noConst_gate]
    unfold dropConst
    split_ifs with h
    · norm_num
    · exact h
  · intro e
    obtain rfl : k = 0 := by omega
    refine ⟨by rw [hb, hb]; exact h.relayLength, fun g hgl => ?_⟩
    rw [hb] at hgl
    rw [noConst_gate, h.relay g hgl]
    rfl
  · intro e g hgl
    rw [hb] at hgl
    rw [noConst_gate]
    obtain ⟨m, rfl⟩ : ∃ m, k = m + 1 := ⟨k - 1, by omega⟩
    unfold dropConst
    split_ifs
    · norm_num
    · exact (h.provable m hd g hgl).1

/-- what a claim about layer `i` gets from the constants -/
def weighted (C : Circuit) (i : ℕ) (s : VState (Prover F) F) : F :=
  s.alpha * mle (C.bl i) (constants C i) s.r0 + s.beta * mle (C.bl i) (constants C i) s.r1

omit [DecidableEq F] in
theorem value_split (C : Circuit) {i : ℕ} (hi : i ≠ 0) (r : ℕ → F) :
    mle (C.bl i) (value C i) r = mle (C.bl i) (value (noConst C i) i) r + mle (C.bl i) (constants C i) r := by
  rw [← mle_add_table]
  exact mle_congr (fun g _ => noConst_value C i g hi) (fun _ _ => rfl)

/-- One layer: accepted if the constants have weight zero, otherwise rejected. -/
theorem layer_constants {C : Circuit} (h : WellFormedUpToConstants false C) (fixed : Bool) (junk : Prover F)
    (ch : Challenges F) {i : ℕ} (h1 : 1 ≤ i) (hd : i < C.depth) {s : VState (Prover F) F} (hs : LayerInv C i s) :
    (weighted C i s = 0 → ∃ s', layerStep fixed C (honest C junk) ch i s = .ok s' ∧ LayerInv C (i - 1) s') ∧
    (weighted C i s ≠ 0 → layerStep fixed C (honest C junk) ch i s = .reject) := by
  have hb := noConst_bl C i
  have hl := noConst_layerOk h h1 hd
  -- the state with the claim for the circuit without constants
  set s0 : VState (Prover F) F := { s with sum := s.sum - weighted C i s } with hs0
  have hinv : LayerInv (noConst C i) i s0 := by
    refine ⟨fun j hj hji g hg => ?_, fun j hj => hs.om0 j (by rwa [hb] at hj), fun h0 j hj => hs.om1 h0 j (by rwa [hb] at hj), ?_⟩
    · rw [noConst_depth] at hj
      rw [hb] at hg
      rw [noConst_value_lt C hji]
      exact hs.val j hj hji g hg
    · rw [if_neg (by omega), hb]
      change s.sum - weighted C i s = _
      rw [hs.sum, if_neg (by omega), value_split C (by omega), value_split C (by omega)]
      change _ = s.alpha * _ + s.beta * _
      rw [weighted]
      ring
  obtain ⟨s', e, hi'⟩ := honest_layer_of fixed junk ch h1 (by rw [noConst_depth]; exact hd) hl hinv
  rw [noConst_layerStep] at e
  constructor
  · intro h0
    have es : s0 = s := by rw [hs0, h0, sub_zero]
    rw [es] at e
    refine ⟨s', e, fun j hj hji g hg => ?_, fun j hj => hi'.om0 j (by rwa [hb]), fun h0 j hj => hi'.om1 h0 j (by rwa [hb]), ?_⟩
    · rw [hi'.val j (by rwa [noConst_depth]) hji g (by rwa [hb]), noConst_value_lt C (by omega)]
    · rw [hi'.sum, hb]
      have ev : ∀ j < i, (value (noConst C i) j : ℕ → F) = value C j := fun j hj => funext (fun g => noConst_value_lt C hj g)
      rw [hb, ev 0 (by omega), ev (i - 1) (by omega)]
  · intro h0
    have hloop : ∃ t, loopM (C.bl (i - 1)) (round1 (honest C junk) (ch.ru i)) ((honest C junk).phase1Init ((honest C junk).sumcheckInit
        s.prover i (C.bl i) (C.bl (i - 1)) (C.bl (i - 1)) s.alpha s.beta s.r0 s.r1 s.omr0 s.omr1), s.sum - weighted C i s, 0) = .ok t := by
      rw [layerStep] at e
      obtain ⟨t, et, -⟩ := Outcome.bind_eq_ok' e
      exact ⟨t, et⟩
    obtain ⟨t, et⟩ := hloop
    have hrej := rounds1_reject (h.wide (i - 1) (by omega)) et (show s.sum ≠ s.sum - weighted C i s by
      intro e; exact h0 (by simpa using e.symm))
    rw [layerStep]
    simp only
    rw [hrej]
    rfl

theorem layerStep_next {C : Circuit} {fixed : Bool} {σ : Type} {A : ProverApi σ F} {ch : Challenges F} {i : ℕ} (hi : i ≠ 1)
    {s s' : VState σ F} (e : layerStep fixed C A ch i s = .ok s') :
    s'.alpha = ch.alpha i ∧ s'.beta = ch.beta i ∧ s'.r0 = ch.ru i ∧ s'.r1 = ch.rv i := by
  rw [layerStep] at e
  obtain ⟨t1, -, e⟩ := Outcome.bind_eq_ok' e
  obtain ⟨t2, -, e⟩ := Outcome.bind_eq_ok' e
  obtain ⟨t3, -, e⟩ := Outcome.bind_eq_ok' e
  obtain ⟨t4, -, e⟩ := Outcome.bind_eq_ok' e
  obtain ⟨t5, -, e⟩ := Outcome.bind_eq_ok' e
  obtain ⟨t6, -, e⟩ := Outcome.bind_eq_ok' e
  cases e
  refine ⟨rfl, rfl, rfl, ?_⟩
  funext j
  simp [hi]

theorem constants_run {C : Circuit} (h : WellFormedUpToConstants false C) (fixed : Bool) (junk : Prover F) (tables : BetaTables F)
    (ch : Challenges F) : verifyWith fixed C (honest C junk) tables ch =
      if ∀ i < C.depth, 1 ≤ i → runWeight C ch i = 0 then .ok () else .reject := by
  have hev := evaluate_ok (F := F) (var := .fastTrack) (C := C) (by simpa using h.toEvaluable)
  have hd := h.deep
  rw [verifyWith]
  have he : (honest C junk).evaluate (honest C junk).start =
      .ok ({ junk with circuitValue := valueFn (allValues C C.depth) },
        valueFn (allValues C C.depth) (C.depth - 1)) := by
    simp [honest, hev]
  rw [he, Outcome.ok_bind]
  dsimp only
  have hv := fun {i j} (hi : i < C.depth) (hj : j < 2 ^ C.bl i) =>
    valueFn_allValues (F := F) C hi hj
  set s0 : VState (Prover F) F :=
    { prover := { junk with circuitValue := valueFn (allValues C C.depth) }, alpha := 1, beta := 0,
      sum := 1 * (honest C junk).vRes { junk with circuitValue := valueFn (allValues C C.depth) }
        (oneMinus ch.r0) ch.r0 (valueFn (allValues C C.depth) (C.depth - 1)) (C.bl (C.depth - 1))
        (2 ^ C.bl (C.depth - 1)),
      r0 := ch.r0, r1 := ch.r1, omr0 := oneMinus ch.r0, omr1 := oneMinus ch.r1,
      tables := tables } with hs0
  have hinv : LayerInv C (C.depth - 1) s0 := by
    refine ⟨fun j hj _ g hg => hv hj hg, fun _ _ => rfl, fun _ _ _ => rfl, ?_⟩
    rw [if_neg (by omega)]
    change 1 * foldOutput (oneMinus ch.r0) ch.r0 _ _ _ = 1 * mle _ _ _ + 0 * _
    rw [foldOutput_spec (oneMinus ch.r0) _ _ _ (fun _ _ => rfl), zero_mul, add_zero]
    congr 1
    exact mle_congr (fun g hg => hv (by omega) hg) (fun _ _ => rfl)
  have hw0 : weighted C (C.depth - 1) s0 = runWeight C ch (C.depth - 1) := by
    rw [runWeight, if_pos (by omega), weighted]
    change 1 * _ + 0 * _ = _
    rw [one_mul, zero_mul, add_zero]
  -- the layers below `n`
  have key : ∀ n, n < C.depth → ∀ s : VState (Prover F) F, LayerInv C n s → (1 ≤ n → weighted C n s = runWeight C ch n) →
      ((∀ i, 1 ≤ i → i ≤ n → runWeight C ch i = 0) →
        ∃ s', loopDownM n (layerStep fixed C (honest C junk) ch) s = .ok s' ∧ LayerInv C 0 s') ∧
      ((¬ ∀ i, 1 ≤ i → i ≤ n → runWeight C ch i = 0) →
        loopDownM n (layerStep fixed C (honest C junk) ch) s = .reject) := by
    intro n
    induction n with
    | zero =>
      intro _ s hs _
      exact ⟨fun _ => ⟨s, rfl, hs⟩, fun hn => absurd (fun i h1 h2 => by omega) hn⟩
    | succ n ih =>
      intro hn s hs hw
      obtain ⟨hok, hbad⟩ := layer_constants h fixed junk ch (Nat.succ_pos n) hn hs
      rw [hw (by omega)] at hok hbad
      by_cases h0 : runWeight C ch (n + 1) = 0
      · obtain ⟨s', e, hs'⟩ := hok h0
        rw [show n.succ - 1 = n by omega] at hs'
        have hw' : 1 ≤ n → weighted C n s' = runWeight C ch n := by
          intro h1
          obtain ⟨e1, e2, e3, e4⟩ := layerStep_next (by omega) e
          rw [runWeight, if_neg (by omega), weighted, e1, e2, e3, e4]
        obtain ⟨i1, i2⟩ := ih (by omega) s' hs' hw'
        rw [loopDownM_succ, e, Outcome.bind_ok]
        refine ⟨fun hall => i1 (fun i h1 h2 => hall i h1 (by omega)), fun hall => i2 (fun hall' => hall (fun i h1 h2 => ?_))⟩
        rcases Nat.lt_or_ge n i with hlt | hge
        · obtain rfl : i = n + 1 := by omega
          exact h0
        · exact hall' i h1 hge
      · refine ⟨fun hall => absurd (hall (n + 1) (by omega) le_rfl) h0, fun _ => ?_⟩
        rw [loopDownM_succ, hbad h0]
        rfl
  obtain ⟨k1, k2⟩ := key (C.depth - 1) (by omega) s0 hinv (fun _ => hw0)
  have hiff : (∀ i < C.depth, 1 ≤ i → runWeight C ch i = 0) ↔ ∀ i, 1 ≤ i → i ≤ C.depth - 1 → runWeight C ch i = 0 :=
    ⟨fun a i h1 h2 => a i (by omega) h1, fun a i h1 h2 => a i h2 (by omega)⟩
  by_cases hall : ∀ i < C.depth, 1 ≤ i → runWeight C ch i = 0
  · rw [if_pos hall]
    obtain ⟨s', e, hs'⟩ := k1 (hiff.1 hall)
    obtain ⟨T, hT, hTv⟩ := verifierInput_ok (F := F) h.toEvaluable
    rw [e, Outcome.ok_bind, hT, Outcome.ok_bind, foldOutput_spec _ _ _ _ hs'.om0, hs'.sum, if_pos rfl,
      mle_congr hTv (fun _ _ => rfl), beq_self_eq_true, Outcome.check_true]
  · rw [if_neg hall, k2 (fun a => hall (hiff.2 a))]
    rfl

end Libra.FastTrack
