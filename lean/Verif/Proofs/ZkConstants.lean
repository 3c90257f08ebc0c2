import Verif.Proofs.ConstantLayers
import Verif.Proofs.ZkRepairComplete

/-!
# Constants in any layer of the zero-knowledge protocol
-/

namespace Libra.Zk
open Libra Spec Finset FastTrack
variable {F : Type} [CommRing F] {G1 G2 : Type}

theorem noConst_isParallel (C : Circuit) (i j : ℕ) :
    ((noConst C i).layer j).isParallel = (C.layer j).isParallel ∧ ((noConst C i).layer j).logBlockSize = (C.layer j).logBlockSize ∧
    ((noConst C i).layer j).blockSize = (C.layer j).blockSize ∧ ((noConst C i).layer j).repeatNum = (C.layer j).repeatNum ∧
    ((noConst C i).layer j).logRepeatNum = (C.layer j).logRepeatNum := by
  by_cases h : i = j
  · subst h; rw [noConst_layer]; exact ⟨rfl, rfl, rfl, rfl, rfl⟩
  · rw [noConst_layer_ne C h]; exact ⟨rfl, rfl, rfl, rfl, rfl⟩

theorem noConst_phase1Init_zk (C : Circuit) (P : FastTrack.Prover F) :
    P.phase1Init .zk (noConst C P.layerId) = P.phase1Init .zk C := by
  unfold FastTrack.Prover.phase1Init
  simp only [noConst_bl, noConst_gate]
  congr 1
  congr 1
  funext i T
  by_cases h : (C.gate P.layerId i).ty = 3
  · simp [dropConst, h, phase1Gate]
  · simp [dropConst, h]

theorem noConst_phase2Tables_zk (C : Circuit) (P : FastTrack.Prover F) (vU : F) (ru omru : ℕ → F) :
    P.phase2Tables .zk (noConst C P.layerId) vU ru omru = P.phase2Tables .zk C vU ru omru := by
  unfold FastTrack.Prover.phase2Tables
  simp only [noConst_bl, noConst_gate]
  congr 2
  funext i T
  by_cases h : (C.gate P.layerId i).ty = 3
  · simp [dropConst, h, phase2Gate]
  · simp [dropConst, h]

theorem noConst_predicates (C : Circuit) (T : VTables F) (i : ℕ) (r0 r1 ru rv : ℕ → F) :
    predicates (noConst C i) T i r0 r1 ru rv = predicates C T i r0 r1 ru rv := by
  have hp : ∀ (g : Gate) (bg : F) (tu tv ret : ℕ → F), plainCase (dropConst g) bg tu tv ret = plainCase g bg tu tv ret := by
    intro g bg tu tv ret
    by_cases h : g.ty = 3
    · simp [dropConst, h, plainCase]
    · simp [dropConst, h]
  have hq : ∀ (g : Gate) (nu : ℕ) (bg : F) (tu tv ret : ℕ → F),
      blockCase (dropConst g) nu bg tu tv ret = blockCase g nu bg tu tv ret := by
    intro g nu bg tu tv ret
    by_cases h : g.ty = 3
    · simp [dropConst, h, blockCase]
    · simp [dropConst, h]
  obtain ⟨a1, a2, a3, a4, a5⟩ := noConst_isParallel C i i
  obtain ⟨-, b2, -, -, -⟩ := noConst_isParallel C i (i - 1)
  unfold predicates
  simp only [noConst_bl, noConst_gate, hp, hq, a1, a2, a3, a4, a5, b2]

theorem noConst_betaInit (C : Circuit) (i : ℕ) : betaInit (F := F) (noConst C i) = betaInit C := by
  funext
  simp only [betaInit, noConst_bl, (noConst_isParallel C i _).1, (noConst_isParallel C i _).2.1]

variable {GT : Type} [AddCommGroup G1] [AddCommGroup G2] [AddCommGroup GT]
  [Module (ZMod p) G1] [Module (ZMod p) G2] [Module (ZMod p) GT] [Gmp F] [DecidableEq F] [DecidableEq GT]

omit [AddCommGroup G1] [AddCommGroup G2] [AddCommGroup GT] [Module (ZMod p) G1] [Module (ZMod p) G2] [Module (ZMod p) GT] [Gmp F]
  [DecidableEq F] [DecidableEq GT] in
theorem factors1_base (P : Prover F G1 G2) (prev : F) (bit : ℕ) : (P.factors1 prev bit).base = P.base := by
  unfold Prover.factors1
  dsimp only
  split_ifs <;> rfl

/-- the layer for which the prover works does not change within the rounds of phase 1 -/
theorem rounds1_layer {E : Pairing G1 G2 GT} {C : Circuit} {coins : Coins F} {junk : Prover F G1 G2} {n : ℕ} {ru : ℕ → F}
    {P : Prover F G1 G2} {c : F} {t : Prover F G1 G2 × F × F}
    (e : loopM n (round1 (honest E C coins junk) n ru) (P, c, 0) = .ok t) : t.1.base.layerId = P.base.layerId := by
  refine loopM_eq_ok e (fun _ s => s.1.base.layerId = P.base.layerId) rfl (fun j _ s s' hs hs' => ?_)
  rw [round1] at hs'
  split_ifs at hs'
  · obtain ⟨_, _, h2⟩ := Outcome.bind_eq_ok' hs'
    cases h2
    rw [← hs]
    change ((Prover.factors1 { s.1 with base := (s.1.base.update s.2.2 j).1 } s.2.2 j).base).layerId = _
    rw [factors1_base]
    rfl
  · obtain ⟨_, _, h2⟩ := Outcome.bind_eq_ok' hs'
    cases h2
    rw [← hs]
    change ((Prover.factors1 { s.1 with base := (s.1.base.update s.2.2 j).1 } s.2.2 j).base).layerId = _
    rw [factors1_base]
    rfl

/-- a wrong claim is noticed by the check of the first round -/
theorem zk_rounds1_reject {σ : Type} {A : ProverApi σ F G1 G2} {r : ℕ → F} {n m : ℕ} {P : σ} {c c' : F}
    {t : σ × F × F} (hn : 1 ≤ n) (hok : loopM n (round1 A m r) (P, c, 0) = .ok t) (hne : c' ≠ c) :
    loopM n (round1 A m r) (P, c', 0) = .reject := by
  have h1 : ∃ t1, round1 A m r 0 (P, c, 0) = .ok t1 := by
    have : ∀ k, ∀ t, loopM (k + 1) (round1 A m r) (P, c, 0) = .ok t →
        ∃ t1, round1 A m r 0 (P, c, 0) = .ok t1 := by
      intro k
      induction k with
      | zero => intro t h; exact ⟨t, h⟩
      | succ k ih =>
        intro t h
        rw [loopM_succ] at h
        obtain ⟨s, e, -⟩ := Outcome.bind_eq_ok h
        exact ih s e
    obtain ⟨k, rfl⟩ : ∃ k, n = k + 1 := ⟨n - 1, by omega⟩
    exact this k t hok
  obtain ⟨t1, h1⟩ := h1
  have hrej : round1 A m r 0 (P, c', 0) = .reject := by
    rw [round1] at h1 ⊢
    split_ifs at h1 ⊢
    all_goals
      obtain ⟨_, e, -⟩ := Outcome.bind_eq_ok' h1
      have hsum := eq_of_beq (Outcome.check_ok_iff.1 e)
      dsimp only at hsum ⊢
      rw [hsum, show (c == c') = false by simpa using fun h => hne h.symm]
      rfl
  obtain ⟨k, rfl⟩ : ∃ k, n = k + 1 := ⟨n - 1, by omega⟩
  clear hn hok
  induction k with
  | zero => exact hrej
  | succ k ih => rw [loopM_succ, ih]; rfl

/-- prover and verifier act as if there were no constants -/
theorem zk_noConst_layerStep (E : Pairing G1 G2 GT) (C : Circuit) (coins : Coins F) (junk : Prover F G1 G2) (ch : Challenges F)
    (i : ℕ) (s : VState (Prover F G1 G2) F) :
    layerStep E (noConst C i) (honest E (noConst C i) coins junk) ch i s = layerStep E C (honest E C coins junk) ch i s := by
  have e1 : (noConst C i).bl = C.bl := funext (noConst_bl C i)
  have e4 : directRelay (F := F) (noConst C i) i = directRelay C i := by
    funext rg ru; simp only [directRelay, e1]
  rw [layerStep, layerStep]
  simp only [e1, e4, noConst_betaInit, noConst_predicates]
  change (Prover.sumcheckInit E coins s.prover i (C.bl i) (C.bl (i - 1)) (C.bl (i - 1)) s.alpha s.beta s.r0 s.r1 s.omr0 s.omr1
      >>= _) = (Prover.sumcheckInit E coins s.prover i (C.bl i) (C.bl (i - 1)) (C.bl (i - 1)) s.alpha s.beta s.r0 s.r1 s.omr0 s.omr1
      >>= _)
  cases eA : Prover.sumcheckInit E coins s.prover i (C.bl i) (C.bl (i - 1)) (C.bl (i - 1)) s.alpha s.beta s.r0 s.r1 s.omr0 s.omr1 with
  | ok a =>
    obtain ⟨PA, DR⟩ := a
    rw [Outcome.ok_bind, Outcome.ok_bind]
    change (Prover.maskPreRho E coins PA (C.bl (i - 1) * 2 + 1) >>= _) = (Prover.maskPreRho E coins PA (C.bl (i - 1) * 2 + 1) >>= _)
    cases eB : Prover.maskPreRho E coins PA (C.bl (i - 1) * 2 + 1) with
    | ok b =>
      obtain ⟨PB, DM⟩ := b
      rw [Outcome.ok_bind, Outcome.ok_bind]
      have hA : PA.base.layerId = i := by
        rw [Prover.sumcheckInit, Prover.generateMaskR] at eA
        obtain ⟨_, -, eA⟩ := Outcome.bind_eq_ok' eA
        cases eA
        dsimp only
        split_ifs <;> rfl
      have hl : PB.base.layerId = i := by
        rw [← hA]
        rw [Prover.maskPreRho] at eB
        obtain ⟨_, -, eB⟩ := Outcome.bind_eq_ok' eB
        cases eB
        rfl
      set P0 := Prover.maskAfterRho { PB with rho := ch.rho i } (C.bl (i - 1) * 2 + 1) with hP0
      have hl0 : P0.base.layerId = i := hl
      have e5 : Prover.phase1Init (noConst C i) P0 = Prover.phase1Init C P0 := by
        unfold Prover.phase1Init
        have := noConst_phase1Init_zk C P0.base
        rw [hl0] at this
        rw [this]
      change (loopM (C.bl (i - 1)) (round1 (honest E C coins junk) (C.bl (i - 1)) (ch.ru i))
          (Prover.phase1Init (noConst C i) P0, s.sum + P0.sumc, 0) >>= _) =
        (loopM (C.bl (i - 1)) (round1 (honest E C coins junk) (C.bl (i - 1)) (ch.ru i))
          (Prover.phase1Init C P0, s.sum + P0.sumc, 0) >>= _)
      rw [e5]
      cases eC : loopM (C.bl (i - 1)) (round1 (honest E C coins junk) (C.bl (i - 1)) (ch.ru i))
          (Prover.phase1Init C P0, s.sum + P0.sumc, 0) with
      | ok t =>
        have ht : t.1.base.layerId = i := (rounds1_layer eC).trans hl0
        obtain ⟨t1, t2, t3⟩ := t
        rw [Outcome.ok_bind, Outcome.ok_bind]
        have e6 : Prover.phase2Init (noConst C i) t1 t3 (ch.ru i) (oneMinus (ch.ru i)) =
            Prover.phase2Init C t1 t3 (ch.ru i) (oneMinus (ch.ru i)) := by
          unfold Prover.phase2Init
          have := noConst_phase2Tables_zk C t1.base
          rw [show t1.base.layerId = i from ht] at this
          simp only [this]
        change (Prover.phase2Init (noConst C i) t1 t3 (ch.ru i) (oneMinus (ch.ru i)) >>= _) =
          (Prover.phase2Init C t1 t3 (ch.ru i) (oneMinus (ch.ru i)) >>= _)
        rw [e6]
        rfl
      | _ => rfl
    | _ => rfl
  | _ => rfl

theorem noConst_repeated {C : Circuit} {i : ℕ} (h : Repeated C i) : Repeated (noConst C i) i := by
  obtain ⟨-, a2, a3, a4, a5⟩ := noConst_isParallel C i i
  obtain ⟨-, b2, -, -, -⟩ := noConst_isParallel C i (i - 1)
  refine ⟨?_, ?_, ?_, ?_, ?_⟩
  · rw [a2, a3]; exact h.blockSize
  · rw [a4, a5]; exact h.repeatNum
  · rw [a2, a5, noConst_bl]; exact h.length
  · rw [b2, a5, noConst_bl]; exact h.lengthBelow
  · rw [a2, a5, b2]
    intro c hc g hg
    have hcp := h.gates c hc g hg
    rw [noConst_gate, noConst_gate]
    have h3 : (C.gate i g).ty ≠ 3 := by
      rcases hcp.2 with a | ⟨a | a, -⟩ | ⟨a, -⟩ <;> omega
    have h3' : (C.gate i (c * 2 ^ (C.layer i).logBlockSize + g)).ty ≠ 3 := by rw [hcp.1]; exact h3
    simp only [dropConst, if_neg h3, if_neg h3']
    exact hcp

/-- what a claim about layer `i` gets from the constants -/
def weighted (C : Circuit) (i : ℕ) (s : VState (Prover F G1 G2) F) : F :=
  s.alpha * mle (C.bl i) (constants C i) s.r0 + s.beta * mle (C.bl i) (constants C i) s.r1

variable [LawfulGmp F]

/-- One layer: accepted if the constants have weight zero, otherwise rejected. -/
theorem zk_layer_constants (E : Pairing G1 G2 GT) {C : Circuit} (h : WellFormedUpToConstants true C) (hpar : ParallelOk C)
    {coins : Coins F} (hco : CoinsOk C coins) (junk : Prover F G1 G2) (ch : Challenges F) {i : ℕ} (h1 : 1 ≤ i) (hd : i < C.depth)
    (hn2 : 2 * C.bl (i - 1) + 1 < 2 ^ 250) {P0 : Prover F G1 G2} (hm : P0.maskr = coins.maskr) {s : VState (Prover F G1 G2) F}
    (hs : LayerInv C P0 i s) :
    (weighted C i s = 0 → ∃ s', layerStep E C (honest E C coins junk) ch i s = .ok s' ∧ LayerInv C P0 (i - 1) s' ∧
      s'.alpha = ch.alpha i ∧ s'.beta = ch.beta i ∧ s'.r0 = ch.ru i ∧ (i ≠ 1 → s'.r1 = ch.rv i)) ∧
    (weighted C i s ≠ 0 → layerStep E C (honest E C coins junk) ch i s = .reject) := by
  have hb := noConst_bl C i
  have hdd := noConst_depth C i
  have hl := noConst_layerOk h h1 hd
  have hw := h.wide (i - 1) (by omega)
  have hco' : CoinsOk (noConst C i) coins := by
    refine ⟨?_, ?_, ?_, hco.a, ?_⟩
    · rw [hdd]; exact hco.sR
    · rw [hdd]; intro j h1 h2; rw [hb]; exact hco.sM j h1 h2
    · rw [hdd]; exact hco.rfM
    · rw [hb]; exact hco.s
  -- the state with the claim for the circuit without constants
  set s0 : VState (Prover F G1 G2) F := { s with sum := s.sum - weighted C i s } with hs0
  have hinv : LayerInv (noConst C i) P0 i s0 := by
    refine ⟨fun j hj hji g hg => ?_, fun j hj => hs.om0 j (by rwa [hb] at hj), fun h0 j hj => hs.om1 h0 j (by rwa [hb] at hj), ?_,
      hs.frame⟩
    · rw [hdd] at hj
      rw [hb] at hg
      rw [noConst_value_lt C hji]
      exact hs.val j hj hji g hg
    · rw [if_neg (by omega), hb]
      change s.sum - weighted C i s = _
      rw [hs.sum, if_neg (by omega), value_split C (by omega), value_split C (by omega)]
      change _ = s.alpha * _ + s.beta * _
      rw [weighted]
      ring
  obtain ⟨s', e, hi', haf⟩ := honest_layer_of E hco' junk ch h1 (by rw [hdd]; exact hd) hl
    (fun hne hp => noConst_repeated (hpar i (by omega) hd (by rwa [(noConst_isParallel C i i).1] at hp)))
    (by rw [hb]; exact hw) (by rw [hb]; exact hn2) hm hinv
  rw [zk_noConst_layerStep] at e
  constructor
  · intro h0
    have es : s0 = s := by rw [hs0, h0, sub_zero]
    rw [es] at e
    refine ⟨s', e, ⟨fun j hj hji g hg => ?_, fun j hj => hi'.om0 j (by rwa [hb]), fun h0 j hj => hi'.om1 h0 j (by rwa [hb]), ?_,
      hi'.frame⟩, haf.alpha, haf.beta, haf.r0, fun hne => ?_⟩
    · rw [hi'.val j (by rwa [hdd]) hji g (by rwa [hb]), noConst_value_lt C (by omega)]
    · rw [hi'.sum, hb]
      have ev : ∀ j < i, (value (noConst C i) j : ℕ → F) = value C j := fun j hj => funext (fun g => noConst_value_lt C hj g)
      rw [hb, ev 0 (by omega), ev (i - 1) (by omega)]
    · rw [haf.r1]
      simp [hne]
  · intro h0
    rw [layerStep] at e
    obtain ⟨⟨p1, dR⟩, e1, e⟩ := Outcome.bind_eq_ok' e
    obtain ⟨⟨p2, dM⟩, e2, e⟩ := Outcome.bind_eq_ok' e
    obtain ⟨t, e3, -⟩ := Outcome.bind_eq_ok' e
    have hrej := zk_rounds1_reject hw e3 (c' := s.sum + (honest E C coins junk).sumc
      ((honest E C coins junk).maskAfterRho ((honest E C coins junk).setRho p2 (ch.rho i)) (C.bl (i - 1) * 2 + 1))) (by
        intro e
        apply h0
        have : s0.sum = s.sum - weighted C i s := rfl
        rw [this] at e
        linear_combination e)
    rw [layerStep]
    have e1 : (honest E C coins junk).sumcheckInit s.prover i (C.bl i) (C.bl (i - 1)) (C.bl (i - 1)) s.alpha s.beta s.r0 s.r1 s.omr0
      s.omr1 = .ok (p1, dR) := e1
    rw [e1, Outcome.ok_bind]
    dsimp only
    rw [e2, Outcome.ok_bind]
    dsimp only at hrej ⊢
    rw [hrej]
    rfl

theorem zk_constants_run (E : Pairing G1 G2 GT) {C : Circuit} (h : WellFormedUpToConstants true C) (hpar : ParallelOk C)
    (hlen : ∀ i, i + 1 < C.depth → 2 * C.bl i + 1 < 2 ^ 250) {coins : Coins F} (hco : CoinsOk C coins) (junk : Prover F G1 G2)
    (tables : VTables F) (ch : Challenges F) :
    verify E C (honest E C coins junk) tables ch =
      if ∀ i < C.depth, 1 ≤ i → runWeight C ch.toChallenges i = 0 then .ok () else .reject := by
  have hd := h.deep
  have hev := evaluate_ok (F := F) (var := .zk) (C := C) (by simpa using h.toEvaluable)
  obtain ⟨P1, hP1⟩ : ∃ P1 : Prover F G1 G2, P1 = { junk.fresh with
      base := { junk.base with circuitValue := valueFn (allValues C C.depth) } } := ⟨_, rfl⟩
  obtain ⟨P2, D, e2, hb2, hZu, hZv, hmr, hfinish⟩ := finish E h.toEvaluable (h.wide 0 (by omega)) (hlen 0 (by omega)) hco P1
  have e1 : (honest E C coins junk).evaluate (honest E C coins junk).start =
      .ok (P1, valueFn (allValues C C.depth) (C.depth - 1)) := by
    simp only [honest, hev, Outcome.ok_bind, Outcome.pure_eq, hP1]
    rfl
  have e2 : (honest E C coins junk).keygenAndCommit P1 (C.bl 0) = .ok (P2, D) := e2
  rw [verify, e1, Outcome.ok_bind]
  dsimp only
  rw [e2, Outcome.ok_bind]
  dsimp only
  have hinv := (start_inv hd (P2 := P2) (by rw [hb2, hP1]) (by rw [hZu, hP1]; rfl) (by rw [hZv, hP1]; rfl) tables ch).toLayerInv
  set s0 : VState (Prover F G1 G2) F := ⟨P2, 1, 0, 1 * foldOutput (oneMinus ch.r0) ch.r0
      (valueFn (allValues C C.depth) (C.depth - 1)) (C.bl (C.depth - 1)) (2 ^ C.bl (C.depth - 1)),
      ch.r0, ch.r1, oneMinus ch.r0, oneMinus ch.r1, tables⟩ with hs0
  have hw0 : weighted C (C.depth - 1) s0 = runWeight C ch.toChallenges (C.depth - 1) := by
    rw [runWeight, if_pos (by omega), weighted]
    change 1 * _ + 0 * _ = _
    rw [one_mul, zero_mul, add_zero]
  -- the layers below `n`
  have key : ∀ n, n < C.depth → ∀ s : VState (Prover F G1 G2) F, LayerInv C P2 n s →
      (1 ≤ n → weighted C n s = runWeight C ch.toChallenges n) →
      ((∀ i, 1 ≤ i → i ≤ n → runWeight C ch.toChallenges i = 0) →
        ∃ s', loopDownM n (layerStep E C (honest E C coins junk) ch) s = .ok s' ∧ LayerInv C P2 0 s') ∧
      ((¬ ∀ i, 1 ≤ i → i ≤ n → runWeight C ch.toChallenges i = 0) →
        loopDownM n (layerStep E C (honest E C coins junk) ch) s = .reject) := by
    intro n
    induction n with
    | zero =>
      intro _ s hs _
      exact ⟨fun _ => ⟨s, rfl, hs⟩, fun hn => absurd (fun i h1 h2 => by omega) hn⟩
    | succ n ih =>
      intro hn s hs hw
      obtain ⟨hok, hbad⟩ := zk_layer_constants E h hpar hco junk ch (Nat.succ_pos n) hn (hlen _ (by omega)) hmr hs
      rw [hw (by omega)] at hok hbad
      by_cases h0 : runWeight C ch.toChallenges (n + 1) = 0
      · obtain ⟨s', e, hs', f1, f2, f3, f4⟩ := hok h0
        rw [show n.succ - 1 = n by omega] at hs'
        have hw' : 1 ≤ n → weighted C n s' = runWeight C ch.toChallenges n := by
          intro h1
          rw [runWeight, if_neg (by omega), weighted, f1, f2, f3, f4 (by omega)]
        obtain ⟨i1, i2⟩ := ih (by omega) s' hs' hw'
        rw [loopDownM_succ, e, Outcome.bind_ok]
        refine ⟨fun hall => i1 (fun i h1 h2 => hall i h1 (by omega)), fun hall => i2 (fun hall' => hall (fun i h1 h2 => ?_))⟩
        rcases Nat.lt_or_ge n i with hlt | hge
        · obtain rfl : i = n + 1 := by omega
          exact h0
        · exact hall' i h1 hge
      · refine ⟨fun hall => absurd (hall (n + 1) (by omega) le_rfl) h0, fun _ => ?_⟩
        rw [loopDownM_succ, hbad h0]
        rfl
  obtain ⟨k1, k2⟩ := key (C.depth - 1) (by omega) s0 hinv (fun _ => hw0)
  have hiff : (∀ i < C.depth, 1 ≤ i → runWeight C ch.toChallenges i = 0) ↔
      ∀ i, 1 ≤ i → i ≤ C.depth - 1 → runWeight C ch.toChallenges i = 0 :=
    ⟨fun a i h1 h2 => a i (by omega) h1, fun a i h1 h2 => a i h2 (by omega)⟩
  change (loopDownM (C.depth - 1) (layerStep E C (honest E C coins junk) ch) s0 >>= _) = _
  by_cases hall : ∀ i < C.depth, 1 ≤ i → runWeight C ch.toChallenges i = 0
  · rw [if_pos hall]
    obtain ⟨s', e, hs'⟩ := k1 (hiff.1 hall)
    rw [e, Outcome.ok_bind]
    obtain ⟨O, e3, hO, hval⟩ := hfinish s' hs'
    change ((s'.prover.proveInput coins (fun j => Gmp.toMpz (s'.r0 j)) (Gmp.toMpz s'.prover.Zu) >>=
      fun o => Outcome.ok (s'.prover, o)) >>= _) = _
    rw [e3, Outcome.ok_bind, Outcome.ok_bind]
    change (InputVpd.verify E s'.prover.keyInput (C.bl 0) (fun j => Gmp.toMpz (s'.r0 j)) D.digest D.digest2
      (Gmp.toMpz s'.prover.Zu) O.ans O.witness O.witnessa >>= _) = _
    rw [hO, Outcome.ok_bind, Outcome.check_true, Outcome.ok_bind, hval, beq_self_eq_true, Outcome.check_true]
  · rw [if_neg hall, k2 (fun a => hall (hiff.2 a))]
    rfl

end Libra.Zk
