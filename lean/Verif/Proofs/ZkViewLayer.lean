import Verif.Proofs.ZkLog
import Verif.Props.ZkHiding

/-!
# The record of one layer of the honest prover
-/

namespace Libra.Zk
open Libra Spec Finset FastTrack Props
variable {F : Type} [CommRing F] {G1 G2 GT : Type} [AddCommGroup G1] [AddCommGroup G2] [AddCommGroup GT]
  [Module (ZMod p) G1] [Module (ZMod p) G2] [Module (ZMod p) GT] [Gmp F]

/-- the round messages as a sequence -/
def seqOf {n : ℕ} (t : Fin (2 * n + 1) → QuintuplePoly F) (k : ℕ) : QuintuplePoly F :=
  if h : k < 2 * n + 1 then t ⟨k, h⟩ else ⟨0, 0, 0, 0, 0, 0⟩

/-- what the verifier gets in layer `i` -/
def segment (full : Bool) (i n : ℕ) (keyR : VpdKey G1 G2) (DR : G1 × G1) (keyM : VpdKey G1 G2) (DM : G1 × G1)
    (S : F) (t : ℕ → QuintuplePoly F) (vu vv x0 x1 I Z0 Z1 : F) (o1 o2 o3 : Msg F G1 G2) : List (Msg F G1 G2) :=
  [.key keyR, .digest DR, .key keyM, .digest DM, .number S] ++ (List.range n).map (fun k => .poly (t k)) ++
    [.number vu] ++ (List.range n).map (fun k => .poly (t (k + n))) ++
    (.number vu :: if full ∨ i ≠ 1 then [.number vv] else []) ++
    [.poly (t (2 * n)), .number vu, .number x0, .number x1, .number I, .number Z0, .number Z1, o1, o2, o3]

theorem runA1_honest (E : Pairing G1 G2 GT) (C : Circuit) (coins : Coins F) (junk Q : Prover F G1 G2) (n : ℕ) (r : ℕ → F) :
    ∀ k, runA1 (honest E C coins junk) n r Q k = run1 n Q r k
  | 0 => rfl
  | k + 1 => by rw [runA1, run1, runA1_honest E C coins junk Q n r k]; rfl

theorem runA2_honest (E : Pairing G1 G2 GT) (C : Circuit) (coins : Coins F) (junk Q : Prover F G1 G2) (n : ℕ) (r : ℕ → F) :
    ∀ k, runA2 (honest E C coins junk) n r Q k = run2 n Q r k
  | 0 => rfl
  | k + 1 => by rw [runA2, run2, runA2_honest E C coins junk Q n r k]; rfl

theorem logA1_honest (E : Pairing G1 G2 GT) (C : Circuit) (coins : Coins F) (junk Q : Prover F G1 G2) (n : ℕ) (r : ℕ → F)
    (k : ℕ) : logA1 (honest E C coins junk) n r Q k = .poly (poly1 n Q r k) := by
  rw [logA1, poly1, runA1_honest]
  split_ifs <;> rfl

theorem logA2_honest (E : Pairing G1 G2 GT) (C : Circuit) (coins : Coins F) (junk Q : Prover F G1 G2) (n : ℕ) (r : ℕ → F)
    (k : ℕ) : logA2 (honest E C coins junk) n r Q k = .poly (poly2 n Q r k) := by
  rw [logA2, poly2, runA2_honest]
  split_ifs <;> rfl

omit [AddCommGroup G1] [AddCommGroup G2] [Module (ZMod p) G1] [Module (ZMod p) G2] [Gmp F] in
theorem run2_vU (n : ℕ) (Q : Prover F G1 G2) (r : ℕ → F) : ∀ k, (run2 n Q r k).base.vU = Q.base.vU
  | 0 => rfl
  | k + 1 => by
    rw [run2]
    split_ifs
    · rw [← run2_vU n Q r k]
      simp only [Prover.phase2Last, Prover.lastRound, Prover.maskRound, Prover.factors2]
      split_ifs <;> rfl
    · rw [← run2_vU n Q r k]
      simp only [Prover.phase2Update, Prover.maskRound, Prover.factors2]
      split_ifs <;> rfl

variable [DecidableEq F] [DecidableEq GT] [LawfulGmp F]

/-- the iteration for layer `i`, with the record -/
theorem honest_layer_log (full : Bool) (m : ℕ) (E : Pairing G1 G2 GT) {C : Circuit} (hwf : WellFormed true C)
    (hpar : ParallelOk C) {coins : Coins F} (hco : CoinsOk C coins) (junk : Prover F G1 G2)
    (ch : Challenges F) {i : ℕ} (h1 : 1 ≤ i) (hd : i < C.depth) {n : ℕ} (hn : C.bl (i - 1) = n) (hn1 : 1 ≤ n)
    (hn2 : 2 * n + 1 < 2 ^ 250) {P0 : Prover F G1 G2} (hm : P0.maskr = coins.maskr)
    {s : VState (Prover F G1 G2) F} (hs : LayerInv C P0 i s) {vals : List (List F)}
    (hv : Libra.evaluate .zk C = .ok vals) (hP : s.prover.base.circuitValue = valueFn vals)
    (ho0 : s.omr0 = fun j => 1 - s.r0 j) (ho1 : s.omr1 = fun j => 1 - s.r1 j)
    {rv : ℕ → F} (hrv : rv = fun j => if i = 1 then 0 else ch.rv i j) {rc : F} (hrc : rc = if i = 1 then 0 else ch.rc i) :
    ∃ s', LayerInv C P0 (i - 1) s' ∧ After E C coins ch i s s' ∧
    ∃ keyR keyM, VpdR.keyGen E (coins.layer i).aR (coins.layer i).sR = .ok keyR ∧
      VpdTest.keyGen E (2 * n + 1) (coins.layer i).aM (coins.layer i).sM = .ok keyM ∧
    ∃ S t, roundMessages E C coins s.prover i s.alpha s.beta s.r0 s.r1 (ch.rho i) (ch.ru i) rv n = .ok (S, t) ∧
    ∃ vu vv, vu = maskedValue n (value C (i - 1)) (masksOf coins s.prover i (ch.rho i)) (ch.ru i) ∧
      vv = maskedValue n (value C (i - 1)) (masksOf coins s.prover i (ch.rho i)) rv ∧
      s'.sum = (if i ≠ 1 then ch.alpha i * vu + ch.beta i * vv else vu) ∧
    ∃ O1 O2 O3, VpdR.prove keyR (fun k => if k = 0 then Gmp.toMpz s.prover.preu1 else Gmp.toMpz rc)
        (fun j => Gmp.toMpz (s.prover.maskR j)) (coins.layer i).rfR ((coins.layer i).tR 0) = .ok O1 ∧
      VpdR.prove keyR (fun k => if k = 0 then Gmp.toMpz s.prover.prev1 else Gmp.toMpz rc)
        (fun j => Gmp.toMpz (s.prover.maskR j)) (coins.layer i).rfR ((coins.layer i).tR 1) = .ok O2 ∧
      VpdTest.prove keyM (fun k => if k < n then Gmp.toMpz (ch.ru i k)
        else if k < n + n then Gmp.toMpz (rv (k - n)) else Gmp.toMpz rc)
        (fun j => Gmp.toMpz ((coins.layer i).maskpoly j)) (coins.layer i).rfM (coins.layer i).tM = .ok O3 ∧
      ((seqOf t (2 * n)).eval rc = rc * layerPolyAt C i s.alpha s.beta s.r0 s.r1 (ch.ru i) rv vu vv
        + s.alpha * (IAt (ch.ru i) n * IAt rv n) * s.prover.Zu * (O1.ans : F)
        + s.beta * (IAt (ch.ru i) n * IAt rv n) * s.prover.Zv * (O2.ans : F) + ch.rho i * (O3.ans : F)) ∧
      ∀ l L, layerStep E C (logged full m (honest E C coins junk)) ch i (withLog s l L) = .ok (withLog s' i (L ++
        segment full i n keyR (VpdR.commit keyR (fun j => Gmp.toMpz (s.prover.maskR j)) (coins.layer i).rfR) keyM
          (VpdTest.commit keyM (fun j => Gmp.toMpz ((coins.layer i).maskpoly j)) (coins.layer i).rfM)
          S (seqOf t) vu vv s.prover.preu1 s.prover.prev1 (IAt (ch.ru i) n * IAt rv n) s.prover.Zu s.prover.Zv
          (.opened 3 O1) (.opened 3 O2) (.opened (2 * n + 2) O3))) := by
  subst hn
  obtain ⟨s', hstep, hinv, haf⟩ := honest_layer_after E hwf hpar hco junk ch h1 hd hn1 hn2 hm hs
  refine ⟨s', hinv, haf, s'.prover.keyR, s'.prover.keyMask, haf.genR, haf.genM, ?_⟩
  obtain ⟨_, rfl, ru, hru, rv', hrv', rc', hrc', p1, dR, e1, p2, dM, e2, p3, hp3, p4, e4, p5, vu, vv, e5, pv, e6, p6, f, e7,
    p7, o1, e8, p8, o2, e9, p9, o3, e10, hchk, hp9, hsum, hlog⟩ := layerStep_log full m hstep
  obtain rfl : rv' = rv := hrv'.trans hrv.symm
  obtain rfl : rc' = rc := hrc'.trans hrc.symm
  subst hru
  simp only [runA1_honest, runA2_honest] at e4 e5
  simp only [funext (logA1_honest E C coins junk _ _ _), funext (logA2_honest E C coins junk _ _ _)] at hlog
  obtain ⟨Q, Q2, z1, -, -, -, z2, -, Q3, z3, -⟩ :=
    zk_layer E hwf coins h1 hd hn1 (hco.sR i h1 hd) (hco.sM i h1 hd) s.prover hv hP s.alpha s.beta s.r0 s.r1 (ch.ru i) rv' (ch.rho i)
  -- the calls before the rounds
  obtain ⟨kR, ekR, e1'⟩ := Outcome.bind_eq_ok' (show Prover.generateMaskR E coins _ i = .ok (p1, dR) from e1)
  replace e1' := Outcome.ok.inj e1'
  have hdR := (congrArg Prod.snd e1').symm
  have hp1 : p1.keyR = kR ∧ p1.base.layerId = i := by
    have hq : _ = p1 := congrArg Prod.fst e1'
    rw [← hq]
    dsimp only
    split_ifs <;> exact ⟨rfl, rfl⟩
  obtain ⟨kM, ekM, e2'⟩ := Outcome.bind_eq_ok' (show Prover.maskPreRho E coins p1 _ = .ok (p2, dM) from e2)
  replace e2' := Outcome.ok.inj e2'
  have hdM := (congrArg Prod.snd e2').symm
  have hp2 : p2.keyMask = kM := by
    have hq : _ = p2 := congrArg Prod.fst e2'
    rw [← hq]
  obtain rfl : kR = s'.prover.keyR := Outcome.ok.inj (ekR.symm.trans haf.genR)
  obtain rfl : kM = s'.prover.keyMask := by
    rw [hp1.2, Nat.mul_comm] at ekM
    exact Outcome.ok.inj (ekM.symm.trans haf.genM)
  dsimp only at hdR hdM
  rw [hp1.2] at hdM
  obtain rfl : Q = p3.phase1Init C := by
    refine (Outcome.ok.inj (z1.symm.trans ?_))
    unfold beginLayer
    rw [ho0, ho1] at e1
    refine bind_of_ok e1 ?_
    refine bind_of_ok e2 ?_
    rw [hp3]
    rfl
  obtain rfl : p4 = Q2 := Outcome.ok.inj (e4.symm.trans z2)
  have e5' := e5.symm.trans z3
  rw [Prod.mk.injEq, Prod.mk.injEq] at e5'
  obtain ⟨rfl, hvu, hvv⟩ := e5'
  -- the values of the layer's polynomial
  have hl := layerOk hwf h1 hd
  obtain ⟨pv', hpv, hgen⟩ := predicates_general hl (fun h => hpar i (by omega) hd) s.tables s.alpha s.beta
    s.r0 s.r1 (ch.ru i) rv' s.omr0 s.omr1 (oneMinus (ch.ru i)) (oneMinus (ch.rv i)) hs.om0 (hs.om1 (by omega))
    (fun _ _ => rfl) (fun h j _ => by simp [hrv, h, oneMinus])
  obtain rfl : pv' = pv := Outcome.ok.inj (hpv.symm.trans e6)
  replace hgen : general pv' vu vv = layerPolyAt C i s.alpha s.beta s.r0 s.r1 (ch.ru i) rv' vu vv := hgen vu vv
  -- the members the verifier reads
  obtain ⟨O1, x1, x2⟩ := Outcome.bind_eq_ok' (show Prover.proveR coins p6 _ = _ from e8)
  obtain ⟨O2, y1, y2⟩ := Outcome.bind_eq_ok' (show Prover.proveR coins p7 _ = _ from e9)
  obtain ⟨O3, w1, w2⟩ := Outcome.bind_eq_ok' (show (p8.proveMask coins _ >>= fun o => Outcome.ok (p8, o)) = _ from e10)
  cases x2
  cases y2
  cases w2
  have hb6 : p6.base = p5.base := by
    have hq : _ = p6 := congrArg Prod.fst e7
    rw [← hq]; rfl
  have hb5 : p5.base.vU = (run2 (C.bl (i - 1)) p4 rv' (C.bl (i - 1))).base.vU := by
    have hq : _ = p5 := congrArg Prod.fst e5
    rw [← hq]; rfl
  have hvu' : (run2 (C.bl (i - 1)) p4 rv' (C.bl (i - 1))).base.vU = vu := by
    have hq : _ = (vu, vv) := congrArg Prod.snd e5
    exact congrArg Prod.fst hq
  have hvU4 : p4.base.vU = vu := by rw [← hvu', run2_vU]
  have hvU6 : p6.base.vU = vu := by rw [hb6, hb5, hvu']
  have g1 : p6.prepreu1 = s.prover.preu1 := by have h := haf.prepreu1; rw [hp9] at h; exact h
  have g2 : p6.preprev1 = s.prover.prev1 := by have h := haf.preprev1; rw [hp9] at h; exact h
  have g3 : p6.preZu = s.prover.Zu := by have h := haf.preZu; rw [hp9] at h; exact h
  have g4 : p6.preZv = s.prover.Zv := by have h := haf.preZv; rw [hp9] at h; exact h
  have g5 : p6.Iuv = IAt (ch.ru i) (C.bl (i - 1)) * IAt rv' (C.bl (i - 1)) := by
    have h := haf.Iuv; rw [hp9, ← hrv] at h; exact h
  have g6 : p6.preR = s.prover.maskR := by have h := haf.preR; rw [hp9] at h; exact h
  have g7 : p6.rfR = (coins.layer i).rfR := by have h := haf.rfR; rw [hp9] at h; exact h
  have g8 : p6.base.layerId = i := by have h := haf.layerId; rw [hp9] at h; exact h
  have g9 : p6.rCalls = 0 := by
    have h := haf.rCalls
    rw [hp9] at h
    exact Nat.succ_injective (Nat.succ_injective h)
  have g10 : p6.keyR = s'.prover.keyR := by rw [hp9]
  have g11 : p6.keyMask = s'.prover.keyMask := by rw [hp9]
  have g12 : p6.maskpolyGmp = fun j => Gmp.toMpz ((coins.layer i).maskpoly j) := by
    have h := haf.maskGmp; rw [hp9] at h; exact h
  have g13 : p6.rfMask = (coins.layer i).rfM := by have h := haf.rfM; rw [hp9] at h; exact h
  have g14 : p6.keyMask.numOfVar = 2 * C.bl (i - 1) + 1 := by rw [g11]; exact haf.keyM.numOfVar
  have x1' : VpdR.prove s'.prover.keyR (fun k => if k = 0 then Gmp.toMpz s.prover.preu1 else Gmp.toMpz rc')
        (fun j => Gmp.toMpz (s.prover.maskR j)) (coins.layer i).rfR ((coins.layer i).tR 0) = .ok o1 := by
    rw [← x1, g6, g7, g8, g9, g10, ← g1]; rfl
  have y1' : VpdR.prove s'.prover.keyR (fun k => if k = 0 then Gmp.toMpz s.prover.prev1 else Gmp.toMpz rc')
        (fun j => Gmp.toMpz (s.prover.maskR j)) (coins.layer i).rfR ((coins.layer i).tR 1) = .ok o2 := by
    rw [← y1]
    change _ = VpdR.prove p6.keyR _ (fun j => Gmp.toMpz (p6.preR j)) p6.rfR
      ((coins.layer p6.base.layerId).tR (p6.rCalls + 1))
    rw [g6, g7, g8, g9, g10, ← g2]; rfl
  have w1' : VpdTest.prove s'.prover.keyMask (fun k => if k < C.bl (i - 1) then Gmp.toMpz (ch.ru i k)
        else if k < C.bl (i - 1) + C.bl (i - 1) then Gmp.toMpz (rv' (k - C.bl (i - 1))) else Gmp.toMpz rc')
        (fun j => Gmp.toMpz ((coins.layer i).maskpoly j)) (coins.layer i).rfM (coins.layer i).tM = .ok o3 := by
    rw [← w1]
    change _ = VpdTest.prove p6.keyMask _ p6.maskpolyGmp p6.rfMask (coins.layer p6.base.layerId).tM
    rw [g8, g11, g12, g13]
  obtain ⟨t, ht⟩ : ∃ t : Fin (2 * C.bl (i - 1) + 1) → QuintuplePoly F, t = fun k : Fin (2 * C.bl (i - 1) + 1) =>
    if (k : ℕ) < C.bl (i - 1) then poly1 (C.bl (i - 1)) (p3.phase1Init C) (ch.ru i) k
    else if (k : ℕ) < 2 * C.bl (i - 1) then poly2 (C.bl (i - 1)) p4 rv' (k - C.bl (i - 1))
    else quint f := ⟨_, rfl⟩
  have hf : (p5.finalround (prevOf rv' (C.bl (i - 1))) (C.bl (i - 1) <<< 1)
      (layerPolyAt C i s.alpha s.beta s.r0 s.r1 (ch.ru i) rv' vu vv)).2 = f := by
    rw [← hgen]; exact congrArg Prod.snd e7
  have hlast : seqOf t (2 * C.bl (i - 1)) = quint f := by
    rw [seqOf, dif_pos (by omega), ht]
    dsimp only
    rw [if_neg (by omega), if_neg (by omega)]
  have hR : roundMessages E C coins s.prover i s.alpha s.beta s.r0 s.r1 (ch.rho i) (ch.ru i) rv' (C.bl (i - 1)) =
      .ok (p3.sumc, t) := by
    unfold roundMessages
    refine bind_of_ok z1 ?_
    refine bind_of_ok e4 ?_
    rw [ht, ← hf]
    have e5' : (run2 (C.bl (i - 1)) p4 rv' (C.bl (i - 1))).finalize (prevOf rv' (C.bl (i - 1))) = (p5, vu, vv) := e5
    rw [e5']
    rfl
  refine ⟨p3.sumc, t, hR, vu, vv, hvu, hvv, hsum, o1, o2, o3, x1', y1', w1', ?_, fun l L => ?_⟩
  · rw [hlast, quint_eval]
    change f.eval rc' + _ * p6.base.vU = rc' * general pv' vu vv + s.alpha * p6.Iuv * p6.preZu * (o1.ans : F)
      + s.beta * p6.Iuv * p6.preZv * (o2.ans : F) + ch.rho i * (o3.ans : F) + _ * vu at hchk
    rw [hvU6, hgen, g3, g4, g5] at hchk
    linear_combination hchk
  · rw [hlog, segment]
    congr 2
    change L ++ ([.key p1.keyR, .digest dR, .key p2.keyMask, .digest dM, .number p3.sumc] ++ _ ++ [.number p4.base.vU] ++ _ ++
      _ ++ [.quad f, .number p6.base.vU, .number p6.prepreu1, .number p6.preprev1, .number p6.Iuv,
          .number p6.preZu, .number p6.preZv, .opened 3 o1, .opened 3 o2,
          .opened (p6.keyMask.numOfVar + 1) o3]) = _
    rw [hp1.1, hdR, hp2, hdM, hvU4, hvU6, g1, g2, g3, g4, g5, g14, hlast]
    have m1 : (List.range (C.bl (i - 1))).map (fun k => (Msg.poly (seqOf t k) : Msg F G1 G2)) =
        (List.range (C.bl (i - 1))).map
          (fun k => Msg.poly (poly1 (C.bl (i - 1)) (p3.phase1Init C) (ch.ru i) k)) := by
      refine List.map_congr_left (fun k hk => ?_)
      have hk := List.mem_range.1 hk
      rw [seqOf, dif_pos (by omega), ht]
      dsimp only
      rw [if_pos hk]
    have m2 : (List.range (C.bl (i - 1))).map (fun k => (Msg.poly (seqOf t (k + C.bl (i - 1))) : Msg F G1 G2)) =
        (List.range (C.bl (i - 1))).map (fun k => Msg.poly (poly2 (C.bl (i - 1)) p4 rv' k)) := by
      refine List.map_congr_left (fun k hk => ?_)
      have hk := List.mem_range.1 hk
      rw [seqOf, dif_pos (by omega), ht]
      dsimp only
      rw [if_neg (by omega), if_pos (by omega), Nat.add_sub_cancel]
    rw [m1, m2]
    rfl

end Libra.Zk
