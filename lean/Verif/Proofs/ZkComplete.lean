import Verif.Proofs.ZkLayer
import Verif.Proofs.FastTrackComplete
import Verif.Spec.Parallel

/-!
# Completeness of the zero-knowledge protocol
-/

namespace Libra.Zk
open Libra Spec Finset Libra.FastTrack
variable {F : Type} [CommRing F] {G1 G2 : Type}

theorem st1_zero {n : ℕ} {pt r : ℕ → F} {P : Prover F G1 G2} (hc : P.sumc = SAt n P.maskpoly 0)
    (hr : P.sumr = 0) : st1 n pt P r 0 = P := by
  cases P
  simp_all [st1, IAt, ZAt, RAt, roundState]

theorem st2_zero {n : ℕ} {pt r : ℕ → F} {P : Prover F G1 G2} (hc : P.sumc = SAt n P.maskpoly n)
    (hr : P.sumr = RAt n P.maskpoly pt n) : st2 n pt P r 0 = P := by
  cases P
  simp_all [st2, IAt, ZAt, roundState]

variable {GT : Type} [AddCommGroup G1] [AddCommGroup G2] [AddCommGroup GT]
  [Module (ZMod p) G1] [Module (ZMod p) G2] [Module (ZMod p) GT] [Gmp F]

/-- the secrets and blindings drawn by the prover are reduced, as far as the schemes need it -/
structure CoinsOk (C : Circuit) (coins : Coins F) : Prop where
  sR : ∀ i, 1 ≤ i → i < C.depth → ∀ j ≤ 2, (coins.layer i).sR j < p
  sM : ∀ i, 1 ≤ i → i < C.depth → ∀ j ≤ 2 * C.bl (i - 1) + 1, (coins.layer i).sM j < p
  rfM : ∀ i, 1 ≤ i → i < C.depth → (coins.layer i).rfM < p
  a : coins.a < p
  s : ∀ j ≤ C.bl 0, coins.s j < p

/-- what holds between two layers -/
structure LayerInv (C : Circuit) (P0 : Prover F G1 G2) (i : ℕ) (s : VState (Prover F G1 G2) F) :
    Prop where
  val : ∀ j < C.depth, j < i → ∀ g < 2 ^ C.bl j, s.prover.base.circuitValue j g = value C j g
  om0 : ∀ j < C.bl i, s.omr0 j = 1 - s.r0 j
  om1 : i ≠ 0 → ∀ j < C.bl i, s.omr1 j = 1 - s.r1 j
  sum : s.sum = if i = 0 then
      mle (C.bl 0) (value C 0) s.r0 + s.prover.Zu * (P0.maskr 0 + P0.maskr 1 * s.r0 (C.bl 0 - 1)) else
    s.alpha * (mle (C.bl i) (value C i) s.r0 + s.prover.Zu * sr s.prover.maskR s.prover.preu1) +
    s.beta * (mle (C.bl i) (value C i) s.r1 + s.prover.Zv * sr s.prover.maskR s.prover.prev1)
  frame : Frame P0 s.prover

/-- what an iteration of the layer loop leaves behind -/
structure After (E : Pairing G1 G2 GT) (C : Circuit) (coins : Coins F) (ch : Challenges F) (i : ℕ)
    (s s' : VState (Prover F G1 G2) F) : Prop where
  alpha : s'.alpha = ch.alpha i
  beta : s'.beta = ch.beta i
  r0 : s'.r0 = ch.ru i
  r1 : s'.r1 = fun j => if i = 1 then 0 else ch.rv i j
  om0 : s'.omr0 = oneMinus (ch.ru i)
  om1 : s'.omr1 = oneMinus (ch.rv i)
  values : s'.prover.base.circuitValue = s.prover.base.circuitValue
  layerId : s'.prover.base.layerId = i
  Zu : s'.prover.Zu = ZAt (ch.ru i) (C.bl (i - 1))
  Zv : s'.prover.Zv = ZAt (fun j => if i = 1 then 0 else ch.rv i j) (C.bl (i - 1))
  preu1 : s'.prover.preu1 = ch.ru i (C.bl (i - 1) - 1)
  prev1 : s'.prover.prev1 = if i = 1 then 0 else ch.rv i (C.bl (i - 1) - 1)
  maskR : i ≠ 1 → s'.prover.maskR = (coins.layer i).maskR
  Iuv : s'.prover.Iuv = IAt (ch.ru i) (C.bl (i - 1)) * IAt (fun j => if i = 1 then 0 else ch.rv i j) (C.bl (i - 1))
  preZu : s'.prover.preZu = s.prover.Zu
  preZv : s'.prover.preZv = s.prover.Zv
  prepreu1 : s'.prover.prepreu1 = s.prover.preu1
  preprev1 : s'.prover.preprev1 = s.prover.prev1
  preR : s'.prover.preR = s.prover.maskR
  rfR : s'.prover.rfR = (coins.layer i).rfR
  genR : VpdR.keyGen E (coins.layer i).aR (coins.layer i).sR = .ok s'.prover.keyR
  genM : VpdTest.keyGen E (2 * C.bl (i - 1) + 1) (coins.layer i).aM (coins.layer i).sM = .ok s'.prover.keyMask
  keyR : VpdR.Good E (coins.layer i).aR (coins.layer i).sR s'.prover.keyR
  keyM : VpdTest.Good E (2 * C.bl (i - 1) + 1) (coins.layer i).aM
    (fun j => ((coins.layer i).sM j : ZMod p)) s'.prover.keyMask
  maskGmp : s'.prover.maskpolyGmp = fun j => Gmp.toMpz ((coins.layer i).maskpoly j)
  rfM : s'.prover.rfMask = (coins.layer i).rfM
  rCalls : s'.prover.rCalls = 2

variable [DecidableEq F] [DecidableEq GT] [LawfulGmp F]

theorem openR {E : Pairing G1 G2 GT} (coins : Coins F) {a : ℕ} {sec : ℕ → ℕ} {P : Prover F G1 G2}
    (hK : VpdR.Good E a sec P.keyR) (x rc : F) :
    ∃ O : VpdR.Opening G1,
      P.proveR coins (fun k => if k = 0 then Gmp.toMpz x else Gmp.toMpz rc) =
        .ok ({ P with rCalls := P.rCalls + 1 }, O) ∧ (O.ans : F) = maskRPoly P.preR x rc ∧
      VpdR.verify E P.keyR (fun k => if k = 0 then Gmp.toMpz x else Gmp.toMpz rc)
        (VpdR.commit P.keyR (fun j => Gmp.toMpz (P.preR j)) P.rfR).1 O.ans O.witness O.witnessa =
        .ok true := by
  obtain ⟨O, e, -, hv, h⟩ := VpdR.complete hK (fun j => Gmp.toMpz (P.preR j)) P.rfR
    ((coins.layer P.base.layerId).tR P.rCalls) (fun k => if k = 0 then Gmp.toMpz x else Gmp.toMpz rc)
    (fun i _ => by split_ifs <;> exact LawfulGmp.lt _)
  refine ⟨O, ?_, ?_, h⟩
  · rw [Prover.proveR, e, Outcome.ok_bind]; rfl
  · rw [hv F LawfulGmp.char]
    simp [LawfulGmp.cast]

theorem openMask {E : Pairing G1 G2 GT} (coins : Coins F) {n a : ℕ} (hn : 1 ≤ n)
    (hn2 : 2 * n + 1 < 2 ^ 250) {sec : ℕ → ZMod p}
    {P : Prover F G1 G2} (hK : VpdTest.Good E (2 * n + 1) a sec P.keyMask) {m : ℕ → F}
    (hm : P.maskpolyGmp = fun j => Gmp.toMpz (m j)) (hrf : P.rfMask < p) (ru rv : ℕ → F) (rc : F) :
    ∃ O : VpdR.Opening G1,
      P.proveMask coins (fun k => if k < n then Gmp.toMpz (ru k)
        else if k < n + n then Gmp.toMpz (rv (k - n)) else Gmp.toMpz rc) = .ok O ∧
      (O.ans : F) = sumMaskPoly (2 * n + 1) m (fun k => if k < n then ru k
        else if k < n + n then rv (k - n) else rc) ∧
      VpdTest.verify E P.keyMask (n + n + 1) (fun k => if k < n then Gmp.toMpz (ru k)
        else if k < n + n then Gmp.toMpz (rv (k - n)) else Gmp.toMpz rc)
        (VpdTest.commit P.keyMask P.maskpolyGmp P.rfMask).1 O.ans O.witness O.witnessa = .ok true := by
  rw [show n + n + 1 = 2 * n + 1 by ring]
  obtain ⟨O, e, -, hv, h⟩ := VpdTest.complete (by omega) hn2 hK P.maskpolyGmp
    (fun i _ => by rw [hm]; exact LawfulGmp.lt _) P.rfMask hrf (coins.layer P.base.layerId).tM
    (fun k => if k < n then Gmp.toMpz (ru k)
        else if k < n + n then Gmp.toMpz (rv (k - n)) else Gmp.toMpz rc)
    (fun i _ => by split_ifs <;> exact LawfulGmp.lt _)
  refine ⟨O, e, ?_, h⟩
  rw [hv F LawfulGmp.char, hm]
  refine sumMaskPoly_congr (by omega) (fun i _ => LawfulGmp.cast _) (fun i _ => ?_)
  split_ifs <;> exact LawfulGmp.cast _

theorem honest_layer_of (E : Pairing G1 G2 GT) {C : Circuit}
    {coins : Coins F} (hco : CoinsOk C coins) (junk : Prover F G1 G2)
    (ch : Challenges F) {i : ℕ} (h1 : 1 ≤ i) (hd : i < C.depth) (hl : LayerOk true C i)
    (hpar : i ≠ 1 → (C.layer i).isParallel = true → Repeated C i) (hn1 : 1 ≤ C.bl (i - 1))
    (hn2 : 2 * C.bl (i - 1) + 1 < 2 ^ 250)
    {P0 : Prover F G1 G2} (hm : P0.maskr = coins.maskr) {s : VState (Prover F G1 G2) F}
    (hs : LayerInv C P0 i s) :
    ∃ s', layerStep E C (honest E C coins junk) ch i s = .ok s' ∧ LayerInv C P0 (i - 1) s' ∧
      After E C coins ch i s s' := by
  have hp : ((p : ℕ) : F) = 0 := LawfulGmp.char
  obtain ⟨PA, DR, PB, DM, eA, eB, hE⟩ := preRounds E C coins h1 hp hn1 (hco.sR i h1 hd)
    (hco.sM i h1 hd) (ch.rho i) s.prover s.alpha s.beta s.r0 s.r1 s.omr0 s.omr1
  set b := s.prover.base.sumcheckInit i (C.bl i) (C.bl (i - 1)) (C.bl (i - 1)) s.alpha s.beta s.r0 s.r1
    s.omr0 s.omr1 with hb
  set PE := (({ PB with rho := ch.rho i }.maskAfterRho (C.bl (i - 1) * 2 + 1)).phase1Init C) with hPE
  have hsc : ({ PB with rho := ch.rho i }.maskAfterRho (C.bl (i - 1) * 2 + 1)).sumc = PE.sumc := rfl
  have hkR : ({ PB with rho := ch.rho i }.maskAfterRho (C.bl (i - 1) * 2 + 1)).keyR = PE.keyR := rfl
  have hkM : ({ PB with rho := ch.rho i }.maskAfterRho (C.bl (i - 1) * 2 + 1)).keyMask = PE.keyMask :=
    rfl
  have hr : Ready C i b := ⟨hs.val, rfl, rfl, rfl, hs.om0, hs.om1 (by omega)⟩
  obtain ⟨ht1, hV1, hw, _⟩ := phase1_ready (var := .zk) hr (by simpa using hl)
  have hst := phase1_start (var := .zk) h1 hr hd (by simpa using hl)
  have hfin := phase1_final (var := .zk) hr (by simpa using hl)
  rw [← hE.base] at ht1 hV1 hw hst hfin
  generalize hn : C.bl (i - 1) = n at *
  set V := s.prover.base.circuitValue (i - 1) with hVdef
  have hVv : ∀ k < 2 ^ n, V k = value C (i - 1) k := by rw [← hn]; exact hs.val (i - 1) (by omega) (by omega)
  set w := comb (C.bl i) s.alpha s.beta s.r0 s.r1 with hwdef
  replace hst : ∑ x ∈ range (2 ^ n), (tabA PE.base x * V x + tabB PE.base x) =
      s.alpha * mle (C.bl i) (value C i) s.r0 + s.beta * mle (C.bl i) (value C i) s.r1 := hst
  replace hfin : ∀ x a, mle n (tabA PE.base) x * a + mle n (tabB PE.base) x =
      halfSum C i w (eqPoly n x) a V + relayCoef C i w (eqPoly n x) * a := hfin
  set ru := ch.ru i with hru
  set rv : ℕ → F := fun j => if i = 1 then 0 else ch.rv i j with hrv
  set rc : F := if i = 1 then 0 else ch.rc i with hrc
  set relay := s.alpha * directRelay C i s.r0 ru + s.beta * directRelay C i s.r1 ru with hrelay
  have hrel : relayCoef C i w (eqPoly n ru) = relay := by
    have := relayCoef_eq C i (fun h => (hl.relay h).1) s.alpha s.beta s.r0 s.r1 ru
    rwa [hn] at this
  set pt : ℕ → F := fun k => if k < n then ru k else if k < n + n then rv (k - n) else rc with hpt
  have hptu : ∀ j < n, pt j = ru j := fun j hj => by simp [hpt, hj]
  have hptv : ∀ j < n, pt (j + n) = rv j := fun j hj => by
    simp only [hpt]
    rw [if_neg (by omega), if_pos (by omega), Nat.add_sub_cancel]
  have hptc : pt (2 * n) = rc := by
    simp only [hpt]
    rw [if_neg (by omega), if_neg (by omega)]
  -- phase 1
  have hbase := hE.base
  have hst1 : Start n V PE := ⟨ht1, hV1, by rw [hbase]; exact hn ▸ rfl, by rw [hbase]; exact hn ▸ rfl⟩
  have hc0 : PE.sumc = SAt n PE.maskpoly 0 := by rw [← hn]; exact hE.sumc
  have h01 : st1 n pt PE ru 0 = PE := st1_zero hc0 hE.sumr
  have hclaim : s.sum + PE.sumc = claim1 n pt V PE ru 0 := by
    rw [claim1, claimAt_zero, hst, hc0, hs.sum, if_neg (by omega), if_neg (by omega), hE.sumcu, hE.sumcv]
    change _ = s.alpha * _ + s.beta * _ + (s.alpha * _ * _ + s.beta * _ * _) * _ + _ + _
    simp only [IAt, RAt, range_zero, prod_empty, sum_empty]
    change _ = s.alpha * mle (C.bl i) (value C i) s.r0 + s.beta * mle (C.bl i) (value C i) s.r1 + _ + _ + _
    ring
  have hloop1 := rounds1 E C coins junk hp hst1 hptu n le_rfl
  rw [h01, ← hclaim] at hloop1
  -- between the phases
  have hP2e := roundState_eq ht1 hV1 ru (le_refl n)
  set vu := mle n V ru + PE.Zu * ZAt ru n * PE.sumRc.eval (ru (n - 1)) with hvu
  obtain ⟨b3, hb3, hb3e, hV3, tmpU, hU, hphi, hone⟩ :=
    phase2Tables_ready (var := .zk) (P := roundState PE.base ru n) (C := C) (i := i) (by simpa using hl)
      (by rw [hP2e, hbase]; rfl) (by rw [hP2e, hbase]; rfl) vu ru (oneMinus ru) (fun _ _ => rfl)
  have hcv : (roundState PE.base ru n).circuitValue = s.prover.base.circuitValue := by
    rw [hP2e, hbase]; rfl
  have htg : (roundState PE.base ru n).tmpG = PE.base.tmpG := by rw [hP2e]; rfl
  rw [hcv, hn] at hV3
  rw [htg] at hphi
  have hinit2 := phase2Init_st1 C hst1 hn1 hptu (oneMinus ru) hb3
  set P3 : Prover F G1 G2 := { PE with
        base := b3
        preu1 := ru (n - 1)
        sumc := SAt n PE.maskpoly n
        sumr := RAt n PE.maskpoly pt n
        Iuv := PE.Iuv * IAt ru n
        sumcu := PE.sumcu * IAt ru n
        sumcv := PE.sumcv * IAt ru n
        Zu := PE.Zu * ZAt ru n } with hP3
  have hu3 : b3.vU = vu := by rw [hb3e]
  have hst3 : Start n V P3 := by
    refine ⟨?_, hV3, ?_, ?_⟩
    · change b3.totalUv = _
      rw [hb3e, hn]
    · change b3.lengthU = _
      rw [hb3e]; exact (hst1.round ru le_rfl).1
    · change b3.lengthV = _
      rw [hb3e]; exact (hst1.round ru le_rfl).2.1
  have h02 : st2 n pt P3 rv 0 = P3 := st2_zero rfl rfl
  have hmid : claim1 n pt V PE ru n = claim2 n pt V P3 rv 0 + relay * vu := by
    have e1 := hfin ru vu
    have e2 := phase2_start hl hw hU hphi V
    rw [hn] at e2
    rw [hrel] at e1
    change _ = halfSum C i w _ _ V at e2
    rw [hu3] at e2
    rw [claim1, claim2, claimAt_last, claimAt_zero, if_pos rfl, if_neg (by omega)]
    change _ = ∑ x ∈ range (2 ^ n), (tabA b3 x * V x + tabB b3 x)
      + (PE.sumcu * IAt ru n + PE.sumcv * IAt ru n) * IAt rv 0
      + (SAt n PE.maskpoly (0 + n) + 2 ^ (2 * n + 1 - (0 + n)) * RAt n PE.maskpoly pt (0 + n)) + 0 + _
    rw [e2, zero_add]
    simp only [IAt, range_zero, prod_empty]
    rw [hvu] at e1 ⊢
    linear_combination e1
  have hloop2 := rounds2 E C coins junk hp hst3 hptv i (ch.rv i) relay (fun _ => rfl) n le_rfl
  rw [h02] at hloop2
  change loopM n _ (P3, claim2 n pt V P3 rv 0 + relay * b3.vU, 0) = _ at hloop2
  rw [hu3, ← hmid] at hloop2
  have hfz := finalize_st2 hst3 hn1 pt rv
  change _ = (_, (b3.vU, mle n V rv + PE.Zv * ZAt rv n * PE.sumRc.eval (rv (n - 1)))) at hfz
  rw [hu3] at hfz
  set vv := mle n V rv + PE.Zv * ZAt rv n * PE.sumRc.eval (rv (n - 1)) with hvv
  have hvv4 : prevOf rv n = pt (n + n - 1) := by
    rw [prevOf_pos rv hn1, show n + n - 1 = n - 1 + n by omega, hptv _ (by omega)]
  -- the predicates and the last round
  obtain ⟨pv, hpv, hgen⟩ := predicates_general hl hpar s.tables s.alpha s.beta
    s.r0 s.r1 ru rv s.omr0 s.omr1 (oneMinus ru) (oneMinus (ch.rv i)) hs.om0 (hs.om1 (by omega))
    (fun _ _ => rfl) (fun h j _ => by simp [hrv, h, oneMinus])
  rw [hn] at hgen
  set T := betaInit C s.tables i s.alpha s.beta s.r0 s.r1 ru rv s.omr0 s.omr1 (oneMinus ru)
    (oneMinus (ch.rv i)) with hT
  have hst4 := hst3.round rv (le_refl n)
  obtain ⟨P4, hP4⟩ : ∃ P4, P4 = ((st2 n pt P3 rv n).finalize (prevOf rv n)).1 := ⟨_, rfl⟩
  have hP4' := hP4
  rw [hfz] at hP4'
  have hfz' : (st2 n pt P3 rv n).finalize (prevOf rv n) = (P4, vu, vv) :=
    Prod.ext hP4.symm (by rw [hfz])
  have hl4 : P4.base.lengthU = n ∧ P4.base.lengthV = n := by
    rw [hP4']; exact ⟨hst4.1, hst4.2.1⟩
  obtain ⟨hF1, hF2⟩ := finalround_eq hp hn1 hl4.1 hl4.2 (pt := pt) (by rw [hP4']) (by rw [hP4'])
    (general pv vu vv)
  rw [← hvv4] at hF1 hF2
  obtain ⟨FR, hFR⟩ : ∃ FR, FR = P4.finalround (prevOf rv n) (n <<< 1) (general pv vu vv) := ⟨_, rfl⟩
  rw [← hFR] at hF1 hF2
  have hm4 : P4.maskpoly = PE.maskpoly := by rw [hP4']
  have hI4 : P4.Iuv = IAt ru n * IAt rv n := by
    rw [hP4']; change PE.Iuv * _ * _ = _; rw [hE.Iuv, one_mul]
  have hz4 : P4.preZu = s.prover.Zu ∧ P4.preZv = s.prover.Zv := by
    rw [hP4']; exact ⟨hE.preZu, hE.preZv⟩
  have hR4 : P4.Rg1 = PE.Rg1 ∧ P4.Rg2 = PE.Rg2 := by rw [hP4']; exact ⟨rfl, rfl⟩
  have hbe : b3 = { PE.base with
      vU := vu, uf := b3.uf, us := b3.us, betaU := b3.betaU, totalUv := 2 ^ n, tabs := b3.tabs } := by
    rw [hn, hP2e] at hb3e; exact hb3e
  have hb4 : P4.base = { b3 with
      vV := vv, tabs := P4.base.tabs, totalUv := P4.base.totalUv } := by
    rw [hP4', roundState_eq hst3.totalUv hst3.vMultAdd rv (le_refl n)]
  have hab : P4.base.alpha = s.alpha ∧ P4.base.beta = s.beta ∧ P4.base.vU = vu ∧ P4.base.layerId = i ∧
      P4.base.circuitValue = s.prover.base.circuitValue := by
    rw [hb4]; dsimp only; rw [hbe, hbase]; exact ⟨rfl, rfl, rfl, rfl, rfl⟩
  have hpoly : ∀ x, FR.2.eval x = s.alpha * (IAt ru n * IAt rv n) * s.prover.Zu * maskRPoly s.prover.maskR s.prover.preu1 x
      + s.beta * (IAt ru n * IAt rv n) * s.prover.Zv * maskRPoly s.prover.maskR s.prover.prev1 x
      + general pv vu vv * x + mAt n PE.maskpoly pt (2 * n) x := by
    intro x
    rw [hF2, hm4, hI4, hz4.1, hz4.2, hR4.1, hR4.2, hab.1, hab.2.1, hE.Rg1, hE.Rg2]
    ring
  have hcheck1 : FR.2.eval 0 + FR.2.eval 1 + relay * vu = claim2 n pt V P3 rv n + relay * vu := by
    have e1 := phase2_final hl hw hU hphi rv vv
    rw [hn] at e1
    change _ = polySum C i w _ _ _ _ at e1
    rw [hu3, ← hgen] at e1
    have e2 := mAt_sum hp n PE.maskpoly pt (show 2 * n < 2 * n + 1 by omega)
    rw [hpoly, hpoly, claim2, if_pos rfl, claimAt_last, show n + n = 2 * n by ring]
    change _ = mle n (tabA b3) rv * mle n V rv + mle n (tabB b3) rv
      + (PE.sumcu * IAt ru n + PE.sumcv * IAt ru n) * IAt rv n
      + (SAt n PE.maskpoly (2 * n) + 2 ^ (2 * n + 1 - 2 * n) * RAt n PE.maskpoly pt (2 * n))
      + PE.Zv * ZAt rv n * PE.sumRc.eval (rv (n - 1)) * mle n (tabA b3) rv + _
    rw [← e2, hE.sumcu, hE.sumcv, ← e1, hvv]
    change _ = _ + (s.alpha * _ * _ * _ + s.beta * _ * _ * _) * _ + _ + _ + _
    simp only [sr]
    ring
  -- the openings
  have hmem : FR.1.keyR = PE.keyR ∧ FR.1.preR = PE.preR ∧ FR.1.rfR = PE.rfR ∧ FR.1.keyMask = PE.keyMask ∧
      FR.1.maskpolyGmp = PE.maskpolyGmp ∧ FR.1.rfMask = PE.rfMask ∧ FR.1.prepreu1 = PE.prepreu1 ∧
      FR.1.preprev1 = PE.preprev1 ∧ FR.1.Iuv = P4.Iuv ∧ FR.1.preZu = P4.preZu ∧ FR.1.preZv = P4.preZv := by
    rw [hF1, hP4']; exact ⟨rfl, rfl, rfl, rfl, rfl, rfl, rfl, rfl, rfl, rfl, rfl⟩
  obtain ⟨m1, m2, m3, m4, m5, m6, m7, m8, m9, m10, m11⟩ := hmem
  have hkR' : VpdR.Good E (coins.layer i).aR (coins.layer i).sR FR.1.keyR := by rw [m1]; exact hE.keyR
  have hkM' : VpdTest.Good E (2 * n + 1) (coins.layer i).aM
      (fun j => ((coins.layer i).sM j : ZMod p)) FR.1.keyMask := by
    rw [m4, ← hn]; exact hE.keyM
  have hdR : DR = VpdR.commit FR.1.keyR (fun j => Gmp.toMpz (FR.1.preR j)) FR.1.rfR := by
    rw [m1, m2, m3]; exact hE.digR
  have hdM : DM = VpdTest.commit FR.1.keyMask FR.1.maskpolyGmp FR.1.rfMask := by
    rw [m4, m5, m6]; exact hE.digM
  obtain ⟨O1, eO1, vO1, hO1⟩ := openR coins hkR' FR.1.prepreu1 rc
  obtain ⟨Q, hQ⟩ : ∃ Q : Prover F G1 G2, Q = { FR.1 with rCalls := FR.1.rCalls + 1 } := ⟨_, rfl⟩
  rw [← hQ] at eO1
  have hkRQ : VpdR.Good E (coins.layer i).aR (coins.layer i).sR Q.keyR := by rw [hQ]; exact hkR'
  obtain ⟨O2, eO2, vO2, hO2⟩ := openR coins hkRQ Q.preprev1 rc
  obtain ⟨Q', hQ'⟩ : ∃ Q' : Prover F G1 G2, Q' = { Q with rCalls := Q.rCalls + 1 } := ⟨_, rfl⟩
  rw [← hQ'] at eO2
  obtain ⟨O3, eO3, vO3, hO3⟩ := openMask (P := Q') coins hn1 hn2 (by rw [hQ', hQ]; exact hkM')
    (m := (coins.layer i).maskpoly) (by rw [hQ', hQ]; exact m5.trans hE.maskGmp)
    (by rw [hQ', hQ]; exact (m6.trans hE.rfMask) ▸ hco.rfM i h1 hd) ru rv rc
  have hrCc : Vpd.checkCommit E PE.keyR DR.1 DR.2 = true := by
    have e := hE.keyR.toGood.checkCommit DR.1
    rwa [show DR.2 = (coins.layer i).aR • DR.1 by rw [hE.digR, ← hE.keyR.key]; rfl]
  have hmCc : Vpd.checkCommit E PE.keyMask DM.1 DM.2 = true := by
    have e := hE.keyM.toGood.checkCommit DM.1
    rwa [show DM.2 = (coins.layer i).aM • DM.1 by rw [hE.digM, ← hE.keyM.key]; rfl]
  rw [← hdR] at hO1
  have hO2' : VpdR.verify E Q'.keyR (fun k => if k = 0 then Gmp.toMpz Q.preprev1 else Gmp.toMpz rc)
      DR.1 O2.ans O2.witness O2.witnessa = .ok true := by
    rw [← hO2, hdR, hQ', hQ]
  have hO3' : VpdTest.verify E Q'.keyMask (n + n + 1) (fun k => if k < n then Gmp.toMpz (ru k)
        else if k < n + n then Gmp.toMpz (rv (k - n)) else Gmp.toMpz rc)
      DM.1 O3.ans O3.witness O3.witnessa = .ok true := by
    rw [← hO3, hdM, hQ', hQ]
  have hQk : Q.keyR = FR.1.keyR := by rw [hQ]
  have hQI : Q'.Iuv = FR.1.Iuv ∧ Q'.preZu = FR.1.preZu ∧ Q'.preZv = FR.1.preZv := by
    rw [hQ', hQ]; exact ⟨rfl, rfl, rfl⟩
  have hFvU : FR.1.base.vU = vu := by rw [hF1]; exact hab.2.2.1
  have hQb : Q'.base = P4.base := by rw [hQ', hQ, hF1]
  have hQZ : Q'.Zu = ZAt ru n ∧ Q'.Zv = ZAt rv n ∧ Q'.preu1 = ru (n - 1) ∧ Q'.prev1 = rv (n - 1) ∧
      Q'.maskR = PE.maskR := by
    rw [hQ', hQ, hF1, hP4']
    refine ⟨?_, ?_, rfl, rfl, rfl⟩
    · change PE.Zu * _ = _
      rw [hE.Zu, one_mul]
    · change PE.Zv * _ = _
      rw [hE.Zv, one_mul]
  have hfinal : FR.2.eval rc + relay * vu = rc * general pv vu vv + s.alpha * FR.1.Iuv * FR.1.preZu * (O1.ans : F)
      + s.beta * FR.1.Iuv * FR.1.preZv * (O2.ans : F) + ch.rho i * (O3.ans : F) + relay * vu := by
    have e1 : ch.rho i * (O3.ans : F) = mAt n PE.maskpoly pt (2 * n) rc := by
      have e := mAt_last hp n hn1 PE.maskpoly pt
      rw [hptc] at e
      rw [vO3, e, ← sumMaskPoly_mul]
      refine sumMaskPoly_congr (by omega) (fun j hj => ?_) (fun _ _ => rfl)
      exact (hE.mask j (by rw [hn]; exact hj)).symm
    have e2 : (O1.ans : F) = maskRPoly s.prover.maskR s.prover.preu1 rc := by
      rw [vO1, m2, m7, hE.preR, hE.prepreu1]
    have e3 : (O2.ans : F) = maskRPoly s.prover.maskR s.prover.prev1 rc := by
      rw [vO2, hQ]; dsimp only; rw [m2, m8, hE.preR, hE.preprev1]
    rw [e1, e2, e3, hpoly, m9, m10, m11, hI4, hz4.1, hz4.2]
    ring
  refine ⟨⟨Q', ch.alpha i, ch.beta i, if i ≠ 1 then ch.alpha i * vu + ch.beta i * vv else vu,
    ru, rv, oneMinus ru, oneMinus (ch.rv i), T⟩, ?_, ?_, ?_⟩
  · rw [layerStep]
    subst hn
    change (Prover.sumcheckInit E coins s.prover i (C.bl i) (C.bl (i - 1)) (C.bl (i - 1)) s.alpha s.beta s.r0 s.r1 s.omr0 s.omr1
      >>= _) = _
    rw [eA, Outcome.ok_bind]
    change (Prover.maskPreRho E coins PA (C.bl (i - 1) * 2 + 1) >>= _) = _
    rw [eB, Outcome.ok_bind]
    change (loopM (C.bl (i - 1)) (round1 (honest E C coins junk) (C.bl (i - 1)) ru) (PE, s.sum + PE.sumc, 0) >>= _) = _
    rw [hloop1, Outcome.ok_bind]
    change (Prover.phase2Init C (st1 (C.bl (i - 1)) pt PE ru (C.bl (i - 1))) (prevOf ru (C.bl (i - 1))) ru (oneMinus ru) >>= _) = _
    rw [hinit2, Outcome.ok_bind]
    change (loopM (C.bl (i - 1)) (round2 (honest E C coins junk) (C.bl (i - 1)) i (ch.rv i) relay)
      (P3, claim1 (C.bl (i - 1)) pt V PE ru (C.bl (i - 1)), 0) >>= _) = _
    rw [hloop2, Outcome.ok_bind]
    change (predicates C T i s.r0 s.r1 ru rv >>= _) = _
    rw [hpv, Outcome.ok_bind]
    dsimp only [honest]
    rw [hfz']
    dsimp only
    rw [← hFR]
    change (Outcome.check (FR.2.eval 0 + FR.2.eval 1 + relay * vu == _) >>= _) = _
    rw [hcheck1, beq_self_eq_true, Outcome.check_true, Outcome.ok_bind]
    change (Prover.proveR coins FR.1 (fun k => if k = 0 then Gmp.toMpz FR.1.prepreu1 else Gmp.toMpz rc)
      >>= _) = _
    rw [eO1, Outcome.ok_bind]
    change (VpdR.verify E Q.keyR (fun k => if k = 0 then Gmp.toMpz FR.1.prepreu1 else Gmp.toMpz rc)
      DR.1 O1.ans O1.witness O1.witnessa >>= _) = _
    rw [hQk, hO1, Outcome.ok_bind]
    change (Prover.proveR coins Q (fun k => if k = 0 then Gmp.toMpz Q.preprev1 else Gmp.toMpz rc)
      >>= _) = _
    rw [eO2, Outcome.ok_bind]
    change (VpdR.verify E Q'.keyR (fun k => if k = 0 then Gmp.toMpz Q.preprev1 else Gmp.toMpz rc)
      DR.1 O2.ans O2.witness O2.witnessa >>= _) = _
    rw [hO2', Outcome.ok_bind]
    change (Outcome.check (true && true && Vpd.checkCommit E PE.keyR DR.1 DR.2) >>= _) = _
    rw [hrCc, Bool.and_self, Bool.and_self, Outcome.check_true, Outcome.ok_bind]
    change ((Prover.proveMask coins Q' (fun k => if k < C.bl (i - 1) then Gmp.toMpz (ru k)
        else if k < C.bl (i - 1) + C.bl (i - 1) then Gmp.toMpz (rv (k - C.bl (i - 1)))
        else Gmp.toMpz rc) >>= fun o => Outcome.ok (Q', o)) >>= _) = _
    rw [eO3, Outcome.ok_bind, Outcome.ok_bind]
    change (VpdTest.verify E Q'.keyMask (C.bl (i - 1) + C.bl (i - 1) + 1)
      (fun k => if k < C.bl (i - 1) then Gmp.toMpz (ru k)
        else if k < C.bl (i - 1) + C.bl (i - 1) then Gmp.toMpz (rv (k - C.bl (i - 1)))
        else Gmp.toMpz rc) DM.1 O3.ans O3.witness O3.witnessa >>= _) = _
    rw [hO3', Outcome.ok_bind]
    change (Outcome.check (Vpd.checkCommit E PE.keyMask DM.1 DM.2 && true) >>= _) = _
    rw [hmCc, Bool.and_self, Outcome.check_true, Outcome.ok_bind]
    change (Outcome.check (FR.2.eval rc + relay * FR.1.base.vU == rc * general pv vu vv
      + s.alpha * Q'.Iuv * Q'.preZu * (O1.ans : F) + s.beta * Q'.Iuv * Q'.preZv * (O2.ans : F)
      + ch.rho i * (O3.ans : F) + relay * vu) >>= _) = _
    rw [hQI.1, hQI.2.1, hQI.2.2, hFvU, ← hfinal, beq_self_eq_true, Outcome.check_true, Outcome.ok_bind]
    rfl
  · refine ⟨?_, fun _ _ => rfl, ?_, ?_, ?_⟩
    · intro j hj hji g hg
      dsimp only
      rw [hQb, hab.2.2.2.2]; exact hs.val j hj (by omega) g hg
    · intro h j _
      have : i ≠ 1 := by omega
      simp [oneMinus, hrv, this]
    · have eu : vu = mle n (value C (i - 1)) ru + ZAt ru n * PE.sumRc.eval (ru (n - 1)) := by
        rw [hvu, hE.Zu, one_mul, mle_congr hVv (fun _ _ => rfl)]
      have ev : vv = mle n (value C (i - 1)) rv + ZAt rv n * PE.sumRc.eval (rv (n - 1)) := by
        rw [hvv, hE.Zv, one_mul, mle_congr hVv (fun _ _ => rfl)]
      dsimp only
      rw [hQZ.1, hQZ.2.1, hQZ.2.2.1, hQZ.2.2.2.1, hQZ.2.2.2.2]
      rw [hE.next] at eu ev
      by_cases h : i = 1
      · rw [if_pos h] at eu
        rw [if_neg (not_not.2 h), if_pos (by omega), eu, hs.frame.maskr, ← hn]
        subst h
        rfl
      · rw [if_neg h] at eu ev
        rw [if_pos h, if_neg (by omega), eu, ev, hn]
    · refine hs.frame.trans (hE.frame.trans ?_)
      rw [hQ', hQ, hF1, hP4']
      exact ⟨rfl, rfl, rfl, rfl, rfl, rfl⟩
  · have hQm : Q'.preR = FR.1.preR ∧ Q'.rfR = FR.1.rfR ∧ Q'.keyR = FR.1.keyR ∧ Q'.keyMask = FR.1.keyMask ∧
        Q'.maskpolyGmp = FR.1.maskpolyGmp ∧ Q'.rfMask = FR.1.rfMask ∧ Q'.prepreu1 = FR.1.prepreu1 ∧
        Q'.preprev1 = FR.1.preprev1 := by
      rw [hQ', hQ]; exact ⟨rfl, rfl, rfl, rfl, rfl, rfl, rfl, rfl⟩
    obtain ⟨q1, q2, q3, q4, q5, q6, q7, q8⟩ := hQm
    subst hn
    exact {
      alpha := rfl, beta := rfl, r0 := rfl, r1 := rfl, om0 := rfl, om1 := rfl
      values := by dsimp only; rw [hQb, hab.2.2.2.2]
      layerId := by dsimp only; rw [hQb, hab.2.2.2.1]
      Zu := hQZ.1
      Zv := hQZ.2.1
      preu1 := hQZ.2.2.1
      prev1 := hQZ.2.2.2.1
      maskR := fun h => hQZ.2.2.2.2.trans (hE.maskR h)
      Iuv := by dsimp only; rw [hQI.1, m9, hI4]
      preZu := by dsimp only; rw [hQI.2.1, m10, hz4.1]
      preZv := by dsimp only; rw [hQI.2.2, m11, hz4.2]
      prepreu1 := by dsimp only; rw [q7, m7, hE.prepreu1]
      preprev1 := by dsimp only; rw [q8, m8, hE.preprev1]
      preR := by dsimp only; rw [q1, m2, hE.preR]
      rfR := by dsimp only; rw [q2, m3, hE.rfR]
      genR := by dsimp only; rw [q3, m1, hE.genR]
      genM := by dsimp only; rw [q4, m4, hE.genM]
      keyR := by dsimp only; rw [q3]; exact hkR'
      keyM := by dsimp only; rw [q4]; exact hkM'
      maskGmp := by dsimp only; rw [q5, m5, hE.maskGmp]
      rfM := by dsimp only; rw [q6, m6, hE.rfMask]
      rCalls := by
        dsimp only
        rw [hQ', hQ]
        change FR.1.rCalls + 1 + 1 = 2
        have : FR.1.rCalls = PE.rCalls := by rw [hF1, hP4']
        rw [this, hE.rCalls] }

theorem honest_layer_after (E : Pairing G1 G2 GT) {C : Circuit} (hwf : WellFormed true C)
    (hpar : ParallelOk C) {coins : Coins F} (hco : CoinsOk C coins) (junk : Prover F G1 G2)
    (ch : Challenges F) {i : ℕ} (h1 : 1 ≤ i) (hd : i < C.depth) (hn1 : 1 ≤ C.bl (i - 1))
    (hn2 : 2 * C.bl (i - 1) + 1 < 2 ^ 250)
    {P0 : Prover F G1 G2} (hm : P0.maskr = coins.maskr) {s : VState (Prover F G1 G2) F}
    (hs : LayerInv C P0 i s) :
    ∃ s', layerStep E C (honest E C coins junk) ch i s = .ok s' ∧ LayerInv C P0 (i - 1) s' ∧
      After E C coins ch i s s' := by
  exact honest_layer_of E hco junk ch h1 hd (layerOk hwf h1 hd) (fun h => hpar i (by omega) hd) hn1 hn2 hm hs

theorem honest_layer (E : Pairing G1 G2 GT) {C : Circuit} (hwf : WellFormed true C)
    (hpar : ParallelOk C) {coins : Coins F} (hco : CoinsOk C coins) (junk : Prover F G1 G2)
    (ch : Challenges F) {i : ℕ} (h1 : 1 ≤ i) (hd : i < C.depth) (hn1 : 1 ≤ C.bl (i - 1))
    (hn2 : 2 * C.bl (i - 1) + 1 < 2 ^ 250)
    {P0 : Prover F G1 G2} (hm : P0.maskr = coins.maskr) {s : VState (Prover F G1 G2) F}
    (hs : LayerInv C P0 i s) :
    ∃ s', layerStep E C (honest E C coins junk) ch i s = .ok s' ∧ LayerInv C P0 (i - 1) s' := by
  obtain ⟨s', h, h', -⟩ := honest_layer_after E hwf hpar hco junk ch h1 hd hn1 hn2 hm hs
  exact ⟨s', h, h'⟩

omit [DecidableEq F] [LawfulGmp F] in
theorem inputTable_ok {zk : Bool} {C : Circuit} (h : Evaluable zk C) (old : ℕ → ℕ) :
    ∃ T, inputTable (F := F) C (C.bl 0) old = .ok T ∧
      ∀ g < 2 ^ C.bl 0, T g = Gmp.toMpz (value C 0 g : F) := by
  have : inputTable (F := F) C (C.bl 0) old = .ok (loop (2 ^ C.bl 0) (fun g T =>
      Function.update T g (Gmp.toMpz (value C 0 g : F))) old) := by
    refine loopM_pure (fun g hg T => ?_)
    rcases h.inputs g hg with ⟨a, b, c⟩ | ⟨a, b⟩
    · simp [a, value, inputValue, ofCInt_input b c]
    · simp [a, value, inputValue]
  exact ⟨_, this, fun g hg => by rw [loop_write, if_pos hg]⟩

/-- the honest prover is accepted, whatever the coins and the challenges -/
theorem complete (E : Pairing G1 G2 GT) {C : Circuit} (hwf : WellFormed true C)
    (hpar : ParallelOk C) (hlen : ∀ i, i + 1 < C.depth → 1 ≤ C.bl i ∧ 2 * C.bl i + 1 < 2 ^ 250)
    {coins : Coins F} (hco : CoinsOk C coins) (junk : Prover F G1 G2) (tables : VTables F)
    (ch : Challenges F) : verify E C (honest E C coins junk) tables ch = .ok () := by
  have hd := hwf.deep
  have hev := evaluate_ok (F := F) (var := .zk) (C := C) (by simpa using hwf.toEvaluable)
  have hv := fun {i j} (hi : i < C.depth) (hj : j < 2 ^ C.bl i) =>
    valueFn_allValues (F := F) C hi hj
  obtain ⟨key, ek, gk⟩ := InputVpd.keyGen_good E (C.bl 0) coins.a hco.a coins.s hco.s
  obtain ⟨P1, hP1⟩ : ∃ P1 : Prover F G1 G2, P1 = { junk.fresh with
      base := { junk.base with circuitValue := valueFn (allValues C C.depth) } } := ⟨_, rfl⟩
  obtain ⟨tab, et, htab⟩ := inputTable_ok (F := F) hwf.toEvaluable P1.inputMpz
  obtain ⟨D, hD⟩ : ∃ D, D = InputVpd.commit key tab (fun i => Gmp.toMpz (coins.maskr i)) coins.rf
    coins.rf2 := ⟨_, rfl⟩
  obtain ⟨P2, hP2⟩ : ∃ P2 : Prover F G1 G2, P2 = { P1 with
      keyInput := key, inputMpz := D.coeffs, maskr := coins.maskr,
      maskrMpz := fun i => Gmp.toMpz (coins.maskr i), rfInput := coins.rf, rfInput2 := coins.rf2 } :=
    ⟨_, rfl⟩
  have e1 : (honest E C coins junk).evaluate (honest E C coins junk).start =
      .ok (P1, valueFn (allValues C C.depth) (C.depth - 1)) := by
    simp only [honest, hev, Outcome.ok_bind, Outcome.pure_eq, hP1]
    rfl
  have e2 : (honest E C coins junk).keygenAndCommit P1 (C.bl 0) = .ok (P2, D) := by
    simp only [honest, Prover.keygenAndCommit, ek, et, Outcome.ok_bind, Outcome.pure_eq, hP2, hD]
  rw [verify, e1, Outcome.ok_bind]
  dsimp only
  rw [e2, Outcome.ok_bind]
  dsimp only
  set s0 : VState (Prover F G1 G2) F :=
    ⟨P2, 1, 0, 1 * (honest E C coins junk).vRes P2
        (oneMinus ch.r0) ch.r0 (valueFn (allValues C C.depth) (C.depth - 1)) (C.bl (C.depth - 1))
        (2 ^ C.bl (C.depth - 1)), ch.r0, ch.r1, oneMinus ch.r0, oneMinus ch.r1, tables⟩ with hs0
  have hinv : LayerInv C P2 (C.depth - 1) s0 := by
    refine ⟨fun j hj _ g hg => ?_, fun _ _ => rfl, fun _ _ _ => rfl, ?_, ⟨rfl, rfl, rfl, rfl, rfl, rfl⟩⟩
    · change P2.base.circuitValue j g = _
      rw [hP2, hP1]; exact hv hj hg
    · rw [if_neg (by omega)]
      have z : P2.Zu = 0 ∧ P2.Zv = 0 := by rw [hP2, hP1]; exact ⟨rfl, rfl⟩
      change 1 * foldOutput (oneMinus ch.r0) ch.r0 _ _ _ = 1 * (mle _ _ _ + P2.Zu * _) + 0 * _
      rw [foldOutput_spec (oneMinus ch.r0) _ _ _ (fun _ _ => rfl), z.1, zero_mul, zero_mul, add_zero,
        add_zero]
      congr 1
      exact mle_congr (fun g hg => hv (by omega) hg) (fun _ _ => rfl)
  obtain ⟨s', e, hs'⟩ := loopDownM_ok (LayerInv C P2) hinv
    (fun i hi hn s hs => honest_layer E hwf hpar hco junk ch hi (by omega)
      (hlen (i - 1) (by omega)).1 (hlen (i - 1) (by omega)).2 (by rw [hP2]) hs)
  rw [e, Outcome.ok_bind]
  have hfr := hs'.frame
  obtain ⟨O, eO, -, vO, hO⟩ := InputVpd.complete (hlen 0 (by omega)).1
    (by have := (hlen 0 (by omega)).2; omega) gk tab (fun i => Gmp.toMpz (coins.maskr i))
    (fun g hg => by rw [htab g hg]; exact LawfulGmp.lt _) coins.rf coins.rf2 (Gmp.toMpz s'.prover.Zu)
    coins.t (fun j => Gmp.toMpz (s'.r0 j)) (fun _ _ => LawfulGmp.lt _)
  rw [← hD] at eO hO
  have e3 : s'.prover.proveInput coins (fun j => Gmp.toMpz (s'.r0 j)) (Gmp.toMpz s'.prover.Zu) =
      .ok O := by
    rw [Prover.proveInput, hfr.key, hfr.input, hfr.maskrMpz, hfr.rf, hfr.rf2, hP2]
    exact eO
  have hk : s'.prover.keyInput = key := by rw [hfr.key, hP2]
  change ((s'.prover.proveInput coins (fun j => Gmp.toMpz (s'.r0 j)) (Gmp.toMpz s'.prover.Zu) >>=
    fun o => Outcome.ok (s'.prover, o)) >>= _) = _
  rw [e3, Outcome.ok_bind, Outcome.ok_bind]
  change (InputVpd.verify E s'.prover.keyInput (C.bl 0) (fun j => Gmp.toMpz (s'.r0 j)) D.digest D.digest2
    (Gmp.toMpz s'.prover.Zu) O.ans O.witness O.witnessa >>= _) = _
  rw [hk, hO, Outcome.ok_bind, Outcome.check_true, Outcome.ok_bind]
  have hval : s'.sum = (O.ans : F) := by
    rw [hs'.sum, if_pos rfl, vO F LawfulGmp.char, InputVpd.maskedValue, LawfulGmp.cast, LawfulGmp.cast,
      LawfulGmp.cast, LawfulGmp.cast, hP2]
    congr 1
    exact mle_congr (fun g hg => by rw [htab g hg, LawfulGmp.cast]) (fun _ _ => (LawfulGmp.cast _).symm)
  rw [hval, beq_self_eq_true, Outcome.check_true]

end Libra.Zk
