import Verif.Proofs.ZkRounds
import Verif.Proofs.ZkPredicates
import Verif.Proofs.VpdR
import Verif.Proofs.VpdTest
import Verif.Proofs.InputVpd

/-!
# One layer of the honest zero-knowledge protocol
-/

namespace Libra.Zk
open Libra Spec Finset Libra.FastTrack
variable {F : Type} [CommRing F] {G1 G2 : Type}

/-- `Σ_{c ∈ {0,1}} R(x, c)` for the mask polynomial of a layer -/
def sr (m : ℕ → F) (x : F) : F := maskRPoly m x 0 + maskRPoly m x 1

/-- the members that do not change in the layer loop -/
structure Frame (P Q : Prover F G1 G2) : Prop where
  key : Q.keyInput = P.keyInput
  input : Q.inputMpz = P.inputMpz
  maskrMpz : Q.maskrMpz = P.maskrMpz
  maskr : Q.maskr = P.maskr
  rf : Q.rfInput = P.rfInput
  rf2 : Q.rfInput2 = P.rfInput2

theorem Frame.trans {P Q R : Prover F G1 G2} (h : Frame P Q) (h' : Frame Q R) : Frame P R :=
  ⟨h'.1.trans h.1, h'.2.trans h.2, h'.3.trans h.3, h'.4.trans h.4, h'.5.trans h.5, h'.6.trans h.6⟩

section
variable {n : ℕ} {V : ℕ → F} {P : Prover F G1 G2}

/-- `highTerms` adds the part of degree 3 to 5 -/
theorem highTerms_eq (hu : P.base.lengthU = n) (hv : P.base.lengthV = n) (k : ℕ) (x s : F) :
    P.highTerms k x s = s + (P.maskpoly (2 * (2 * n + 1) + (k + 1)) * x ^ 5
      + P.maskpoly (2 * (2 * n + 1) + (k + 2)) * x ^ 4
      + P.maskpoly (2 * (2 * n + 1) + (k + 3)) * x ^ 3) := by
  simp only [Prover.highTerms, hu, hv, show n + n + 1 = 2 * n + 1 by ring]
  ring

theorem prevOf_pos (r : ℕ → F) (hn : 1 ≤ n) : prevOf r n = r (n - 1) := by
  rw [prevOf, if_neg (by omega)]

theorem phase2Init_st1 (C : Circuit) (h : Start n V P) (hn : 1 ≤ n) {pt r : ℕ → F}
    (hpt : ∀ j < n, pt j = r j) (omr : ℕ → F) {b : FastTrack.Prover F}
    (hb : (roundState P.base r n).phase2Tables .zk C
      (mle n V r + P.Zu * ZAt r n * P.sumRc.eval (r (n - 1))) r omr = .ok b) :
    (st1 n pt P r n).phase2Init C (prevOf r n) r omr = .ok
      { P with
        base := b
        preu1 := r (n - 1)
        sumc := SAt n P.maskpoly n
        sumr := RAt n P.maskpoly pt n
        Iuv := P.Iuv * IAt r n
        sumcu := P.sumcu * IAt r n
        sumcv := P.sumcv * IAt r n
        Zu := P.Zu * ZAt r n } := by
  obtain ⟨hu, hv, -⟩ := h.round r le_rfl
  have hI := IAt_prev r n
  have hZ := ZAt_prev r (show 0 < n by omega)
  have hV := roundState_vV h.totalUv h.vMultAdd r
  rw [prevOf_pos r hn] at *
  have e1 : P.Zu * ZAt r (n - 1) * (1 - r (n - 1)) * r (n - 1) = P.Zu * ZAt r n := by
    rw [← hZ]; ring
  have eR : RAt n P.maskpoly pt n = RAt n P.maskpoly pt (n - 1) + qAt n P.maskpoly (n - 1) (r (n - 1)) := by
    rw [← hpt (n - 1) (by omega), ← RAt_succ, show n - 1 + 1 = n by omega]
  have eh : hi n P.maskpoly (n - 1) (r (n - 1)) = P.maskpoly (2 * (2 * n + 1) + (0 + 1)) * r (n - 1) ^ 5
      + P.maskpoly (2 * (2 * n + 1) + (0 + 2)) * r (n - 1) ^ 4
      + P.maskpoly (2 * (2 * n + 1) + (0 + 3)) * r (n - 1) ^ 3 := by
    rw [hi, if_pos (by omega), if_neg (by omega), add_zero]
  unfold Prover.phase2Init
  have eI : ∀ c, c * IAt r (n - 1) * (1 - r (n - 1)) = c * IAt r n := fun c => by
    rw [mul_assoc, hI]
  simp only [st1, hV, e1, eI, hb, Outcome.ok_bind, hu, show n ≠ 0 by omega, if_false, Outcome.pure_eq]
  congr 1
  simp only [Prover.mk.injEq, true_and, and_true]
  rw [highTerms_eq (n := n) hu hv]
  rw [eR, qAt, eh, lo, show n * 2 - 2 = 2 * (n - 1) by omega,
    show n * 2 - 1 = 2 * (n - 1) + 1 by omega]
  ring

theorem finalize_st2 (h : Start n V P) (hn : 1 ≤ n) (pt r : ℕ → F) :
    (st2 n pt P r n).finalize (prevOf r n) = (
      { P with
        base := { roundState P.base r n with
          vV := mle n V r + P.Zv * ZAt r n * P.sumRc.eval (r (n - 1)) }
        prev1 := r (n - 1)
        sumc := SAt n P.maskpoly (n + n)
        sumr := RAt n P.maskpoly pt (n - 1 + n)
        Iuv := P.Iuv * IAt r n
        sumcu := P.sumcu * IAt r (n - 1)
        sumcv := P.sumcv * IAt r (n - 1)
        Zv := P.Zv * ZAt r n },
      (P.base.vU, mle n V r + P.Zv * ZAt r n * P.sumRc.eval (r (n - 1)))) := by
  have hI := IAt_prev r n
  have hZ := ZAt_prev r (show 0 < n by omega)
  have hV := roundState_vV h.totalUv h.vMultAdd r
  rw [prevOf_pos r hn] at *
  have e1 : P.Zv * ZAt r (n - 1) * (1 - r (n - 1)) * r (n - 1) = P.Zv * ZAt r n := by
    rw [← hZ]; ring
  have hu := (h.round r le_rfl).2.2
  unfold Prover.finalize
  have eI : ∀ c, c * IAt r (n - 1) * (1 - r (n - 1)) = c * IAt r n := fun c => by
    rw [mul_assoc, hI]
  simp only [st2, hV, e1, hu, eI]

theorem finalround_eq (hp : ((p : ℕ) : F) = 0) (hn : 1 ≤ n) (hu : P.base.lengthU = n)
    (hv : P.base.lengthV = n) {pt : ℕ → F}
    (hc : P.sumc = SAt n P.maskpoly (n + n)) (hr : P.sumr = RAt n P.maskpoly pt (n - 1 + n))
    (general : F) :
    (P.finalround (pt (n + n - 1)) (n <<< 1) general).1 =
      { P with sumc := SAt n P.maskpoly (2 * n + 1), sumr := RAt n P.maskpoly pt (2 * n) } ∧
    ∀ x, (P.finalround (pt (n + n - 1)) (n <<< 1) general).2.eval x =
      P.Iuv * P.preZu * P.Rg1.eval x * P.base.alpha + P.Iuv * P.preZv * P.Rg2.eval x * P.base.beta
        + general * x + mAt n P.maskpoly pt (2 * n) x := by
  have eR : RAt n P.maskpoly pt (2 * n) =
      RAt n P.maskpoly pt (n - 1 + n) + qAt n P.maskpoly (n + n - 1) (pt (n + n - 1)) := by
    rw [show n - 1 + n = n + n - 1 by omega, ← RAt_succ, show n + n - 1 + 1 = 2 * n by omega]
  have eh : hi n P.maskpoly (n + n - 1) (pt (n + n - 1)) =
      P.maskpoly (2 * (2 * n + 1) + (3 + 1)) * pt (n + n - 1) ^ 5
      + P.maskpoly (2 * (2 * n + 1) + (3 + 2)) * pt (n + n - 1) ^ 4
      + P.maskpoly (2 * (2 * n + 1) + (3 + 3)) * pt (n + n - 1) ^ 3 := by
    rw [hi, if_neg (by omega), if_pos (by omega), zero_add]
  have es : P.highTerms 3 (pt (n + n - 1)) (P.sumr
      + P.maskpoly ((n <<< 1) <<< 1 - 2) * pt (n + n - 1) * pt (n + n - 1)
      + P.maskpoly ((n <<< 1) <<< 1 - 1) * pt (n + n - 1)) = RAt n P.maskpoly pt (2 * n) := by
    rw [highTerms_eq hu hv, eR, qAt, eh, lo, hr, shl_one, shl_one,
      show 2 * (2 * n) - 2 = 2 * (n + n - 1) by omega,
      show 2 * (2 * n) - 1 = 2 * (n + n - 1) + 1 by omega]
    ring
  have e0 : n + n - n <<< 1 = 0 := by rw [shl_one]; omega
  have e2 : (P.sumc - P.maskpoly ((n <<< 1) <<< 1) - P.maskpoly ((n <<< 1) <<< 1 + 1)) * inv2 =
      SAt n P.maskpoly (2 * n + 1) := by
    rw [SAt_succ hp n _ (show 2 * n < 2 * n + 1 by omega), hc, shl_one, shl_one, qAt,
      hi_zero _ _ (by omega) (by omega), lo, Nat.sub_self, show n + n = 2 * n by ring]
    ring
  unfold Prover.finalround
  simp only [hu, hv, e0, dbl_eq, pow_zero, one_mul, e2, es]
  refine ⟨trivial, fun x => ?_⟩
  simp only [QuadraticPoly.eval]
  rw [mAt, qAt, hi_zero _ _ (show 2 * n + 1 ≠ n by omega) (by omega), lo, Nat.sub_self, shl_one, shl_one]
  ring

end

variable {GT : Type} [AddCommGroup G1] [AddCommGroup G2] [AddCommGroup GT]
  [Module (ZMod p) G1] [Module (ZMod p) G2] [Module (ZMod p) GT] [Gmp F]

/-- the state before the rounds of layer `i`, and the digests the verifier got -/
structure PreRounds (E : Pairing G1 G2 GT) (C : Circuit) (coins : Coins F) (i : ℕ) (rho : F)
    (P0 : Prover F G1 G2) (b : FastTrack.Prover F) (Q : Prover F G1 G2) (DR DM : G1 × G1) : Prop where
  base : Q.base = b.phase1Init .zk C
  mask : ∀ j < 2 * (2 * C.bl (i - 1) + 1) + 7, Q.maskpoly j = (coins.layer i).maskpoly j * rho
  maskGmp : Q.maskpolyGmp = fun j => Gmp.toMpz ((coins.layer i).maskpoly j)
  rfMask : Q.rfMask = (coins.layer i).rfM
  sumc : Q.sumc = SAt (C.bl (i - 1)) Q.maskpoly 0
  sumr : Q.sumr = 0
  keyR : VpdR.Good E (coins.layer i).aR (coins.layer i).sR Q.keyR
  keyM : VpdTest.Good E (2 * C.bl (i - 1) + 1) (coins.layer i).aM
    (fun j => ((coins.layer i).sM j : ZMod p)) Q.keyMask
  digR : DR = VpdR.commit Q.keyR (fun j => Gmp.toMpz (Q.preR j)) Q.rfR
  digM : DM = VpdTest.commit Q.keyMask Q.maskpolyGmp Q.rfMask
  preR : Q.preR = P0.maskR
  Rg1 : ∀ x, Q.Rg1.eval x = maskRPoly P0.maskR P0.preu1 x
  Rg2 : ∀ x, Q.Rg2.eval x = maskRPoly P0.maskR P0.prev1 x
  sumcu : Q.sumcu = b.alpha * P0.Zu * sr P0.maskR P0.preu1
  sumcv : Q.sumcv = b.beta * P0.Zv * sr P0.maskR P0.prev1
  preZu : Q.preZu = P0.Zu
  preZv : Q.preZv = P0.Zv
  Zu : Q.Zu = 1
  Zv : Q.Zv = 1
  Iuv : Q.Iuv = 1
  prepreu1 : Q.prepreu1 = P0.preu1
  preprev1 : Q.preprev1 = P0.prev1
  next : ∀ x, Q.sumRc.eval x = if i = 1 then P0.maskr 0 + P0.maskr 1 * x else sr Q.maskR x
  frame : Frame P0 Q
  maskR : i ≠ 1 → Q.maskR = (coins.layer i).maskR
  genR : VpdR.keyGen E (coins.layer i).aR (coins.layer i).sR = .ok Q.keyR
  genM : VpdTest.keyGen E (2 * C.bl (i - 1) + 1) (coins.layer i).aM (coins.layer i).sM = .ok Q.keyMask
  rfR : Q.rfR = (coins.layer i).rfR
  rCalls : Q.rCalls = 0

theorem preRounds (E : Pairing G1 G2 GT) (C : Circuit) (coins : Coins F) {i : ℕ} (hi : 1 ≤ i)
    (hp : ((p : ℕ) : F) = 0) (hn : 1 ≤ C.bl (i - 1))
    (hsR : ∀ j ≤ 2, (coins.layer i).sR j < p)
    (hsM : ∀ j ≤ 2 * C.bl (i - 1) + 1, (coins.layer i).sM j < p) (rho : F) (P : Prover F G1 G2)
    (α β : F) (r0 r1 omr0 omr1 : ℕ → F) :
    ∃ PA DR PB DM,
      P.sumcheckInit E coins i (C.bl i) (C.bl (i - 1)) (C.bl (i - 1)) α β r0 r1 omr0 omr1 = .ok (PA, DR) ∧
      PA.maskPreRho E coins (C.bl (i - 1) * 2 + 1) = .ok (PB, DM) ∧
      PreRounds E C coins i rho P (P.base.sumcheckInit i (C.bl i) (C.bl (i - 1)) (C.bl (i - 1))
        α β r0 r1 omr0 omr1)
        (({ PB with rho := rho }.maskAfterRho (C.bl (i - 1) * 2 + 1)).phase1Init C) DR DM := by
  obtain ⟨keyR, eR, gR⟩ := VpdR.keyGen_good E (coins.layer i).aR (coins.layer i).sR hsR
  obtain ⟨keyM, eM, gM⟩ := VpdTest.keyGen_good E (2 * C.bl (i - 1) + 1) (by omega)
    (coins.layer i).aM (coins.layer i).sM hsM
  have e1 : ∃ PA DR, P.sumcheckInit E coins i (C.bl i) (C.bl (i - 1)) (C.bl (i - 1)) α β r0 r1 omr0 omr1 =
      .ok (PA, DR) ∧
      PA.base = P.base.sumcheckInit i (C.bl i) (C.bl (i - 1)) (C.bl (i - 1)) α β r0 r1 omr0 omr1 ∧
      PA.keyR = keyR ∧ DR = VpdR.commit keyR (fun j => Gmp.toMpz (P.maskR j)) (coins.layer i).rfR ∧
      PA.rfR = (coins.layer i).rfR ∧ PA.preR = P.maskR ∧
      (∀ x, PA.Rg1.eval x = maskRPoly P.maskR P.preu1 x) ∧
      (∀ x, PA.Rg2.eval x = maskRPoly P.maskR P.prev1 x) ∧
      PA.sumcu = α * P.Zu * sr P.maskR P.preu1 ∧ PA.sumcv = β * P.Zv * sr P.maskR P.prev1 ∧
      PA.preZu = P.Zu ∧ PA.preZv = P.Zv ∧ PA.Zu = 1 ∧ PA.Zv = 1 ∧ PA.Iuv = 1 ∧
      PA.prepreu1 = P.preu1 ∧ PA.preprev1 = P.prev1 ∧
      (∀ x, PA.sumRc.eval x = if i = 1 then P.maskr 0 + P.maskr 1 * x else sr PA.maskR x) ∧
      Frame P PA ∧ (i ≠ 1 → PA.maskR = (coins.layer i).maskR) ∧ PA.rCalls = 0 := by
    unfold Prover.sumcheckInit Prover.generateMaskR
    simp only [eR, Outcome.ok_bind, Outcome.pure_eq]
    by_cases h1 : i = 1
    · subst h1
      simp only [if_true, gt_iff_lt, lt_irrefl, if_false]
      refine ⟨_, _, rfl, rfl, rfl, rfl, rfl, rfl, ?_, ?_, ?_, ?_, rfl, rfl, rfl, rfl, rfl, rfl, rfl, ?_,
        ⟨rfl, rfl, rfl, rfl, rfl, rfl⟩, fun h => absurd rfl h, rfl⟩
      · intro x; simp only [QuadraticPoly.eval, maskRPoly]; ring
      · intro x; simp only [QuadraticPoly.eval, maskRPoly]; ring
      · simp only [sr, maskRPoly, FastTrack.Prover.sumcheckInit]; ring
      · simp only [sr, maskRPoly, FastTrack.Prover.sumcheckInit]; ring
      · intro x
        simp [QuadraticPoly.eval, Function.update_of_ne]
        ring
    · simp only [if_neg h1, if_pos (show i > 1 by omega)]
      refine ⟨_, _, rfl, rfl, rfl, rfl, rfl, rfl, ?_, ?_, ?_, ?_, rfl, rfl, rfl, rfl, rfl, rfl, rfl, ?_,
        ⟨rfl, rfl, rfl, rfl, rfl, rfl⟩, fun _ => rfl, rfl⟩
      · intro x; simp only [QuadraticPoly.eval, maskRPoly]; ring
      · intro x; simp only [QuadraticPoly.eval, maskRPoly]; ring
      · simp only [sr, maskRPoly, FastTrack.Prover.sumcheckInit]; ring
      · simp only [sr, maskRPoly, FastTrack.Prover.sumcheckInit]; ring
      · intro x
        simp only [QuadraticPoly.eval, sr, maskRPoly]
        ring
  obtain ⟨PA, DR, e1, b, k1, k2, k3, k4, k5, k6, k7, k8, k9, k10, k11, k12, k13, k14, k15, k16, k17, k18, k19⟩ := e1
  have hid : PA.base.layerId = i := by rw [b]; rfl
  have e2 : PA.maskPreRho E coins (C.bl (i - 1) * 2 + 1) = .ok
      ({ PA with maskpoly := (coins.layer i).maskpoly, keyMask := keyM,
                 maskpolyGmp := fun j => Gmp.toMpz ((coins.layer i).maskpoly j),
                 rfMask := (coins.layer i).rfM },
        VpdTest.commit keyM (fun j => Gmp.toMpz ((coins.layer i).maskpoly j)) (coins.layer i).rfM) := by
    unfold Prover.maskPreRho
    simp only [hid, mul_comm (C.bl (i - 1)) 2, eM, Outcome.ok_bind, Outcome.pure_eq]
  refine ⟨PA, DR, _, _, e1, e2, ?_⟩
  obtain ⟨a, ha, e3⟩ := maskAfterRho_eq hp hn ({ PA with
    maskpoly := (coins.layer i).maskpoly, keyMask := keyM
    maskpolyGmp := fun j => Gmp.toMpz ((coins.layer i).maskpoly j)
    rfMask := (coins.layer i).rfM, rho := rho } : Prover F G1 G2)
  rw [e3]
  refine ⟨?_, ha, rfl, rfl, rfl, rfl, by rw [← k1] at gR; exact gR, gM, ?_, rfl, k4, k5, k6, k7, k8, k9, k10, k11,
    k12, k13, k14, k15, k16, ⟨k17.1, k17.2, k17.3, k17.4, k17.5, k17.6⟩, k18, by rw [← k1] at eR; exact eR, eM, k3, k19⟩
  · simp only [Prover.phase1Init, b]
  · simp only [Prover.phase1Init]
    rw [k2, k4, k1, k3]

end Libra.Zk
