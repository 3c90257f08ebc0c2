import Verif.Proofs.ZkMasked
import Verif.Props.Zk

/-!
# C20, C21, C24: the messages of the zero-knowledge prover
-/

namespace Libra.Props
open Libra Spec Finset FastTrack Zk
variable {F : Type} [CommRing F] {G1 G2 GT : Type} [AddCommGroup G1] [AddCommGroup G2] [AddCommGroup GT]
  [Module (ZMod p) G1] [Module (ZMod p) G2] [Module (ZMod p) GT] [Gmp F] [LawfulGmp F]

/-- the calls of the verifier before the rounds of layer `i` (zk_verifier.cpp:899-924) -/
def beginLayer (E : Pairing G1 G2 GT) (C : Circuit) (coins : Coins F) (P : Zk.Prover F G1 G2) (i : ℕ)
    (α β : F) (r0 r1 : ℕ → F) (rho : F) : Outcome (Zk.Prover F G1 G2) := do
  let n := C.bl (i - 1)
  let (P, _) ← P.sumcheckInit E coins i (C.bl i) n n α β r0 r1 (fun j => 1 - r0 j) (fun j => 1 - r1 j)
  let (P, _) ← P.maskPreRho E coins (n * 2 + 1)
  return ({ P with rho := rho }.maskAfterRho (n * 2 + 1)).phase1Init C

/-- the prover after `k` of the `n` rounds of phase 1 with challenges `r` -/
def run1 (n : ℕ) (Q : Zk.Prover F G1 G2) (r : ℕ → F) : ℕ → Zk.Prover F G1 G2
  | 0 => Q
  | k + 1 => if k + 1 = n then ((run1 n Q r k).phase1Last (prevOf r k) k).1
    else ((run1 n Q r k).phase1Update (prevOf r k) k).1

/-- the message of round `k` of phase 1, as a function of the point -/
def msg1 (n : ℕ) (Q : Zk.Prover F G1 G2) (r : ℕ → F) (k : ℕ) (x : F) : F :=
  if k + 1 = n then ((run1 n Q r k).phase1Last (prevOf r k) k).2.eval x
  else ((run1 n Q r k).phase1Update (prevOf r k) k).2.eval x

@[inherit_doc run1]
def run2 (n : ℕ) (Q : Zk.Prover F G1 G2) (r : ℕ → F) : ℕ → Zk.Prover F G1 G2
  | 0 => Q
  | k + 1 => if k + 1 = n then ((run2 n Q r k).phase2Last (prevOf r k) k).1
    else ((run2 n Q r k).phase2Update (prevOf r k) k).1

@[inherit_doc msg1]
def msg2 (n : ℕ) (Q : Zk.Prover F G1 G2) (r : ℕ → F) (k : ℕ) (x : F) : F :=
  if k + 1 = n then ((run2 n Q r k).phase2Last (prevOf r k) k).2.eval x
  else ((run2 n Q r k).phase2Update (prevOf r k) k).2.eval x

/-- The masks in layer `i`: the layer's own mask and the two claimed points are those the prover
stored in the layer above; the mask of the layer below is drawn now, and at layer 1 it is the mask
of the input. -/
def masksOf (coins : Coins F) (P : Zk.Prover F G1 G2) (i : ℕ) (rho : F) : Masks F where
  R := P.maskR
  x0 := P.preu1
  Z0 := P.Zu
  x1 := P.prev1
  Z1 := P.Zv
  S x := if i = 1 then P.maskr 0 + P.maskr 1 * x
    else maskRPoly (coins.layer i).maskR x 0 + maskRPoly (coins.layer i).maskR x 1
  g := (coins.layer i).maskpoly
  rho := rho

section proofs
variable {n : ℕ} {V : ℕ → F} {P : Zk.Prover F G1 G2}

omit [AddCommGroup G1] [AddCommGroup G2] [Module (ZMod p) G1] [Module (ZMod p) G2] [LawfulGmp F] [Gmp F] in
theorem run1_eq (hp : ((p : ℕ) : F) = 0) (h : Start n V P) {pt r : ℕ → F} (hpt : ∀ j < n, pt j = r j)
    (h0 : st1 n pt P r 0 = P) : ∀ k ≤ n, run1 n P r k = st1 n pt P r k := by
  intro k
  induction k with
  | zero => intro _; exact h0.symm
  | succ k ih =>
    intro hk
    rw [run1, ih (by omega)]
    split_ifs with hl
    · exact (phase1Last_eq hp h hpt hl).1
    · exact (phase1Update_eq hp h hpt (show k + 1 < n by omega)).1

omit [AddCommGroup G1] [AddCommGroup G2] [Module (ZMod p) G1] [Module (ZMod p) G2] [LawfulGmp F] [Gmp F] in
theorem run2_eq (hp : ((p : ℕ) : F) = 0) (h : Start n V P) {pt r : ℕ → F} (hpt : ∀ j < n, pt (j + n) = r j)
    (h0 : st2 n pt P r 0 = P) : ∀ k ≤ n, run2 n P r k = st2 n pt P r k := by
  intro k
  induction k with
  | zero => intro _; exact h0.symm
  | succ k ih =>
    intro hk
    rw [run2, ih (by omega)]
    split_ifs with hl
    · exact (phase2Last_eq hp h hpt hl).1
    · exact (phase2Update_eq hp h hpt (show k + 1 < n by omega)).1

omit [AddCommGroup G1] [AddCommGroup G2] [Module (ZMod p) G1] [Module (ZMod p) G2] [LawfulGmp F] [Gmp F] in
theorem roundState_congr {b : FastTrack.Prover F} {r r' : ℕ → F} : ∀ {k : ℕ}, (∀ j, j + 1 < k → r j = r' j) →
    roundState b r k = roundState b r' k
  | 0, _ => rfl
  | k + 1, h => by
    have e : prevOf r k = prevOf r' k := by
      unfold prevOf
      split_ifs with h0
      · rfl
      · exact h _ (by omega)
    rw [roundState, roundState, roundState_congr (k := k) (fun j hj => h j (by omega)), e]

omit [AddCommGroup G1] [AddCommGroup G2] [Module (ZMod p) G1] [Module (ZMod p) G2] [LawfulGmp F] [Gmp F] in
/-- the last entry of a folded table, as a function of the last coordinate -/
theorem lastA_splice (h : Start n V P) (hn : 1 ≤ n) (r : ℕ → F) (x : F) :
    ((roundState P.base r n).tabs.addMultSum 0).eval x = mle n (tabA P.base) (splice r (n - 1) x 0) := by
  have e := h.lastA (splice r (n - 1) x 0) hn
  rw [show splice r (n - 1) x 0 (n - 1) = x by simp [splice]] at e
  rw [← e, roundState_congr (r := r) (r' := splice r (n - 1) x 0)]
  intro j hj
  rw [splice, if_pos (by omega)]

omit [LawfulGmp F] [Gmp F] in
theorem maskedPoly_two (C : Circuit) (i : ℕ) (α β : F) (r0 r1 V : ℕ → F) (M : Masks F) (u v : ℕ → F) :
    ∑ c ∈ range 2, maskedPoly C i α β r0 r1 V M u v (c : F) =
      (∏ j ∈ range (C.bl (i - 1)), (1 - u j)) * (∏ j ∈ range (C.bl (i - 1)), (1 - v j)) *
        (α * M.Z0 * sr M.R M.x0 + β * M.Z1 * sr M.R M.x1)
      + layerPolyAt C i α β r0 r1 u v (maskedValue (C.bl (i - 1)) V M u) (maskedValue (C.bl (i - 1)) V M v)
      + M.rho * ∑ c ∈ range 2, sumMaskPoly (2 * C.bl (i - 1) + 1) M.g (joinPoint (C.bl (i - 1)) u v (c : F)) := by
  simp only [sum_range_succ, range_zero, sum_empty, Nat.cast_zero, Nat.cast_one, maskedPoly, sr]
  ring

omit [LawfulGmp F] [Gmp F] in
theorem maskedValue_corner {n : ℕ} (hn : 1 ≤ n) (V : ℕ → F) (M : Masks F) {y : ℕ} (hy : y < 2 ^ n) :
    maskedValue n V M (corner y) = V y := by
  rw [maskedValue, z_corner hn, zero_mul, add_zero, mle_corner n V y hy]

omit [LawfulGmp F] [Gmp F] in
theorem sum_phase1 (hp : ((p : ℕ) : F) = 0) {C : Circuit} {i : ℕ} (hl : LayerOk true C i)
    (hn : 1 ≤ C.bl (i - 1)) (α β : F) (r0 r1 V : ℕ → F) (M : Masks F) {A B : ℕ → F}
    (hAB : ∀ z a, mle (C.bl (i - 1)) A z * a + mle (C.bl (i - 1)) B z =
      halfSum C i (comb (C.bl i) α β r0 r1) (eqPoly (C.bl (i - 1)) z) a V
        + relayCoef C i (comb (C.bl i) α β r0 r1) (eqPoly (C.bl (i - 1)) z) * a)
    {k : ℕ} (hk : k < C.bl (i - 1)) (ru : ℕ → F) {pt : ℕ → F} (hpt : ∀ j < k, pt j = ru j) (x : F) :
    ∑ b ∈ range (2 ^ (C.bl (i - 1) - (k + 1))),
      (∑ y ∈ range (2 ^ C.bl (i - 1)), ∑ c ∈ range 2,
          maskedPoly C i α β r0 r1 V M (splice ru k x b) (corner y) (c : F) +
        relayPolyAt C i α β r0 r1 (splice ru k x b) (maskedValue (C.bl (i - 1)) V M (splice ru k x b))) =
      ∑ b ∈ range (2 ^ (C.bl (i - 1) - (k + 1))), (mle (C.bl (i - 1)) A (splice ru k x b) *
          maskedValue (C.bl (i - 1)) V M (splice ru k x b) + mle (C.bl (i - 1)) B (splice ru k x b))
        + IAt ru k * (1 - x) * (α * M.Z0 * sr M.R M.x0 + β * M.Z1 * sr M.R M.x1)
        + M.rho * mAt (C.bl (i - 1)) M.g pt k x := by
  rw [← mask_round1 hp hk M.g ru hpt x, ← prod_splice hk ru x, mul_sum, sum_mul, ← sum_add_distrib,
    ← sum_add_distrib]
  refine sum_congr rfl (fun b _ => ?_)
  set z := splice ru k x b
  rw [hAB]
  simp only [maskedPoly_two]
  rw [sum_add_distrib, sum_add_distrib, ← mul_sum]
  have e1 : ∑ y ∈ range (2 ^ C.bl (i - 1)), (∏ j ∈ range (C.bl (i - 1)), (1 - z j)) *
      (∏ j ∈ range (C.bl (i - 1)), (1 - corner y j)) * (α * M.Z0 * sr M.R M.x0 + β * M.Z1 * sr M.R M.x1) =
      (∏ j ∈ range (C.bl (i - 1)), (1 - z j)) * (α * M.Z0 * sr M.R M.x0 + β * M.Z1 * sr M.R M.x1) := by
    rw [← sum_mul, ← mul_sum, prod_corner, mul_one]
  have e2 : ∑ y ∈ range (2 ^ C.bl (i - 1)), layerPolyAt C i α β r0 r1 z (corner y)
      (maskedValue (C.bl (i - 1)) V M z) (maskedValue (C.bl (i - 1)) V M (corner y)) =
      halfSum C i (comb (C.bl i) α β r0 r1) (eqPoly (C.bl (i - 1)) z) (maskedValue (C.bl (i - 1)) V M z) V := by
    simp only [layerPolyAt, halfSum]
    rw [sum_comm]
    refine sum_congr rfl (fun g hg => ?_)
    have hg := mem_range.1 hg
    rw [gateHalf_eq_sum (hl.gates g hg) (hl.v0 g hg), mul_sum]
    refine sum_congr rfl (fun y hy => ?_)
    rw [maskedValue_corner hn V M (mem_range.1 hy)]
  have e3 : relayPolyAt C i α β r0 r1 z (maskedValue (C.bl (i - 1)) V M z) =
      relayCoef C i (comb (C.bl i) α β r0 r1) (eqPoly (C.bl (i - 1)) z) * maskedValue (C.bl (i - 1)) V M z := by
    unfold relayPolyAt relayCoef
    by_cases h : i = 1
    · subst h; rfl
    · rw [if_neg h, if_neg h, zero_mul]
  rw [e1, e2, e3]
  ring

omit [LawfulGmp F] [Gmp F] in
theorem sum_phase2 (hp : ((p : ℕ) : F) = 0) {C : Circuit} {i : ℕ}
    (α β : F) (r0 r1 V : ℕ → F) (M : Masks F) {k : ℕ} (hk : k < C.bl (i - 1)) (ru rv : ℕ → F) {pt : ℕ → F}
    (hptu : ∀ j < C.bl (i - 1), pt j = ru j) (hpt : ∀ j < k, pt (j + C.bl (i - 1)) = rv j) (x : F) :
    ∑ b ∈ range (2 ^ (C.bl (i - 1) - (k + 1))), ∑ c ∈ range 2,
      maskedPoly C i α β r0 r1 V M ru (splice rv k x b) (c : F) =
      ∑ b ∈ range (2 ^ (C.bl (i - 1) - (k + 1))), layerPolyAt C i α β r0 r1 ru (splice rv k x b)
          (maskedValue (C.bl (i - 1)) V M ru) (maskedValue (C.bl (i - 1)) V M (splice rv k x b))
        + IAt ru (C.bl (i - 1)) * IAt rv k * (1 - x) * (α * M.Z0 * sr M.R M.x0 + β * M.Z1 * sr M.R M.x1)
        + M.rho * mAt (C.bl (i - 1)) M.g pt (k + C.bl (i - 1)) x := by
  rw [← mask_round2 hp hk M.g ru rv hptu hpt x, mul_assoc (IAt ru _), ← prod_splice hk rv x]
  simp only [maskedPoly_two]
  rw [sum_add_distrib, sum_add_distrib, ← mul_sum, ← sum_mul, ← mul_sum]
  rw [show ∏ j ∈ range (C.bl (i - 1)), (1 - ru j) = IAt ru (C.bl (i - 1)) from rfl]
  ring

omit [LawfulGmp F] [Gmp F] in
theorem masked_polyAt {n k : ℕ} (hk : k < n) (r A V B : ℕ → F) (M : Masks F) (x : F) :
    ∑ b ∈ range (2 ^ (n - (k + 1))), (mle n A (splice r k x b) * maskedValue n V M (splice r k x b)
        + mle n B (splice r k x b)) =
      polyAt n r A V B k x + if k + 1 = n then
        ZAt r k * (x * (1 - x)) * M.S x * mle n A (splice r (n - 1) x 0) else 0 := by
  rw [polyAt_splice hk]
  have : ∀ b ∈ range (2 ^ (n - (k + 1))), (mle n A (splice r k x b) * maskedValue n V M (splice r k x b)
        + mle n B (splice r k x b)) =
      (mle n A (splice r k x b) * mle n V (splice r k x b) + mle n B (splice r k x b)) +
      if k + 1 = n then ZAt r k * (x * (1 - x)) * M.S (splice r k x b (n - 1)) * mle n A (splice r k x b)
        else 0 := fun b _ => by
    rw [maskedValue, z_splice hk]
    split_ifs <;> ring
  rw [sum_congr rfl this, sum_add_distrib]
  congr 1
  split_ifs with h
  · obtain rfl : k = n - 1 := by omega
    rw [show n - (n - 1 + 1) = 0 by omega, pow_zero, sum_range_one]
    simp [splice]
  · simp

omit [LawfulGmp F] [Gmp F] in
theorem sumMaskPoly_rho {d : ℕ} (hd : 2 ≤ d) {a g : ℕ → F} {rho : F} (h : ∀ j < 2 * d + 7, a j = g j * rho)
    (x : ℕ → F) : sumMaskPoly d a x = rho * sumMaskPoly d g x := by
  rw [← sumMaskPoly_mul]
  exact sumMaskPoly_congr hd h (fun _ _ => rfl)

/-- everything about one layer of the honest prover -/
theorem zk_layer (E : Pairing G1 G2 GT) {C : Circuit} (hwf : WellFormed true C) (coins : Coins F) {i : ℕ}
    (h1 : 1 ≤ i) (hd : i < C.depth) (hn1 : 1 ≤ C.bl (i - 1)) (hsR : ∀ j ≤ 2, (coins.layer i).sR j < p)
    (hsM : ∀ j ≤ 2 * C.bl (i - 1) + 1, (coins.layer i).sM j < p) (P : Zk.Prover F G1 G2)
    {vals : List (List F)} (hv : Libra.evaluate .zk C = .ok vals) (hP : P.base.circuitValue = valueFn vals)
    (α β : F) (r0 r1 ru rv : ℕ → F) (rho : F) :
    ∃ Q Q2, beginLayer E C coins P i α β r0 r1 rho = .ok Q ∧
      Q.sumc = ∑ b ∈ range (2 ^ (2 * C.bl (i - 1) + 1)),
        rho * sumMaskPoly (2 * C.bl (i - 1) + 1) (coins.layer i).maskpoly (corner b) ∧
      (∀ k < C.bl (i - 1), ∀ x, msg1 (C.bl (i - 1)) Q ru k x =
        ∑ b ∈ range (2 ^ (C.bl (i - 1) - (k + 1))),
          (∑ y ∈ range (2 ^ C.bl (i - 1)), ∑ c ∈ range 2,
            maskedPoly C i α β r0 r1 (value C (i - 1)) (masksOf coins P i rho) (splice ru k x b) (corner y) (c : F) +
          relayPolyAt C i α β r0 r1 (splice ru k x b)
            (maskedValue (C.bl (i - 1)) (value C (i - 1)) (masksOf coins P i rho) (splice ru k x b)))) ∧
      msg1 (C.bl (i - 1)) Q ru 0 0 + msg1 (C.bl (i - 1)) Q ru 0 1 =
        α * (mle (C.bl i) (value C i) r0 + P.Zu * (maskRPoly P.maskR P.preu1 0 + maskRPoly P.maskR P.preu1 1)) +
        β * (mle (C.bl i) (value C i) r1 + P.Zv * (maskRPoly P.maskR P.prev1 0 + maskRPoly P.maskR P.prev1 1)) +
        Q.sumc ∧
      (run1 (C.bl (i - 1)) Q ru (C.bl (i - 1))).phase2Init C (prevOf ru (C.bl (i - 1))) ru (fun j => 1 - ru j) =
        .ok Q2 ∧
      (∀ k < C.bl (i - 1), ∀ x, msg2 (C.bl (i - 1)) Q2 rv k x =
        ∑ b ∈ range (2 ^ (C.bl (i - 1) - (k + 1))), ∑ c ∈ range 2,
          maskedPoly C i α β r0 r1 (value C (i - 1)) (masksOf coins P i rho) ru (splice rv k x b) (c : F)) ∧
      ∃ Q3, (run2 (C.bl (i - 1)) Q2 rv (C.bl (i - 1))).finalize (prevOf rv (C.bl (i - 1))) = (Q3,
        maskedValue (C.bl (i - 1)) (value C (i - 1)) (masksOf coins P i rho) ru,
        maskedValue (C.bl (i - 1)) (value C (i - 1)) (masksOf coins P i rho) rv) ∧
      ∀ x, (Q3.finalround (prevOf rv (C.bl (i - 1))) (C.bl (i - 1) <<< 1)
          (layerPolyAt C i α β r0 r1 ru rv
            (maskedValue (C.bl (i - 1)) (value C (i - 1)) (masksOf coins P i rho) ru)
            (maskedValue (C.bl (i - 1)) (value C (i - 1)) (masksOf coins P i rho) rv))).2.eval x =
        maskedPoly C i α β r0 r1 (value C (i - 1)) (masksOf coins P i rho) ru rv x := by
  have hp : ((p : ℕ) : F) = 0 := LawfulGmp.char
  have hl := layerOk hwf h1 hd
  have hev := evaluate_ok (F := F) (var := .zk) (C := C) (by simpa using hwf.toEvaluable)
  rw [hev] at hv
  cases hv
  set M := masksOf coins P i rho with hM
  obtain ⟨PA, DR, PB, DM, eA, eB, hE⟩ := preRounds E C coins h1 hp hn1 hsR hsM rho P α β r0 r1
    (fun j => 1 - r0 j) (fun j => 1 - r1 j)
  set b := P.base.sumcheckInit i (C.bl i) (C.bl (i - 1)) (C.bl (i - 1)) α β r0 r1
    (fun j => 1 - r0 j) (fun j => 1 - r1 j) with hb
  obtain ⟨PE, hPE⟩ : ∃ PE, PE = (({ PB with rho := rho }.maskAfterRho (C.bl (i - 1) * 2 + 1)).phase1Init C) :=
    ⟨_, rfl⟩
  rw [← hPE] at hE
  have hr : Ready C i b := by
    refine ⟨fun j hj _ g hg => ?_, rfl, rfl, rfl, fun _ _ => rfl, fun _ _ => rfl⟩
    change P.base.circuitValue j g = _
    rw [hP]; exact valueFn_allValues C hj hg
  obtain ⟨ht1, hV1, hw, _⟩ := phase1_ready (var := .zk) hr (by simpa using hl)
  have hfin := phase1_final (var := .zk) hr (by simpa using hl)
  rw [← hE.base] at ht1 hV1 hw hfin
  have hV1' : ∀ k < 2 ^ C.bl (i - 1), (PE.base.tabs.vMultAdd k).b = value C (i - 1) k := fun k hk => by
    rw [hV1 k hk, hr.val (i - 1) (by omega) (by omega) k hk]
  have hAB : ∀ z a, mle (C.bl (i - 1)) (tabA PE.base) z * a + mle (C.bl (i - 1)) (tabB PE.base) z =
      halfSum C i (comb (C.bl i) α β r0 r1) (eqPoly (C.bl (i - 1)) z) a (value C (i - 1))
        + relayCoef C i (comb (C.bl i) α β r0 r1) (eqPoly (C.bl (i - 1)) z) * a := by
    intro z a
    rw [hfin z a]
    change halfSum C i (comb (C.bl i) α β r0 r1) _ _ _ + relayCoef C i (comb (C.bl i) α β r0 r1) _ * a = _
    congr 1
    refine sum_congr rfl (fun g hg => ?_)
    rw [gateHalf_congr (hl.gates g (mem_range.1 hg)) (fun _ _ => rfl) (hr.val (i - 1) (by omega) (by omega))]
  have hbase := hE.base
  have hst1 : Start (C.bl (i - 1)) (value C (i - 1)) PE := ⟨ht1, hV1', by rw [hbase]; rfl, by rw [hbase]; rfl⟩
  set pt : ℕ → F := joinPoint (C.bl (i - 1)) ru rv 0 with hpt
  have hptu : ∀ j < C.bl (i - 1), pt j = ru j := fun j hj => by rw [hpt, joinPoint, if_pos hj]
  have hptv : ∀ j < C.bl (i - 1), pt (j + C.bl (i - 1)) = rv j := fun j hj => by
    rw [hpt, joinPoint, if_neg (by omega), if_pos (by omega), Nat.add_sub_cancel]
  have h01 : st1 (C.bl (i - 1)) pt PE ru 0 = PE := st1_zero hE.sumc hE.sumr
  have hrun1 := run1_eq hp hst1 hptu h01
  have hS : ∀ x, PE.sumRc.eval x = M.S x := by
    intro x
    rw [hE.next]
    change _ = if i = 1 then P.maskr 0 + P.maskr 1 * x else _
    split_ifs with h
    · rfl
    · rw [sr, hE.maskR h]
  have hcu : PE.sumcu + PE.sumcv = α * M.Z0 * sr M.R M.x0 + β * M.Z1 * sr M.R M.x1 := by
    rw [hE.sumcu, hE.sumcv]; rfl
  have hrho : ∀ z, sumMaskPoly (2 * C.bl (i - 1) + 1) PE.maskpoly z =
      rho * sumMaskPoly (2 * C.bl (i - 1) + 1) M.g z := fun z =>
    sumMaskPoly_rho (by omega) hE.mask z
  have hm1 : ∀ k < C.bl (i - 1), ∀ x, mAt (C.bl (i - 1)) PE.maskpoly pt k x =
      rho * mAt (C.bl (i - 1)) M.g pt k x := fun k hk x => by
    have h' : ∀ j < k, pt j = ru j := fun j hj => hptu j (by omega)
    rw [← mask_round1 hp hk PE.maskpoly ru h' x, ← mask_round1 hp hk M.g ru h' x]
    simp only [hrho, mul_sum]
  have hm2 : ∀ k < C.bl (i - 1), ∀ x, mAt (C.bl (i - 1)) PE.maskpoly pt (k + C.bl (i - 1)) x =
      rho * mAt (C.bl (i - 1)) M.g pt (k + C.bl (i - 1)) x := fun k hk x => by
    have h' : ∀ j < k, pt (j + C.bl (i - 1)) = rv j := fun j hj => hptv j (by omega)
    rw [← mask_round2 hp hk PE.maskpoly ru rv hptu h' x, ← mask_round2 hp hk M.g ru rv hptu h' x]
    simp only [hrho, mul_sum]
  -- between the phases
  have hP2e := roundState_eq ht1 hV1' ru (le_refl _)
  have hvu : mle (C.bl (i - 1)) (value C (i - 1)) ru + PE.Zu * ZAt ru (C.bl (i - 1)) *
      PE.sumRc.eval (ru (C.bl (i - 1) - 1)) = maskedValue (C.bl (i - 1)) (value C (i - 1)) M ru := by
    rw [hE.Zu, one_mul, hS]; rfl
  obtain ⟨b3, hb3, hb3e, hV3, tmpU, hU, hphi, _⟩ :=
    phase2Tables_ready (var := .zk) (P := roundState PE.base ru (C.bl (i - 1))) (C := C) (i := i)
      (by simpa using hl) (by rw [hP2e, hbase]; rfl) (by rw [hP2e, hbase]; rfl)
      (maskedValue (C.bl (i - 1)) (value C (i - 1)) M ru) ru (fun j => 1 - ru j) (fun _ _ => rfl)
  have hcv : (roundState PE.base ru (C.bl (i - 1))).circuitValue = b.circuitValue := by
    rw [hP2e, hbase]; rfl
  have htg : (roundState PE.base ru (C.bl (i - 1))).tmpG = PE.base.tmpG := by rw [hP2e]; rfl
  have hV3' : ∀ k < 2 ^ C.bl (i - 1), (b3.tabs.vMultAdd k).b = value C (i - 1) k := fun k hk => by
    rw [hV3 k hk, hcv, hr.val (i - 1) (by omega) (by omega) k hk]
  rw [htg] at hphi
  rw [← hvu] at hb3
  have hinit2 := phase2Init_st1 C hst1 hn1 hptu (fun j => 1 - ru j) hb3
  rw [hvu] at hb3
  obtain ⟨P3, hP3⟩ : ∃ P3 : Zk.Prover F G1 G2, P3 = { PE with
        base := b3
        preu1 := ru (C.bl (i - 1) - 1)
        sumc := SAt (C.bl (i - 1)) PE.maskpoly (C.bl (i - 1))
        sumr := RAt (C.bl (i - 1)) PE.maskpoly pt (C.bl (i - 1))
        Iuv := PE.Iuv * IAt ru (C.bl (i - 1))
        sumcu := PE.sumcu * IAt ru (C.bl (i - 1))
        sumcv := PE.sumcv * IAt ru (C.bl (i - 1))
        Zu := PE.Zu * ZAt ru (C.bl (i - 1)) } := ⟨_, rfl⟩
  rw [← hP3] at hinit2
  have hb3' : P3.base = b3 := by rw [hP3]
  have hmp3 : P3.maskpoly = PE.maskpoly := by rw [hP3]
  have hu3 : b3.vU = maskedValue (C.bl (i - 1)) (value C (i - 1)) M ru := by rw [hb3e]
  have hst3 : Start (C.bl (i - 1)) (value C (i - 1)) P3 := by
    refine ⟨?_, by rw [hb3']; exact hV3', ?_, ?_⟩
    · rw [hb3', hb3e]
    · rw [hb3', hb3e]; exact (hst1.round ru le_rfl).1
    · rw [hb3', hb3e]; exact (hst1.round ru le_rfl).2.1
  have h02 : st2 (C.bl (i - 1)) pt P3 rv 0 = P3 := st2_zero (by rw [hP3]) (by rw [hP3])
  have hrun2 := run2_eq hp hst3 hptv h02
  have hAB2 : ∀ z a, mle (C.bl (i - 1)) (tabA P3.base) z * a + mle (C.bl (i - 1)) (tabB P3.base) z =
      layerPolyAt C i α β r0 r1 ru z (maskedValue (C.bl (i - 1)) (value C (i - 1)) M ru) a := by
    intro z a
    rw [hb3', phase2_final hl hw hU hphi z a, hu3]
    rfl
  have hZv : P3.Zv = 1 := by rw [hP3]; exact hE.Zv
  have hS3 : P3.sumRc = PE.sumRc := by rw [hP3]
  have hcu3 : P3.sumcu + P3.sumcv = IAt ru (C.bl (i - 1)) *
      (α * M.Z0 * sr M.R M.x0 + β * M.Z1 * sr M.R M.x1) := by
    rw [← hcu, hP3]; ring
  refine ⟨PE, P3, ?_, ?_, ?_, ?_, ?_, ?_, ?_⟩
  · unfold beginLayer
    simp only [eA, eB, Outcome.ok_bind, Outcome.pure_eq]
    rw [hPE]
  · rw [hE.sumc, ← mask_total hp hn1]
    exact sum_congr rfl (fun b _ => hrho _)
  · intro k hk x
    rw [sum_phase1 hp hl hn1 α β r0 r1 _ M hAB hk ru (fun j hj => hptu j (by omega)) x, masked_polyAt hk,
      show M.rho = rho from rfl, ← hm1 k hk, ← hcu]
    unfold msg1
    rw [hrun1 k (by omega)]
    split_ifs with hlast
    · rw [(phase1Last_eq hp hst1 hptu hlast).2, hE.Zu, hS, ← lastA_splice hst1 hn1]
      ring
    · rw [(phase1Update_eq hp hst1 hptu (show k + 1 < C.bl (i - 1) by omega)).2]
      ring
  · have hst := phase1_start (var := .zk) h1 hr hd (by simpa using hl)
    rw [← hE.base] at hst
    replace hst : ∑ x ∈ range (2 ^ C.bl (i - 1)), (tabA PE.base x * b.circuitValue (i - 1) x + tabB PE.base x) =
      α * mle (C.bl i) (value C i) r0 + β * mle (C.bl i) (value C i) r1 := hst
    rw [sum_congr rfl (fun x hx => by rw [hr.val (i - 1) (by omega) (by omega) x (mem_range.1 hx)] :
      ∀ x ∈ range (2 ^ C.bl (i - 1)), tabA PE.base x * b.circuitValue (i - 1) x + tabB PE.base x =
        tabA PE.base x * value C (i - 1) x + tabB PE.base x)] at hst
    have hps := polyAt_sum (show 0 < C.bl (i - 1) by omega) ru (tabA PE.base) (value C (i - 1)) (tabB PE.base)
    rw [claimAt_zero, hst] at hps
    have hms := mAt_sum hp (C.bl (i - 1)) PE.maskpoly pt (show 0 < 2 * C.bl (i - 1) + 1 by omega)
    rw [← hE.sumc] at hms
    have h0 : IAt ru 0 = 1 ∧ RAt (C.bl (i - 1)) PE.maskpoly pt 0 = 0 := by simp [IAt, RAt]
    rw [h0.2] at hms
    have hcu' : PE.sumcu + PE.sumcv = α * P.Zu * (maskRPoly P.maskR P.preu1 0 + maskRPoly P.maskR P.preu1 1) +
      β * P.Zv * (maskRPoly P.maskR P.prev1 0 + maskRPoly P.maskR P.prev1 1) := hcu
    unfold msg1
    rw [hrun1 0 (by omega)]
    split_ifs with hlast
    · simp only [(phase1Last_eq hp hst1 hptu hlast).2, h0.1]
      linear_combination hps + hms + hcu'
    · simp only [(phase1Update_eq hp hst1 hptu (show 0 + 1 < C.bl (i - 1) by omega)).2, h0.1]
      linear_combination hps + hms + hcu'
  · rw [hrun1 _ le_rfl]; exact hinit2
  · intro k hk x
    rw [sum_phase2 hp α β r0 r1 _ M hk ru rv hptu (fun j hj => hptv j (by omega)) x,
      show M.rho = rho from rfl, ← hm2 k hk]
    simp only [← hAB2]
    rw [masked_polyAt hk]
    unfold msg2
    rw [hrun2 k (by omega)]
    split_ifs with hlast
    · rw [(phase2Last_eq hp hst3 hptv hlast).2, hZv, hS3, hS, ← lastA_splice hst3 hn1, hmp3, hcu3]
      ring
    · rw [(phase2Update_eq hp hst3 hptv (show k + 1 < C.bl (i - 1) by omega)).2, hmp3, hcu3]
      ring
  · have hfz := finalize_st2 hst3 hn1 pt rv
    have hvv : mle (C.bl (i - 1)) (value C (i - 1)) rv + P3.Zv * ZAt rv (C.bl (i - 1)) *
      P3.sumRc.eval (rv (C.bl (i - 1) - 1)) = maskedValue (C.bl (i - 1)) (value C (i - 1)) M rv := by
      rw [hZv, one_mul, hS3, hS]; rfl
    rw [← hrun2 _ le_rfl, hvv, hb3', hu3] at hfz
    refine ⟨_, hfz, fun x => ?_⟩
    have hr3 := hst3.round rv (le_refl (C.bl (i - 1)))
    rw [hb3'] at hr3
    have hpr : prevOf rv (C.bl (i - 1)) = pt (C.bl (i - 1) + C.bl (i - 1) - 1) := by
      rw [prevOf_pos rv hn1, show C.bl (i - 1) + C.bl (i - 1) - 1 = C.bl (i - 1) - 1 + C.bl (i - 1) by omega,
        hptv _ (by omega)]
    rw [hpr, (finalround_eq hp hn1 ?_ ?_ ?_ ?_ _).2]
    · dsimp only
      have em : mAt (C.bl (i - 1)) PE.maskpoly pt (2 * C.bl (i - 1)) x =
          rho * sumMaskPoly (2 * C.bl (i - 1) + 1) M.g (joinPoint (C.bl (i - 1)) ru rv x) := by
        have e := mAt_last hp (C.bl (i - 1)) hn1 PE.maskpoly (joinPoint (C.bl (i - 1)) ru rv x)
        rw [hrho, show joinPoint (C.bl (i - 1)) ru rv x (2 * C.bl (i - 1)) = x by
          rw [joinPoint, if_neg (by omega), if_neg (by omega)]] at e
        rw [← e, mAt, mAt, RAt_congr (pt := pt) (pt' := joinPoint (C.bl (i - 1)) ru rv x)]
        intro j hj
        simp only [hpt, joinPoint]
        split_ifs <;> first | rfl | omega
      have hb : (roundState P3.base rv (C.bl (i - 1))).alpha = α ∧
          (roundState P3.base rv (C.bl (i - 1))).beta = β := by
        rw [roundState_eq hst3.totalUv hst3.vMultAdd rv (le_refl _), hb3', hb3e, hP2e, hbase]
        exact ⟨rfl, rfl⟩
      rw [hb3'] at hb
      rw [hmp3, em, hb.1, hb.2, hP3]
      dsimp only
      rw [hE.Rg1, hE.Rg2, hE.Iuv, hE.preZu, hE.preZv, maskedPoly]
      rw [show ∏ j ∈ range (C.bl (i - 1)), (1 - ru j) = IAt ru (C.bl (i - 1)) from rfl,
        show ∏ j ∈ range (C.bl (i - 1)), (1 - rv j) = IAt rv (C.bl (i - 1)) from rfl]
      change _ = _ * _ * (α * P.Zu * maskRPoly P.maskR P.preu1 x + β * P.Zv * maskRPoly P.maskR P.prev1 x)
        + _ + rho * _
      ring
    · exact hr3.1
    · exact hr3.2.1
    · rfl
    · rfl

end proofs

/-! ## C24 -/

/-- The announced `maskpoly_sumc` is `ρ` times the sum of the mask over the hypercube. -/
theorem C24_mask_sum (E : Pairing G1 G2 GT) (C : Circuit) (hwf : WellFormed true C) (coins : Coins F) (i : ℕ)
    (hi : 1 ≤ i) (hd : i < C.depth) (hn : 1 ≤ C.bl (i - 1)) (hsR : ∀ j ≤ 2, (coins.layer i).sR j < p)
    (hsM : ∀ j ≤ 2 * C.bl (i - 1) + 1, (coins.layer i).sM j < p) (P : Zk.Prover F G1 G2)
    (vals : List (List F)) (hv : Libra.evaluate .zk C = .ok vals) (hP : P.base.circuitValue = valueFn vals)
    (α β : F) (r0 r1 : ℕ → F) (rho : F) :
    ∃ Q, beginLayer E C coins P i α β r0 r1 rho = .ok Q ∧
      Q.sumc = ∑ b ∈ range (2 ^ (2 * C.bl (i - 1) + 1)),
        rho * sumMaskPoly (2 * C.bl (i - 1) + 1) (coins.layer i).maskpoly (corner b) := by
  obtain ⟨Q, _, h1, h2, _⟩ := zk_layer E hwf coins hi hd hn hsR hsM P hv hP α β r0 r1 r0 r0 rho
  exact ⟨Q, h1, h2⟩

/-! ## C20 and C24: the rounds -/

/-- Phase 1, round `k`: the message at `x` is the sum of the masked polynomial over the remaining
variables of the first operand, all variables of the second and `c`, plus the direct relays. The
mask enters as `ρ` times its partial sum (see `maskedPoly`). -/
theorem C20_zk_phase1 (E : Pairing G1 G2 GT) (C : Circuit) (hwf : WellFormed true C) (coins : Coins F) (i : ℕ)
    (hi : 1 ≤ i) (hd : i < C.depth) (hn : 1 ≤ C.bl (i - 1)) (hsR : ∀ j ≤ 2, (coins.layer i).sR j < p)
    (hsM : ∀ j ≤ 2 * C.bl (i - 1) + 1, (coins.layer i).sM j < p) (P : Zk.Prover F G1 G2)
    (vals : List (List F)) (hv : Libra.evaluate .zk C = .ok vals) (hP : P.base.circuitValue = valueFn vals)
    (α β : F) (r0 r1 ru : ℕ → F) (rho : F) :
    ∃ Q, beginLayer E C coins P i α β r0 r1 rho = .ok Q ∧
      ∀ k < C.bl (i - 1), ∀ x, msg1 (C.bl (i - 1)) Q ru k x =
        ∑ b ∈ range (2 ^ (C.bl (i - 1) - (k + 1))),
          (∑ y ∈ range (2 ^ C.bl (i - 1)), ∑ c ∈ range 2,
            maskedPoly C i α β r0 r1 (value C (i - 1)) (masksOf coins P i rho) (splice ru k x b) (corner y) (c : F) +
          relayPolyAt C i α β r0 r1 (splice ru k x b)
            (maskedValue (C.bl (i - 1)) (value C (i - 1)) (masksOf coins P i rho) (splice ru k x b))) := by
  obtain ⟨Q, _, h1, _, h2, _⟩ := zk_layer E hwf coins hi hd hn hsR hsM P hv hP α β r0 r1 ru ru rho
  exact ⟨Q, h1, h2⟩

/-- The first message is consistent with the masked claim about the layer plus the announced sum. -/
theorem C20_zk_claim (E : Pairing G1 G2 GT) (C : Circuit) (hwf : WellFormed true C) (coins : Coins F) (i : ℕ)
    (hi : 1 ≤ i) (hd : i < C.depth) (hn : 1 ≤ C.bl (i - 1)) (hsR : ∀ j ≤ 2, (coins.layer i).sR j < p)
    (hsM : ∀ j ≤ 2 * C.bl (i - 1) + 1, (coins.layer i).sM j < p) (P : Zk.Prover F G1 G2)
    (vals : List (List F)) (hv : Libra.evaluate .zk C = .ok vals) (hP : P.base.circuitValue = valueFn vals)
    (α β : F) (r0 r1 ru : ℕ → F) (rho : F) :
    ∃ Q, beginLayer E C coins P i α β r0 r1 rho = .ok Q ∧
      msg1 (C.bl (i - 1)) Q ru 0 0 + msg1 (C.bl (i - 1)) Q ru 0 1 =
        α * (mle (C.bl i) (value C i) r0 + P.Zu * (maskRPoly P.maskR P.preu1 0 + maskRPoly P.maskR P.preu1 1)) +
        β * (mle (C.bl i) (value C i) r1 + P.Zv * (maskRPoly P.maskR P.prev1 0 + maskRPoly P.maskR P.prev1 1)) +
        Q.sumc := by
  obtain ⟨Q, _, h1, _, _, h2, _⟩ := zk_layer E hwf coins hi hd hn hsR hsM P hv hP α β r0 r1 ru ru rho
  exact ⟨Q, h1, h2⟩

/-- Phase 2, round `k`, after a phase 1 with the challenges `ru`; and the last round, in the variable
`c`, when it is given the value of the layer's polynomial. -/
theorem C20_zk_phase2 (E : Pairing G1 G2 GT) (C : Circuit) (hwf : WellFormed true C) (coins : Coins F) (i : ℕ)
    (hi : 1 ≤ i) (hd : i < C.depth) (hn : 1 ≤ C.bl (i - 1)) (hsR : ∀ j ≤ 2, (coins.layer i).sR j < p)
    (hsM : ∀ j ≤ 2 * C.bl (i - 1) + 1, (coins.layer i).sM j < p) (P : Zk.Prover F G1 G2)
    (vals : List (List F)) (hv : Libra.evaluate .zk C = .ok vals) (hP : P.base.circuitValue = valueFn vals)
    (α β : F) (r0 r1 ru rv : ℕ → F) (rho : F) :
    ∃ Q Q2, beginLayer E C coins P i α β r0 r1 rho = .ok Q ∧
      (run1 (C.bl (i - 1)) Q ru (C.bl (i - 1))).phase2Init C (prevOf ru (C.bl (i - 1))) ru (fun j => 1 - ru j) =
        .ok Q2 ∧
      (∀ k < C.bl (i - 1), ∀ x, msg2 (C.bl (i - 1)) Q2 rv k x =
        ∑ b ∈ range (2 ^ (C.bl (i - 1) - (k + 1))), ∑ c ∈ range 2,
          maskedPoly C i α β r0 r1 (value C (i - 1)) (masksOf coins P i rho) ru (splice rv k x b) (c : F)) ∧
      ∃ Q3 vu vv, (run2 (C.bl (i - 1)) Q2 rv (C.bl (i - 1))).finalize (prevOf rv (C.bl (i - 1))) = (Q3, vu, vv) ∧
      ∀ x, (Q3.finalround (prevOf rv (C.bl (i - 1))) (C.bl (i - 1) <<< 1)
          (layerPolyAt C i α β r0 r1 ru rv vu vv)).2.eval x =
        maskedPoly C i α β r0 r1 (value C (i - 1)) (masksOf coins P i rho) ru rv x := by
  obtain ⟨Q, Q2, h1, _, _, _, h2, h3, Q3, h4, h5⟩ :=
    zk_layer E hwf coins hi hd hn hsR hsM P hv hP α β r0 r1 ru rv rho
  exact ⟨Q, Q2, h1, h2, h3, Q3, _, _, h4, h5⟩

/-! ## C21 -/

/-- The claims about the layer below are its extension at the two points plus the masks
`∏ z_j (1 - z_j) · Σ_c R'(z_last, c)`. -/
theorem C21_zk_final_claims (E : Pairing G1 G2 GT) (C : Circuit) (hwf : WellFormed true C) (coins : Coins F) (i : ℕ)
    (hi : 1 ≤ i) (hd : i < C.depth) (hn : 1 ≤ C.bl (i - 1)) (hsR : ∀ j ≤ 2, (coins.layer i).sR j < p)
    (hsM : ∀ j ≤ 2 * C.bl (i - 1) + 1, (coins.layer i).sM j < p) (P : Zk.Prover F G1 G2)
    (vals : List (List F)) (hv : Libra.evaluate .zk C = .ok vals) (hP : P.base.circuitValue = valueFn vals)
    (α β : F) (r0 r1 ru rv : ℕ → F) (rho : F) :
    ∃ Q Q2, beginLayer E C coins P i α β r0 r1 rho = .ok Q ∧
      (run1 (C.bl (i - 1)) Q ru (C.bl (i - 1))).phase2Init C (prevOf ru (C.bl (i - 1))) ru (fun j => 1 - ru j) =
        .ok Q2 ∧
      ((run2 (C.bl (i - 1)) Q2 rv (C.bl (i - 1))).finalize (prevOf rv (C.bl (i - 1)))).2 =
        (maskedValue (C.bl (i - 1)) (value C (i - 1)) (masksOf coins P i rho) ru,
         maskedValue (C.bl (i - 1)) (value C (i - 1)) (masksOf coins P i rho) rv) := by
  obtain ⟨Q, Q2, h1, _, _, _, h2, _, Q3, h4, _⟩ :=
    zk_layer E hwf coins hi hd hn hsR hsM P hv hP α β r0 r1 ru rv rho
  exact ⟨Q, Q2, h1, h2, by rw [h4]⟩

/-- the hypotheses are met by layer 2 of the example, with any prover that has evaluated it -/
example (vals : List (List Fp)) (hv : Libra.evaluate .zk exampleParallel = .ok vals) :=
  C20_zk_phase2 toyPairing exampleParallel exampleParallel_wf exampleCoins 2 (by decide) (by decide)
    (by decide) (exampleCoins_ok.sR 2 (by decide) (by decide)) (exampleCoins_ok.sM 2 (by decide) (by decide))
    { blankProver with base := { blankProver.base with circuitValue := valueFn vals } } vals hv rfl

end Libra.Props
