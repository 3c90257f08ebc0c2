import Verif.Proofs.ZkMask
import Verif.Model.ZkVerifier

/-!
# The rounds of the honest zero-knowledge prover
-/

namespace Libra.Zk
open Libra Spec Finset Libra.FastTrack
variable {F : Type} [CommRing F] {G1 G2 : Type}

theorem sum_range_even (d : ℕ) (a : ℕ → F) :
    ∑ j ∈ range (2 * d), a j = ∑ k ∈ range d, (a (2 * k) + a (2 * k + 1)) := by
  induction d with
  | zero => simp
  | succ d ih => rw [show 2 * (d + 1) = 2 * d + 1 + 1 by ring, sum_range_succ, sum_range_succ, ih,
      sum_range_succ, add_assoc]

/-- the coefficients and the sum computed by `generate_maskpoly_after_rho` -/
theorem maskAfterRho_eq (hp : ((p : ℕ) : F) = 0) {n : ℕ} (hn : 1 ≤ n) (P : Prover F G1 G2) :
    ∃ a : ℕ → F, (∀ i < 2 * (2 * n + 1) + 7, a i = P.maskpoly i * P.rho) ∧
      P.maskAfterRho (n * 2 + 1) = { P with maskpoly := a, sumc := SAt n a 0, sumr := 0 } := by
  set a : ℕ → F := loop ((n * 2 + 1) * 2 + 1 + 6)
    (fun i (m : ℕ → F) => Function.update m i (m i * P.rho)) P.maskpoly with ha
  refine ⟨a, fun i hi => by rw [ha, scale_loop, if_pos (by omega)], ?_⟩
  unfold Prover.maskAfterRho
  simp only []
  rw [← ha]
  congr 1
  rw [double_loop, loop_add_sum, loopFrom_add_sum, SAt_zero hp]
  have h1 : ∑ i ∈ range ((n * 2 + 1) * 2 + 1), a ((n * 2 + 1) * 2 - i) =
      a (2 * (2 * n + 1)) + ∑ k ∈ range (2 * n + 1), (a (2 * k) + a (2 * k + 1)) := by
    have := sum_range_reflect a ((n * 2 + 1) * 2 + 1)
    rw [Nat.add_sub_cancel] at this
    rw [this, ← sum_range_even,
      show (n * 2 + 1) * 2 + 1 = 2 * (2 * n + 1) + 1 by ring, sum_range_succ]
    ring
  have h2 : ∑ i ∈ Ico 1 7, a ((n * 2 + 1) * 2 + i) = a (2 * (2 * n + 1) + 1) + a (2 * (2 * n + 1) + 2)
      + a (2 * (2 * n + 1) + 3) + a (2 * (2 * n + 1) + 4) + a (2 * (2 * n + 1) + 5)
      + a (2 * (2 * n + 1) + 6) := by
    rw [show (n * 2 + 1) * 2 = 2 * (2 * n + 1) by ring]
    simp [sum_Ico_succ_top]
  have h3 : ∑ j ∈ range (2 * n + 1), qAt n a j 1 =
      ∑ k ∈ range (2 * n + 1), (a (2 * k) + a (2 * k + 1)) + (a (2 * (2 * n + 1) + 1)
      + a (2 * (2 * n + 1) + 2) + a (2 * (2 * n + 1) + 3)) + (a (2 * (2 * n + 1) + 4)
      + a (2 * (2 * n + 1) + 5) + a (2 * (2 * n + 1) + 6)) := by
    have := sumMaskPoly_eq n hn a (fun _ => 1)
    simp only [sumMaskPoly, one_pow, mul_one] at this
    linear_combination -this
  rw [h1, h2, h3, show (n * 2 + 1) * 2 = 2 * (2 * n + 1) by ring, show n * 2 + 1 - 1 = 2 * n by omega]
  ring

/-! ## one round -/

/-- the mask part of a round -/
theorem maskRound_eq (hp : ((p : ℕ) : F) = 0) {n : ℕ} (P : Prover F G1 G2)
    (hu : P.base.lengthU = n) (hv : P.base.lengthV = n) (prev : F) {cur : ℕ} (hc : cur < 2 * n + 1)
    (hS : P.sumc = SAt n P.maskpoly cur) {high : F}
    (hh : high = 2 ^ (2 * n - cur) * hi n P.maskpoly cur 1) (addr : Bool)
    (ha : addr = true → 1 ≤ cur) :
    let sumr := if addr then P.sumr + lo P.maskpoly (cur - 1) prev else P.sumr
    (P.maskRound prev cur high addr).1 = { P with sumc := SAt n P.maskpoly (cur + 1), sumr := sumr } ∧
    ∀ x, (P.maskRound prev cur high addr).2.eval x =
      2 ^ (2 * n - cur) * (lo P.maskpoly cur x + if addr then sumr else 0)
        + SAt n P.maskpoly (cur + 1) := by
  intro sumr
  have e1 : n + n - cur = 2 * n - cur := by omega
  have e2 : (P.sumc - dbl (n + n - cur) (P.maskpoly (cur <<< 1)) -
      dbl (n + n - cur) (P.maskpoly (cur <<< 1 + 1)) - high) * inv2 = SAt n P.maskpoly (cur + 1) := by
    rw [SAt_succ hp n _ hc, hS, hh, dbl_eq, dbl_eq, shl_one, e1, qAt, lo]
    ring
  have e3 : (if addr then P.sumr + P.maskpoly (cur <<< 1 - 2) * prev * prev
    + P.maskpoly (cur <<< 1 - 1) * prev else P.sumr) = sumr := by
    cases addr with
    | false => rfl
    | true =>
      have := ha rfl
      simp only [sumr, if_true, lo, shl_one]
      rw [show 2 * (cur - 1) = 2 * cur - 2 by omega, show 2 * cur - 2 + 1 = 2 * cur - 1 by omega]
      ring
  unfold Prover.maskRound
  simp only [hu, hv, e2, e3]
  refine ⟨trivial, fun x => ?_⟩
  simp only [QuadraticPoly.eval, dbl_eq, shl_one, e1, lo]
  cases addr <;> simp <;> ring

/-- the products over the challenges of the rounds before -/
def IAt (r : ℕ → F) (k : ℕ) : F := ∏ j ∈ range k, (1 - r j)
@[inherit_doc IAt]
def ZAt (r : ℕ → F) (k : ℕ) : F := ∏ j ∈ range k, ((1 - r j) * r j)

theorem IAt_prev (r : ℕ → F) (k : ℕ) : IAt r (k - 1) * (1 - prevOf r k) = IAt r k := by
  cases k with
  | zero => simp [IAt, prevOf]
  | succ k => simp [IAt, prevOf, prod_range_succ]

theorem IAt_succ (r : ℕ → F) (k : ℕ) : IAt r (k + 1) = IAt r k * (1 - r k) := by
  rw [IAt, prod_range_succ, ← IAt]

theorem ZAt_prev (r : ℕ → F) {k : ℕ} (hk : 0 < k) :
    ZAt r (k - 1) * (1 - prevOf r k) * prevOf r k = ZAt r k := by
  obtain ⟨k, rfl⟩ : ∃ m, k = m + 1 := ⟨k - 1, by omega⟩
  simp [ZAt, prevOf, prod_range_succ]; ring

theorem hi_zero {n k : ℕ} (a : ℕ → F) (x : F) (h1 : k + 1 ≠ n) (h2 : k + 1 ≠ n + n) :
    hi n a k x = 0 := by
  rw [hi, if_neg h1, if_neg h2, add_zero]

/-- the prover in phase 1 before round `k` (that is, after `k` rounds) -/
def st1 (n : ℕ) (pt : ℕ → F) (P : Prover F G1 G2) (r : ℕ → F) (k : ℕ) : Prover F G1 G2 :=
  { P with
    base := roundState P.base r k
    sumc := SAt n P.maskpoly k
    sumr := RAt n P.maskpoly pt (k - 1)
    Iuv := P.Iuv * IAt r (k - 1)
    sumcu := P.sumcu * IAt r (k - 1)
    sumcv := P.sumcv * IAt r (k - 1)
    Zu := P.Zu * ZAt r (k - 1) }

/-- the factors after the update in round `k` -/
def ft1 (n : ℕ) (pt : ℕ → F) (P : Prover F G1 G2) (r : ℕ → F) (k : ℕ) : Prover F G1 G2 :=
  { P with
    base := roundState P.base r (k + 1)
    sumc := SAt n P.maskpoly k
    sumr := RAt n P.maskpoly pt (k - 1)
    Iuv := P.Iuv * IAt r k
    sumcu := P.sumcu * IAt r k
    sumcv := P.sumcv * IAt r k
    Zu := P.Zu * ZAt r k }

theorem factors1_eq (n : ℕ) (pt : ℕ → F) (P : Prover F G1 G2) (r : ℕ → F) (k : ℕ) :
    Prover.factors1 { st1 n pt P r k with base := roundState P.base r (k + 1) } (prevOf r k) k =
      ft1 n pt P r k := by
  unfold Prover.factors1
  rcases Nat.eq_zero_or_pos k with rfl | hk
  · simp [st1, ft1, prevOf]
  · simp only [if_pos hk]
    simp only [st1, ft1, mul_assoc, IAt_prev]
    simp only [← ZAt_prev r hk, mul_assoc]

theorem quintic_eval (R : QuadraticPoly F) (A : LinearPoly F) (Z x : F) :
    (quintic R A Z).eval x = Z * (x * (1 - x)) * R.eval x * A.eval x := by
  simp only [quintic, QuintuplePoly.eval, QuadraticPoly.eval, LinearPoly.eval]
  ring

/-- the last round of a phase -/
theorem lastRound_eq (hp : ((p : ℕ) : F) = 0) {n : ℕ} (P : Prover F G1 G2)
    (hu : P.base.lengthU = n) (hv : P.base.lengthV = n) (ret : QuadraticPoly F) (prev : F)
    {k cur : ℕ} (hc : cur < 2 * n + 1)
    (hS : P.sumc = SAt n P.maskpoly cur) (last : Bool) (Z : F)
    (hh : ∀ x, hi n P.maskpoly cur x = P.maskpoly (2 * (2 * n + 1) + (k + 1)) * x ^ 5
      + P.maskpoly (2 * (2 * n + 1) + (k + 2)) * x ^ 4
      + P.maskpoly (2 * (2 * n + 1) + (k + 3)) * x ^ 3) (hl : last = true) (addr : Bool)
    (ha : addr = true → 1 ≤ cur) :
    let sumr := if addr then P.sumr + lo P.maskpoly (cur - 1) prev else P.sumr
    (P.lastRound ret prev k cur last addr Z).1 =
      { P with sumc := SAt n P.maskpoly (cur + 1), sumr := sumr } ∧
    ∀ x, (P.lastRound ret prev k cur last addr Z).2.eval x =
      ret.eval x + (P.sumcu + P.sumcv) * (1 - x)
      + Z * (x * (1 - x)) * P.sumRc.eval x * (P.base.tabs.addMultSum 0).eval x
      + (2 ^ (2 * n - cur) * (qAt n P.maskpoly cur x + if addr then sumr else 0)
        + SAt n P.maskpoly (cur + 1)) := by
  intro sumr
  have e1 : n + n - cur = 2 * n - cur := by omega
  have e2 : (n + n + 1) <<< 1 = 2 * (2 * n + 1) := by rw [shl_one]; ring
  obtain ⟨a1, a2⟩ := maskRound_eq hp P hu hv prev hc hS
    (high := dbl (2 * n - cur) (P.maskpoly (2 * (2 * n + 1) + (k + 1)))
      + dbl (2 * n - cur) (P.maskpoly (2 * (2 * n + 1) + (k + 2)))
      + dbl (2 * n - cur) (P.maskpoly (2 * (2 * n + 1) + (k + 3))))
    (by rw [hh, dbl_eq, dbl_eq, dbl_eq]; ring) addr ha
  unfold Prover.lastRound
  simp only [hu, hv, e1, e2, hl, if_true]
  generalize P.maskRound prev cur _ addr = M at a1 a2 ⊢
  refine ⟨a1, fun x => ?_⟩
  have a2 := a2 x
  have a3 := quintic_eval P.sumRc (P.base.tabs.addMultSum 0) Z x
  simp only [QuintuplePoly.eval, QuadraticPoly.eval] at a2 a3 ⊢
  simp only [quintic] at a3 ⊢
  simp only [dbl_eq]
  rw [qAt, hh]
  linear_combination a2 + a3

/-- what the rounds of a phase need to know about the state they start in -/
structure Start (n : ℕ) (V : ℕ → F) (P : Prover F G1 G2) : Prop where
  totalUv : P.base.totalUv = 2 ^ n
  vMultAdd : ∀ k < 2 ^ n, (P.base.tabs.vMultAdd k).b = V k
  lengthU : P.base.lengthU = n
  lengthV : P.base.lengthV = n

section
variable {n : ℕ} {V : ℕ → F} {P : Prover F G1 G2}

theorem Start.round (h : Start n V P) (r : ℕ → F) {k : ℕ} (hk : k ≤ n) :
    (roundState P.base r k).lengthU = n ∧ (roundState P.base r k).lengthV = n ∧
      (roundState P.base r k).vU = P.base.vU := by
  rw [roundState_eq h.totalUv h.vMultAdd r hk]
  exact ⟨h.lengthU, h.lengthV, rfl⟩

theorem Start.lastA (h : Start n V P) (r : ℕ → F) (hn : 1 ≤ n) :
    ((roundState P.base r n).tabs.addMultSum 0).eval (r (n - 1)) = mle n (tabA P.base) r := by
  have := holds_final (roundInv h.totalUv h.vMultAdd r n le_rfl).holdsA _ (prevOf_spec r n)
    (fun h => by simp [prevOf, h])
  rw [← this, prevOf, if_neg (by omega)]

theorem sumr_eq {a pt : ℕ → F} {k : ℕ} {prev : F} (hk : 0 < k) (hp : prev = pt (k - 1))
    (h1 : k ≠ n) (h2 : k ≠ n + n) :
    RAt n a pt (k - 1) + lo a (k - 1) prev = RAt n a pt k := by
  obtain ⟨k, rfl⟩ : ∃ m, k = m + 1 := ⟨k - 1, by omega⟩
  rw [Nat.add_sub_cancel, RAt_succ, qAt, hi_zero _ _ h1 h2, hp, add_zero]
  rfl

/-! ## phase 1 -/

theorem sumr1_eq {a pt r : ℕ → F} (hpt : ∀ j < n, pt j = r j) {k : ℕ} (hk : k < n) :
    (if (decide (k > 0)) then RAt n a pt (k - 1) + lo a (k - 1) (prevOf r k) else RAt n a pt (k - 1)) =
      RAt n a pt k := by
  rcases Nat.eq_zero_or_pos k with rfl | h0
  · simp
  · rw [if_pos (by simpa using h0), sumr_eq h0 _ (by omega) (by omega)]
    rw [prevOf, if_neg (by omega), hpt _ (by omega)]

theorem sumr1_eq' {a pt r : ℕ → F} (hpt : ∀ j < n, pt j = r j) {k : ℕ} (hk : k < n) :
    (if (decide (k > 0)) then (if (decide (k > 0)) then RAt n a pt (k - 1) + lo a (k - 1) (prevOf r k)
      else RAt n a pt (k - 1)) else 0) = RAt n a pt k := by
  rw [sumr1_eq hpt hk]
  rcases Nat.eq_zero_or_pos k with rfl | h0
  · simp [RAt]
  · rw [if_pos (by simpa using h0)]

theorem addMask_eval (ret m : QuadraticPoly F) (cu cv x : F) :
    (⟨ret.a + m.a, ret.b - cu - cv + m.b, ret.c + cu + cv + m.c⟩ : QuadraticPoly F).eval x =
      ret.eval x + (cu + cv) * (1 - x) + m.eval x := by
  simp only [QuadraticPoly.eval]; ring

theorem phase1Update_of {Q Q' : Prover F G1 G2} {prev : F} {k : ℕ} {u : FastTrack.Prover F × QuadraticPoly F}
    (hu : Q.base.update prev k = u) (hf : Prover.factors1 { Q with base := u.1 } prev k = Q') :
    Q.phase1Update prev k = ((Q'.maskRound prev k 0 (k > 0)).1,
      ⟨u.2.a + (Q'.maskRound prev k 0 (k > 0)).2.a,
       u.2.b - Q'.sumcu - Q'.sumcv + (Q'.maskRound prev k 0 (k > 0)).2.b,
       u.2.c + Q'.sumcu + Q'.sumcv + (Q'.maskRound prev k 0 (k > 0)).2.c⟩) := by
  subst hf; subst hu; rfl

theorem phase1Last_of {Q Q' : Prover F G1 G2} {prev : F} {k : ℕ} {u : FastTrack.Prover F × QuadraticPoly F}
    (hu : Q.base.update prev k = u) (hf : Prover.factors1 { Q with base := u.1 } prev k = Q') :
    Q.phase1Last prev k = Q'.lastRound u.2 prev 0 k (k + 1 == Q'.base.lengthU) (k > 0) Q'.Zu := by
  subst hf; subst hu; rfl

theorem phase1Update_eq (hp : ((p : ℕ) : F) = 0) (h : Start n V P) {pt r : ℕ → F}
    (hpt : ∀ j < n, pt j = r j) {k : ℕ} (hk : k + 1 < n) :
    ((st1 n pt P r k).phase1Update (prevOf r k) k).1 = st1 n pt P r (k + 1) ∧
    ∀ x, ((st1 n pt P r k).phase1Update (prevOf r k) k).2.eval x =
      polyAt n r (tabA P.base) V (tabB P.base) k x + (P.sumcu + P.sumcv) * IAt r k * (1 - x)
        + mAt n P.maskpoly pt k x := by
  have hr := h.round r (k := k + 1) (by omega)
  obtain ⟨a1, a2⟩ := maskRound_eq hp (n := n) (ft1 n pt P r k) hr.1 hr.2.1 (prevOf r k) (cur := k)
    (by omega) rfl (high := 0) (by rw [hi_zero _ _ (by omega) (by omega), mul_zero]) (k > 0)
    (by simp; omega)
  rw [phase1Update_of (Q := st1 n pt P r k) rfl (factors1_eq n pt P r k)]
  have s1 := sumr1_eq (a := P.maskpoly) hpt (k := k) (by omega)
  have s2 := sumr1_eq' (a := P.maskpoly) hpt (k := k) (by omega)
  refine ⟨a1.trans ?_, fun x => ?_⟩
  · simp only [ft1, s1]; rfl
  · dsimp only
    rw [addMask_eval, a2 x, ← roundMsg_eval h.totalUv h.vMultAdd r (by omega), mAt, qAt,
      hi_zero _ _ (show k + 1 ≠ n by omega) (by omega)]
    simp only [ft1, s2]
    change (roundMsg P.base r k).eval x + _ + _ = _
    ring

theorem phase1Last_eq (hp : ((p : ℕ) : F) = 0) (h : Start n V P) {pt r : ℕ → F}
    (hpt : ∀ j < n, pt j = r j) {k : ℕ} (hk : k + 1 = n) :
    ((st1 n pt P r k).phase1Last (prevOf r k) k).1 = st1 n pt P r (k + 1) ∧
    ∀ x, ((st1 n pt P r k).phase1Last (prevOf r k) k).2.eval x =
      polyAt n r (tabA P.base) V (tabB P.base) k x + (P.sumcu + P.sumcv) * IAt r k * (1 - x)
        + mAt n P.maskpoly pt k x + P.Zu * ZAt r k * (x * (1 - x)) * P.sumRc.eval x *
          ((roundState P.base r n).tabs.addMultSum 0).eval x := by
  have hr := h.round r (k := k + 1) (by omega)
  obtain ⟨a1, a2⟩ := lastRound_eq hp (n := n) (ft1 n pt P r k) hr.1 hr.2.1
    (roundMsg P.base r k) (prevOf r k) (k := 0) (cur := k)
    (by omega) rfl true ((ft1 n pt P r k).Zu)
    (fun x => by rw [hi, if_pos hk, if_neg (by omega), add_zero]) rfl (k > 0)
    (by simp; omega)
  have e0 : (st1 n pt P r k).phase1Last (prevOf r k) k =
      (ft1 n pt P r k).lastRound (roundMsg P.base r k) (prevOf r k) 0 k true (k > 0)
        ((ft1 n pt P r k).Zu) := by
    rw [phase1Last_of (Q := st1 n pt P r k) rfl (factors1_eq n pt P r k),
      show (k + 1 == (ft1 n pt P r k).base.lengthU) = true by
        rw [beq_iff_eq]; exact hk.trans hr.1.symm]
    rfl
  rw [e0]
  have s1 := sumr1_eq (a := P.maskpoly) hpt (k := k) (by omega)
  have s2 := sumr1_eq' (a := P.maskpoly) hpt (k := k) (by omega)
  refine ⟨a1.trans ?_, fun x => ?_⟩
  · simp only [ft1, s1]; rfl
  · rw [a2 x, ← roundMsg_eval h.totalUv h.vMultAdd r (by omega), mAt]
    simp only [ft1, s2, hk]
    ring

/-! ## phase 2 -/

/-- the prover in phase 2 after `k` rounds -/
def st2 (n : ℕ) (pt : ℕ → F) (P : Prover F G1 G2) (r : ℕ → F) (k : ℕ) : Prover F G1 G2 :=
  { P with
    base := roundState P.base r k
    sumc := SAt n P.maskpoly (k + n)
    sumr := RAt n P.maskpoly pt (k - 1 + n)
    Iuv := P.Iuv * IAt r (k - 1)
    sumcu := P.sumcu * IAt r (k - 1)
    sumcv := P.sumcv * IAt r (k - 1)
    Zv := P.Zv * ZAt r (k - 1) }

/-- the factors after the update in round `k` of phase 2 -/
def ft2 (n : ℕ) (pt : ℕ → F) (P : Prover F G1 G2) (r : ℕ → F) (k : ℕ) : Prover F G1 G2 :=
  { P with
    base := roundState P.base r (k + 1)
    sumc := SAt n P.maskpoly (k + n)
    sumr := RAt n P.maskpoly pt (k - 1 + n)
    Iuv := P.Iuv * IAt r k
    sumcu := P.sumcu * IAt r k
    sumcv := P.sumcv * IAt r k
    Zv := P.Zv * ZAt r k }

theorem factors2_eq (n : ℕ) (pt : ℕ → F) (P : Prover F G1 G2) (r : ℕ → F) (k : ℕ) (last : Bool) :
    Prover.factors2 { st2 n pt P r k with base := roundState P.base r (k + 1) } (prevOf r k) k last =
      ft2 n pt P r k := by
  unfold Prover.factors2
  rcases Nat.eq_zero_or_pos k with rfl | hk
  · cases last <;> simp [st2, ft2, prevOf]
  · simp only [if_pos hk, hk, true_or, if_true]
    simp only [st2, ft2, mul_assoc, IAt_prev]
    simp only [← ZAt_prev r hk, mul_assoc]

theorem sumr2_eq {a pt r : ℕ → F} (hpt : ∀ j < n, pt (j + n) = r j) {k : ℕ} (hk : k < n) :
    RAt n a pt (k - 1 + n) + lo a (k + n - 1) (prevOf r k) = RAt n a pt (k + n) := by
  rcases Nat.eq_zero_or_pos k with rfl | h0
  · simp [prevOf, lo]
  · rw [show k - 1 + n = k + n - 1 by omega, sumr_eq (by omega) _ (by omega) (by omega)]
    rw [prevOf, if_neg (by omega), show k + n - 1 = (k - 1) + n by omega, hpt _ (by omega)]

theorem phase2Update_of {Q Q' : Prover F G1 G2} {prev : F} {k : ℕ} {u : FastTrack.Prover F × QuadraticPoly F}
    (hu : Q.base.update prev k = u) (hf : Prover.factors2 { Q with base := u.1 } prev k false = Q') :
    Q.phase2Update prev k = ((Q'.maskRound prev (k + Q'.base.lengthU) 0 true).1,
      ⟨u.2.a + (Q'.maskRound prev (k + Q'.base.lengthU) 0 true).2.a,
       u.2.b - Q'.sumcu - Q'.sumcv + (Q'.maskRound prev (k + Q'.base.lengthU) 0 true).2.b,
       u.2.c + Q'.sumcu + Q'.sumcv + (Q'.maskRound prev (k + Q'.base.lengthU) 0 true).2.c⟩) := by
  subst hf; subst hu; rfl

theorem phase2Last_of {Q Q' : Prover F G1 G2} {prev : F} {k : ℕ} {u : FastTrack.Prover F × QuadraticPoly F}
    (hu : Q.base.update prev k = u) (hf : Prover.factors2 { Q with base := u.1 } prev k true = Q') :
    Q.phase2Last prev k = Q'.lastRound u.2 prev 3 (k + Q'.base.lengthU) (k + 1 == Q'.base.lengthV)
      true Q'.Zv := by
  subst hf; subst hu; rfl

theorem phase2Update_eq (hp : ((p : ℕ) : F) = 0) (h : Start n V P) {pt r : ℕ → F}
    (hpt : ∀ j < n, pt (j + n) = r j) {k : ℕ} (hk : k + 1 < n) :
    ((st2 n pt P r k).phase2Update (prevOf r k) k).1 = st2 n pt P r (k + 1) ∧
    ∀ x, ((st2 n pt P r k).phase2Update (prevOf r k) k).2.eval x =
      polyAt n r (tabA P.base) V (tabB P.base) k x + (P.sumcu + P.sumcv) * IAt r k * (1 - x)
        + mAt n P.maskpoly pt (k + n) x := by
  have hr := h.round r (k := k + 1) (by omega)
  obtain ⟨a1, a2⟩ := maskRound_eq hp (n := n) (ft2 n pt P r k) hr.1 hr.2.1 (prevOf r k)
    (cur := k + n) (by omega) rfl (high := 0)
    (by rw [hi_zero _ _ (by omega) (by omega), mul_zero]) true (by omega)
  rw [phase2Update_of (Q := st2 n pt P r k) rfl (factors2_eq n pt P r k false),
    show (ft2 n pt P r k).base.lengthU = n from hr.1]
  have s1 := sumr2_eq (a := P.maskpoly) hpt (k := k) (by omega)
  simp only [if_true, ft2, s1] at a1 a2
  refine ⟨a1.trans ?_, fun x => ?_⟩
  · simp only [st2, show k + 1 + n = k + n + 1 by ring, Nat.add_sub_cancel]
  · dsimp only
    rw [addMask_eval]
    simp only [ft2]
    rw [a2 x, ← roundMsg_eval h.totalUv h.vMultAdd r (by omega), mAt, qAt,
      hi_zero _ _ (show k + n + 1 ≠ n by omega) (by omega)]
    change (roundMsg P.base r k).eval x + _ + _ = _
    ring

theorem phase2Last_eq (hp : ((p : ℕ) : F) = 0) (h : Start n V P) {pt r : ℕ → F}
    (hpt : ∀ j < n, pt (j + n) = r j) {k : ℕ} (hk : k + 1 = n) :
    ((st2 n pt P r k).phase2Last (prevOf r k) k).1 = st2 n pt P r (k + 1) ∧
    ∀ x, ((st2 n pt P r k).phase2Last (prevOf r k) k).2.eval x =
      polyAt n r (tabA P.base) V (tabB P.base) k x + (P.sumcu + P.sumcv) * IAt r k * (1 - x)
        + mAt n P.maskpoly pt (k + n) x + P.Zv * ZAt r k * (x * (1 - x)) * P.sumRc.eval x *
          ((roundState P.base r n).tabs.addMultSum 0).eval x := by
  have hr := h.round r (k := k + 1) (by omega)
  obtain ⟨a1, a2⟩ := lastRound_eq hp (n := n) (ft2 n pt P r k) hr.1 hr.2.1
    (roundMsg P.base r k) (prevOf r k) (k := 3) (cur := k + n)
    (by omega) rfl true ((ft2 n pt P r k).Zv)
    (fun x => by rw [hi, if_neg (by omega), if_pos (by omega), zero_add]) rfl true
    (by omega)
  have e0 : (st2 n pt P r k).phase2Last (prevOf r k) k =
      (ft2 n pt P r k).lastRound (roundMsg P.base r k) (prevOf r k) 3 (k + n) true true
        ((ft2 n pt P r k).Zv) := by
    rw [phase2Last_of (Q := st2 n pt P r k) rfl (factors2_eq n pt P r k true),
      show (k + 1 == (ft2 n pt P r k).base.lengthV) = true by
        rw [beq_iff_eq]; exact hk.trans hr.2.1.symm,
      show (ft2 n pt P r k).base.lengthU = n from hr.1]
    rfl
  rw [e0]
  have s1 := sumr2_eq (a := P.maskpoly) hpt (k := k) (by omega)
  have s2 : (ft2 n pt P r k).sumr + lo (ft2 n pt P r k).maskpoly (k + n - 1) (prevOf r k) =
      RAt n P.maskpoly pt (k + n) := s1
  rw [if_pos rfl, s2] at a1
  rw [if_pos rfl, s2] at a2
  refine ⟨a1.trans ?_, fun x => ?_⟩
  · simp only [ft2, st2, show k + 1 + n = k + n + 1 by ring, Nat.add_sub_cancel]
  · rw [a2 x, if_pos rfl, ← roundMsg_eval h.totalUv h.vMultAdd r (by omega), mAt]
    simp only [ft2, hk]
    ring

/-! ## the loops of the verifier -/

theorem prevOf_succ (r : ℕ → F) (k : ℕ) : prevOf r (k + 1) = r k := by simp [prevOf]

variable {GT : Type} [AddCommGroup G1] [AddCommGroup G2] [AddCommGroup GT]
  [Module (ZMod p) G1] [Module (ZMod p) G2] [Module (ZMod p) GT] [Gmp F]
  [DecidableEq F] [DecidableEq GT]

/-- the claim after `k` rounds of phase 1 -/
def claim1 (n : ℕ) (pt : ℕ → F) (V : ℕ → F) (P : Prover F G1 G2) (r : ℕ → F) (k : ℕ) : F :=
  claimAt n r (tabA P.base) V (tabB P.base) k + (P.sumcu + P.sumcv) * IAt r k
    + (SAt n P.maskpoly k + 2 ^ (2 * n + 1 - k) * RAt n P.maskpoly pt k)
    + if k = n then P.Zu * ZAt r n * P.sumRc.eval (r (n - 1)) * mle n (tabA P.base) r else 0

/-- the claim after `k` rounds of phase 2, without the direct relays -/
def claim2 (n : ℕ) (pt : ℕ → F) (V : ℕ → F) (P : Prover F G1 G2) (r : ℕ → F) (k : ℕ) : F :=
  claimAt n r (tabA P.base) V (tabB P.base) k + (P.sumcu + P.sumcv) * IAt r k
    + (SAt n P.maskpoly (k + n) + 2 ^ (2 * n + 1 - (k + n)) * RAt n P.maskpoly pt (k + n))
    + if k = n then P.Zv * ZAt r n * P.sumRc.eval (r (n - 1)) * mle n (tabA P.base) r else 0

theorem zAt_last {r : ℕ → F} {k : ℕ} (hk : k + 1 = n) : ZAt r k * (r k * (1 - r k)) = ZAt r n := by
  rw [← hk, ZAt, ZAt, prod_range_succ]; ring

theorem round1_ok (E : Pairing G1 G2 GT) (C : Circuit) (coins : Coins F) (junk : Prover F G1 G2)
    (hp : ((p : ℕ) : F) = 0) (h : Start n V P) {pt r : ℕ → F}
    (hpt : ∀ j < n, pt j = r j) {k : ℕ} (hk : k < n) :
    round1 (honest E C coins junk) n r k (st1 n pt P r k, claim1 n pt V P r k, prevOf r k) =
      .ok (st1 n pt P r (k + 1), claim1 n pt V P r (k + 1), prevOf r (k + 1)) := by
  have hm := mAt_sum hp n P.maskpoly pt (show k < 2 * n + 1 by omega)
  have hx := mAt_next n P.maskpoly pt k
  rw [hpt k hk] at hx
  have hps := polyAt_sum hk r (tabA P.base) V (tabB P.base)
  have hpn := polyAt_next n k r (tabA P.base) V (tabB P.base)
  have hk' : k ≠ n := by omega
  unfold round1
  by_cases hl : k + 1 = n
  · obtain ⟨a1, a2⟩ := phase1Last_eq hp h hpt hl
    rw [if_pos hl]
    change (Outcome.check (((st1 n pt P r k).phase1Last (prevOf r k) k).2.eval 0
      + ((st1 n pt P r k).phase1Last (prevOf r k) k).2.eval 1 == claim1 n pt V P r k) >>= fun _ =>
      Outcome.ok (((st1 n pt P r k).phase1Last (prevOf r k) k).1,
        ((st1 n pt P r k).phase1Last (prevOf r k) k).2.eval (r k), r k)) = _
    rw [a1, a2, a2, a2, hpn, hx, prevOf_succ]
    have hA := h.lastA r (by omega)
    rw [show n - 1 = k by omega] at hA
    have hz := zAt_last (r := r) hl
    have e1 : claim1 n pt V P r (k + 1) = claimAt n r (tabA P.base) V (tabB P.base) (k + 1) +
        (P.sumcu + P.sumcv) * IAt r k * (1 - r k) +
        (SAt n P.maskpoly (k + 1) + 2 ^ (2 * n + 1 - (k + 1)) * RAt n P.maskpoly pt (k + 1)) +
        P.Zu * ZAt r k * (r k * (1 - r k)) * P.sumRc.eval (r k) *
          ((roundState P.base r n).tabs.addMultSum 0).eval (r k) := by
      rw [claim1, if_pos hl, IAt_succ, hA, ← hz, show n - 1 = k by omega]
      ring
    rw [e1]
    have e2 : claim1 n pt V P r k = polyAt n r (tabA P.base) V (tabB P.base) k 0 +
        (P.sumcu + P.sumcv) * IAt r k * (1 - 0) + mAt n P.maskpoly pt k 0 +
        P.Zu * ZAt r k * (0 * (1 - 0)) * P.sumRc.eval 0 *
          ((roundState P.base r n).tabs.addMultSum 0).eval 0 +
        (polyAt n r (tabA P.base) V (tabB P.base) k 1 +
        (P.sumcu + P.sumcv) * IAt r k * (1 - 1) + mAt n P.maskpoly pt k 1 +
        P.Zu * ZAt r k * (1 * (1 - 1)) * P.sumRc.eval 1 *
          ((roundState P.base r n).tabs.addMultSum 0).eval 1) := by
      rw [claim1, if_neg hk', ← hps, ← hm]; ring
    rw [← e2, beq_self_eq_true, Outcome.check_true, Outcome.ok_bind]
  · obtain ⟨a1, a2⟩ := phase1Update_eq hp h hpt (show k + 1 < n by omega)
    rw [if_neg hl]
    change (Outcome.check (((st1 n pt P r k).phase1Update (prevOf r k) k).2.eval 0
      + ((st1 n pt P r k).phase1Update (prevOf r k) k).2.eval 1 == claim1 n pt V P r k) >>= fun _ =>
      Outcome.ok (((st1 n pt P r k).phase1Update (prevOf r k) k).1,
        ((st1 n pt P r k).phase1Update (prevOf r k) k).2.eval (r k), r k)) = _
    rw [a1, a2, a2, a2, hpn, hx, prevOf_succ]
    have e1 : claim1 n pt V P r (k + 1) = claimAt n r (tabA P.base) V (tabB P.base) (k + 1) +
        (P.sumcu + P.sumcv) * IAt r k * (1 - r k) +
        (SAt n P.maskpoly (k + 1) + 2 ^ (2 * n + 1 - (k + 1)) * RAt n P.maskpoly pt (k + 1)) := by
      rw [claim1, if_neg hl, IAt_succ]
      ring
    rw [e1]
    have e2 : claim1 n pt V P r k = polyAt n r (tabA P.base) V (tabB P.base) k 0 +
        (P.sumcu + P.sumcv) * IAt r k * (1 - 0) + mAt n P.maskpoly pt k 0 +
        (polyAt n r (tabA P.base) V (tabB P.base) k 1 +
        (P.sumcu + P.sumcv) * IAt r k * (1 - 1) + mAt n P.maskpoly pt k 1) := by
      rw [claim1, if_neg hk', ← hps, ← hm]; ring
    rw [← e2, beq_self_eq_true, Outcome.check_true, Outcome.ok_bind]

theorem rounds1 (E : Pairing G1 G2 GT) (C : Circuit) (coins : Coins F) (junk : Prover F G1 G2)
    (hp : ((p : ℕ) : F) = 0) (h : Start n V P) {pt r : ℕ → F} (hpt : ∀ j < n, pt j = r j) :
    ∀ k ≤ n, loopM k (round1 (honest E C coins junk) n r)
      (st1 n pt P r 0, claim1 n pt V P r 0, 0) =
      .ok (st1 n pt P r k, claim1 n pt V P r k, prevOf r k) := by
  intro k
  induction k with
  | zero => intro _; rfl
  | succ k ih =>
    intro hk
    rw [loopM_succ, ih (by omega), Outcome.bind_ok, round1_ok E C coins junk hp h hpt (by omega)]

theorem round2_ok (E : Pairing G1 G2 GT) (C : Circuit) (coins : Coins F) (junk : Prover F G1 G2)
    (hp : ((p : ℕ) : F) = 0) (h : Start n V P) {pt r : ℕ → F}
    (hpt : ∀ j < n, pt (j + n) = r j) (i : ℕ) (rv : ℕ → F) (relay : F)
    (hr : ∀ j, r j = if i = 1 then 0 else rv j) {k : ℕ} (hk : k < n) :
    round2 (honest E C coins junk) n i rv relay k
      (st2 n pt P r k, claim2 n pt V P r k + relay * P.base.vU, prevOf r k) =
      .ok (st2 n pt P r (k + 1), claim2 n pt V P r (k + 1) + relay * P.base.vU, prevOf r (k + 1)) := by
  have hm := mAt_sum hp n P.maskpoly pt (show k + n < 2 * n + 1 by omega)
  have hx := mAt_next n P.maskpoly pt (k + n)
  rw [hpt k hk] at hx
  have hps := polyAt_sum hk r (tabA P.base) V (tabB P.base)
  have hpn := polyAt_next n k r (tabA P.base) V (tabB P.base)
  have hk' : k ≠ n := by omega
  have hvu : (st2 n pt P r (k + 1)).base.vU = P.base.vU := (h.round r (k := k + 1) (by omega)).2.2
  unfold round2
  simp only [← hr]
  by_cases hl : k + 1 = n
  · obtain ⟨a1, a2⟩ := phase2Last_eq hp h hpt hl
    rw [if_pos hl]
    change (Outcome.check (((st2 n pt P r k).phase2Last (prevOf r k) k).2.eval 0
      + ((st2 n pt P r k).phase2Last (prevOf r k) k).2.eval 1
      + relay * ((st2 n pt P r k).phase2Last (prevOf r k) k).1.base.vU
      == claim2 n pt V P r k + relay * P.base.vU) >>= fun _ =>
      Outcome.ok (((st2 n pt P r k).phase2Last (prevOf r k) k).1,
        ((st2 n pt P r k).phase2Last (prevOf r k) k).2.eval (r k)
          + relay * ((st2 n pt P r k).phase2Last (prevOf r k) k).1.base.vU, r k)) = _
    rw [a1, hvu, a2, a2, a2, hpn, hx, prevOf_succ]
    have hA := h.lastA r (by omega)
    rw [show n - 1 = k by omega] at hA
    have hz := zAt_last (r := r) hl
    have e1 : claim2 n pt V P r (k + 1) = claimAt n r (tabA P.base) V (tabB P.base) (k + 1) +
        (P.sumcu + P.sumcv) * IAt r k * (1 - r k) +
        (SAt n P.maskpoly (k + n + 1) + 2 ^ (2 * n + 1 - (k + n + 1)) * RAt n P.maskpoly pt (k + n + 1)) +
        P.Zv * ZAt r k * (r k * (1 - r k)) * P.sumRc.eval (r k) *
          ((roundState P.base r n).tabs.addMultSum 0).eval (r k) := by
      rw [claim2, if_pos hl, IAt_succ, hA, ← hz, show n - 1 = k by omega,
        show k + 1 + n = k + n + 1 by ring]
      ring
    rw [e1]
    have e2 : claim2 n pt V P r k = polyAt n r (tabA P.base) V (tabB P.base) k 0 +
        (P.sumcu + P.sumcv) * IAt r k * (1 - 0) + mAt n P.maskpoly pt (k + n) 0 +
        P.Zv * ZAt r k * (0 * (1 - 0)) * P.sumRc.eval 0 *
          ((roundState P.base r n).tabs.addMultSum 0).eval 0 +
        (polyAt n r (tabA P.base) V (tabB P.base) k 1 +
        (P.sumcu + P.sumcv) * IAt r k * (1 - 1) + mAt n P.maskpoly pt (k + n) 1 +
        P.Zv * ZAt r k * (1 * (1 - 1)) * P.sumRc.eval 1 *
          ((roundState P.base r n).tabs.addMultSum 0).eval 1) := by
      rw [claim2, if_neg hk', ← hps, ← hm]; ring
    rw [← e2, beq_self_eq_true, Outcome.check_true, Outcome.ok_bind]
  · obtain ⟨a1, a2⟩ := phase2Update_eq hp h hpt (show k + 1 < n by omega)
    rw [if_neg hl]
    change (Outcome.check (((st2 n pt P r k).phase2Update (prevOf r k) k).2.eval 0
      + ((st2 n pt P r k).phase2Update (prevOf r k) k).2.eval 1
      + relay * ((st2 n pt P r k).phase2Update (prevOf r k) k).1.base.vU
      == claim2 n pt V P r k + relay * P.base.vU) >>= fun _ =>
      Outcome.ok (((st2 n pt P r k).phase2Update (prevOf r k) k).1,
        ((st2 n pt P r k).phase2Update (prevOf r k) k).2.eval (r k)
          + relay * ((st2 n pt P r k).phase2Update (prevOf r k) k).1.base.vU, r k)) = _
    rw [a1, hvu, a2, a2, a2, hpn, hx, prevOf_succ]
    have e1 : claim2 n pt V P r (k + 1) = claimAt n r (tabA P.base) V (tabB P.base) (k + 1) +
        (P.sumcu + P.sumcv) * IAt r k * (1 - r k) +
        (SAt n P.maskpoly (k + n + 1) +
          2 ^ (2 * n + 1 - (k + n + 1)) * RAt n P.maskpoly pt (k + n + 1)) := by
      rw [claim2, if_neg hl, IAt_succ, show k + 1 + n = k + n + 1 by ring]
      ring
    rw [e1]
    have e2 : claim2 n pt V P r k = polyAt n r (tabA P.base) V (tabB P.base) k 0 +
        (P.sumcu + P.sumcv) * IAt r k * (1 - 0) + mAt n P.maskpoly pt (k + n) 0 +
        (polyAt n r (tabA P.base) V (tabB P.base) k 1 +
        (P.sumcu + P.sumcv) * IAt r k * (1 - 1) + mAt n P.maskpoly pt (k + n) 1) := by
      rw [claim2, if_neg hk', ← hps, ← hm]; ring
    rw [← e2, beq_self_eq_true, Outcome.check_true, Outcome.ok_bind]

theorem rounds2 (E : Pairing G1 G2 GT) (C : Circuit) (coins : Coins F) (junk : Prover F G1 G2)
    (hp : ((p : ℕ) : F) = 0) (h : Start n V P) {pt r : ℕ → F} (hpt : ∀ j < n, pt (j + n) = r j)
    (i : ℕ) (rv : ℕ → F) (relay : F) (hr : ∀ j, r j = if i = 1 then 0 else rv j) :
    ∀ k ≤ n, loopM k (round2 (honest E C coins junk) n i rv relay)
      (st2 n pt P r 0, claim2 n pt V P r 0 + relay * P.base.vU, 0) =
      .ok (st2 n pt P r k, claim2 n pt V P r k + relay * P.base.vU, prevOf r k) := by
  intro k
  induction k with
  | zero => intro _; rfl
  | succ k ih =>
    intro hk
    rw [loopM_succ, ih (by omega), Outcome.bind_ok,
      round2_ok E C coins junk hp h hpt i rv relay hr (by omega)]

end

end Libra.Zk
