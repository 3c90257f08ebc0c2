import Verif.Proofs.ZkViewRel

/-!
# The randomness of the second run is determined by that of the first
-/

namespace Libra.Zk
open Libra Spec Finset FastTrack Props
variable {F : Type} [Field F] {G1 G2 GT : Type} [AddCommGroup G1] [AddCommGroup G2] [AddCommGroup GT]
  [Module (ZMod p) G1] [Module (ZMod p) G2] [Module (ZMod p) GT] [Gmp F] [LawfulGmp F]
  {full : Bool} {X A B : Circuit} {K : Secrets} {ch : Challenges F}

omit [AddCommGroup G1] [AddCommGroup G2] [Module (ZMod p) G1] [Module (ZMod p) G2] [Gmp F] [LawfulGmp F] in
theorem Shift.claim (hS : Setup full F X A B K ch) {w w' : Rand F X} (h : Shift A B X ch w w')
    (junk : Prover F G1 G2) {l : ℕ} (h1 : 1 ≤ l) (hl : l < X.depth) :
    maskedClaim B (canon B X ch junk l (w'.Rs l) (pad w'.r)) l (pub X ch l).alpha (pub X ch l).beta (pub X ch l).r0
      (pub X ch l).r1 =
    maskedClaim A (canon A X ch junk l (w.Rs l) (pad w.r)) l (pub X ch l).alpha (pub X ch l).beta (pub X ch l).r0
      (pub X ch l).r1 := by
  simp only [maskedClaim, canon, hS.oA.bl_eq, hS.oB.bl_eq]
  by_cases ht : l + 1 = X.depth
  · obtain rfl : l = X.depth - 1 := by omega
    simp only [pub, if_pos ht]
    rw [mle_congr (fun g hg => (hS.out g hg).symm) (fun _ _ => rfl)]
    simp
  · obtain ⟨⟨-, a⟩, -, b⟩ := h.values hS h1 (show l < X.depth - 1 by omega)
    have hrv : rvOf ch (l + 1) = ch.rv (l + 1) := by funext j; simp [rvOf, show l ≠ 0 by omega]
    simp only [pub, if_neg ht, hrv]
    simp only [sr] at a b
    rw [a, b]

theorem Shift.relay (hS : Setup full F X A B K ch) {w w' : Rand F X} (h : Shift A B X ch w w')
    (junk : Prover F G1 G2) (cA cB : Coins F) {l : ℕ} :
    relayClaim B cB (canon B X ch junk l (w'.Rs l) (pad w'.r)) l (pub X ch l).alpha (pub X ch l).beta (pub X ch l).r0
      (pub X ch l).r1 (ch.rho l) (ch.ru l) =
    relayClaim A cA (canon A X ch junk l (w.Rs l) (pad w.r)) l (pub X ch l).alpha (pub X ch l).beta (pub X ch l).r0
      (pub X ch l).r1 (ch.rho l) (ch.ru l) := by
  simp only [relayClaim, relayPolyAt, hS.oA.bl_eq, hS.oB.bl_eq]
  by_cases h1 : l = 1
  · subst h1
    simp only [if_true, maskedValue, masksOf, canon]
    have := h.inputs hS
    simp only [ZAt] at this
    rw [Nat.sub_self, this]
  · rw [if_neg h1, if_neg h1]

/-- for the changed masks there is exactly one sum-check mask that gives the same messages -/
theorem Shift.unique (hS : Setup full F X A B K ch) (E : Pairing G1 G2 GT) {w w' : Rand F X} (h : Shift A B X ch w w')
    (junk : Prover F G1 G2) (i : Fin (X.depth - 1)) :
    ∃! g, msgs E B X K ch junk (i + 1) (X.bl i) (w'.Rs (i + 1)) (w'.Rs i) (pad w'.r) g =
      msgs E A X K ch junk (i + 1) (X.bl i) (w.Rs (i + 1)) (w.Rs i) (pad w.r) (w.layer i).g := by
  have hi := i.2
  have hn := (hS.len i (by omega)).1
  have hK := hS.sec
  have eA : Libra.evaluate .zk A = .ok (allValues A A.depth : List (List F)) :=
    evaluate_ok (by simpa using hS.wfA.toEvaluable)
  have eB : Libra.evaluate .zk B = .ok (allValues B B.depth : List (List F)) :=
    evaluate_ok (by simpa using hS.wfB.toEvaluable)
  obtain ⟨S, t, e, hc⟩ := C25_consistent E A hS.wfA (bare K (w.Rs i)) (i + 1) (by omega)
    (by rw [hS.oA.depth]; omega) (X.bl i) hn (by rw [Nat.add_sub_cancel, hS.oA.bl_eq])
    (hK.sR (i + 1) (by omega) (by omega)) (by have := hK.sM (i + 1) (by omega) (by omega); rwa [Nat.add_sub_cancel] at this)
    (canon A X ch junk (i + 1) (w.Rs (i + 1)) (pad w.r)) _ eA rfl
    (pub X ch (i + 1)).alpha (pub X ch (i + 1)).beta (pub X ch (i + 1)).r0 (pub X ch (i + 1)).r1 (ch.ru (i + 1))
    (rvOf ch (i + 1)) (ch.rho (i + 1)) (w.layer i).g
  rw [← h.claim hS junk (by omega) (by omega), ← h.relay hS junk _ (bare K (w'.Rs i))] at hc
  have := C25_unique_mask E B hS.wfB (bare K (w'.Rs i)) (i + 1) (by omega)
    (by rw [hS.oB.depth]; omega) (X.bl i) hn (by rw [Nat.add_sub_cancel, hS.oB.bl_eq])
    (hK.sR (i + 1) (by omega) (by omega)) (by have := hK.sM (i + 1) (by omega) (by omega); rwa [Nat.add_sub_cancel] at this)
    (canon B X ch junk (i + 1) (w'.Rs (i + 1)) (pad w'.r)) _ eB rfl
    (pub X ch (i + 1)).alpha (pub X ch (i + 1)).beta (pub X ch (i + 1)).r0 (pub X ch (i + 1)).r1 (ch.ru (i + 1))
    (rvOf ch (i + 1)) (ch.rho (i + 1)) (hS.gen.rho (i + 1) (by omega) (by omega)) S t hc
  have e' : msgs E A X K ch junk (i + 1) (X.bl i) (w.Rs (i + 1)) (w.Rs i) (pad w.r) (w.layer i).g = .ok (S, t) := e
  rw [e']
  exact this

omit [LawfulGmp F] [Gmp F] in
theorem Rs_congr {w w' : Rand F X} (h : ∀ i, (w'.layer i).R = (w.layer i).R) (k : ℕ) : w'.Rs k = w.Rs k := by
  unfold Rand.Rs
  split_ifs with hk
  · rw [h]
  · rfl

theorem cast_ne_zero {a : ℕ} (h : a < p) (h0 : a ≠ 0) : (a : ZMod p) ≠ 0 := by
  rw [Ne, ZMod.natCast_eq_zero_iff]
  exact fun hd => h0 (Nat.eq_zero_of_dvd_of_lt hd h)

theorem solve {s f c : ZMod p} (hs : s ≠ 0) : f + (c - f) / s * s = c := by field_simp; ring

theorem exists_rel (hS : Setup full F X A B K ch) {E : Pairing G1 G2 GT} (T : Tools F E X K) (junk : Prover F G1 G2)
    (w : Rand F X) : ∃ w', Rel T A B ch junk w w' := by
  have hd := hS.oA.depth
  have hd' := hS.wfA.deep
  -- the masks of the values
  obtain ⟨w1, hw1⟩ : ∃ w1 : Rand F X, w1 = { w with
      layer := fun i => { w.layer i with R := fun k => (w.layer i).R k + dR A B X ch i k }
      r := fun k => w.r k + dr A B X ch k } := ⟨_, rfl⟩
  have h1 : Shift A B X ch w w1 := by subst hw1; exact ⟨fun _ _ => rfl, fun _ => rfl⟩
  -- the sum-check masks
  choose g hg using fun i => (h1.unique hS E junk i).exists
  -- the blindings
  refine ⟨{
    layer := fun i =>
      { R := (w1.layer i).R
        g := g i
        rfR := (fR K (i + 1) (w.Rs (i + 1)) + (w.layer i).rfR * K.sR (i + 1) 2 - fR K (i + 1) (w1.Rs (i + 1))) /
          K.sR (i + 1) 2
        tR := fun c j => (T.qR (i + 1) (mpz (w.Rs (i + 1))) (ptR X ch (i + 1) c) j +
          (w.layer i).tR c j * K.sR (i + 1) 2 - T.qR (i + 1) (mpz (w1.Rs (i + 1))) (ptR X ch (i + 1) c) j) /
          K.sR (i + 1) 2
        rfM := (fM K (i + 1) (X.bl i) (pad (w.layer i).g) + (w.layer i).rfM * K.sM (i + 1) (2 * X.bl i + 1) -
          fM K (i + 1) (X.bl i) (pad (g i))) / K.sM (i + 1) (2 * X.bl i + 1)
        tM := fun j => (T.qM (i + 1) (mpz (pad (w.layer i).g)) (ptM ch (i + 1) (X.bl i)) j +
          (w.layer i).tM j * K.sM (i + 1) (2 * X.bl i + 1) -
          T.qM (i + 1) (mpz (pad (g i))) (ptM ch (i + 1) (X.bl i)) j) / K.sM (i + 1) (2 * X.bl i + 1) }
    r := w1.r
    rf := (mle (X.bl 0) (fun j => (inTab A X junk j : ZMod p)) (fun j => (K.s j : ZMod p)) + w.rf * K.s (X.bl 0) -
      mle (X.bl 0) (fun j => (inTab B X junk j : ZMod p)) (fun j => (K.s j : ZMod p))) / K.s (X.bl 0)
    rf2 := (mpz (pad w.r) 0 + mpz (pad w.r) 1 * K.s (X.bl 0 - 1) + w.rf2 * K.s (X.bl 0) -
      (mpz (pad w1.r) 0 + mpz (pad w1.r) 1 * K.s (X.bl 0 - 1))) / K.s (X.bl 0)
    t := fun j => (qIn T A ch junk (pad w.r) j + w.t j * K.s (X.bl 0) - qIn T B ch junk (pad w1.r) j) / K.s (X.bl 0) },
    ⟨h1.R, h1.r⟩, fun i => ?_, ?_, ?_, fun j => ?_⟩
  · have hi := i.2
    have sR : (K.sR (i + 1) 2 : ZMod p) ≠ 0 := cast_ne_zero (hS.sec.sR (i + 1) (by omega) (by omega) 2 le_rfl)
      (hS.sec.lastR (i + 1) (by omega) (by omega))
    have sM : (K.sM (i + 1) (2 * X.bl i + 1) : ZMod p) ≠ 0 :=
      cast_ne_zero (hS.sec.sM (i + 1) (by omega) (by omega) _ (by rw [Nat.add_sub_cancel]))
        (by have := hS.sec.lastM (i + 1) (by omega) (by omega); rwa [Nat.add_sub_cancel] at this)
    exact ⟨hg i, solve sR, fun c j => solve sR, solve sM, fun j => solve sM⟩
  all_goals exact solve (cast_ne_zero (hS.sec.s _ le_rfl) hS.sec.last)

theorem rel_unique (hS : Setup full F X A B K ch) {E : Pairing G1 G2 GT} {T : Tools F E X K} {junk : Prover F G1 G2}
    {w w1 w2 : Rand F X} (h1 : Rel T A B ch junk w w1) (h2 : Rel T A B ch junk w w2) : w1 = w2 := by
  have hR : ∀ i, (w1.layer i).R = (w2.layer i).R := fun i => funext fun k => by
    rw [h1.toShift.R, h2.toShift.R]
  have hr : w1.r = w2.r := funext fun k => by rw [h1.toShift.r, h2.toShift.r]
  have hRs : ∀ k, w1.Rs k = w2.Rs k := Rs_congr hR
  have s0 := cast_ne_zero (hS.sec.s _ le_rfl) hS.sec.last
  have key : ∀ {s f x y c : ZMod p}, s ≠ 0 → f + x * s = c → f + y * s = c → x = y := by
    intro s f x y c hs e1 e2
    exact mul_right_cancel₀ hs (add_left_cancel (e1.trans e2.symm))
  refine Rand.ext (funext fun i => ?_) hr (key s0 h1.rf h2.rf) (key s0 h1.rf2 (by rw [hr]; exact h2.rf2))
    (funext fun j => key s0 (h1.t j) (by rw [hr]; exact h2.t j))
  have hi := i.2
  have sR : (K.sR (i + 1) 2 : ZMod p) ≠ 0 := cast_ne_zero (hS.sec.sR (i + 1) (by omega) (by omega) 2 le_rfl)
    (hS.sec.lastR (i + 1) (by omega) (by omega))
  have sM : (K.sM (i + 1) (2 * X.bl i + 1) : ZMod p) ≠ 0 :=
    cast_ne_zero (hS.sec.sM (i + 1) (by omega) (by omega) _ (by rw [Nat.add_sub_cancel]))
      (by have := hS.sec.lastM (i + 1) (by omega) (by omega); rwa [Nat.add_sub_cancel] at this)
  have l1 := h1.layers i
  have l2 := h2.layers i
  have hg : (w1.layer i).g = (w2.layer i).g := by
    refine (h1.toShift.unique hS E junk i).unique l1.msgs ?_
    rw [hRs, hRs, hr]
    exact l2.msgs
  refine LayerRand.ext (hR i) hg (key sR l1.rfR ?_) (funext fun c => funext fun j => key sR (l1.tR c j) ?_)
    (key sM l1.rfM ?_) (funext fun j => key sM (l1.tM j) ?_)
  · rw [hRs]; exact l2.rfR
  · rw [hRs]; exact l2.tR c j
  · rw [hg]; exact l2.rfM
  · rw [hg]; exact l2.tM j

/-- the randomness of the second run -/
theorem exists_bijection (hS : Setup full F X A B K ch) {E : Pairing G1 G2 GT} (T : Tools F E X K)
    (junk : Prover F G1 G2) : ∃ φ : Rand F X → Rand F X, Function.Bijective φ ∧ ∀ w, Rel T A B ch junk w (φ w) := by
  choose φ hφ using exists_rel hS T junk
  refine ⟨φ, ⟨fun a b e => ?_, fun b => ?_⟩, hφ⟩
  · exact rel_unique hS.symm (hφ a).symm (e ▸ (hφ b).symm)
  · obtain ⟨a, ha⟩ := exists_rel hS.symm T junk b
    exact ⟨a, rel_unique hS (hφ a) ha.symm⟩

end Libra.Zk
