import Verif.Proofs.ZkHiding
import Verif.Props.ZkRounds
import Mathlib.Data.Fintype.Card

/-!
# C25: the mask hides the round messages
-/

namespace Libra.Props
open Libra Spec Finset FastTrack Zk

section defs
variable {F : Type} [CommRing F] {G1 G2 GT : Type} [AddCommGroup G1] [AddCommGroup G2] [AddCommGroup GT]
  [Module (ZMod p) G1] [Module (ZMod p) G2] [Module (ZMod p) GT] [Gmp F]

/-- the coefficients of a quadratic message, as a message of degree 5 -/
def quint (q : QuadraticPoly F) : QuintuplePoly F := ⟨0, 0, 0, q.a, q.b, q.c⟩

/-- the coefficients of the message of round `k` of phase 1 -/
def poly1 (n : ℕ) (Q : Zk.Prover F G1 G2) (r : ℕ → F) (k : ℕ) : QuintuplePoly F :=
  if k + 1 = n then ((run1 n Q r k).phase1Last (prevOf r k) k).2
  else quint ((run1 n Q r k).phase1Update (prevOf r k) k).2

@[inherit_doc poly1]
def poly2 (n : ℕ) (Q : Zk.Prover F G1 G2) (r : ℕ → F) (k : ℕ) : QuintuplePoly F :=
  if k + 1 = n then ((run2 n Q r k).phase2Last (prevOf r k) k).2
  else quint ((run2 n Q r k).phase2Update (prevOf r k) k).2

/-- Everything the prover sends in the rounds of layer `i`: the announced sum of the mask and the
coefficients of the `2 n + 1` round messages, for the challenges `ru`, `rv`, where `2^n` is the size
of the layer below. In the last round the
verifier passes the value of the layer's polynomial. -/
def roundMessages (E : Pairing G1 G2 GT) (C : Circuit) (coins : Coins F) (P : Zk.Prover F G1 G2) (i : ℕ)
    (α β : F) (r0 r1 : ℕ → F) (rho : F) (ru rv : ℕ → F) (n : ℕ) :
    Outcome (F × (Fin (2 * n + 1) → QuintuplePoly F)) := do
  let Q ← beginLayer E C coins P i α β r0 r1 rho
  let Q2 ← (run1 n Q ru n).phase2Init C (prevOf ru n) ru (fun j => 1 - ru j)
  let Q3 := (run2 n Q2 rv n).finalize (prevOf rv n)
  return (Q.sumc, fun k =>
    if k < n then poly1 n Q ru k
    else if k < 2 * n then poly2 n Q2 rv (k - n)
    else quint (Q3.1.finalround (prevOf rv n) (n <<< 1) (layerPolyAt C i α β r0 r1 ru rv Q3.2.1 Q3.2.2)).2)

/-- the coins in which the sum-check mask of layer `i` is `g` -/
def withMask (coins : Coins F) (i : ℕ) {N : ℕ} (g : Fin N → F) : Coins F :=
  { coins with layer := Function.update coins.layer i { coins.layer i with maskpoly := maskArr g } }

/-- the claim about layer `i` that the rounds reduce: the masked values at the two points, combined -/
def maskedClaim (C : Circuit) (P : Zk.Prover F G1 G2) (i : ℕ) (α β : F) (r0 r1 : ℕ → F) : F :=
  α * (mle (C.bl i) (value C i) r0 + P.Zu * (maskRPoly P.maskR P.preu1 0 + maskRPoly P.maskR P.preu1 1)) +
  β * (mle (C.bl i) (value C i) r1 + P.Zv * (maskRPoly P.maskR P.prev1 0 + maskRPoly P.maskR P.prev1 1))

/-- the part of the claim that the direct relays of layer 1 contribute at the point `ru` -/
def relayClaim (C : Circuit) (coins : Coins F) (P : Zk.Prover F G1 G2) (i : ℕ) (α β : F) (r0 r1 : ℕ → F)
    (rho : F) (ru : ℕ → F) : F :=
  relayPolyAt C i α β r0 r1 ru (maskedValue (C.bl (i - 1)) (value C (i - 1)) (masksOf coins P i rho) ru)

end defs

section proofs
variable {F : Type} [CommRing F] {G1 G2 GT : Type} [AddCommGroup G1] [AddCommGroup G2] [AddCommGroup GT]
  [Module (ZMod p) G1] [Module (ZMod p) G2] [Module (ZMod p) GT] [Gmp F]

theorem quint_eval (q : QuadraticPoly F) (x : F) : (quint q).eval x = q.eval x := by
  simp only [quint, QuintuplePoly.eval, QuadraticPoly.eval]; ring

theorem poly1_eval (n : ℕ) (Q : Zk.Prover F G1 G2) (r : ℕ → F) (k : ℕ) (x : F) :
    (poly1 n Q r k).eval x = msg1 n Q r k x := by
  unfold poly1 msg1; split_ifs <;> simp [quint_eval]

theorem poly2_eval (n : ℕ) (Q : Zk.Prover F G1 G2) (r : ℕ → F) (k : ℕ) (x : F) :
    (poly2 n Q r k).eval x = msg2 n Q r k x := by
  unfold poly2 msg2; split_ifs <;> simp [quint_eval]

theorem maskedValue_congr {n : ℕ} (hn : 1 ≤ n) (V : ℕ → F) (M : Masks F) {u u' : ℕ → F} (h : ∀ j < n, u j = u' j) :
    maskedValue n V M u = maskedValue n V M u' := by
  rw [maskedValue, maskedValue, mle_congr (fun _ _ => rfl) h, h (n - 1) (by omega),
    prod_congr rfl (fun j hj => by rw [h j (mem_range.1 hj)])]

theorem layerPolyAt_congr (C : Circuit) (i : ℕ) (α β : F) (r0 r1 : ℕ → F) {u u' v v' : ℕ → F}
    (hu : ∀ j < C.bl (i - 1), u j = u' j) (hv : ∀ j < C.bl (i - 1), v j = v' j) (a b : F) :
    layerPolyAt C i α β r0 r1 u v a b = layerPolyAt C i α β r0 r1 u' v' a b := by
  have e1 : eqPoly (C.bl (i - 1)) u = eqPoly (C.bl (i - 1)) u' := funext fun g => eqPoly_congr_r g hu
  have e2 : eqPoly (C.bl (i - 1)) v = eqPoly (C.bl (i - 1)) v' := funext fun g => eqPoly_congr_r g hv
  rw [layerPolyAt, layerPolyAt, e1, e2]

theorem relayPolyAt_congr (C : Circuit) (i : ℕ) (α β : F) (r0 r1 : ℕ → F) {u u' : ℕ → F}
    (hu : ∀ j < C.bl (i - 1), u j = u' j) (a : F) :
    relayPolyAt C i α β r0 r1 u a = relayPolyAt C i α β r0 r1 u' a := by
  unfold relayPolyAt
  split_ifs with h
  · subst h
    have e1 : eqPoly (C.bl 0) u = eqPoly (C.bl 0) u' := funext fun g => eqPoly_congr_r g hu
    rw [e1]
  · rfl

theorem maskedPoly_congr (C : Circuit) (i : ℕ) (hn : 1 ≤ C.bl (i - 1)) (α β : F) (r0 r1 V : ℕ → F) (M : Masks F)
    {u u' v v' : ℕ → F} (hu : ∀ j < C.bl (i - 1), u j = u' j) (hv : ∀ j < C.bl (i - 1), v j = v' j) (c : F) :
    maskedPoly C i α β r0 r1 V M u v c = maskedPoly C i α β r0 r1 V M u' v' c := by
  have hj : joinPoint (C.bl (i - 1)) u v c = joinPoint (C.bl (i - 1)) u' v' c := by
    funext k
    simp only [joinPoint]
    split_ifs with h1 h2
    · exact hu k h1
    · exact hv _ (by omega)
    · rfl
  simp only [maskedPoly]
  rw [maskedValue_congr hn V M hu, maskedValue_congr hn V M hv, layerPolyAt_congr C i α β r0 r1 hu hv, hj,
    prod_congr rfl (fun j hj => by rw [hu j (mem_range.1 hj)] :
      ∀ j ∈ range (C.bl (i - 1)), 1 - u j = 1 - u' j),
    prod_congr rfl (fun j hj => by rw [hv j (mem_range.1 hj)] :
      ∀ j ∈ range (C.bl (i - 1)), 1 - v j = 1 - v' j)]

/-- the masked polynomial is affine in the mask -/
theorem maskedPoly_mask (C : Circuit) (i : ℕ) (α β : F) (r0 r1 V : ℕ → F) (M M0 : Masks F)
    (h0 : M0 = { M with g := fun _ => 0 }) (u v : ℕ → F) (c : F) :
    maskedPoly C i α β r0 r1 V M u v c = maskedPoly C i α β r0 r1 V M0 u v c
      + M.rho * sumMaskPoly (2 * C.bl (i - 1) + 1) M.g (joinPoint (C.bl (i - 1)) u v c) := by
  subst h0
  simp only [maskedPoly, maskedValue]
  have : sumMaskPoly (2 * C.bl (i - 1) + 1) (fun _ => (0 : F)) (joinPoint (C.bl (i - 1)) u v c) = 0 := by
    simp [sumMaskPoly]
  rw [this]; ring

variable [LawfulGmp F]

/-- what the messages are, as functions -/
theorem roundMessages_ok (E : Pairing G1 G2 GT) {C : Circuit} (hwf : WellFormed true C) (coins : Coins F) {i : ℕ}
    (h1 : 1 ≤ i) (hd : i < C.depth) (hn : 1 ≤ C.bl (i - 1)) (hsR : ∀ j ≤ 2, (coins.layer i).sR j < p)
    (hsM : ∀ j ≤ 2 * C.bl (i - 1) + 1, (coins.layer i).sM j < p) (P : Zk.Prover F G1 G2)
    {vals : List (List F)} (hv : Libra.evaluate .zk C = .ok vals) (hP : P.base.circuitValue = valueFn vals)
    (α β : F) (r0 r1 ru rv : ℕ → F) (rho : F) :
    ∃ S t, roundMessages E C coins P i α β r0 r1 rho ru rv (C.bl (i - 1)) = .ok (S, t) ∧
      S = rho * SAt (C.bl (i - 1)) (coins.layer i).maskpoly 0 ∧
      Consistent (C.bl (i - 1)) (maskedClaim C P i α β r0 r1) (relayClaim C coins P i α β r0 r1 rho ru) S ru rv t ∧
      ∀ M0, M0 = { masksOf coins P i rho with g := fun _ => 0 } →
      ∀ k : Fin (2 * C.bl (i - 1) + 1), ∀ x, (t k).eval x =
        (if (k : ℕ) < C.bl (i - 1) then
          ∑ b ∈ range (2 ^ (C.bl (i - 1) - (k + 1))),
          (∑ y ∈ range (2 ^ C.bl (i - 1)), ∑ c ∈ range 2,
            maskedPoly C i α β r0 r1 (value C (i - 1)) M0 (splice ru k x b) (corner y) (c : F) +
          relayPolyAt C i α β r0 r1 (splice ru k x b)
            (maskedValue (C.bl (i - 1)) (value C (i - 1)) M0 (splice ru k x b)))
        else if (k : ℕ) < 2 * C.bl (i - 1) then
          ∑ b ∈ range (2 ^ (C.bl (i - 1) - (k - C.bl (i - 1) + 1))), ∑ c ∈ range 2,
            maskedPoly C i α β r0 r1 (value C (i - 1)) M0 ru (splice rv (k - C.bl (i - 1)) x b) (c : F)
        else maskedPoly C i α β r0 r1 (value C (i - 1)) M0 ru rv x)
        + rho * mAt (C.bl (i - 1)) (coins.layer i).maskpoly (joinPoint (C.bl (i - 1)) ru rv 0) k x := by
  have hp : ((p : ℕ) : F) = 0 := LawfulGmp.char
  obtain ⟨Q, Q2, e1, eS, em1, ecl, e2, em2, Q3, e3, em3⟩ :=
    zk_layer E hwf coins h1 hd hn hsR hsM P hv hP α β r0 r1 ru rv rho
  generalize hM : masksOf coins P i rho = M at *
  have hMg : M.g = (coins.layer i).maskpoly := by rw [← hM]; rfl
  have hMr : M.rho = rho := by rw [← hM]; rfl
  generalize hV : (value C (i - 1) : ℕ → F) = V at *
  have ev1 : ∀ k < C.bl (i - 1), ∀ x, (poly1 (C.bl (i - 1)) Q ru k).eval x = _ :=
    fun k hk x => (poly1_eval _ Q ru k x).trans (em1 k hk x)
  have ev2 : ∀ k < C.bl (i - 1), ∀ x, (poly2 (C.bl (i - 1)) Q2 rv k).eval x = _ :=
    fun k hk x => (poly2_eval _ Q2 rv k x).trans (em2 k hk x)
  set t : Fin (2 * C.bl (i - 1) + 1) → QuintuplePoly F := fun k =>
    if (k : ℕ) < C.bl (i - 1) then poly1 (C.bl (i - 1)) Q ru k
    else if (k : ℕ) < 2 * C.bl (i - 1) then poly2 (C.bl (i - 1)) Q2 rv (k - C.bl (i - 1))
    else quint (Q3.finalround (prevOf rv (C.bl (i - 1))) (C.bl (i - 1) <<< 1)
      (layerPolyAt C i α β r0 r1 ru rv (maskedValue (C.bl (i - 1)) V M ru) (maskedValue (C.bl (i - 1)) V M rv))).2
    with ht
  -- the three kinds of rounds
  have t1 : ∀ k (h : k < C.bl (i - 1)) x, (t ⟨k, by omega⟩).eval x = ∑ b ∈ range (2 ^ (C.bl (i - 1) - (k + 1))),
          (∑ y ∈ range (2 ^ C.bl (i - 1)), ∑ c ∈ range 2,
            maskedPoly C i α β r0 r1 V M (splice ru k x b) (corner y) (c : F) +
          relayPolyAt C i α β r0 r1 (splice ru k x b) (maskedValue (C.bl (i - 1)) V M (splice ru k x b))) :=
    fun k h x => by simp only [ht]; rw [if_pos h]; exact ev1 k h x
  have t2 : ∀ k (h : k < C.bl (i - 1)) x, (t ⟨k + C.bl (i - 1), by omega⟩).eval x =
      ∑ b ∈ range (2 ^ (C.bl (i - 1) - (k + 1))), ∑ c ∈ range 2,
            maskedPoly C i α β r0 r1 V M ru (splice rv k x b) (c : F) :=
    fun k h x => by
      simp only [ht]; rw [if_neg (by omega), if_pos (by omega), Nat.add_sub_cancel]; exact ev2 k h x
  have t3 : ∀ x, (t ⟨2 * C.bl (i - 1), by omega⟩).eval x = maskedPoly C i α β r0 r1 V M ru rv x :=
    fun x => by simp only [ht]; rw [if_neg (by omega), if_neg (by omega), quint_eval]; exact em3 x
  refine ⟨Q.sumc, t, ?_, ?_, ⟨?_, ?_, ?_⟩, ?_⟩
  · unfold roundMessages
    change (beginLayer E C coins P i α β r0 r1 rho >>= _) = _
    rw [e1, Outcome.ok_bind]
    change (_ >>= _ : Outcome _) = _
    rw [e2, Outcome.ok_bind, e3]
    rfl
  · rw [eS, ← mul_sum, mask_total hp hn]
  · intro k hk1 hk2
    simp only [ht]
    by_cases h : (k : ℕ) < C.bl (i - 1)
    · rw [if_pos h, poly1, if_neg hk1]; exact ⟨rfl, rfl, rfl⟩
    · rw [if_neg h]
      by_cases h' : (k : ℕ) < 2 * C.bl (i - 1)
      · rw [if_pos h', poly2, if_neg (by omega)]; exact ⟨rfl, rfl, rfl⟩
      · rw [if_neg h']; exact ⟨rfl, rfl, rfl⟩
  · have e0 : ∀ x, (t 0).eval x = msg1 (C.bl (i - 1)) Q ru 0 x := fun x => by
      rw [← poly1_eval]; change (if 0 < C.bl (i - 1) then poly1 (C.bl (i - 1)) Q ru 0 else _ : QuintuplePoly F).eval x = _; rw [if_pos (by omega)]
    rw [e0, e0, ecl]
    rfl
  · intro k hk
    by_cases ha : k + 1 < C.bl (i - 1)
    · rw [t1 (k + 1) ha, t1 (k + 1) ha, t1 k (by omega), splice_sum (fun u => ∑ y ∈ range (2 ^ C.bl (i - 1)),
          ∑ c ∈ range 2, maskedPoly C i α β r0 r1 V M u (corner y) (c : F) +
          relayPolyAt C i α β r0 r1 u (maskedValue (C.bl (i - 1)) V M u)) ha ru, if_neg (by omega), add_zero]
      refine sum_congr rfl (fun b _ => ?_)
      rw [show joinPoint (C.bl (i - 1)) ru rv 0 k = ru k from if_pos (by omega), splice_next]
    · by_cases hb : k + 1 = C.bl (i - 1)
      · have ek : (⟨k + 1, hk⟩ : Fin (2 * C.bl (i - 1) + 1)) = ⟨0 + C.bl (i - 1), by omega⟩ := Fin.ext (by simp only; omega)
        rw [ek, t2 0 (by omega), t2 0 (by omega), t1 k (by omega), splice_sum (fun v => ∑ c ∈ range 2,
          maskedPoly C i α β r0 r1 V M ru v (c : F)) hn rv, if_pos hb,
          show joinPoint (C.bl (i - 1)) ru rv 0 k = ru k from if_pos (by omega), hb, Nat.sub_self, pow_zero,
          sum_range_one, splice_next, hb]
        have hs : ∀ j < C.bl (i - 1), sp ru (C.bl (i - 1)) 0 j = ru j := fun j hj => if_pos hj
        rw [relayPolyAt_congr C i α β r0 r1 hs, maskedValue_congr hn V M hs, relayClaim, hM, hV]
        congr 1
        refine sum_congr rfl (fun y _ => sum_congr rfl (fun c _ => ?_))
        rw [sp_zero]
        exact (maskedPoly_congr C i hn α β r0 r1 V M hs (fun _ _ => rfl) c).symm
      · rw [if_neg hb, add_zero]
        obtain ⟨m, rfl⟩ : ∃ m, k = m + C.bl (i - 1) := ⟨k - C.bl (i - 1), by omega⟩
        have hj : joinPoint (C.bl (i - 1)) ru rv 0 (m + C.bl (i - 1)) = rv m := by
          rw [joinPoint, if_neg (by omega), if_pos (by omega), Nat.add_sub_cancel]
        rw [t2 m (by omega), hj]
        by_cases hc : m + 1 < C.bl (i - 1)
        · have ek : (⟨m + C.bl (i - 1) + 1, hk⟩ : Fin (2 * C.bl (i - 1) + 1)) = ⟨m + 1 + C.bl (i - 1), by omega⟩ :=
            Fin.ext (by simp only; omega)
          rw [ek, t2 (m + 1) hc, t2 (m + 1) hc, splice_sum (fun v => ∑ c ∈ range 2,
            maskedPoly C i α β r0 r1 V M ru v (c : F)) hc rv]
          exact sum_congr rfl (fun b _ => by rw [splice_next])
        · have ek : (⟨m + C.bl (i - 1) + 1, hk⟩ : Fin (2 * C.bl (i - 1) + 1)) = ⟨2 * C.bl (i - 1), by omega⟩ :=
            Fin.ext (by simp only; omega)
          have em : m + 1 = C.bl (i - 1) := by omega
          rw [ek, t3, t3, em, Nat.sub_self, pow_zero, sum_range_one, splice_next, em, sum_range_succ, sum_range_one,
            Nat.cast_zero, Nat.cast_one]
          have hs : ∀ j < C.bl (i - 1), rv j = sp rv (C.bl (i - 1)) 0 j := fun j hj => (if_pos hj).symm
          rw [maskedPoly_congr C i hn α β r0 r1 V M (fun _ _ => rfl) hs,
            maskedPoly_congr C i hn α β r0 r1 V M (fun _ _ => rfl) hs]
  · intro M0 hM0 k x
    have hmv : maskedValue (C.bl (i - 1)) V M = maskedValue (C.bl (i - 1)) V M0 := by subst hM0; rfl
    obtain ⟨k, hk⟩ := k
    simp only
    by_cases h : k < C.bl (i - 1)
    · rw [if_pos h, t1 k h, ← mask_round1 hp h (coins.layer i).maskpoly ru
        (pt := joinPoint (C.bl (i - 1)) ru rv 0) (fun j hj => (if_pos (by omega) : joinPoint (C.bl (i - 1)) ru rv 0 j = ru j)) x, mul_sum, ← sum_add_distrib]
      refine sum_congr rfl (fun b _ => ?_)
      simp only [maskedPoly_mask C i α β r0 r1 V M M0 hM0, sum_add_distrib, mul_sum, hMg, hMr, hmv]
      ring
    · rw [if_neg h]
      by_cases h' : k < 2 * C.bl (i - 1)
      · obtain ⟨m, rfl⟩ : ∃ m, k = m + C.bl (i - 1) := ⟨k - C.bl (i - 1), by omega⟩
        have hm : m < C.bl (i - 1) := by omega
        rw [if_pos h', t2 m hm, ← mask_round2 hp hm (coins.layer i).maskpoly ru rv (pt := joinPoint (C.bl (i - 1)) ru rv 0)
          (fun j hj => (if_pos hj : joinPoint (C.bl (i - 1)) ru rv 0 j = ru j))
          (fun j hj => (by rw [joinPoint, if_neg (by omega), if_pos (by omega), Nat.add_sub_cancel] :
            joinPoint (C.bl (i - 1)) ru rv 0 (j + C.bl (i - 1)) = rv j)) x, mul_sum, Nat.add_sub_cancel,
          ← sum_add_distrib]
        refine sum_congr rfl (fun b _ => ?_)
        simp only [maskedPoly_mask C i α β r0 r1 V M M0 hM0, sum_add_distrib, mul_sum, hMg, hMr]
      · obtain rfl : k = 2 * C.bl (i - 1) := by omega
        rw [if_neg h', t3, maskedPoly_mask C i α β r0 r1 V M M0 hM0, hMg, hMr]
        have := mAt_last hp (C.bl (i - 1)) hn (coins.layer i).maskpoly (joinPoint (C.bl (i - 1)) ru rv x)
        rw [show joinPoint (C.bl (i - 1)) ru rv x (2 * C.bl (i - 1)) = x by
          rw [joinPoint, if_neg (by omega), if_neg (by omega)]] at this
        rw [← this, mAt, mAt, RAt_congr (pt := joinPoint (C.bl (i - 1)) ru rv x)
          (pt' := joinPoint (C.bl (i - 1)) ru rv 0) (fun j hj => by
            simp only [joinPoint]; split_ifs <;> first | rfl | omega)]

end proofs

variable {F : Type} [Field F] {G1 G2 GT : Type} [AddCommGroup G1] [AddCommGroup G2] [AddCommGroup GT]
  [Module (ZMod p) G1] [Module (ZMod p) G2] [Module (ZMod p) GT] [Gmp F] [LawfulGmp F]

/-- Whatever the mask, the messages are consistent. -/
theorem C25_consistent (E : Pairing G1 G2 GT) (C : Circuit) (hwf : WellFormed true C) (coins : Coins F) (i : ℕ)
    (hi : 1 ≤ i) (hd : i < C.depth) (n : ℕ) (hn : 1 ≤ n) (hC : C.bl (i - 1) = n)
    (hsR : ∀ j ≤ 2, (coins.layer i).sR j < p)
    (hsM : ∀ j ≤ 2 * n + 1, (coins.layer i).sM j < p) (P : Zk.Prover F G1 G2)
    (vals : List (List F)) (hv : Libra.evaluate .zk C = .ok vals) (hP : P.base.circuitValue = valueFn vals)
    (α β : F) (r0 r1 ru rv : ℕ → F) (rho : F) (g : Fin (2 * (2 * n + 1) + 7) → F) :
    ∃ S t, roundMessages E C (withMask coins i g) P i α β r0 r1 rho ru rv n = .ok (S, t) ∧
      Consistent n (maskedClaim C P i α β r0 r1) (relayClaim C coins P i α β r0 r1 rho ru) S ru rv t := by
  subst hC
  obtain ⟨S, t, h1, _, h2, _⟩ := roundMessages_ok E hwf (withMask coins i g) hi hd hn
    (by simpa [withMask] using hsR) (by simpa [withMask] using hsM) P hv hP α β r0 r1 ru rv rho
  refine ⟨S, t, h1, ?_⟩
  have : relayClaim C (withMask coins i g) P i α β r0 r1 rho ru = relayClaim C coins P i α β r0 r1 rho ru := by
    simp [relayClaim, masksOf, withMask, maskedValue]
  rwa [← this]

/-- For every consistent list of messages there is exactly one mask with which the prover sends it. -/
theorem C25_unique_mask (E : Pairing G1 G2 GT) (C : Circuit) (hwf : WellFormed true C) (coins : Coins F) (i : ℕ)
    (hi : 1 ≤ i) (hd : i < C.depth) (n : ℕ) (hn : 1 ≤ n) (hC : C.bl (i - 1) = n)
    (hsR : ∀ j ≤ 2, (coins.layer i).sR j < p)
    (hsM : ∀ j ≤ 2 * n + 1, (coins.layer i).sM j < p) (P : Zk.Prover F G1 G2)
    (vals : List (List F)) (hv : Libra.evaluate .zk C = .ok vals) (hP : P.base.circuitValue = valueFn vals)
    (α β : F) (r0 r1 ru rv : ℕ → F) (rho : F) (hrho : rho ≠ 0) (S : F) (t : Fin (2 * n + 1) → QuintuplePoly F)
    (ht : Consistent n (maskedClaim C P i α β r0 r1) (relayClaim C coins P i α β r0 r1 rho ru) S ru rv t) :
    ∃! g : Fin (2 * (2 * n + 1) + 7) → F,
      roundMessages E C (withMask coins i g) P i α β r0 r1 rho ru rv n = .ok (S, t) := by
  have hp : ((p : ℕ) : F) = 0 := LawfulGmp.char
  subst hC
  generalize hpt : joinPoint (C.bl (i - 1)) ru rv 0 = pt at *
  have hall : ∀ g : Fin (2 * (2 * C.bl (i - 1) + 1) + 7) → F, ∃ S t,
      roundMessages E C (withMask coins i g) P i α β r0 r1 rho ru rv (C.bl (i - 1)) = .ok (S, t) ∧
      S = rho * SAt (C.bl (i - 1)) (maskArr g) 0 ∧
      Consistent (C.bl (i - 1)) (maskedClaim C P i α β r0 r1) (relayClaim C coins P i α β r0 r1 rho ru) S ru rv t ∧
      ∀ M0, M0 = { masksOf coins P i rho with g := fun _ => 0 } →
      ∀ k : Fin (2 * C.bl (i - 1) + 1), ∀ x, (t k).eval x =
        (if (k : ℕ) < C.bl (i - 1) then
          ∑ b ∈ range (2 ^ (C.bl (i - 1) - (k + 1))),
          (∑ y ∈ range (2 ^ C.bl (i - 1)), ∑ c ∈ range 2,
            maskedPoly C i α β r0 r1 (value C (i - 1)) M0 (splice ru k x b) (corner y) (c : F) +
          relayPolyAt C i α β r0 r1 (splice ru k x b)
            (maskedValue (C.bl (i - 1)) (value C (i - 1)) M0 (splice ru k x b)))
        else if (k : ℕ) < 2 * C.bl (i - 1) then
          ∑ b ∈ range (2 ^ (C.bl (i - 1) - (k - C.bl (i - 1) + 1))), ∑ c ∈ range 2,
            maskedPoly C i α β r0 r1 (value C (i - 1)) M0 ru (splice rv (k - C.bl (i - 1)) x b) (c : F)
        else maskedPoly C i α β r0 r1 (value C (i - 1)) M0 ru rv x)
        + rho * mAt (C.bl (i - 1)) (maskArr g) pt k x := by
    intro g
    obtain ⟨S, t, h1, h2, h3, h4⟩ := roundMessages_ok E hwf (withMask coins i g) hi hd hn
      (by simpa [withMask] using hsR) (by simpa [withMask] using hsM) P hv hP α β r0 r1 ru rv rho
    have eM : (withMask coins i g).layer i = { coins.layer i with maskpoly := maskArr g } := by simp [withMask]
    have er : relayClaim C (withMask coins i g) P i α β r0 r1 rho ru = relayClaim C coins P i α β r0 r1 rho ru := by
      simp [relayClaim, masksOf, withMask, maskedValue]
    rw [eM] at h2 h4
    rw [er] at h3
    rw [hpt] at h4
    refine ⟨S, t, h1, h2, h3, fun M0 hM0 => h4 M0 ?_⟩
    rw [hM0]
    simp only [masksOf, eM]
  choose Sg tg hm hS hcons hev using hall
  -- the messages of the prover differ by the contribution of the mask
  have hdiff : ∀ g g' k x, (tg g k).eval x - (tg g' k).eval x =
      rho * mAt (C.bl (i - 1)) (maskArr g) pt k x - rho * mAt (C.bl (i - 1)) (maskArr g') pt k x := by
    intro g g' k x
    rw [hev g _ rfl k x, hev g' _ rfl k x]; ring
  have hz0 : ∀ k, mAt (C.bl (i - 1)) (maskArr (0 : Fin (2 * (2 * C.bl (i - 1) + 1) + 7) → F)) pt k = fun _ => 0 := by
    intro k
    have : maskArr (0 : Fin (2 * (2 * C.bl (i - 1) + 1) + 7) → F) = fun _ => 0 := by
      funext j; simp [maskArr]
    funext x
    simp [this, mAt, qAt, lo, Zk.hi, RAt, SAt]
  have hS0 : Sg 0 = 0 := by
    rw [hS 0]
    have : maskArr (0 : Fin (2 * (2 * C.bl (i - 1) + 1) + 7) → F) = fun _ => 0 := by
      funext j; simp [maskArr]
    simp [this, qAt, lo, Zk.hi, SAt]
  obtain ⟨a, ha1, ha2⟩ := mask_surjective hp hn hrho pt S
    (fun k => if h : k < 2 * C.bl (i - 1) + 1 then
      ⟨(t ⟨k, h⟩).a - (tg 0 ⟨k, h⟩).a, (t ⟨k, h⟩).b - (tg 0 ⟨k, h⟩).b, (t ⟨k, h⟩).c - (tg 0 ⟨k, h⟩).c,
        (t ⟨k, h⟩).d - (tg 0 ⟨k, h⟩).d, (t ⟨k, h⟩).e - (tg 0 ⟨k, h⟩).e, (t ⟨k, h⟩).f - (tg 0 ⟨k, h⟩).f⟩
      else ⟨0, 0, 0, 0, 0, 0⟩)
    (fun k hk h1 h2 => by
      have := ht.degree ⟨k, hk⟩ h1 h2
      have := (hcons 0).degree ⟨k, hk⟩ h1 h2
      simp_all)
    (by
      have e1 := ht.first
      have e2 := (hcons 0).first
      rw [hS0] at e2
      rw [dif_pos (by omega)]
      change (t 0).eval 0 + (t 0).eval 1 = _ at e1
      rw [show (0 : Fin (2 * C.bl (i - 1) + 1)) = ⟨0, by omega⟩ from rfl] at e1 e2
      simp only [QuintuplePoly.eval] at e1 e2 ⊢
      linear_combination e1 - e2)
    (fun k hk => by
      have e1 := ht.next k hk
      have e2 := (hcons 0).next k hk
      rw [hpt] at e1 e2
      rw [dif_pos hk, dif_pos (by omega)]
      simp only [QuintuplePoly.eval] at e1 e2 ⊢
      linear_combination e1 - e2)
  have hext : ∀ j < 2 * (2 * C.bl (i - 1) + 1) + 7,
      maskArr (fun j : Fin (2 * (2 * C.bl (i - 1) + 1) + 7) => a j) j = a j := fun j hj => by simp [maskArr, hj]
  have hq : ∀ k < 2 * C.bl (i - 1) + 1, ∀ x,
      qAt (C.bl (i - 1)) (maskArr (fun j : Fin (2 * (2 * C.bl (i - 1) + 1) + 7) => a j)) k x = qAt (C.bl (i - 1)) a k x := by
    intro k hk x
    simp only [qAt, lo, Zk.hi]
    rw [hext _ (by omega), hext _ (by omega), hext _ (by omega), hext _ (by omega), hext _ (by omega),
      hext _ (by omega), hext _ (by omega), hext _ (by omega)]
  have hSA : ∀ k, SAt (C.bl (i - 1)) (maskArr (fun j : Fin (2 * (2 * C.bl (i - 1) + 1) + 7) => a j)) k =
      SAt (C.bl (i - 1)) a k := by
    intro k
    rw [SAt, SAt, hext _ (by omega), sum_congr rfl (fun j hj => hq j (mem_Ico.1 hj).2 1)]
  have hmA : ∀ k < 2 * C.bl (i - 1) + 1, ∀ x,
      mAt (C.bl (i - 1)) (maskArr (fun j : Fin (2 * (2 * C.bl (i - 1) + 1) + 7) => a j)) pt k x =
      mAt (C.bl (i - 1)) a pt k x := by
    intro k hk x
    rw [mAt, mAt, hq k hk, hSA, RAt, RAt, sum_congr rfl (fun j hj => hq j (by have := mem_range.1 hj; omega) (pt j))]
  refine ⟨fun j => a j, ?_, ?_⟩
  · change roundMessages _ _ _ _ _ _ _ _ _ _ _ _ _ = _
    rw [hm]
    congr 1
    refine Prod.ext ?_ (funext fun k => quint_ext hp fun x => ?_)
    · change Sg _ = S
      rw [hS, hSA, ha1]
    · change (tg _ k).eval x = (t k).eval x
      have e1 := hdiff (fun j => a j) 0 k x
      have e2 := ha2 k k.2 x
      rw [hz0, hmA k k.2, e2, dif_pos k.2] at e1
      simp only [QuintuplePoly.eval, Fin.eta] at e1 ⊢
      linear_combination e1
  · intro g hg
    replace hg : roundMessages E C (withMask coins i g) P i α β r0 r1 rho ru rv (C.bl (i - 1)) = .ok (S, t) := hg
    rw [hm] at hg
    have hg' := Outcome.ok.inj hg
    have hgS : Sg g = S := congrArg Prod.fst hg'
    have hgt : tg g = t := congrArg Prod.snd hg'
    have hinj := mask_injective hp hn (a := fun j => maskArr g j - a j) pt ?_ ?_
    · funext j
      have := hinj j j.2
      simp only [maskArr, j.2, dif_pos, Fin.eta] at this
      exact sub_eq_zero.1 this
    · have e : rho * SAt (C.bl (i - 1)) (maskArr g) 0 = rho * SAt (C.bl (i - 1)) a 0 := by rw [← hS, hgS, ha1]
      have e := mul_left_cancel₀ hrho e
      have : SAt (C.bl (i - 1)) (fun j => maskArr g j - a j) 0 = SAt (C.bl (i - 1)) (maskArr g) 0 - SAt (C.bl (i - 1)) a 0 := by
        simp only [SAt, qAt_sub, sum_sub_distrib]; ring
      rw [this, e, sub_self]
    · intro k hk x
      have e1 := hdiff g 0 ⟨k, hk⟩ x
      have e2 := ha2 k hk x
      rw [hz0, hgt, dif_pos hk] at *
      have e : rho * mAt (C.bl (i - 1)) (maskArr g) pt k x = rho * mAt (C.bl (i - 1)) a pt k x := by
        rw [e2]
        simp only [QuintuplePoly.eval] at e1 ⊢
        linear_combination -e1
      have e := mul_left_cancel₀ hrho e
      have : mAt (C.bl (i - 1)) (fun j => maskArr g j - a j) pt k x =
          mAt (C.bl (i - 1)) (maskArr g) pt k x - mAt (C.bl (i - 1)) a pt k x := by
        simp only [mAt, SAt, RAt, qAt_sub, sum_sub_distrib]; ring
      rw [this, e, sub_self]

open Classical in
/-- The number of masks leading to given messages: one if they are consistent, none otherwise. What
is consistent depends on the claim, not on the values of the layer below or on the other masks. -/
theorem C25_count (E : Pairing G1 G2 GT) (C : Circuit) (hwf : WellFormed true C) (coins : Coins F) (i : ℕ)
    (hi : 1 ≤ i) (hd : i < C.depth) (n : ℕ) (hn : 1 ≤ n) (hC : C.bl (i - 1) = n)
    (hsR : ∀ j ≤ 2, (coins.layer i).sR j < p)
    (hsM : ∀ j ≤ 2 * n + 1, (coins.layer i).sM j < p) (P : Zk.Prover F G1 G2)
    (vals : List (List F)) (hv : Libra.evaluate .zk C = .ok vals) (hP : P.base.circuitValue = valueFn vals)
    (α β : F) (r0 r1 ru rv : ℕ → F) (rho : F) (hrho : rho ≠ 0) (S : F) (t : Fin (2 * n + 1) → QuintuplePoly F) :
    Nat.card {g : Fin (2 * (2 * n + 1) + 7) → F //
        roundMessages E C (withMask coins i g) P i α β r0 r1 rho ru rv n = .ok (S, t)} =
      if Consistent n (maskedClaim C P i α β r0 r1) (relayClaim C coins P i α β r0 r1 rho ru) S ru rv t
        then 1 else 0 := by
  split_ifs with h
  · obtain ⟨g, hg, hu⟩ := C25_unique_mask E C hwf coins i hi hd n hn hC hsR hsM P vals hv hP α β r0 r1 ru rv rho
      hrho S t h
    exact Nat.card_eq_one_iff_unique.2 ⟨⟨fun x y => Subtype.ext ((hu _ x.2).trans (hu _ y.2).symm)⟩, ⟨⟨g, hg⟩⟩⟩
  · have : IsEmpty {g : Fin (2 * (2 * n + 1) + 7) → F //
        roundMessages E C (withMask coins i g) P i α β r0 r1 rho ru rv n = .ok (S, t)} := ⟨fun ⟨g, hg⟩ => by
      obtain ⟨S', t', e, hc⟩ := C25_consistent E C hwf coins i hi hd n hn hC hsR hsM P vals hv hP α β r0 r1 ru rv rho g
      rw [hg] at e
      have e := Outcome.ok.inj e
      rw [Prod.mk.injEq] at e
      rw [← e.1, ← e.2] at hc
      exact h hc⟩
    exact Nat.card_of_isEmpty

/-- Two provers, with different inputs, values and masks (even different circuits), whose claims about the layer agree:
every list of messages is sent for the same number of masks. So with a uniform mask the messages have the same
distribution. -/
theorem C25_hiding (E : Pairing G1 G2 GT) (i : ℕ) (hi : 1 ≤ i) (n : ℕ) (hn : 1 ≤ n)
    (C C' : Circuit) (hwf : WellFormed true C) (hwf' : WellFormed true C') (hd : i < C.depth) (hd' : i < C'.depth)
    (hC : C.bl (i - 1) = n) (hC' : C'.bl (i - 1) = n) (coins coins' : Coins F)
    (hsR : ∀ j ≤ 2, (coins.layer i).sR j < p) (hsM : ∀ j ≤ 2 * n + 1, (coins.layer i).sM j < p)
    (hsR' : ∀ j ≤ 2, (coins'.layer i).sR j < p) (hsM' : ∀ j ≤ 2 * n + 1, (coins'.layer i).sM j < p)
    (P P' : Zk.Prover F G1 G2) (vals vals' : List (List F))
    (hv : Libra.evaluate .zk C = .ok vals) (hP : P.base.circuitValue = valueFn vals)
    (hv' : Libra.evaluate .zk C' = .ok vals') (hP' : P'.base.circuitValue = valueFn vals')
    (α β : F) (r0 r1 ru rv : ℕ → F) (rho : F) (hrho : rho ≠ 0)
    (hclaim : maskedClaim C P i α β r0 r1 = maskedClaim C' P' i α β r0 r1)
    (hrel : relayClaim C coins P i α β r0 r1 rho ru = relayClaim C' coins' P' i α β r0 r1 rho ru)
    (S : F) (t : Fin (2 * n + 1) → QuintuplePoly F) :
    Nat.card {g : Fin (2 * (2 * n + 1) + 7) → F //
        roundMessages E C (withMask coins i g) P i α β r0 r1 rho ru rv n = .ok (S, t)} =
    Nat.card {g : Fin (2 * (2 * n + 1) + 7) → F //
        roundMessages E C' (withMask coins' i g) P' i α β r0 r1 rho ru rv n = .ok (S, t)} := by
  rw [C25_count E C hwf coins i hi hd n hn hC hsR hsM P vals hv hP α β r0 r1 ru rv rho hrho S t,
    C25_count E C' hwf' coins' i hi hd' n hn hC' hsR' hsM' P' vals' hv' hP' α β r0 r1 ru rv rho hrho S t,
    hclaim, hrel]

/-- two inputs with the same output, but different values in layer 2 -/
def hidingCircuit (a b : ℤ) : Circuit := ⟨[
  { gates := [some ⟨3, a, 0⟩, some ⟨3, b, 0⟩, some ⟨3, 1, 0⟩, some ⟨3, 9, 0⟩], bitLength := 2 },
  { gates := [some ⟨4, 0, 0⟩, some ⟨4, 1, 0⟩, some ⟨4, 2, 0⟩, some ⟨4, 3, 0⟩], bitLength := 2 },
  { gates := [some ⟨12, 0, 1⟩, some ⟨1, 0, 1⟩, some ⟨12, 2, 3⟩, some ⟨1, 2, 3⟩], bitLength := 2 },
  { gates := [some ⟨7, 0, 3⟩, some ⟨1, 2, 0⟩], bitLength := 1 }]⟩

example (vals vals' : List (List Fp)) (hv : Libra.evaluate .zk (hidingCircuit 5 1) = .ok vals)
    (hv' : Libra.evaluate .zk (hidingCircuit 3 2) = .ok vals') (α β : Fp) (r0 r1 ru rv : ℕ → Fp) :
    value (F := Fp) (hidingCircuit 5 1) 2 1 ≠ value (hidingCircuit 3 2) 2 1 ∧
    let P (v : List (List Fp)) := { blankProver with base := { blankProver.base with circuitValue := valueFn v } }
    ∀ (S : Fp) (t : Fin (2 * 2 + 1) → QuintuplePoly Fp),
    Nat.card {g : Fin (2 * (2 * 2 + 1) + 7) → Fp // roundMessages toyPairing (hidingCircuit 5 1)
      (withMask exampleCoins 3 g) (P vals) 3 α β r0 r1 8 ru rv 2 = .ok (S, t)} =
    Nat.card {g : Fin (2 * (2 * 2 + 1) + 7) → Fp // roundMessages toyPairing (hidingCircuit 3 2)
      (withMask exampleCoins 3 g) (P vals') 3 α β r0 r1 8 ru rv 2 = .ok (S, t)} := by
  refine ⟨by decide +kernel, fun S t => C25_hiding toyPairing 3 (by decide) 2 (by decide) _ _
    (by apply wellFormed_of_check <;> decide +kernel) (by apply wellFormed_of_check <;> decide +kernel)
    (by decide) (by decide) (by decide) (by decide) exampleCoins exampleCoins
    (exampleCoins_ok.sR 3 (by decide) (by decide)) (exampleCoins_ok.sM 3 (by decide) (by decide))
    (exampleCoins_ok.sR 3 (by decide) (by decide)) (exampleCoins_ok.sM 3 (by decide) (by decide))
    _ _ vals vals' hv rfl hv' rfl α β r0 r1 ru rv 8 (by decide +kernel) ?_ ?_ S t⟩
  · have h : ∀ g < 2 ^ 1, (value (hidingCircuit 5 1) 3 g : Fp) = value (hidingCircuit 3 2) 3 g := by decide +kernel
    simp only [maskedClaim]
    rw [show (hidingCircuit 5 1).bl 3 = 1 from rfl, show (hidingCircuit 3 2).bl 3 = 1 from rfl,
      mle_congr h (fun _ _ => rfl), mle_congr h (fun _ _ => rfl)]
  · rw [relayClaim, relayClaim, relayPolyAt, relayPolyAt, if_neg (by decide), if_neg (by decide)]

end Libra.Props
