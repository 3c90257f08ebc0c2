import Verif.Proofs.InputVpd
import Mathlib.Algebra.Algebra.Bilinear

/-!
# C27–C32, C43, C44: the polynomial commitments

`E : Pairing G1 G2 GT` is any bilinear map between groups of exponent `p` with two chosen points.
The secrets `a`, `s`, the blindings `rf`, `t` and everything a dishonest party may send are
universally quantified.
-/

namespace Libra.Props
open Libra Spec Finset

variable {G1 G2 GT : Type} [AddCommGroup G1] [AddCommGroup G2] [AddCommGroup GT]
  [Module (ZMod p) G1] [Module (ZMod p) G2] [Module (ZMod p) GT]

/-- pairing with the second generator loses nothing -/
def NonDegenerate (E : Pairing G1 G2 GT) : Prop := ∀ x, E.e E.g2 x = 0 → x = 0

/-- a pairing for the examples: all three groups are `ZMod p` and `e x y = x * y` -/
def toyPairing : Pairing (ZMod p) (ZMod p) (ZMod p) := 
  ⟨1, 1, LinearMap.mul (ZMod p) (ZMod p)⟩

theorem toy_nonDegenerate : NonDegenerate toyPairing := fun x h => by
  have : (1 : ZMod p) * x = 0 := h
  rwa [one_mul] at this

/-! ## C27 -/

/-- C27 for `vpdR`: key generation and opening succeed, the opening of the commitment is accepted
and the answer is the value of the committed polynomial. -/
theorem C27_maskR [DecidableEq GT] (E : Pairing G1 G2 GT) (a : ℕ) (s : ℕ → ℕ)
    (hs : ∀ i ≤ 2, s i < p) (coeffs : ℕ → ℕ) (rf : ℕ) (t r : ℕ → ℕ) (hr : ∀ i < 2, r i < p) :
    ∃ K O, VpdR.keyGen E a s = .ok K ∧ VpdR.prove K r coeffs rf t = .ok O ∧
      VpdR.verify E K r (VpdR.commit K coeffs rf).1 O.ans O.witness O.witnessa = .ok true ∧
      O.ans < p ∧ (O.ans : ZMod p) = maskRPoly (fun i => (coeffs i : ZMod p)) (r 0) (r 1) := by
  obtain ⟨K, e, h⟩ := VpdR.keyGen_good E a s hs
  obtain ⟨O, e1, h1, h2, h3⟩ := VpdR.complete h coeffs rf t r hr
  exact ⟨K, O, e, e1, h3, h1, h2 (ZMod p) cast_p⟩

/-- C27 for `vpd_test` in at least three variables (the protocol uses `2 L + 1`, `L ≥ 1`) -/
theorem C27_sumMask [DecidableEq GT] (E : Pairing G1 G2 GT) (d : ℕ) (hd : 3 ≤ d) (hd' : d < 2 ^ 250)
    (a : ℕ) (s : ℕ → ℕ) (hs : ∀ i ≤ d, s i < p) (coeffs : ℕ → ℕ)
    (hc : ∀ i < 2 * d, coeffs i < p) (rf : ℕ) (hrf : rf < p) (t r : ℕ → ℕ)
    (hr : ∀ i < d, r i < p) :
    ∃ K O, VpdTest.keyGen E d a s = .ok K ∧ VpdTest.prove K r coeffs rf t = .ok O ∧
      VpdTest.verify E K d r (VpdTest.commit K coeffs rf).1 O.ans O.witness O.witnessa = .ok true ∧
      O.ans < p ∧
      (O.ans : ZMod p) = sumMaskPoly d (fun i => (coeffs i : ZMod p)) (fun i => (r i : ZMod p)) := by
  obtain ⟨K, e, h⟩ := VpdTest.keyGen_good E d (by omega) a s hs
  obtain ⟨O, e1, h1, h2, h3⟩ := VpdTest.complete hd hd' h coeffs hc rf hrf t r hr
  exact ⟨K, O, e, e1, h3, h1, h2 (ZMod p) cast_p⟩

/-- the secrets used in the examples -/
def toySecrets : ℕ → ℕ := fun i => i + 3

theorem toySecrets_lt (d : ℕ) (hd : d < 1000) : ∀ i ≤ d, toySecrets i < p := fun i hi => by
  have : 1003 < p := by decide +kernel
  unfold toySecrets; omega

example :=
  C27_maskR toyPairing 5 toySecrets (toySecrets_lt 2 (by decide)) (fun i => i + 1) 9
    (fun i => 4 * i) (fun i => i + 2) (fun i hi => by
      have : 1003 < p := by decide +kernel
      omega)

example :=
  have hp : 1003 < p := by decide +kernel
  C27_sumMask toyPairing 5 (by decide) (by decide) 7 toySecrets (toySecrets_lt 5 (by decide))
    (fun i => i + 1) (fun i hi => by omega) 9 (by omega) (fun i => 4 * i) (fun i => i + 2)
    (fun i hi => by omega)

/-- In two variables `vpd_test` is not complete: both degree-five terms belong to variable 0, only
one of them gets a witness. (The protocol never uses two variables.) -/
theorem C27_sumMask_two_variables : ∃ K O,
    VpdTest.keyGen toyPairing 2 7 toySecrets = .ok K ∧
    VpdTest.prove K (fun i => i + 2) (fun i => i + 1) 9 (fun _ => 0) = .ok O ∧
    VpdTest.verify toyPairing K 2 (fun i => i + 2) (VpdTest.commit K (fun i => i + 1) 9).1 O.ans
      O.witness O.witnessa = .ok false := by
  have h : (do
      let K ← VpdTest.keyGen toyPairing 2 7 toySecrets
      let O ← VpdTest.prove K (fun i => i + 2) (fun i => i + 1) 9 (fun _ => 0)
      VpdTest.verify toyPairing K 2 (fun i => i + 2) (VpdTest.commit K (fun i => i + 1) 9).1 O.ans
        O.witness O.witnessa) = .ok false := by decide +kernel
  obtain ⟨K, e1, h⟩ := Outcome.bind_eq_ok' h
  obtain ⟨O, e2, h⟩ := Outcome.bind_eq_ok' h
  exact ⟨K, O, e1, e2, h⟩

/-! ## C28 -/

/-- C28: `input` is the table of `2 ^ d` input values and `mask` the pair `maskr`. -/
theorem C28_input [DecidableEq GT] (E : Pairing G1 G2 GT) (d : ℕ) (hd : 1 ≤ d) (hd' : d < 2 ^ 250)
    (a : ℕ) (ha : a < p) (s : ℕ → ℕ) (hs : ∀ i ≤ d, s i < p) (input mask : ℕ → ℕ)
    (hin : ∀ i < 2 ^ d, input i < p) (rf rf2 Z : ℕ) (t r : ℕ → ℕ) (hr : ∀ i < d, r i < p) :
    ∃ K O, InputVpd.keyGen E d a s = .ok K ∧
      InputVpd.prove K r (InputVpd.commit K input mask rf rf2).coeffs mask rf rf2 Z t = .ok O ∧
      InputVpd.verify E K d r (InputVpd.commit K input mask rf rf2).digest
        (InputVpd.commit K input mask rf rf2).digest2 Z O.ans O.witness O.witnessa = .ok true ∧
      O.ans < p ∧ (O.ans : ZMod p) =
        mle d (fun i => (input i : ZMod p)) (fun i => (r i : ZMod p)) +
          Z * (mask 0 + mask 1 * r (d - 1)) := by
  obtain ⟨K, e, h⟩ := InputVpd.keyGen_good E d a ha s hs
  obtain ⟨O, e1, h1, h2, h3⟩ := InputVpd.complete hd hd' h input mask hin rf rf2 Z t r hr
  exact ⟨K, O, e, e1, h3, h1, h2 (ZMod p) cast_p⟩

example :=
  have hp : 1003 < p := by decide +kernel
  C28_input toyPairing 3 (by decide) (by decide) 7 (by omega) toySecrets
    (toySecrets_lt 3 (by decide)) (fun i => i * i) (fun i => i + 1)
    (fun i hi => lt_trans (Nat.mul_lt_mul'' hi hi) (by omega)) 9 8 11 (fun i => 4 * i)
    (fun i => i + 2) (fun i hi => by omega)

/-! ## C29 -/

/-- C29, first half: honest commitments pass. -/
theorem C29_honest [DecidableEq GT] (E : Pairing G1 G2 GT) (a : ℕ) (s : ℕ → ℕ) :
    (∀ K, (∀ i ≤ 2, s i < p) → VpdR.keyGen E a s = .ok K → ∀ coeffs rf,
      Vpd.checkCommit E K (VpdR.commit K coeffs rf).1 (VpdR.commit K coeffs rf).2 = true) ∧
    (∀ d K, 2 ≤ d → (∀ i ≤ d, s i < p) → VpdTest.keyGen E d a s = .ok K → ∀ coeffs rf,
      Vpd.checkCommit E K (VpdTest.commit K coeffs rf).1 (VpdTest.commit K coeffs rf).2 = true) ∧
    (∀ d K, 1 ≤ d → a < p → (∀ i ≤ d, s i < p) → InputVpd.keyGen E d a s = .ok K →
      ∀ input mask rf rf2, InputVpd.checkCommit E K
        (InputVpd.commit K input mask rf rf2).digest (InputVpd.commit K input mask rf rf2).digesta
        (InputVpd.commit K input mask rf rf2).digest2
        (InputVpd.commit K input mask rf rf2).digest2a = true) := by
  refine ⟨?_, ?_, ?_⟩
  · intro K hs e coeffs rf
    obtain ⟨K', e', h⟩ := VpdR.keyGen_good E a s hs
    obtain rfl : K = K' := by rw [e] at e'; injection e'
    have := h.toGood.checkCommit (VpdR.commit K coeffs rf).1
    simpa only [VpdR.commit, h.key] using this
  · intro d K hd hs e coeffs rf
    obtain ⟨K', e', h⟩ := VpdTest.keyGen_good E d hd a s hs
    obtain rfl : K = K' := by rw [e] at e'; injection e'
    have := h.toGood.checkCommit (VpdTest.commit K coeffs rf).1
    simpa only [VpdTest.commit, h.key] using this
  · intro d K hd ha hs e input mask rf rf2
    obtain ⟨K', e', h⟩ := InputVpd.keyGen_good E d a ha s hs
    obtain rfl : K = K' := by rw [e] at e'; injection e'
    exact InputVpd.checkCommit_honest hd h input mask rf rf2

theorem scaled_of_pairing {E : Pairing G1 G2 GT} (hE : NonDegenerate E) {a : ℕ} {x y : G1}
    (h : E.e E.g2 y = E.e (a • E.g2) x) : y = a • x := by
  rw [← sub_eq_zero]
  apply hE
  rw [map_sub, h, Vpd.knowledge_honest, sub_self]

/-- C29, second half: what passes is an element and its multiple by `a`. -/
theorem C29_accepted [DecidableEq GT] (E : Pairing G1 G2 GT) (hE : NonDegenerate E) (a : ℕ)
    (s : ℕ → ℕ) :
    (∀ K, (∀ i ≤ 2, s i < p) → VpdR.keyGen E a s = .ok K → ∀ x y,
      Vpd.checkCommit E K x y = true → y = a • x) ∧
    (∀ d K, 2 ≤ d → (∀ i ≤ d, s i < p) → VpdTest.keyGen E d a s = .ok K → ∀ x y,
      Vpd.checkCommit E K x y = true → y = a • x) ∧
    (∀ d K, a < p → (∀ i ≤ d, s i < p) → InputVpd.keyGen E d a s = .ok K → ∀ x y x2 y2,
      InputVpd.checkCommit E K x y x2 y2 = true → y = a • x ∧ y2 = a • x2) := by
  refine ⟨?_, ?_, ?_⟩
  · intro K hs e x y hc
    obtain ⟨K', e', h⟩ := VpdR.keyGen_good E a s hs
    obtain rfl : K = K' := by rw [e] at e'; injection e'
    rw [Vpd.checkCommit, beq_iff_eq, h.g2a] at hc
    exact scaled_of_pairing hE hc
  · intro d K hd hs e x y hc
    obtain ⟨K', e', h⟩ := VpdTest.keyGen_good E d hd a s hs
    obtain rfl : K = K' := by rw [e] at e'; injection e'
    rw [Vpd.checkCommit, beq_iff_eq, h.g2a] at hc
    exact scaled_of_pairing hE hc
  · intro d K ha hs e x y x2 y2 hc
    obtain ⟨K', e', h⟩ := InputVpd.keyGen_good E d a ha s hs
    obtain rfl : K = K' := by rw [e] at e'; injection e'
    rw [InputVpd.checkCommit, Bool.and_eq_true, beq_iff_eq, beq_iff_eq, h.g2a] at hc
    exact ⟨scaled_of_pairing hE hc.1, scaled_of_pairing hE hc.2⟩

/-! ## C30 -/

/-- what one accepted opening says -/
theorem opening_eq {E : Pairing G1 G2 GT} (hE : NonDegenerate E) {K : VpdKey G1 G2} {idx : ℕ → ℕ}
    {n : ℕ} {r : ℕ → ℕ} {lhs : G1} {ans : ℕ} {w : ℕ → G1} {s : ℕ → ZMod p}
    (hpub : ∀ i ≤ n, K.pubG2 (idx i) = s i • E.g2) (h : Vpd.FinalEq E K idx n r lhs ans w) :
    lhs - (ans : ZMod p) • E.g1 = ∑ i ∈ range n, (s i - r i) • w i + s n • w n := by
  rw [← sub_eq_zero]
  apply hE
  rw [map_sub, ← Vpd.nsmul_eq, h, hpub n le_rfl, map_add, map_sum, map_smul, map_smul,
    LinearMap.smul_apply, sub_eq_zero]
  congr 1
  refine sum_congr rfl (fun i hi => ?_)
  rw [hpub i (le_of_lt (mem_range.1 hi)), Vpd.nsmul_eq, ← sub_smul, map_smul, map_smul,
    LinearMap.smul_apply]

theorem relation_of_openings {E : Pairing G1 G2 GT} (hE : NonDegenerate E) {K : VpdKey G1 G2}
    {idx : ℕ → ℕ} {n : ℕ} {r : ℕ → ℕ} {lhs : G1} {ans ans' : ℕ} {w w' : ℕ → G1} {s : ℕ → ZMod p}
    (hpub : ∀ i ≤ n, K.pubG2 (idx i) = s i • E.g2) (h : Vpd.FinalEq E K idx n r lhs ans w)
    (h' : Vpd.FinalEq E K idx n r lhs ans' w') :
    ((ans' : ZMod p) - ans) • E.g1 =
      ∑ i ∈ range n, (s i - r i) • (w i - w' i) + s n • (w n - w' n) := by
  have e1 := opening_eq hE hpub h
  have e2 := opening_eq hE hpub h'
  have : ((ans' : ZMod p) - ans) • E.g1 =
      (lhs - (ans : ZMod p) • E.g1) - (lhs - (ans' : ZMod p) • E.g1) := by module
  rw [this, e1, e2, smul_sub, sum_congr rfl (fun i _ => smul_sub _ (w i) (w' i)),
    sum_sub_distrib]
  abel

/-- the relation between the secrets that two openings of one commitment at one point yield -/
def Relation (g1 : G1) (n : ℕ) (s : ℕ → ℕ) (r : ℕ → ℕ) (ans ans' : ℕ) (w w' : ℕ → G1) : Prop :=
  ((ans' : ZMod p) - ans) • g1 =
    ∑ i ∈ range n, ((s i : ZMod p) - r i) • (w i - w' i) + (s n : ZMod p) • (w n - w' n)

theorem verifyR_final [DecidableEq GT] {E : Pairing G1 G2 GT} {a : ℕ} {s : ℕ → ℕ}
    {K : VpdKey G1 G2} (h : VpdR.Good E a s K) {r : ℕ → ℕ} (hr : ∀ i < 2, r i < p) {digest : G1}
    {ans : ℕ} (ha : ans < p) {w wa : ℕ → G1} (hv : VpdR.verify E K r digest ans w wa = .ok true) :
    Vpd.FinalEq E K id 2 r digest ans w ∧ Vpd.knowledgeCheck E K 2 w wa = true := by
  obtain ⟨b, e, hb⟩ := Vpd.finalCheck_eq E K id 2 r digest ans w h.g1Pre h.g2Pre
    (fun i hi => Vpd.lt_P (hr i hi)) (Vpd.lt_P ha)
  unfold VpdR.verify at hv
  simp only [] at hv
  rw [e, Outcome.ok_bind] at hv
  injection hv with hv
  rw [Bool.and_eq_true] at hv
  exact ⟨hb.1 hv.2, hv.1⟩

theorem verifyTest_final [DecidableEq GT] {E : Pairing G1 G2 GT} {d a : ℕ} {s : ℕ → ZMod p}
    {K : VpdKey G1 G2} (h : VpdTest.Good E d a s K) {r : ℕ → ℕ} (hr : ∀ i < d, r i < p)
    {digest : G1} {ans : ℕ} {w wa : ℕ → G1}
    (hv : VpdTest.verify E K d r digest ans w wa = .ok true) :
    Vpd.FinalEq E K (fun i => 2 * i + 1) d r digest (ans % p) w ∧
      Vpd.knowledgeCheck E K (d + 1) w wa = true := by
  obtain ⟨b, e, hb⟩ := Vpd.finalCheck_eq E K (fun i => 2 * i + 1) d r digest (ans % p) w h.g1Pre
    h.g2Pre (fun i hi => Vpd.lt_P (hr i hi)) (Vpd.mod_lt_P ans)
  unfold VpdTest.verify at hv
  simp only [] at hv
  rw [e, Outcome.ok_bind] at hv
  injection hv with hv
  rw [Bool.and_eq_true] at hv
  exact ⟨hb.1 hv.2, hv.1⟩

theorem verifyInput_final [DecidableEq GT] {E : Pairing G1 G2 GT} {d a : ℕ} {s : ℕ → ZMod p}
    {K : InputVpd.Key G1 G2} (h : InputVpd.Good E d a s K) {r : ℕ → ℕ} (hr : ∀ i < d, r i < p)
    {digest digest2 : G1} {Z ans : ℕ} (ha : ans < p) {w wa : ℕ → G1}
    (hv : InputVpd.verify E K d r digest digest2 Z ans w wa = .ok true) :
    Vpd.FinalEq E K.toVpdKey id d r (digest + Z • digest2) ans w ∧
      Vpd.knowledgeCheck E K.toVpdKey d w wa = true := by
  obtain ⟨b, e, hb⟩ := Vpd.finalCheck_eq E K.toVpdKey id d r (digest + Z • digest2) ans w h.g1Pre
    h.g2Pre (fun i hi => Vpd.lt_P (hr i hi)) (Vpd.lt_P ha)
  unfold InputVpd.verify at hv
  simp only [] at hv
  rw [e, Outcome.ok_bind] at hv
  injection hv with hv
  rw [Bool.and_eq_true] at hv
  exact ⟨hb.1 hv.2, hv.1⟩

theorem C30_maskR [DecidableEq GT] (E : Pairing G1 G2 GT) (hE : NonDegenerate E) (a : ℕ)
    (s : ℕ → ℕ) (hs : ∀ i ≤ 2, s i < p) (K : VpdKey G1 G2) (hK : VpdR.keyGen E a s = .ok K)
    (r : ℕ → ℕ) (hr : ∀ i < 2, r i < p) (digest : G1) (ans ans' : ℕ) (ha : ans < p)
    (ha' : ans' < p) (w wa w' wa' : ℕ → G1)
    (h : VpdR.verify E K r digest ans w wa = .ok true)
    (h' : VpdR.verify E K r digest ans' w' wa' = .ok true) :
    Relation E.g1 2 s r ans ans' w w' := by
  obtain ⟨K', e', hg⟩ := VpdR.keyGen_good E a s hs
  obtain rfl : K = K' := by rw [hK] at e'; injection e'
  exact relation_of_openings (s := fun i => (s i : ZMod p)) hE
    (fun i hi => by rw [id_eq, hg.pubG2 i hi]) (verifyR_final hg hr ha h).1
    (verifyR_final hg hr ha' h').1

theorem C30_sumMask [DecidableEq GT] (E : Pairing G1 G2 GT) (hE : NonDegenerate E) (d : ℕ)
    (hd : 2 ≤ d) (a : ℕ) (s : ℕ → ℕ) (hs : ∀ i ≤ d, s i < p) (K : VpdKey G1 G2)
    (hK : VpdTest.keyGen E d a s = .ok K) (r : ℕ → ℕ) (hr : ∀ i < d, r i < p) (digest : G1)
    (ans ans' : ℕ) (w wa w' wa' : ℕ → G1)
    (h : VpdTest.verify E K d r digest ans w wa = .ok true)
    (h' : VpdTest.verify E K d r digest ans' w' wa' = .ok true) :
    Relation E.g1 d s r ans ans' w w' := by
  obtain ⟨K', e', hg⟩ := VpdTest.keyGen_good E d hd a s hs
  obtain rfl : K = K' := by rw [hK] at e'; injection e'
  have := relation_of_openings (s := fun i => (s i : ZMod p)) hE hg.pubG2
    (verifyTest_final hg hr h).1 (verifyTest_final hg hr h').1
  rwa [cast_mod_p cast_p, cast_mod_p cast_p] at this

theorem C30_input [DecidableEq GT] (E : Pairing G1 G2 GT) (hE : NonDegenerate E) (d : ℕ) (a : ℕ)
    (haa : a < p) (s : ℕ → ℕ) (hs : ∀ i ≤ d, s i < p) (K : InputVpd.Key G1 G2)
    (hK : InputVpd.keyGen E d a s = .ok K) (r : ℕ → ℕ) (hr : ∀ i < d, r i < p)
    (digest digest2 : G1) (Z : ℕ) (ans ans' : ℕ) (ha : ans < p) (ha' : ans' < p)
    (w wa w' wa' : ℕ → G1)
    (h : InputVpd.verify E K d r digest digest2 Z ans w wa = .ok true)
    (h' : InputVpd.verify E K d r digest digest2 Z ans' w' wa' = .ok true) :
    Relation E.g1 d s r ans ans' w w' := by
  obtain ⟨K', e', hg⟩ := InputVpd.keyGen_good E d a haa s hs
  obtain rfl : K = K' := by rw [hK] at e'; injection e'
  exact relation_of_openings (s := fun i => (s i : ZMod p)) hE
    (fun i hi => by rw [id_eq, hg.pubG2 i hi]) (verifyInput_final hg hr ha h).1
    (verifyInput_final hg hr ha' h').1

/-- The relation is not trivial: the answers differ and the generator is not zero, so two of the
witnesses differ, one of them with a non-zero factor. -/
theorem C30_nontrivial (g1 : G1) (hg : g1 ≠ 0) (n : ℕ) (s r : ℕ → ℕ) (ans ans' : ℕ) (ha : ans < p)
    (ha' : ans' < p) (hne : ans ≠ ans') (w w' : ℕ → G1) (h : Relation g1 n s r ans ans' w w') :
    (∃ i < n, (s i : ZMod p) ≠ r i ∧ w i ≠ w' i) ∨ ((s n : ZMod p) ≠ 0 ∧ w n ≠ w' n) := by
  by_contra hcon
  push Not at hcon
  obtain ⟨h1, h2⟩ := hcon
  have hz : ((ans' : ZMod p) - ans) • g1 = 0 := by
    rw [h, sum_eq_zero, zero_add]
    · by_cases hs : (s n : ZMod p) = 0
      · rw [hs, zero_smul]
      · rw [h2 hs, sub_self, smul_zero]
    · intro i hi
      by_cases hs : (s i : ZMod p) = r i
      · rw [hs, sub_self, zero_smul]
      · rw [h1 i (mem_range.1 hi) hs, sub_self, smul_zero]
  have hunit : (ans' : ZMod p) - ans ≠ 0 := by
    intro h0
    rw [sub_eq_zero, ZMod.natCast_eq_natCast_iff'] at h0
    rw [Nat.mod_eq_of_lt ha, Nat.mod_eq_of_lt ha'] at h0
    exact hne h0.symm
  exact hg ((smul_eq_zero.1 hz).resolve_left hunit)

/-! ## C31 -/

/-- C31 for `pre_exp`, `g1_exp`: scalars below `2 ^ 512` and `2 ^ 269` -/
theorem C31_exp {G : Type} [AddCommGroup G] (g : G) (n : ℕ) :
    (n < 2 ^ 512 → Vpd.preExp (Vpd.precompute g) n = .ok (n • g)) ∧
    (2 ^ 512 ≤ n → Vpd.preExp (Vpd.precompute g) n = .undefined) ∧
    (n < 2 ^ 269 → InputVpd.g1Exp (InputVpd.babySteps g) n = .ok (n • g)) :=
  ⟨Vpd.preExp_eq g n, Vpd.preExp_undefined g n, InputVpd.g1Exp_eq g n⟩

/-- C31 for `multi_scalar_calc` on group `index` of a key: the scalars beyond `len` are zero, as the
callers arrange. -/
theorem C31_multiScalar [DecidableEq GT] (E : Pairing G1 G2 GT) (d a : ℕ) (ha : a < p) (s : ℕ → ℕ)
    (hs : ∀ i ≤ d, s i < p) (K : InputVpd.Key G1 G2) (hK : InputVpd.keyGen E d a s = .ok K)
    (index len : ℕ) (hlen : len ≤ 2 ^ d) (scalars : ℕ → ℕ)
    (h0 : ∀ k < 8, len ≤ index * 8 + k → scalars k = 0) :
    InputVpd.multiScalarCalc K index len scalars =
      ∑ k ∈ range 8, scalars k • K.pubG1 (index * 8 + k) := by
  obtain ⟨K', e', hg⟩ := InputVpd.keyGen_good E d a ha s hs
  obtain rfl : K = K' := by rw [hK] at e'; injection e'
  rw [InputVpd.multiScalarCalc_eq K d index len scalars (hg.table index) hlen h0]
  refine sum_congr rfl (fun k hk => ?_)
  unfold InputVpd.member
  split_ifs with h
  · rw [h0 k (mem_range.1 hk) (le_trans hlen h), zero_nsmul, zero_nsmul]
  · rfl

/-! ## C32 -/

theorem coeffs_unique {R : Type} [CommRing R] (n : ℕ) (c c' : ℕ → R)
    (h : ∀ b < 2 ^ n, coeffPoly n c (corner b) = coeffPoly n c' (corner b)) :
    ∀ j < 2 ^ n, c j = c' j := by
  induction n generalizing c c' with
  | zero =>
    intro j hj
    obtain rfl : j = 0 := by simpa using hj
    simpa [coeffPoly, monomial] using h 0 (by simp)
  | succ n ih =>
    have hlow : ∀ b < 2 ^ n, ∀ c : ℕ → R, coeffPoly (n + 1) c (corner b) =
        coeffPoly n c (corner b) := by
      intro b hb c
      rw [InputVpd.coeffPoly_succ, corner, Nat.testBit_lt_two_pow hb, if_neg (by decide), zero_mul,
        add_zero]
    have hloc : ∀ b < 2 ^ n, ∀ c : ℕ → R, coeffPoly n c (corner (2 ^ n + b)) =
        coeffPoly n c (corner b) := by
      intro b hb c
      unfold coeffPoly monomial corner
      refine sum_congr rfl (fun j _ => ?_)
      congr 1
      exact prod_congr rfl (fun i hi => by rw [Nat.testBit_two_pow_add_gt (mem_range.1 hi)])
    have hhigh : ∀ b < 2 ^ n, ∀ c : ℕ → R, coeffPoly (n + 1) c (corner (2 ^ n + b)) =
        coeffPoly n c (corner b) + coeffPoly n (fun j => c (2 ^ n + j)) (corner b) := by
      intro b hb c
      rw [InputVpd.coeffPoly_succ, hloc b hb, hloc b hb, corner, Nat.testBit_two_pow_add_eq,
        Nat.testBit_lt_two_pow hb]
      simp
    have hpow : 2 ^ (n + 1) = 2 ^ n + 2 ^ n := by rw [pow_succ]; omega
    have h1 : ∀ b < 2 ^ n, coeffPoly n c (corner b) = coeffPoly n c' (corner b) := fun b hb => by
      rw [← hlow b hb, ← hlow b hb]; exact h b (by omega)
    have h2 := ih c c' h1
    have h3 := ih (fun j => c (2 ^ n + j)) (fun j => c' (2 ^ n + j)) (fun b hb => by
      have := h (2 ^ n + b) (by omega)
      rw [hhigh b hb, hhigh b hb, h1 b hb] at this
      exact add_left_cancel this)
    intro j hj
    rcases Nat.lt_or_ge j (2 ^ n) with hlt | hge
    · exact h2 j hlt
    · have := h3 (j - 2 ^ n) (by omega)
      simpa only [Nat.add_sub_cancel' hge] using this

/-- C32: the resulting coefficients are reduced, the polynomial takes the value `V b` at every
corner `b`, it agrees with the multilinear extension everywhere, and no other coefficients do. -/
theorem C32_preInput (n : ℕ) (hn : 1 ≤ n) (V : ℕ → ℕ) (hV : ∀ i < 2 ^ n, V i < p) :
    (∀ i < 2 ^ n, InputVpd.preInput n V i < p) ∧
    (∀ b < 2 ^ n, coeffPoly n (fun i => (InputVpd.preInput n V i : ZMod p)) (corner b) = V b) ∧
    (∀ x, coeffPoly n (fun i => (InputVpd.preInput n V i : ZMod p)) x =
      mle n (fun i => (V i : ZMod p)) x) ∧
    (∀ c : ℕ → ZMod p, (∀ b < 2 ^ n, coeffPoly n c (corner b) = V b) →
      ∀ i < 2 ^ n, c i = InputVpd.preInput n V i) := by
  obtain ⟨h1, -, h3⟩ := InputVpd.preInput_spec n hn V hV
  have hc : ∀ b < 2 ^ n, coeffPoly n (fun i => (InputVpd.preInput n V i : ZMod p)) (corner b) =
      V b := fun b hb => by rw [h3 (ZMod p) cast_p, mle_corner n _ b hb]
  refine ⟨h1, hc, h3 (ZMod p) cast_p, ?_⟩
  intro c h i hi
  exact coeffs_unique n c (fun i => (InputVpd.preInput n V i : ZMod p))
    (fun b hb => by rw [h b hb, hc b hb]) i hi

/-! ## C43: the party that runs `KeyGen` -/

/-- an opening made from the secrets alone: every witness but the last is zero -/
def forged (g1 : G1) (n : ℕ) (s : ℕ → ℕ) (lhs : G1) (ans : ℕ) : ℕ → G1 :=
  fun i => if i = n then (s n : ZMod p)⁻¹ • (lhs - (ans : ZMod p) • g1) else 0

theorem forged_final {E : Pairing G1 G2 GT} {K : VpdKey G1 G2} {idx : ℕ → ℕ} {n : ℕ} {r : ℕ → ℕ}
    {lhs : G1} {ans : ℕ} {s : ℕ → ℕ} (hs : (s n : ZMod p) ≠ 0)
    (hpub : K.pubG2 (idx n) = (s n : ZMod p) • E.g2) :
    Vpd.FinalEq E K idx n r lhs ans (forged E.g1 n s lhs ans) := by
  unfold Vpd.FinalEq
  rw [sum_eq_zero, zero_add, forged, if_pos rfl, hpub, map_smul, map_smul, LinearMap.smul_apply,
    smul_smul, inv_mul_cancel₀ hs, one_smul, Vpd.nsmul_eq]
  intro i hi
  rw [forged, if_neg (by have := mem_range.1 hi; omega), map_zero]

/-- C43: whoever knows the secrets drawn by `KeyGen` (in this code base the prover calls it) can
open every commitment of the three schemes at every point to every answer, whatever was committed. -/
theorem C43_trapdoor [DecidableEq GT] (E : Pairing G1 G2 GT) (a : ℕ) (s : ℕ → ℕ) :
    (∀ K, (∀ i ≤ 2, s i < p) → 0 < s 2 → VpdR.keyGen E a s = .ok K →
      ∀ r : ℕ → ℕ, (∀ i < 2, r i < p) → ∀ (digest : G1) (ans : ℕ), ans < p →
      ∃ w wa, VpdR.verify E K r digest ans w wa = .ok true) ∧
    (∀ d K, 2 ≤ d → (∀ i ≤ d, s i < p) → 0 < s d → VpdTest.keyGen E d a s = .ok K →
      ∀ r : ℕ → ℕ, (∀ i < d, r i < p) → ∀ (digest : G1) (ans : ℕ),
      ∃ w wa, VpdTest.verify E K d r digest ans w wa = .ok true) ∧
    (∀ d K, a < p → (∀ i ≤ d, s i < p) → 0 < s d → InputVpd.keyGen E d a s = .ok K →
      ∀ r : ℕ → ℕ, (∀ i < d, r i < p) → ∀ (digest digest2 : G1) (Z ans : ℕ), ans < p →
      ∃ w wa, InputVpd.verify E K d r digest digest2 Z ans w wa = .ok true) := by
  have hne : ∀ n, s n < p → 0 < s n → (s n : ZMod p) ≠ 0 := by
    intro n h1 h2 h0
    rw [ZMod.natCast_eq_zero_iff] at h0
    exact absurd (Nat.le_of_dvd h2 h0) (by omega)
  refine ⟨?_, ?_, ?_⟩
  · intro K hs h0 e r hr digest ans ha
    obtain ⟨K', e', h⟩ := VpdR.keyGen_good E a s hs
    obtain rfl : K = K' := by rw [e] at e'; injection e'
    refine ⟨forged E.g1 2 s digest ans, fun i => K.a • forged E.g1 2 s digest ans i, ?_⟩
    obtain ⟨b, eb, hb⟩ := Vpd.finalCheck_eq E K id 2 r digest ans (forged E.g1 2 s digest ans)
      h.g1Pre h.g2Pre (fun i hi => Vpd.lt_P (hr i hi)) (Vpd.lt_P ha)
    have hb' := hb.2 (forged_final (hne 2 (hs 2 le_rfl) h0) (by rw [id_eq, h.pubG2 2 le_rfl]))
    unfold VpdR.verify
    simp only []
    rw [eb, Outcome.ok_bind, hb', h.toGood.knowledge]
    rfl
  · intro d K hd hs h0 e r hr digest ans
    obtain ⟨K', e', h⟩ := VpdTest.keyGen_good E d hd a s hs
    obtain rfl : K = K' := by rw [e] at e'; injection e'
    refine ⟨forged E.g1 d s digest (ans % p), fun i => K.a • forged E.g1 d s digest (ans % p) i, ?_⟩
    obtain ⟨b, eb, hb⟩ := Vpd.finalCheck_eq E K (fun i => 2 * i + 1) d r digest (ans % p)
      (forged E.g1 d s digest (ans % p)) h.g1Pre h.g2Pre (fun i hi => Vpd.lt_P (hr i hi))
      (Vpd.mod_lt_P ans)
    have hb' := hb.2 (forged_final (hne d (hs d le_rfl) h0) (h.pubG2 d le_rfl))
    unfold VpdTest.verify
    simp only []
    rw [eb, Outcome.ok_bind, hb', h.toGood.knowledge]
    rfl
  · intro d K ha hs h0 e r hr digest digest2 Z ans hans
    obtain ⟨K', e', h⟩ := InputVpd.keyGen_good E d a ha s hs
    obtain rfl : K = K' := by rw [e] at e'; injection e'
    refine ⟨forged E.g1 d s (digest + Z • digest2) ans,
      fun i => K.a • forged E.g1 d s (digest + Z • digest2) ans i, ?_⟩
    obtain ⟨b, eb, hb⟩ := Vpd.finalCheck_eq E K.toVpdKey id d r (digest + Z • digest2) ans
      (forged E.g1 d s (digest + Z • digest2) ans) h.g1Pre h.g2Pre
      (fun i hi => Vpd.lt_P (hr i hi)) (Vpd.lt_P hans)
    have hb' := hb.2 (forged_final (hne d (hs d le_rfl) h0) (by rw [id_eq, h.pubG2 d le_rfl]))
    unfold InputVpd.verify
    simp only []
    rw [eb, Outcome.ok_bind, hb', h.toGood.knowledge]
    rfl

/-! ## C44: the knowledge checks inside `verify` -/

/-- C44: in an accepted opening every witness comes with its multiple by `a`, except the last one in
`vpdR` and `input_vpd`. -/
theorem C44_knowledge_partial [DecidableEq GT] (E : Pairing G1 G2 GT) (hE : NonDegenerate E) (a : ℕ)
    (s : ℕ → ℕ) :
    (∀ K, (∀ i ≤ 2, s i < p) → VpdR.keyGen E a s = .ok K →
      ∀ r : ℕ → ℕ, (∀ i < 2, r i < p) → ∀ (digest : G1) (ans : ℕ), ans < p →
      ∀ w wa, VpdR.verify E K r digest ans w wa = .ok true → ∀ i < 2, wa i = a • w i) ∧
    (∀ d K, 2 ≤ d → (∀ i ≤ d, s i < p) → VpdTest.keyGen E d a s = .ok K →
      ∀ r : ℕ → ℕ, (∀ i < d, r i < p) → ∀ (digest : G1) (ans : ℕ),
      ∀ w wa, VpdTest.verify E K d r digest ans w wa = .ok true → ∀ i ≤ d, wa i = a • w i) ∧
    (∀ d K, a < p → (∀ i ≤ d, s i < p) → InputVpd.keyGen E d a s = .ok K →
      ∀ r : ℕ → ℕ, (∀ i < d, r i < p) → ∀ (digest digest2 : G1) (Z ans : ℕ), ans < p →
      ∀ w wa, InputVpd.verify E K d r digest digest2 Z ans w wa = .ok true →
        ∀ i < d, wa i = a • w i) := by
  refine ⟨?_, ?_, ?_⟩
  · intro K hs e r hr digest ans ha w wa hv i hi
    obtain ⟨K', e', h⟩ := VpdR.keyGen_good E a s hs
    obtain rfl : K = K' := by rw [e] at e'; injection e'
    have := (Vpd.knowledgeCheck_iff E K 2 w wa).1 (verifyR_final h hr ha hv).2 i hi
    rw [h.g2a] at this
    exact scaled_of_pairing hE this
  · intro d K hd hs e r hr digest ans w wa hv i hi
    obtain ⟨K', e', h⟩ := VpdTest.keyGen_good E d hd a s hs
    obtain rfl : K = K' := by rw [e] at e'; injection e'
    have := (Vpd.knowledgeCheck_iff E K (d + 1) w wa).1 (verifyTest_final h hr hv).2 i (by omega)
    rw [h.g2a] at this
    exact scaled_of_pairing hE this
  · intro d K ha hs e r hr digest digest2 Z ans hans w wa hv i hi
    obtain ⟨K', e', h⟩ := InputVpd.keyGen_good E d a ha s hs
    obtain rfl : K = K' := by rw [e] at e'; injection e'
    have := (Vpd.knowledgeCheck_iff E K.toVpdKey d w wa).1 (verifyInput_final h hr hans hv).2 i hi
    rw [h.g2a] at this
    exact scaled_of_pairing hE this

/-- C44 fails for the last witness of `vpdR` and `input_vpd`: its companion is ignored. -/
theorem C44_last_unchecked [DecidableEq GT] (E : Pairing G1 G2 GT) (K : VpdKey G1 G2)
    (K' : InputVpd.Key G1 G2) (d : ℕ) (r : ℕ → ℕ) (digest digest2 : G1) (Z ans : ℕ)
    (w wa : ℕ → G1) (x : G1) :
    VpdR.verify E K r digest ans w (Function.update wa 2 x) =
      VpdR.verify E K r digest ans w wa ∧
    InputVpd.verify E K' d r digest digest2 Z ans w (Function.update wa d x) =
      InputVpd.verify E K' d r digest digest2 Z ans w wa := by
  have key : ∀ (K : VpdKey G1 G2) n, Vpd.knowledgeCheck E K n w (Function.update wa n x) =
      Vpd.knowledgeCheck E K n w wa := by
    intro K n
    refine Bool.eq_iff_iff.2 ?_
    rw [Vpd.knowledgeCheck_iff, Vpd.knowledgeCheck_iff]
    refine forall₂_congr (fun i hi => ?_)
    rw [Function.update_of_ne (by omega)]
  unfold VpdR.verify InputVpd.verify
  rw [key, key]
  exact ⟨rfl, rfl⟩

/-! ## the hypotheses above are met -/

section
variable (r : ℕ → ℕ) (hr : ∀ i < 3, r i < p)
include hr

/-- keys exist, and (C43) two different answers for one commitment and one point are accepted, so
that C30 and C44 speak about something -/
example : ∃ K, VpdTest.keyGen toyPairing 3 7 toySecrets = .ok K ∧ ∃ w wa w' wa',
    VpdTest.verify toyPairing K 3 r 12 4 w wa = .ok true ∧
    VpdTest.verify toyPairing K 3 r 12 5 w' wa' = .ok true ∧
    Relation (1 : ZMod p) 3 toySecrets r 4 5 w w' ∧ wa 3 = 7 • w 3 := by
  have hs := toySecrets_lt 3 (by decide)
  obtain ⟨K, e, -⟩ := VpdTest.keyGen_good toyPairing 3 (by decide) 7 toySecrets hs
  have key := (C43_trapdoor toyPairing 7 toySecrets).2.1 3 K (by decide) hs (by decide) e r hr 12
  obtain ⟨w, wa, h1⟩ := key 4
  obtain ⟨w', wa', h2⟩ := key 5
  exact ⟨K, e, w, wa, w', wa', h1, h2,
    C30_sumMask toyPairing toy_nonDegenerate 3 (by decide) 7 toySecrets hs K e r hr 12 4 5 w wa w'
      wa' h1 h2,
    (C44_knowledge_partial toyPairing toy_nonDegenerate 7 toySecrets).2.1 3 K (by decide) hs e r hr
      12 4 w wa h1 3 le_rfl⟩

example : ∃ K, InputVpd.keyGen toyPairing 3 7 toySecrets = .ok K ∧ ∃ w wa w' wa',
    InputVpd.verify toyPairing K 3 r 12 13 6 4 w wa = .ok true ∧
    InputVpd.verify toyPairing K 3 r 12 13 6 5 w' wa' = .ok true ∧
    Relation (1 : ZMod p) 3 toySecrets r 4 5 w w' := by
  have hp : 1003 < p := by decide +kernel
  have hs := toySecrets_lt 3 (by decide)
  obtain ⟨K, e, -⟩ := InputVpd.keyGen_good toyPairing 3 7 (by omega) toySecrets hs
  have key := (C43_trapdoor toyPairing 7 toySecrets).2.2 3 K (by omega) hs (by decide) e r hr 12 13 6
  obtain ⟨w, wa, h1⟩ := key 4 (by omega)
  obtain ⟨w', wa', h2⟩ := key 5 (by omega)
  exact ⟨K, e, w, wa, w', wa', h1, h2,
    C30_input toyPairing toy_nonDegenerate 3 7 (by omega) toySecrets hs K e r hr 12 13 6 4 5
      (by omega) (by omega) w wa w' wa' h1 h2⟩
end

example : (∀ i < 2 ^ 2, InputVpd.preInput 2 (fun i => 10 + i * i) i < p) :=
  (C32_preInput 2 (by decide) (fun i => 10 + i * i) (fun i hi => by
    have hp : 1003 < p := by decide +kernel
    have : i * i < 16 := Nat.mul_lt_mul'' hi hi
    show 10 + i * i < p
    omega)).1

/-- and on this table the transformation really changes something:
`10, 11, 14, 19` becomes `10 + x₀ + 4 x₁ + 4 x₀ x₁` -/
example : (List.range 4).map (InputVpd.preInput 2 (fun i => 10 + i * i)) = [10, 1, 4, 4] := by
  decide +kernel

end Libra.Props
