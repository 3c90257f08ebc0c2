import Verif.Proofs.MultiExp
import Verif.Proofs.VpdTest

namespace Libra
open Spec Finset Vpd VpdR

namespace InputVpd
variable {G1 G2 GT : Type} [AddCommGroup G1] [AddCommGroup G2] [AddCommGroup GT]
  [Module (ZMod p) G1] [Module (ZMod p) G2] [Module (ZMod p) GT]

theorem lt_269 {n : ℕ} (h : n < p) : n < 2 ^ 269 :=
  lt_trans h (lt_trans p_lt (Nat.pow_lt_pow_right (by decide) (by decide)))

/-! ## key generation -/

/-- what the double loop of `KeyGen` has established after the monomials below `m` -/
def PubInv (g : G1) (n m : ℕ) (s : ℕ → ZMod p) (st : (ℕ → ℕ) × (ℕ → G1)) : Prop :=
  ∀ j < m, st.1 j < p ∧ (st.1 j : ZMod p) = monomial n j s ∧ st.2 j = monomial n j s • g

theorem pubInner (g : G1) (i : ℕ) (s : ℕ → ℕ) (st : (ℕ → ℕ) × (ℕ → G1))
    (h : PubInv g i (2 ^ i) (fun k => (s k : ZMod p)) st) :
    ∃ st', loopM (2 ^ (i + 1) - 2 ^ i) (fun k (st : (ℕ → ℕ) × (ℕ → G1)) => do
        let j := 2 ^ i + k
        let ex := Function.update st.1 j ((s i * st.1 (j - 2 ^ i)) % p)
        let x ← g1Exp (babySteps g) (ex j)
        pure (ex, Function.update st.2 j x)) st = .ok st' ∧
      PubInv g (i + 1) (2 ^ (i + 1)) (fun k => (s k : ZMod p)) st' := by
  have hp2 : 2 ^ (i + 1) = 2 ^ i + 2 ^ i := by rw [pow_succ]; omega
  obtain ⟨st', e, h'⟩ := loopM_ok (n := 2 ^ (i + 1) - 2 ^ i) (s := st)
    (b := fun k (st : (ℕ → ℕ) × (ℕ → G1)) => do
        let j := 2 ^ i + k
        let ex := Function.update st.1 j ((s i * st.1 (j - 2 ^ i)) % p)
        let x ← g1Exp (babySteps g) (ex j)
        pure (ex, Function.update st.2 j x))
    (fun n (st : (ℕ → ℕ) × (ℕ → G1)) =>
      PubInv g (i + 1) (2 ^ i + n) (fun k => (s k : ZMod p)) st)
    (by
      intro j hj
      rw [Nat.add_zero] at hj
      rw [monomial_lt i j hj]
      exact h j hj)
    (by
      intro k hk st hst
      have hlt : (s i * st.1 (2 ^ i + k - 2 ^ i)) % p < p := Nat.mod_lt _ (by decide +kernel)
      refine ⟨(Function.update st.1 (2 ^ i + k) ((s i * st.1 (2 ^ i + k - 2 ^ i)) % p),
        Function.update st.2 (2 ^ i + k) (((s i * st.1 (2 ^ i + k - 2 ^ i)) % p) • g)), ?_, ?_⟩
      · simp only [Function.update_self]
        rw [g1Exp_eq g _ (lt_269 hlt)]
        rfl
      · intro j hj
        rcases Nat.lt_or_ge j (2 ^ i + k) with h1 | h1
        · simp only []
          rw [Function.update_of_ne (by omega), Function.update_of_ne (by omega)]
          exact hst j h1
        · obtain rfl : j = 2 ^ i + k := by omega
          simp only [Function.update_self]
          rw [Nat.add_sub_cancel_left]
          have hk' : k < 2 ^ i := by omega
          obtain ⟨_, hc, _⟩ := hst k (by omega)
          have hm : monomial (i + 1) (2 ^ i + k) (fun k => (s k : ZMod p)) =
              ((s i * st.1 k : ℕ) : ZMod p) := by
            rw [monomial_ge i k hk', Nat.cast_mul, hc, monomial_lt i k hk']
          refine ⟨Nat.mod_lt _ (by decide +kernel), ?_, ?_⟩
          · rw [cast_mod_p cast_p, hm]
          · rw [nsmul_eq, cast_mod_p cast_p, hm])
  refine ⟨st', e, ?_⟩
  have : 2 ^ i + (2 ^ (i + 1) - 2 ^ i) = 2 ^ (i + 1) :=
    Nat.add_sub_cancel' (Nat.pow_le_pow_right (by decide) (by omega))
  rwa [this] at h'

theorem pubLoop_ok (g : G1) (d : ℕ) (s : ℕ → ℕ) (st : (ℕ → ℕ) × (ℕ → G1))
    (h0 : st.1 0 = 1) (h1 : st.2 0 = g) :
    ∃ st', pubLoop (babySteps g) d s st = .ok st' ∧
      PubInv g d (2 ^ d) (fun k => (s k : ZMod p)) st' := by
  refine loopM_ok (n := d) (s := st) (fun n (st : (ℕ → ℕ) × (ℕ → G1)) =>
    PubInv g n (2 ^ n) (fun k => (s k : ZMod p)) st) ?_ ?_
  · intro j hj
    obtain rfl : j = 0 := by simpa using hj
    rw [h0, h1, monomial_zero]
    exact ⟨by decide +kernel, by norm_num, by rw [one_smul]⟩
  · intro i _ st hst
    exact pubInner g i s st hst

theorem pub2Loop_ok (E : Pairing G1 G2 GT) (d : ℕ) (s : ℕ → ℕ) (hs : ∀ i ≤ d, s i < p)
    (pub : ℕ → G2) : ∃ pub', pub2Loop (precompute E.g2) d s pub = .ok pub' ∧
      ∀ i ≤ d, pub' i = (s i : ZMod p) • E.g2 := by
  obtain ⟨pub', e, h⟩ := loopM_ok (n := d + 1) (s := pub) (b := fun i (pub : ℕ → G2) => do
      let y ← preExp (precompute E.g2) (s i)
      pure (Function.update pub i y))
    (fun n (pub : ℕ → G2) => ∀ i < n, pub i = (s i : ZMod p) • E.g2)
    (fun i hi => absurd hi (Nat.not_lt_zero i))
    (by
      intro i hi pub hpub
      refine ⟨Function.update pub i (s i • E.g2), ?_, ?_⟩
      · rw [preExp_eq _ _ (lt_P (hs i (by omega)))]; rfl
      · intro j hj
        rcases Nat.lt_or_ge j i with h | h
        · rw [Function.update_of_ne (by omega), hpub j h]
        · obtain rfl : j = i := by omega
          rw [Function.update_self, nsmul_eq])
  exact ⟨pub', e, fun i hi => h i (by omega)⟩

/-- what the key material of `input_vpd` satisfies -/
structure Good (E : Pairing G1 G2 GT) (d a : ℕ) (s : ℕ → ZMod p) (K : Key G1 G2) : Prop
    extends Vpd.Good E a K.toVpdKey where
  numOfVar : K.numOfVar = d
  pub : ∀ j < 2 ^ d, K.pubG1 j = monomial d j s • E.g1
  blind : K.pubG1 (2 ^ d) = s d • E.g1
  pubG2 : ∀ i ≤ d, K.pubG2 i = s i • E.g2
  table : ∀ i c, 3 ≤ c → c < 2 ^ w → K.multiScalar i (c - 3) =
    ∑ k ∈ range w, if c.testBit k then member d K.pubG1 i k else 0

theorem keyGen_good (E : Pairing G1 G2 GT) (d a : ℕ) (ha : a < p) (s : ℕ → ℕ)
    (hs : ∀ i ≤ d, s i < p) :
    ∃ K, keyGen E d a s = .ok K ∧ Good E d a (fun i => (s i : ZMod p)) K := by
  obtain ⟨st, e1, h1⟩ := pubLoop_ok E.g1 d s
    (Function.update (fun _ => 0) 0 1, Function.update (fun _ => 0) 0 E.g1) (by simp) (by simp)
  obtain ⟨pub2, e2, h2⟩ := pub2Loop_ok E d s hs (Function.update (fun _ => 0) 0 E.g2)
  have e : keyGen E d a s = .ok
      { numOfVar := d, a := a, g1Pre := precompute E.g1, g2Pre := precompute E.g2,
        g2a := a • E.g2, pubG1 := Function.update st.2 (2 ^ d) (s d • E.g1), pubG2 := pub2,
        multiScalar := fun i => multiScalarTable d
          (Function.update st.2 (2 ^ d) (s d • E.g1)) i } := by
    unfold keyGen
    simp only []
    rw [preExp_eq _ _ (lt_P ha), Outcome.ok_bind, e1, Outcome.ok_bind,
      preExp_eq _ _ (lt_P (hs d le_rfl)), Outcome.ok_bind, e2, Outcome.ok_bind]
    rfl
  refine ⟨_, e, ⟨⟨rfl, rfl, rfl, rfl⟩, rfl, ?_, ?_, h2, ?_⟩⟩
  · intro j hj
    simp only []
    rw [Function.update_of_ne (by omega)]
    exact (h1 j hj).2.2
  · simp only []
    rw [Function.update_self, nsmul_eq]
  · intro i c h3 hc
    exact multiScalarTable_eq d _ i c h3 hc

/-- a whole vector committed group by group -/
theorem calc_groups {E : Pairing G1 G2 GT} {d a : ℕ} {s : ℕ → ZMod p} {K : Key G1 G2}
    (hK : Good E d a s K) (k : ℕ) (hk : k ≤ d) (c : ℕ → ℕ) (off : ℕ) :
    ∑ i ∈ range (2 ^ k / w + 1), ∑ q ∈ range w,
      (if i * w + q ≥ 2 ^ k then 0 else c (i * w + q + off)) • member d K.pubG1 i q =
    coeffPoly k (fun j => (c (j + off) : ZMod p)) s • E.g1 := by
  have hle : 2 ^ k ≤ 2 ^ d := Nat.pow_le_pow_right (by decide) hk
  rw [groups_sum d (2 ^ k) hle, coeffPoly, sum_smul]
  refine sum_congr rfl (fun j hj => ?_)
  have hj := mem_range.1 hj
  rw [hK.pub j (by omega), nsmul_eq, smul_smul]
  congr 2
  -- the monomial does not change when more variables are added
  clear hle hK
  induction d, hk using Nat.le_induction with
  | base => rfl
  | succ n hn ih =>
    rw [monomial_lt n j (lt_of_lt_of_le hj (Nat.pow_le_pow_right (by decide) hn)), ih]

theorem calc_one {E : Pairing G1 G2 GT} {d a : ℕ} {s : ℕ → ZMod p} {K : Key G1 G2}
    (hK : Good E d a s K) (k : ℕ) (hk : k ≤ d) (c : ℕ → ℕ) (off i : ℕ) (old : ℕ → ℕ) :
    multiScalarCalc K i (2 ^ k) (scalarPow c off (2 ^ k) i old) = ∑ q ∈ range w,
      (if i * w + q ≥ 2 ^ k then 0 else c (i * w + q + off)) • member d K.pubG1 i q := by
  rw [multiScalarCalc_eq K d i (2 ^ k) _ (hK.table i) (Nat.pow_le_pow_right (by decide) hk)]
  · exact sum_congr rfl (fun q hq => by rw [scalarPow_eq _ _ _ _ _ _ (mem_range.1 hq)])
  · intro q hq h
    rw [scalarPow_eq _ _ _ _ _ _ hq, if_pos h]

/-! ## the digests -/

theorem commit_eq {E : Pairing G1 G2 GT} {d a : ℕ} (hd : 1 ≤ d) {s : ℕ → ZMod p} {K : Key G1 G2}
    (hK : Good E d a s K) (input input2 : ℕ → ℕ) (rf rf2 : ℕ) :
    let C := commit K input input2 rf rf2
    C.coeffs = Function.update (preInput d input) (2 ^ d) rf ∧
    C.digest = (coeffPoly d (fun j => (preInput d input j : ZMod p)) s + rf * s d) • E.g1 ∧
    C.digest2 = (input2 0 + input2 1 * s (d - 1) + rf2 * s d : ZMod p) • E.g1 ∧
    C.digesta = a • C.digest ∧ C.digest2a = a • C.digest2 := by
  intro C
  have hlt : 2 ^ (d - 1) < 2 ^ d := Nat.pow_lt_pow_right (by decide) (by omega)
  have hC : C = commit K input input2 rf rf2 := rfl
  refine ⟨by rw [hC, commit, hK.numOfVar], ?_, ?_, ?_, ?_⟩
  · rw [hC]
    simp only [commit, hK.numOfVar]
    set co := Function.update (preInput d input) (2 ^ d) rf with hco
    have hl := loop_inv (n := 2 ^ d / w + 1) (s := ((0 : G1), fun _ : ℕ => 0))
      (b := fun i (s : G1 × (ℕ → ℕ)) =>
        let sp := scalarPow co 0 (2 ^ d) i s.2
        (s.1 + multiScalarCalc K i (2 ^ d) sp, sp))
      (fun n (st : G1 × (ℕ → ℕ)) => st.1 = ∑ i ∈ range n, ∑ q ∈ range w,
        (if i * w + q ≥ 2 ^ d then 0 else co (i * w + q + 0)) • member d K.pubG1 i q)
      (by rw [sum_range_zero])
      (by
        intro i _ st hst
        simp only []
        rw [hst, calc_one hK d le_rfl, sum_range_succ])
    rw [hl, calc_groups hK d le_rfl, hco, Function.update_self, hK.blind, nsmul_eq, smul_smul,
      ← add_smul]
    congr 2
    unfold coeffPoly
    exact sum_congr rfl (fun j hj => by
      have := mem_range.1 hj
      simp only []
      rw [Nat.add_zero, Function.update_of_ne (by omega)])
  · rw [hC]
    simp only [commit, hK.numOfVar]
    rw [hK.pub 0 (Nat.two_pow_pos d), hK.pub _ hlt, hK.blind, monomial_zero,
      monomial_two_pow d (d - 1) (by omega)]
    simp only [nsmul_eq, smul_smul]
    module
  · rw [hC]; simp only [commit, hK.key]
  · rw [hC]; simp only [commit, hK.key]

/-! ## the answer -/

theorem answer_cast {R : Type} [CommRing R] (hp : (p : R) = 0) (d : ℕ) (c r : ℕ → ℕ)
    (h0 : c 0 < p) : answer d c r < p ∧
    (answer d c r : R) = coeffPoly d (fun j => (c j : R)) (fun i => (r i : R)) := by
  have hpp : 0 < p := by decide +kernel
  have key := loop_inv (n := d) (s := (Function.update (fun _ => 0) 0 1, c 0))
    (b := fun i st => loopFrom (2 ^ i) (2 ^ (i + 1)) (fun j (st : (ℕ → ℕ) × ℕ) =>
      let pre := Function.update st.1 j ((r i * st.1 (j - 2 ^ i)) % p)
      (pre, (st.2 + (pre j * c j) % p) % p)) st)
    (fun n (st : (ℕ → ℕ) × ℕ) =>
      (∀ j < 2 ^ n, (st.1 j : R) = monomial n j (fun i => (r i : R))) ∧ st.2 < p ∧
      (st.2 : R) = coeffPoly n (fun j => (c j : R)) (fun i => (r i : R)))
    (by
      refine ⟨?_, h0, ?_⟩
      · intro j hj
        obtain rfl : j = 0 := by simpa using hj
        simp [monomial]
      · simp [coeffPoly, monomial])
    (by
      rintro i _ st ⟨hm, hl, hv⟩
      have hp2 : 2 ^ (i + 1) = 2 ^ i + 2 ^ i := by rw [pow_succ]; omega
      have hin := loop_inv (n := 2 ^ (i + 1) - 2 ^ i) (s := st)
        (b := fun k (st : (ℕ → ℕ) × ℕ) =>
          let pre := Function.update st.1 (2 ^ i + k) ((r i * st.1 (2 ^ i + k - 2 ^ i)) % p)
          (pre, (st.2 + (pre (2 ^ i + k) * c (2 ^ i + k)) % p) % p))
        (fun n (st : (ℕ → ℕ) × ℕ) =>
          (∀ j < 2 ^ i + n, (st.1 j : R) = monomial (i + 1) j (fun i => (r i : R))) ∧ st.2 < p ∧
          (st.2 : R) = coeffPoly i (fun j => (c j : R)) (fun i => (r i : R)) +
            ∑ k ∈ range n, (c (2 ^ i + k) : R) * monomial (i + 1) (2 ^ i + k) (fun i => (r i : R)))
        (by
          refine ⟨?_, hl, by rw [hv, sum_range_zero, add_zero]⟩
          intro j hj
          rw [Nat.add_zero] at hj
          rw [hm j hj, monomial_lt i j hj])
        (by
          rintro k hk st ⟨h1, h2, h3⟩
          have hk' : k < 2 ^ i := by omega
          have hx : (((r i * st.1 (2 ^ i + k - 2 ^ i)) % p : ℕ) : R) =
              monomial (i + 1) (2 ^ i + k) (fun i => (r i : R)) := by
            rw [cast_mod_p hp, Nat.cast_mul, Nat.add_sub_cancel_left, h1 k (by omega),
              monomial_ge i k hk', monomial_lt i k hk']
          refine ⟨?_, Nat.mod_lt _ hpp, ?_⟩
          · intro j hj
            simp only []
            rcases Nat.lt_or_ge j (2 ^ i + k) with h | h
            · rw [Function.update_of_ne (by omega), h1 j h]
            · obtain rfl : j = 2 ^ i + k := by omega
              rw [Function.update_self, hx]
          · simp only [Function.update_self]
            rw [cast_mod_p hp, Nat.cast_add, cast_mod_p hp, Nat.cast_mul, hx, h3, sum_range_succ]
            ring)
      obtain ⟨h1, h2, h3⟩ := hin
      have hq : 2 ^ (i + 1) - 2 ^ i = 2 ^ i := by rw [hp2, Nat.add_sub_cancel]
      rw [loopFrom]
      refine ⟨?_, h2, ?_⟩
      · intro j hj
        exact h1 j (by rw [hq, ← hp2]; exact hj)
      · rw [coeffPoly_succ]
        refine Eq.trans h3 ?_
        rw [hq]
        congr 1
        unfold coeffPoly
        rw [mul_sum]
        exact sum_congr rfl (fun k hk => by rw [monomial_ge i k (mem_range.1 hk)]; ring))
  exact ⟨key.2.1, key.2.2⟩

/-! ## the division -/

theorem divide_inner {R : Type} [CommRing R] (hp : (p : R) = 0) (half rk : ℕ) (D : Division) :
    let D' := loop half (fun j (D : Division) =>
      { D with
        witnessCoeffs := Function.update D.witnessCoeffs (D.startIndex + j)
          (D.tempCoeffs (half + j) % p)
        tempCoeffs := Function.update D.tempCoeffs j
          ((D.tempCoeffs j + (D.tempCoeffs (half + j) * rk) % p) % p) }) D
    D'.startIndex = D.startIndex ∧
    (∀ q < D.startIndex, D'.witnessCoeffs q = D.witnessCoeffs q) ∧
    (∀ j < half, (D'.witnessCoeffs (D.startIndex + j) : R) = D.tempCoeffs (half + j)) ∧
    (∀ j < half, (D'.tempCoeffs j : R) = D.tempCoeffs j + rk * D.tempCoeffs (half + j)) := by
  have key := loop_inv (n := half) (s := D) (b := fun j (D : Division) =>
      { D with
        witnessCoeffs := Function.update D.witnessCoeffs (D.startIndex + j)
          (D.tempCoeffs (half + j) % p)
        tempCoeffs := Function.update D.tempCoeffs j
          ((D.tempCoeffs j + (D.tempCoeffs (half + j) * rk) % p) % p) })
    (fun n (D' : Division) => D'.startIndex = D.startIndex ∧
      (∀ q < D.startIndex, D'.witnessCoeffs q = D.witnessCoeffs q) ∧
      (∀ j < n, (D'.witnessCoeffs (D.startIndex + j) : R) = D.tempCoeffs (half + j)) ∧
      (∀ j < n, (D'.tempCoeffs j : R) = D.tempCoeffs j + rk * D.tempCoeffs (half + j)) ∧
      (∀ j, n ≤ j → D'.tempCoeffs j = D.tempCoeffs j))
    ⟨rfl, fun _ _ => rfl, fun j hj => absurd hj (Nat.not_lt_zero j),
      fun j hj => absurd hj (Nat.not_lt_zero j), fun _ _ => rfl⟩
    (by
      rintro n hn D' ⟨h1, h2, h3, h4, h5⟩
      refine ⟨h1, ?_, ?_, ?_, ?_⟩
      · intro q hq
        simp only []
        rw [Function.update_of_ne (by omega), h2 q hq]
      · intro j hj
        simp only []
        rw [h1]
        rcases Nat.lt_or_ge j n with h | h
        · rw [Function.update_of_ne (by omega), h3 j h]
        · obtain rfl : j = n := by omega
          rw [Function.update_self, h5 _ (by omega), cast_mod_p hp]
      · intro j hj
        simp only []
        rcases Nat.lt_or_ge j n with h | h
        · rw [Function.update_of_ne (by omega), h4 j h]
        · obtain rfl : j = n := by omega
          rw [Function.update_self, h5 _ le_rfl, h5 _ (by omega), cast_mod_p hp, Nat.cast_add,
            cast_mod_p hp, Nat.cast_mul]
          ring
      · intro j hj
        simp only []
        rw [Function.update_of_ne (by omega), h5 j (by omega)])
  exact ⟨key.1, key.2.1, key.2.2.1, key.2.2.2.1⟩

/-- the quotient by `x_k - r_k` sits at `2 ^ d - 2 ^ (k + 1)` -/
def quot {R : Type} [CommRing R] (d : ℕ) (wc : ℕ → ℕ) (k : ℕ) (x : ℕ → R) : R :=
  coeffPoly k (fun j => (wc (j + (2 ^ d - 2 ^ (k + 1))) : R)) x

theorem quot_congr {R : Type} [CommRing R] (d : ℕ) (wc wc' : ℕ → ℕ) (k : ℕ) (x : ℕ → R)
    (h : ∀ j < 2 ^ k, (wc (j + (2 ^ d - 2 ^ (k + 1))) : R) = wc' (j + (2 ^ d - 2 ^ (k + 1)))) :
    quot d wc k x = quot d wc' k x := by
  unfold quot coeffPoly
  exact sum_congr rfl (fun j hj => by simp only []; rw [h j (mem_range.1 hj)])

theorem divide_spec {R : Type} [CommRing R] (hp : (p : R) = 0) (d : ℕ) (c r : ℕ → ℕ)
    (x : ℕ → R) :
    coeffPoly d (fun j => (c j : R)) x = coeffPoly d (fun j => (c j : R)) (fun i => (r i : R)) +
      ∑ k ∈ range d, (x k - r k) * quot d (divide d c r).witnessCoeffs k x := by
  have gen : ∀ n ≤ d, let D := loop n (fun i (D : Division) =>
      let half := 2 ^ (d - i - 1)
      let D := loop half (fun j (D : Division) =>
        { D with
          witnessCoeffs := Function.update D.witnessCoeffs (D.startIndex + j)
            (D.tempCoeffs (half + j) % p)
          tempCoeffs := Function.update D.tempCoeffs j
            ((D.tempCoeffs j + (D.tempCoeffs (half + j) * r (d - 1 - i)) % p) % p) }) D
      { D with startIndex := D.startIndex + half }) (⟨fun _ => 0, c, 0⟩ : Division)
      D.startIndex = 2 ^ d - 2 ^ (d - n) ∧
      (∀ y : ℕ → R, coeffPoly d (fun j => (c j : R)) y =
        coeffPoly (d - n) (fun j => (D.tempCoeffs j : R)) y +
        ∑ t ∈ range n, (y (d - 1 - t) - r (d - 1 - t)) * quot d D.witnessCoeffs (d - 1 - t) y) := by
    intro n
    induction n with
    | zero =>
      intro _ D
      refine ⟨by simp [D, loop_zero], fun y => ?_⟩
      simp only [D, loop_zero, Nat.sub_zero, sum_range_zero, add_zero]
    | succ n ih =>
      intro hn D
      obtain ⟨h1, h2⟩ := ih (by omega)
      have hD : D = _ := loop_succ _ _ _
      revert h1 h2 hD
      generalize loop n (fun i (D : Division) =>
        let half := 2 ^ (d - i - 1)
        let D := loop half (fun j (D : Division) =>
          { D with
            witnessCoeffs := Function.update D.witnessCoeffs (D.startIndex + j)
              (D.tempCoeffs (half + j) % p)
            tempCoeffs := Function.update D.tempCoeffs j
              ((D.tempCoeffs j + (D.tempCoeffs (half + j) * r (d - 1 - i)) % p) % p) }) D
        { D with startIndex := D.startIndex + half }) (⟨fun _ => 0, c, 0⟩ : Division) = D0
      intro h1 h2 hD
      obtain ⟨i1, i2, i3, i4⟩ := divide_inner hp (2 ^ (d - n - 1)) (r (d - 1 - n)) D0
      simp only [] at hD
      revert i1 i2 i3 i4 hD
      generalize loop (2 ^ (d - n - 1)) (fun j (D : Division) =>
        { D with
          witnessCoeffs := Function.update D.witnessCoeffs (D.startIndex + j)
            (D.tempCoeffs (2 ^ (d - n - 1) + j) % p)
          tempCoeffs := Function.update D.tempCoeffs j
            ((D.tempCoeffs j + (D.tempCoeffs (2 ^ (d - n - 1) + j) * r (d - 1 - n)) % p) % p) })
        D0 = D1
      intro hD i1 i2 i3 i4
      have hk : d - n = (d - (n + 1)) + 1 := by omega
      have hk1 : d - n - 1 = d - (n + 1) := by omega
      have hk2 : d - 1 - n = d - (n + 1) := by omega
      simp only [hk1] at i3 i4 hD
      rw [hk2] at i4
      rw [hD]
      have hp1 : 2 ^ (d - n) ≤ 2 ^ d := Nat.pow_le_pow_right (by decide) (by omega)
      have hp2 : 2 ^ (d - n) = 2 ^ (d - (n + 1)) + 2 ^ (d - (n + 1)) := by
        rw [hk, pow_succ]; omega
      have hp3 := Nat.two_pow_pos (d - (n + 1))
      refine ⟨?_, fun y => ?_⟩
      · show D1.startIndex + _ = _
        rw [i1, h1]; omega
      · simp only []
        rw [h2 y, hk, coeffPoly_succ, sum_range_succ, hk2]
        have hold : ∑ t ∈ range n, (y (d - 1 - t) - r (d - 1 - t)) *
            quot d D0.witnessCoeffs (d - 1 - t) y =
            ∑ t ∈ range n, (y (d - 1 - t) - r (d - 1 - t)) *
            quot d D1.witnessCoeffs (d - 1 - t) y := by
          refine sum_congr rfl (fun t ht => ?_)
          have ht := mem_range.1 ht
          congr 1
          refine quot_congr d _ _ _ y (fun j hj => ?_)
          have e1 : 2 ^ (d - 1 - t + 1) = 2 ^ (d - 1 - t) + 2 ^ (d - 1 - t) := by
            rw [pow_succ]; omega
          have e2 : 2 ^ (d - 1 - t + 1) ≤ 2 ^ d := Nat.pow_le_pow_right (by decide) (by omega)
          have e3 : 2 ^ (d - n) ≤ 2 ^ (d - 1 - t) := Nat.pow_le_pow_right (by decide) (by omega)
          rw [i2 _ (by rw [h1]; omega)]
        have hnew : quot d D1.witnessCoeffs (d - (n + 1)) y =
            coeffPoly (d - (n + 1)) (fun j => (D0.tempCoeffs (2 ^ (d - (n + 1)) + j) : R)) y := by
          unfold quot coeffPoly
          refine sum_congr rfl (fun j hj => ?_)
          simp only []
          rw [← hk, Nat.add_comm j, ← h1, i3 j (mem_range.1 hj)]
        have htemp : coeffPoly (d - (n + 1)) (fun j => (D1.tempCoeffs j : R)) y =
            coeffPoly (d - (n + 1)) (fun j => (D0.tempCoeffs j : R)) y + r (d - (n + 1)) *
            coeffPoly (d - (n + 1)) (fun j => (D0.tempCoeffs (2 ^ (d - (n + 1)) + j) : R)) y := by
          unfold coeffPoly
          rw [mul_sum, ← sum_add_distrib]
          exact sum_congr rfl (fun j hj => by simp only []; rw [i4 j (mem_range.1 hj)]; ring)
        rw [hold, hnew, htemp]
        ring
  obtain ⟨_, h⟩ := gen d le_rfl
  have hdiv : ∀ y : ℕ → R, coeffPoly d (fun j => (c j : R)) y =
      ((divide d c r).tempCoeffs 0 : R) +
        ∑ k ∈ range d, (y k - r k) * quot d (divide d c r).witnessCoeffs k y := by
    intro y
    rw [h y, Nat.sub_self]
    congr 1
    · simp [coeffPoly, monomial, divide]
    · rw [← sum_range_reflect]
      refine sum_congr rfl (fun j hj => ?_)
      rw [show d - 1 - (d - 1 - j) = j by have := mem_range.1 hj; omega]
      rfl
  rw [hdiv x, hdiv (fun i => (r i : R))]
  simp

/-! ## the witnesses -/

theorem gather_eq {E : Pairing G1 G2 GT} {d a : ℕ} {s : ℕ → ZMod p} {K : Key G1 G2}
    (hK : Good E d a s K) (wc : ℕ → ℕ) (i : ℕ) (sp : ℕ → ℕ) (wt : ℕ → G1) (k : ℕ) (hk : k < d) :
    (gather K wc i sp wt).witness k = wt k + if i ≥ 2 ^ k / w + 1 then 0 else
      ∑ q ∈ range w, (if i * w + q ≥ 2 ^ k then 0 else wc (i * w + q + (2 ^ d - 2 ^ (k + 1)))) •
        member d K.pubG1 i q := by
  unfold gather
  simp only [hK.numOfVar]
  have key := loop_inv (n := d) (s := (⟨0, sp, wt, false⟩ : Gather G1))
    (b := fun t (s : Gather G1) =>
      let k := d - 1 - t
      if s.stopped then s
      else if i ≥ 2 ^ k / w + 1 then { s with stopped := true }
      else
        let sp := scalarPow wc s.temp (2 ^ k) i s.sp
        ⟨s.temp + 2 ^ k, sp,
          Function.update s.witness k (s.witness k + multiScalarCalc K i (2 ^ k) sp), false⟩)
    (fun n (g : Gather G1) =>
      (g.stopped = false → g.temp = 2 ^ d - 2 ^ (d - n)) ∧
      (g.stopped = true → ∀ k, k < d - n → i ≥ 2 ^ k / w + 1) ∧
      (∀ k < d - n, g.witness k = wt k) ∧
      (∀ k < d, d - n ≤ k → g.witness k = wt k + if i ≥ 2 ^ k / w + 1 then 0 else
        ∑ q ∈ range w, (if i * w + q ≥ 2 ^ k then 0 else
          wc (i * w + q + (2 ^ d - 2 ^ (k + 1)))) • member d K.pubG1 i q))
    (by
      refine ⟨fun _ => by simp, fun h => by simp at h, fun _ _ => rfl, fun k h1 h2 => ?_⟩
      omega)
    (by
      rintro n hn g ⟨h1, h2, h3, h4⟩
      have hk2 : d - 1 - n = d - (n + 1) := by omega
      have hp1 : 2 ^ (d - n) ≤ 2 ^ d := Nat.pow_le_pow_right (by decide) (by omega)
      have hp2 : 2 ^ (d - n) = 2 ^ (d - (n + 1)) + 2 ^ (d - (n + 1)) := by
        rw [show d - n = (d - (n + 1)) + 1 by omega, pow_succ]; omega
      have hp3 := Nat.two_pow_pos (d - (n + 1))
      simp only [hk2]
      by_cases hs : g.stopped = true
      · rw [if_pos hs]
        refine ⟨fun h => absurd (hs.symm.trans h) (by decide), fun _ k hk => h2 hs k (by omega),
          fun k hk => h3 k (by omega), fun k hk hk' => ?_⟩
        rcases Nat.lt_or_ge k (d - n) with h | h
        · rw [h3 k h, if_pos (h2 hs k h), add_zero]
        · exact h4 k hk h
      · have hs' : g.stopped = false := by simpa using hs
        rw [if_neg hs]
        by_cases hi : i ≥ 2 ^ (d - (n + 1)) / w + 1
        · rw [if_pos hi]
          have hmono : ∀ k, k ≤ d - (n + 1) → i ≥ 2 ^ k / w + 1 := fun k hk => by
            have := Nat.div_le_div_right (c := w)
              (Nat.pow_le_pow_right (show 0 < 2 by decide) hk)
            omega
          refine ⟨fun h => by simp at h, fun _ k hk => hmono k (by omega),
            fun k hk => h3 k (by omega), fun k hk hk' => ?_⟩
          rcases Nat.lt_or_ge k (d - n) with h | h
          · rw [h3 k h, if_pos (hmono k (by omega)), add_zero]
          · exact h4 k hk h
        · rw [if_neg hi]
          refine ⟨fun _ => ?_, fun h => by simp at h, fun k hk => ?_, fun k hk hk' => ?_⟩
          · simp only []
            rw [h1 hs']; omega
          · simp only []
            rw [Function.update_of_ne (by omega), h3 k (by omega)]
          · simp only []
            rcases Nat.lt_or_ge k (d - n) with h | h
            · obtain rfl : k = d - (n + 1) := by omega
              rw [Function.update_self, h3 _ h, if_neg hi, calc_one hK _ (by omega), h1 hs',
                show d - (n + 1) + 1 = d - n by omega]
            · rw [Function.update_of_ne (by omega)]
              exact h4 k hk h)
  exact key.2.2.2 k hk (by omega)

theorem gathered_eq {E : Pairing G1 G2 GT} {d a : ℕ} {s : ℕ → ZMod p} {K : Key G1 G2}
    (hK : Good E d a s K) (wc : ℕ → ℕ) (k : ℕ) (hk : k < d) :
    (loop (2 ^ (d - 1) / w + 1) (fun i (s : (ℕ → G1) × (ℕ → ℕ)) =>
      let g := gather K wc i s.2 s.1
      (g.witness, g.sp)) (fun _ => 0, fun _ => 0)).1 k = quot d wc k s • E.g1 := by
  have key := loop_inv (n := 2 ^ (d - 1) / w + 1)
    (s := ((fun _ => 0, fun _ => 0) : (ℕ → G1) × (ℕ → ℕ)))
    (b := fun i (s : (ℕ → G1) × (ℕ → ℕ)) =>
      let g := gather K wc i s.2 s.1
      (g.witness, g.sp))
    (fun n (st : (ℕ → G1) × (ℕ → ℕ)) => st.1 k = ∑ i ∈ range n, if i ≥ 2 ^ k / w + 1 then 0 else
      ∑ q ∈ range w, (if i * w + q ≥ 2 ^ k then 0 else wc (i * w + q + (2 ^ d - 2 ^ (k + 1)))) •
        member d K.pubG1 i q)
    (by rw [sum_range_zero])
    (by
      intro i _ st hst
      simp only []
      rw [gather_eq hK _ _ _ _ _ hk, hst, sum_range_succ])
  rw [key]
  have hle : 2 ^ k / w + 1 ≤ 2 ^ (d - 1) / w + 1 :=
    Nat.succ_le_succ (Nat.div_le_div_right (Nat.pow_le_pow_right (by decide) (by omega)))
  rw [← sum_subset (s₁ := range (2 ^ k / w + 1))
    (fun j hj => mem_range.2 (lt_of_lt_of_le (mem_range.1 hj) hle))
    (fun j _ hj => if_pos (by rw [mem_range] at hj; omega)),
    sum_congr rfl (fun j hj => if_neg (by have := mem_range.1 hj; omega)),
    calc_groups hK k (by omega)]
  rfl

theorem coeffPoly_update {R : Type} [CommRing R] (d : ℕ) (c : ℕ → R) (q : ℕ) (hq : q < 2 ^ d)
    (v : R) (x : ℕ → R) :
    coeffPoly d (Function.update c q (c q + v)) x = coeffPoly d c x + v * monomial d q x := by
  unfold coeffPoly
  rw [← sum_erase_add _ _ (mem_range.2 hq), ← sum_erase_add (a := q) _ (fun j => c j * _)
    (mem_range.2 hq), Function.update_self]
  rw [sum_congr rfl (fun j hj => by rw [Function.update_of_ne (ne_of_mem_erase hj)])]
  ring

/-- the value the opening claims: the extension of the committed table plus `Z` times the mask -/
def maskedValue {R : Type} [CommRing R] (d : ℕ) (input input2 : ℕ → ℕ) (Z : ℕ) (x : ℕ → R) : R :=
  mle d (fun j => (input j : R)) x + Z * (input2 0 + input2 1 * x (d - 1))

theorem mixed_poly {R : Type} [CommRing R] (hp : (p : R) = 0) {d : ℕ} (hd : 1 ≤ d)
    (input input2 : ℕ → ℕ) (hin : ∀ i < 2 ^ d, input i < p) (rf v Z : ℕ) (x : ℕ → R) :
    let co := Function.update (preInput d input) (2 ^ d) rf
    let c1 := Function.update co 0 ((co 0 + (Z * input2 0) % p) % p)
    let c2 := Function.update c1 (2 ^ (d - 1)) ((c1 (2 ^ (d - 1)) + (Z * input2 1) % p) % p)
    coeffPoly d (fun j => (Function.update c2 (2 ^ d) v j : R)) x =
      maskedValue d input input2 Z x := by
  intro co c1 c2
  have hlt : 2 ^ (d - 1) < 2 ^ d := Nat.pow_lt_pow_right (by decide) (by omega)
  have e0 : coeffPoly d (fun j => (Function.update c2 (2 ^ d) v j : R)) x =
      coeffPoly d (fun j => (c2 j : R)) x := by
    unfold coeffPoly
    exact sum_congr rfl (fun j hj => by
      have := mem_range.1 hj
      simp only []
      rw [Function.update_of_ne (by omega)])
  have e1 : (fun j => (c2 j : R)) = Function.update (fun j => (c1 j : R)) (2 ^ (d - 1))
      ((fun j => (c1 j : R)) (2 ^ (d - 1)) + (Z * input2 1 : R)) := by
    funext j
    simp only [c2]
    rcases eq_or_ne j (2 ^ (d - 1)) with h | h
    · subst h
      rw [Function.update_self, Function.update_self, cast_mod_p hp, Nat.cast_add, cast_mod_p hp,
        Nat.cast_mul]
    · rw [Function.update_of_ne h, Function.update_of_ne h]
  have e2 : (fun j => (c1 j : R)) = Function.update (fun j => (co j : R)) 0
      ((fun j => (co j : R)) 0 + (Z * input2 0 : R)) := by
    funext j
    simp only [c1]
    rcases eq_or_ne j 0 with h | h
    · subst h
      rw [Function.update_self, Function.update_self, cast_mod_p hp, Nat.cast_add, cast_mod_p hp,
        Nat.cast_mul]
    · rw [Function.update_of_ne h, Function.update_of_ne h]
  have e3 : coeffPoly d (fun j => (co j : R)) x = mle d (fun j => (input j : R)) x := by
    rw [← (preInput_spec d hd input hin).2.2 R hp]
    unfold coeffPoly
    exact sum_congr rfl (fun j hj => by
      have := mem_range.1 hj
      simp only [co]
      rw [Function.update_of_ne (by omega)])
  rw [e0, e1, coeffPoly_update d _ _ hlt, e2, coeffPoly_update d _ _ (Nat.two_pow_pos d), e3,
    monomial_zero, monomial_two_pow d (d - 1) (by omega)]
  unfold maskedValue
  ring

theorem complete [DecidableEq GT] {E : Pairing G1 G2 GT} {d a : ℕ} (hd : 1 ≤ d) (hd2 : d < 2 ^ 250)
    {s : ℕ → ZMod p} {K : Key G1 G2} (hK : Good E d a s K) (input input2 : ℕ → ℕ)
    (hin : ∀ i < 2 ^ d, input i < p) (rf rf2 Z : ℕ) (t r : ℕ → ℕ) (hr : ∀ i < d, r i < p) :
    let C := commit K input input2 rf rf2
    ∃ O, prove K r C.coeffs input2 rf rf2 Z t = .ok O ∧ O.ans < p ∧
      (∀ (R : Type) [CommRing R], (p : R) = 0 →
        (O.ans : R) = maskedValue d input input2 Z (fun i => (r i : R))) ∧
      verify E K d r C.digest C.digest2 Z O.ans O.witness O.witnessa = .ok true := by
  intro C
  obtain ⟨hco, hdig, hdig2, -, -⟩ := commit_eq hd hK input input2 rf rf2
  rw [show commit K input input2 rf rf2 = C from rfl] at hco hdig hdig2
  unfold prove
  simp only [hK.numOfVar]
  rw [hco]
  have hmix : ∀ (R : Type) [CommRing R], (p : R) = 0 → ∀ x : ℕ → R, _ :=
    fun R _ hp x => mixed_poly hp hd input input2 hin rf ((rf + Z * rf2) % p) Z x
  simp only [] at hmix
  set co := Function.update (preInput d input) (2 ^ d) rf with hcod
  set c1 := Function.update co 0 ((co 0 + (Z * input2 0) % p) % p) with hc1
  set c2 := Function.update c1 (2 ^ (d - 1)) ((c1 (2 ^ (d - 1)) + (Z * input2 1) % p) % p) with hc2
  set c := Function.update c2 (2 ^ d) ((rf + Z * rf2) % p) with hc
  have hcl : c (2 ^ d) = (rf + Z * rf2) % p := by rw [hc, Function.update_self]
  have hclp : c (2 ^ d) < p := by rw [hcl]; exact Nat.mod_lt _ (by decide +kernel)
  have hc0 : c 0 < p := by
    have hpp : 0 < p := by decide +kernel
    have h1 := Nat.two_pow_pos (d - 1)
    have h2 := Nat.two_pow_pos d
    rw [hc, Function.update_of_ne (by omega), hc2, Function.update_of_ne (by omega), hc1,
      Function.update_self]
    exact Nat.mod_lt _ hpp
  rw [hK.g1Pre, preExp_eq _ _ (VpdTest.blind_lt hd2 _ hclp t r), Outcome.ok_bind]
  have hval : ∀ (R : Type) [CommRing R], (p : R) = 0 →
      (answer d c r : R) = maskedValue d input input2 Z (fun i => (r i : R)) :=
    fun R _ hp => (answer_cast hp d c r hc0).2.trans (hmix R hp _)
  have hlt := (answer_cast (R := ZMod p) cast_p d c r hc0).1
  refine ⟨_, rfl, hlt, hval, ?_⟩
  set gathered := (loop (2 ^ (d - 1) / w + 1) (fun i (s : (ℕ → G1) × (ℕ → ℕ)) =>
    let g := gather K (divide d c r).witnessCoeffs i s.2 s.1
    (g.witness, g.sp)) (fun _ => 0, fun _ => 0)).1 with hga
  set wt := loop d (fun u (wt : ℕ → G1) =>
    Function.update wt (d - 1 - u) (wt (d - 1 - u) + t (d - 1 - u) • K.pubG1 (2 ^ d)))
    gathered with hwtd
  have hwt : ∀ k < d, wt k = (quot d (divide d c r).witnessCoeffs k s + t k * s d) • E.g1 := by
    have := loop_inv (n := d) (s := gathered) (b := fun u (wt : ℕ → G1) =>
      Function.update wt (d - 1 - u) (wt (d - 1 - u) + t (d - 1 - u) • K.pubG1 (2 ^ d)))
      (fun n (wt : ℕ → G1) => (∀ k < d - n, wt k = gathered k) ∧
        ∀ k < d, d - n ≤ k → wt k = gathered k + t k • K.pubG1 (2 ^ d))
      ⟨fun _ _ => rfl, fun k h1 h2 => by omega⟩
      (by
        rintro n hn wt ⟨h1, h2⟩
        refine ⟨fun k hk => ?_, fun k hk hk' => ?_⟩
        · rw [Function.update_of_ne (by omega), h1 k (by omega)]
        · rcases Nat.lt_or_ge k (d - n) with h | h
          · obtain rfl : k = d - 1 - n := by omega
            rw [Function.update_self, h1 _ h]
          · rw [Function.update_of_ne (by omega), h2 k hk h])
    intro k hk
    rw [hwtd, this.2 k hk (by omega), hga, gathered_eq hK _ k hk, hK.blind, nsmul_eq, smul_smul,
      ← add_smul]
  unfold verify
  simp only []
  set last := loop d (fun i wt => wt - t i • K.pubG1 (2 ^ i))
    (loop d (fun i tmp => tmp + t i * r i % p) (c (2 ^ d)) • E.g1) with hlast
  obtain ⟨b, e, hb⟩ := finalCheck_eq E K.toVpdKey id d r (C.digest + Z • C.digest2)
    (answer d c r) (Function.update wt d last) hK.g1Pre hK.g2Pre
    (fun i hi => lt_P (hr i hi)) (lt_P hlt)
  rw [e, Outcome.ok_bind]
  have hb' : b = true := by
    rw [hb]
    refine finalEq_scalars E K.toVpdKey _ d r _ _ _ s
      (fun i => if i < d then quot d (divide d c r).witnessCoeffs i s + t i * s d
        else (rf + Z * rf2 : ZMod p) + ∑ i ∈ range d, (t i : ZMod p) * r i -
          ∑ i ∈ range d, (t i : ZMod p) * s i)
      (maskedValue d input input2 Z s + (rf + Z * rf2) * s d) hK.pubG2 ?_ ?_ ?_
    · intro i hi
      rcases Nat.lt_or_ge i d with hid | hid
      · rw [Function.update_of_ne (by omega), hwt i hid, if_pos hid]
      · obtain rfl : i = d := by omega
        rw [Function.update_self, if_neg (lt_irrefl i), hlast, VpdTest.loop_sub_sum, loop_add_sum,
          nsmul_eq, sub_smul, sum_smul]
        congr 1
        · congr 1
          rw [Nat.cast_add, Nat.cast_sum, hcl, cast_mod_p cast_p, Nat.cast_add, Nat.cast_mul]
          congr 1
          exact sum_congr rfl (fun j _ => by rw [cast_mod_p cast_p, Nat.cast_mul])
        · exact sum_congr rfl (fun j hj => by
            have hj := mem_range.1 hj
            rw [hK.pub _ (Nat.pow_lt_pow_right (by decide) hj), monomial_two_pow _ _ hj, nsmul_eq,
              smul_smul])
    · have hpre := (preInput_spec d hd input hin).2.2 (ZMod p) cast_p s
      rw [hdig, hdig2, hpre]
      simp only [nsmul_eq, smul_smul, maskedValue]
      module
    · have hc' := hval (ZMod p) cast_p
      have hs := divide_spec (R := ZMod p) cast_p d c r s
      have hm1 : coeffPoly d (fun j => (c j : ZMod p)) s = _ := hmix (ZMod p) cast_p s
      have hm2 : coeffPoly d (fun j => (c j : ZMod p)) (fun i => (r i : ZMod p)) = _ :=
        hmix (ZMod p) cast_p (fun i => (r i : ZMod p))
      rw [hm1, hm2] at hs
      rw [hc', if_neg (lt_irrefl d)]
      have hstep : ∑ i ∈ range d, (s i - r i) *
          (if i < d then quot d (divide d c r).witnessCoeffs i s + t i * s d
          else (rf + Z * rf2 : ZMod p) + ∑ i ∈ range d, (t i : ZMod p) * r i -
            ∑ i ∈ range d, (t i : ZMod p) * s i) =
          ∑ i ∈ range d, (s i - r i) * quot d (divide d c r).witnessCoeffs i s
          + s d * (∑ i ∈ range d, (t i : ZMod p) * s i - ∑ i ∈ range d, (t i : ZMod p) * r i) := by
        rw [← sum_sub_distrib, mul_sum, ← sum_add_distrib]
        refine sum_congr rfl (fun i hi => ?_)
        rw [if_pos (mem_range.1 hi)]
        ring
      rw [hstep, hs]
      ring
  rw [hb']
  rw [hK.toGood.knowledge d (Function.update wt d last)]
  rfl

theorem checkCommit_honest [DecidableEq GT] {E : Pairing G1 G2 GT} {d a : ℕ} (hd : 1 ≤ d)
    {s : ℕ → ZMod p} {K : Key G1 G2} (hK : Good E d a s K) (input input2 : ℕ → ℕ) (rf rf2 : ℕ) :
    let C := commit K input input2 rf rf2
    checkCommit E K C.digest C.digesta C.digest2 C.digest2a = true := by
  intro C
  obtain ⟨-, -, -, h1, h2⟩ := commit_eq hd hK input input2 rf rf2
  rw [show commit K input input2 rf rf2 = C from rfl] at h1 h2
  have q1 := hK.toGood.checkCommit C.digest
  have q2 := hK.toGood.checkCommit C.digest2
  unfold Vpd.checkCommit at q1 q2
  unfold checkCommit
  rw [h1, h2, q1, q2]
  rfl

end InputVpd
end Libra
