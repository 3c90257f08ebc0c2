import Verif.Proofs.InputVpd
import Verif.Proofs.Prime

/-!
# What an honest opening consists of

For each of the three commitment schemes: the witnesses as multiples of the generator, and what the blindings
contribute to them.
-/

namespace Libra
open Spec Finset Vpd

theorem loopM_congr {σ : Type _} {n : ℕ} {b b' : ℕ → σ → Outcome σ} {s : σ}
    (h : ∀ i < n, ∀ s, b i s = b' i s) : loopM n b s = loopM n b' s := by
  induction n with
  | zero => rfl
  | succ n ih =>
    rw [loopM_succ, loopM_succ, ih (fun i hi => h i (by omega))]
    congr 1
    funext s
    exact h n (by omega) s

theorem loop_rel {α β : Type} (R : α → β → Prop) {n : ℕ} {f : ℕ → α → α} {g : ℕ → β → β} {a : α} {b : β}
    (h0 : R a b) (hs : ∀ i < n, ∀ a b, R a b → R (f i a) (g i b)) : R (loop n f a) (loop n g b) := by
  induction n with
  | zero => rw [loop_zero, loop_zero]; exact h0
  | succ n ih =>
    rw [loop_succ, loop_succ]
    exact hs n (by omega) _ _ (ih (fun i hi => hs i (by omega)))

variable {G1 G2 GT : Type} [AddCommGroup G1] [AddCommGroup G2] [AddCommGroup GT]
  [Module (ZMod p) G1] [Module (ZMod p) G2] [Module (ZMod p) GT]

/-- The openings at `r` of something with value `f` at the secret point `s`: the answer is `ans`, the quotients
are `q`; `x` stands for the blinding of the commitment, `t` for those of the opening. -/
structure Form (g1 : G1) (a d : ℕ) (s : ℕ → ZMod p) (r : ℕ → ℕ) (f : ZMod p) {B : Type} (b : B → ZMod p)
    (ok : B → Prop) (prove : B → (ℕ → ℕ) → Outcome (VpdR.Opening G1)) (ans : ℕ) (q : ℕ → ZMod p) : Prop where
  rel : f - ans = ∑ i ∈ range d, (s i - r i) * q i
  run : ∀ x t, ok x → ∃ O, prove x t = .ok O ∧ O.ans = ans ∧
    (∀ i < d, O.witness i = (q i + t i * s d) • g1) ∧
    O.witness d = (b x + ∑ i ∈ range d, (t i : ZMod p) * r i - ∑ i ∈ range d, (t i : ZMod p) * s i) • g1 ∧
    ∀ i, O.witnessa i = a • O.witness i

/-- Two openings with the same answer are the same if the blindings make up for the difference. -/
theorem Form.same {g1 : G1} {a d : ℕ} {s : ℕ → ZMod p} {r : ℕ → ℕ} {f f' : ZMod p} {B : Type}
    {b b' : B → ZMod p} {ok ok' : B → Prop} {prove prove' : B → (ℕ → ℕ) → Outcome (VpdR.Opening G1)} {ans : ℕ}
    {q q' : ℕ → ZMod p} (h : Form g1 a d s r f b ok prove ans q) (h' : Form g1 a d s r f' b' ok' prove' ans q')
    (hs : s d ≠ 0) {x x' : B} (hx : ok x) (hx' : ok' x') {t t' : ℕ → ℕ}
    (hb : f' + b' x' * s d = f + b x * s d)
    (ht : ∀ i < d, q' i + t' i * s d = q i + t i * s d) :
    ∃ O O', prove x t = .ok O ∧ prove' x' t' = .ok O' ∧ O'.ans = O.ans ∧
      (∀ i < d + 1, O'.witness i = O.witness i) ∧ ∀ i < d + 1, O'.witnessa i = O.witnessa i := by
  obtain ⟨O, e, h1, h2, h3, h4⟩ := h.run x t hx
  obtain ⟨O', e', h1', h2', h3', h4'⟩ := h'.run x' t' hx'
  have hw : ∀ i < d + 1, O'.witness i = O.witness i := by
    intro i hi
    rcases Nat.lt_or_ge i d with hd | hd
    · rw [h2 i hd, h2' i hd, ht i hd]
    · obtain rfl : i = d := by omega
      rw [h3, h3']
      congr 1
      refine mul_right_cancel₀ hs ?_
      have e1 : ∀ t : ℕ → ℕ, ∀ c : ZMod p,
          (c + ∑ j ∈ range i, (t j : ZMod p) * r j - ∑ j ∈ range i, (t j : ZMod p) * s j) * s i =
          c * s i - ∑ j ∈ range i, (s j - r j) * (t j * s i) := by
        intro t c
        have e2 : ∑ j ∈ range i, (s j - r j) * (t j * s i) =
            (∑ j ∈ range i, (t j : ZMod p) * s j - ∑ j ∈ range i, (t j : ZMod p) * r j) * s i := by
          rw [← sum_sub_distrib, sum_mul]
          exact sum_congr rfl (fun j _ => by ring)
        rw [e2]; ring
      rw [e1, e1]
      have e3 : ∑ j ∈ range i, (s j - r j) * (q' j + t' j * s i) =
          ∑ j ∈ range i, (s j - r j) * (q j + t j * s i) :=
        sum_congr rfl (fun j hj => by rw [ht j (mem_range.1 hj)])
      simp only [mul_add, sum_add_distrib] at e3
      have r1 := h.rel
      have r2 := h'.rel
      linear_combination hb - e3 - r2 + r1
  refine ⟨O, O', e, e', by rw [h1, h1'], hw, fun i hi => ?_⟩
  rw [h4, h4', hw i hi]

theorem VpdR.form {E : Pairing G1 G2 GT} {a : ℕ} {s : ℕ → ℕ} {K : VpdKey G1 G2}
    (hK : VpdR.Good E a s K) (input : ℕ → ℕ) (r : ℕ → ℕ) :
    ∃ ans q, ans < p ∧ (∀ (R : Type) [CommRing R], (p : R) = 0 →
        (ans : R) = maskRPoly (fun i => (input i : R)) (r 0) (r 1)) ∧
      Form E.g1 a 2 (fun i => (s i : ZMod p)) r
        (maskRPoly (fun i => (input i : ZMod p)) (s 0) (s 1)) (fun rf : ℕ => (rf : ZMod p)) (fun _ => True)
        (fun rf t => VpdR.prove K r input rf t) ans q := by
  refine ⟨(input 0 + (input 1 * r 0) % p + (input 2 * ((r 0 * r 0) % p)) % p + (input 3 * r 1) % p
    + (input 4 * ((r 1 * r 1) % p)) % p + (input 5 * ((r 0 * r 1) % p)) % p) % p,
    fun i => if i = 0 then (input 2 * r 0 + input 1 + input 2 * s 0 + input 5 * s 1 : ZMod p)
      else (input 5 * r 0 + input 4 * r 1 + input 3 + input 4 * s 1 : ZMod p), Nat.mod_lt _ (by decide +kernel), ?_, ?_, ?_⟩
  · intro R _ hp
    simp [cast_mod_p hp, maskRPoly]
    ring
  · simp [sum_range_succ, cast_mod_p cast_p, maskRPoly]
    ring
  · intro rf t _
    unfold VpdR.prove
    simp only [hK.g1Pre, preExp_eq _ _ (mod_lt_P _), Outcome.ok_bind, Outcome.pure_eq]
    refine ⟨_, rfl, ?_, ?_, ?_, ?_⟩
    · simp
    · intro i hi
      interval_cases i <;>
        simp [hK.pubG1, nsmul_eq, cast_mod_p cast_p, VpdR.pubExp] <;> module
    · simp [hK.pubG1, nsmul_eq, cast_mod_p cast_p, VpdR.pubExp, sum_range_succ]; module
    · intro i
      rw [hK.key]

theorem VpdR.commit_form {E : Pairing G1 G2 GT} {a : ℕ} {s : ℕ → ℕ} {K : VpdKey G1 G2}
    (hK : VpdR.Good E a s K) (input : ℕ → ℕ) (rf : ℕ) :
    VpdR.commit K input rf = ((maskRPoly (fun i => (input i : ZMod p)) (s 0) (s 1) + rf * s 2 : ZMod p) • E.g1,
      a • (maskRPoly (fun i => (input i : ZMod p)) (s 0) (s 1) + rf * s 2 : ZMod p) • E.g1) := by
  have h : (VpdR.commit K input rf).1 =
      (maskRPoly (fun i => (input i : ZMod p)) (s 0) (s 1) + rf * s 2 : ZMod p) • E.g1 := by
    simp only [VpdR.commit, loop_add_sum, zero_add, hK.pubG1, nsmul_eq, smul_smul, ← sum_smul]
    congr 1
    simp [sum_range_succ, VpdR.pubExp, maskRPoly]
    ring
  refine Prod.ext h ?_
  rw [← h, ← hK.key]
  rfl

omit [AddCommGroup G2] [Module (ZMod p) G1] [Module (ZMod p) G2] in
theorem VpdTest.plainWitness_update {d : ℕ} (K : VpdKey G1 G2) (hK : K.numOfVar = d)
    (input : ℕ → ℕ) (rf ri i : ℕ) (hi : i < d) :
    VpdTest.plainWitness K (Function.update input (2 * d + 7) rf) ri i = VpdTest.plainWitness K input ri i := by
  have hu : ∀ j, j < 2 * d + 7 → Function.update input (2 * d + 7) rf j = input j :=
    fun j hj => Function.update_of_ne (by omega) _ _
  unfold VpdTest.plainWitness VpdTest.quinticWitness
  simp only [hK]
  rw [hu (2 * i) (by omega), hu (2 * i + 1) (by omega), hu (2 * d + 4) (by omega), hu (2 * d + 4 + 1) (by omega),
    hu (2 * d + 4 + 2) (by omega), hu (2 * d + 1) (by omega), hu (2 * d + 1 + 1) (by omega),
    hu (2 * d + 1 + 2) (by omega)]

theorem VpdTest.sumMaskPoly_congr {R : Type} [CommRing R] {d : ℕ} {c c' : ℕ → R} (h : ∀ i < 2 * d + 7, c i = c' i)
    (x : ℕ → R) : sumMaskPoly d c x = sumMaskPoly d c' x := by
  unfold sumMaskPoly
  rw [h (2 * d) (by omega), h (2 * d + 1) (by omega), h (2 * d + 2) (by omega),
    h (2 * d + 3) (by omega), h (2 * d + 4) (by omega), h (2 * d + 5) (by omega), h (2 * d + 6) (by omega)]
  congr 3
  exact sum_congr rfl (fun i hi => by
    have := mem_range.1 hi
    rw [h (2 * i) (by omega), h (2 * i + 1) (by omega)])

theorem VpdTest.answer_update (d : ℕ) (hd : 3 ≤ d) (input : ℕ → ℕ) (rf : ℕ) (r : ℕ → ℕ) :
    VpdTest.answer d (Function.update input (2 * d + 7) rf) r = VpdTest.answer d input r := by
  have h1 := VpdTest.answer_lt d (Function.update input (2 * d + 7) rf) r
  have h2 := VpdTest.answer_lt d input r
  have e : ((VpdTest.answer d (Function.update input (2 * d + 7) rf) r : ℕ) : ZMod p) = VpdTest.answer d input r := by
    rw [VpdTest.answer_cast cast_p d hd, VpdTest.answer_cast cast_p d hd]
    exact VpdTest.sumMaskPoly_congr (fun i hi => by rw [Function.update_of_ne (by omega)]) _
  rw [ZMod.natCast_eq_natCast_iff'] at e
  rwa [Nat.mod_eq_of_lt h1, Nat.mod_eq_of_lt h2] at e

theorem VpdTest.form {E : Pairing G1 G2 GT} {d a : ℕ} (hd : 3 ≤ d) (hd2 : d < 2 ^ 250)
    {s : ℕ → ZMod p} {K : VpdKey G1 G2} (hK : VpdTest.Good E d a s K) (input : ℕ → ℕ)
    (hin : ∀ i < 2 * d, input i < p) (r : ℕ → ℕ) :
    ∃ ans q, ans < p ∧ (∀ (R : Type) [CommRing R], (p : R) = 0 →
        (ans : R) = sumMaskPoly d (fun i => (input i : R)) (fun i => (r i : R))) ∧
      Form E.g1 a d s r (sumMaskPoly d (fun i => (input i : ZMod p)) s) (fun rf : ℕ => (rf : ZMod p))
        (fun rf => rf < p) (fun rf t => VpdTest.prove K r input rf t) ans q := by
  choose! ω hω using fun i (hi : i < d) => VpdTest.plainWitness_eq hd hK input hin (r i) i hi
  refine ⟨VpdTest.answer d input r, ω, VpdTest.answer_lt _ _ _,
    fun R _ hp => VpdTest.answer_cast hp d hd _ _, ?_, ?_⟩
  · rw [VpdTest.answer_cast cast_p d hd, VpdTest.sumMaskPoly_eq d (by omega), VpdTest.sumMaskPoly_eq d (by omega)]
    rw [sum_congr rfl (fun i hi => (hω i (mem_range.1 hi)).2), sum_sub_distrib]
    ring
  · intro rf t hrf
    obtain ⟨wt, ew, hwt⟩ := VpdTest.witnessLoop (d := d)
      (f := fun i => do
        let x ← VpdTest.plainWitness K input (r i) i
        pure (x + t i • K.pubG1 (2 * d + 7)))
      (g := fun i => (ω i + t i * s d) • E.g1) (by
        intro i hi
        show (VpdTest.plainWitness K input (r i) i >>= _) = _
        rw [(hω i hi).1, Outcome.ok_bind, hK.blind, nsmul_eq, smul_smul, ← add_smul]; rfl)
    have ew' : loopM d (fun i (w : ℕ → G1) => do
        let x ← VpdTest.plainWitness K (Function.update input (2 * d + 7) rf) (r i) i
        pure (Function.update w i (x + t i • K.pubG1 (2 * d + 7)))) (fun _ => 0) = .ok wt := by
      rw [← ew]
      refine loopM_congr (fun i hi w => ?_)
      rw [VpdTest.plainWitness_update K hK.numOfVar _ _ _ _ hi]
      cases VpdTest.plainWitness K input (r i) i <;> rfl
    unfold VpdTest.prove
    simp only [hK.numOfVar]
    rw [ew', Outcome.ok_bind, Function.update_self, hK.g1Pre, preExp_eq _ _ (VpdTest.blind_lt hd2 rf hrf t r),
      Outcome.ok_bind]
    refine ⟨_, rfl, VpdTest.answer_update d hd _ _ _, ?_, ?_, ?_⟩
    · intro i hi
      simp only []
      rw [Function.update_of_ne (by omega), hwt i hi]
    · simp only []
      rw [Function.update_self, VpdTest.loop_sub_sum, loop_add_sum, nsmul_eq, sub_smul, sum_smul]
      congr 1
      · congr 1
        rw [Nat.cast_add, Nat.cast_sum]
        congr 1
        exact sum_congr rfl (fun j _ => by rw [cast_mod_p cast_p, Nat.cast_mul])
      · exact sum_congr rfl (fun j hj => by
          rw [hK.odd j (mem_range.1 hj), nsmul_eq, smul_smul])
    · intro i
      rw [hK.key]

theorem VpdTest.commit_form {E : Pairing G1 G2 GT} {d a : ℕ} {s : ℕ → ZMod p} {K : VpdKey G1 G2}
    (hK : VpdTest.Good E d a s K) (input : ℕ → ℕ) (rf : ℕ) :
    VpdTest.commit K input rf = ((sumMaskPoly d (fun i => (input i : ZMod p)) s + rf * s d : ZMod p) • E.g1,
      a • (sumMaskPoly d (fun i => (input i : ZMod p)) s + rf * s d : ZMod p) • E.g1) := by
  have h : (VpdTest.commit K input rf).1 =
      (sumMaskPoly d (fun i => (input i : ZMod p)) s + rf * s d : ZMod p) • E.g1 := by
    simp only [VpdTest.commit, hK.numOfVar]
    set c := Function.update input (2 * d + 7) rf with hc
    have hcl : c (2 * d + 7) = rf := by rw [hc, Function.update_self]
    rw [VpdTest.sumMaskPoly_congr (c' := fun i => (c i : ZMod p))
      (fun i hi => by rw [hc, Function.update_of_ne (by omega)])]
    rw [loop_add_sum, zero_add, sum_range_succ, hcl, hK.blind, sum_range_succ, sum_range_succ,
      sum_range_succ, sum_range_succ, sum_range_succ, sum_range_succ, sum_range_succ,
      hK.one, hK.u5, hK.u4, hK.u3, hK.v5, hK.v4, hK.v3]
    have hsum : ∑ i ∈ range (2 * d), c i • K.pubG1 i =
        (∑ i ∈ range d, ((c (2 * i) : ZMod p) * s i ^ 2 + c (2 * i + 1) * s i)) • E.g1 := by
      have h2 : ∀ (m : ℕ) (f : ℕ → G1), ∑ i ∈ range (2 * m), f i =
          ∑ i ∈ range m, (f (2 * i) + f (2 * i + 1)) := by
        intro m f
        induction m with
        | zero => simp
        | succ m ih =>
          rw [show 2 * (m + 1) = 2 * m + 1 + 1 by ring, sum_range_succ, sum_range_succ, ih,
            sum_range_succ, add_assoc]
      rw [h2, sum_smul]
      exact sum_congr rfl (fun i hi => by
        have := mem_range.1 hi
        rw [hK.even i this, hK.odd i this, nsmul_eq, nsmul_eq, smul_smul, smul_smul, ← add_smul])
    rw [hsum]
    simp only [nsmul_eq, smul_smul, sumMaskPoly]
    module
  refine Prod.ext h ?_
  rw [← h, ← hK.key]
  rfl

namespace InputVpd

/-- the coefficients that `prove` divides, without the blinding -/
def mixed (d : ℕ) (input input2 : ℕ → ℕ) (Z : ℕ) : ℕ → ℕ :=
  let c0 := Function.update (preInput d input) 0 ((preInput d input 0 + (Z * input2 0) % p) % p)
  Function.update c0 (2 ^ (d - 1)) ((c0 (2 ^ (d - 1)) + (Z * input2 1) % p) % p)

theorem divide_congr (d : ℕ) {c c' : ℕ → ℕ} (h : ∀ j < 2 ^ d, c j = c' j) (r : ℕ → ℕ) :
    (divide d c r).witnessCoeffs = (divide d c' r).witnessCoeffs := by
  have key : ∀ n ≤ d, (fun (D D' : Division) => D.witnessCoeffs = D'.witnessCoeffs ∧
      D.startIndex = D'.startIndex ∧ ∀ j < 2 ^ d, D.tempCoeffs j = D'.tempCoeffs j) (divide d c r) (divide d c' r) := by
    intro n hn
    unfold divide
    refine loop_rel (fun (D D' : Division) => D.witnessCoeffs = D'.witnessCoeffs ∧
      D.startIndex = D'.startIndex ∧ ∀ j < 2 ^ d, D.tempCoeffs j = D'.tempCoeffs j) ⟨rfl, rfl, h⟩ ?_
    rintro i hi D D' hD
    have hh : 2 ^ (d - i - 1) + 2 ^ (d - i - 1) ≤ 2 ^ d := by
      rw [← two_mul, ← pow_succ']
      exact Nat.pow_le_pow_right (by decide) (by omega)
    have := loop_rel (fun (D D' : Division) => D.witnessCoeffs = D'.witnessCoeffs ∧
      D.startIndex = D'.startIndex ∧ ∀ j < 2 ^ d, D.tempCoeffs j = D'.tempCoeffs j) (n := 2 ^ (d - i - 1))
      (f := fun j (D : Division) =>
        { D with
          witnessCoeffs := Function.update D.witnessCoeffs (D.startIndex + j)
            (D.tempCoeffs (2 ^ (d - i - 1) + j) % p)
          tempCoeffs := Function.update D.tempCoeffs j
            ((D.tempCoeffs j + (D.tempCoeffs (2 ^ (d - i - 1) + j) * r (d - 1 - i)) % p) % p) })
      (g := fun j (D : Division) =>
        { D with
          witnessCoeffs := Function.update D.witnessCoeffs (D.startIndex + j)
            (D.tempCoeffs (2 ^ (d - i - 1) + j) % p)
          tempCoeffs := Function.update D.tempCoeffs j
            ((D.tempCoeffs j + (D.tempCoeffs (2 ^ (d - i - 1) + j) * r (d - 1 - i)) % p) % p) })
      hD (by
        rintro j hj D D' ⟨h1, h2, h3⟩
        simp only []
        rw [h1, h2, h3 j (by omega), h3 _ (by omega)]
        refine ⟨rfl, rfl, fun k hk => ?_⟩
        by_cases hkj : k = j
        · subst hkj; rw [Function.update_self, Function.update_self]
        · rw [Function.update_of_ne hkj, Function.update_of_ne hkj, h3 k hk])
    exact ⟨this.1, by simp only []; rw [this.2.1], this.2.2⟩
  exact (key d le_rfl).1

theorem answer_congr (d : ℕ) {c c' : ℕ → ℕ} (h : ∀ j < 2 ^ d, c j = c' j) (r : ℕ → ℕ) (h0 : c 0 < p) :
    answer d c r = answer d c' r := by
  have hc0 : c 0 = c' 0 := h 0 (Nat.two_pow_pos d)
  obtain ⟨h1, e1⟩ := answer_cast (R := ZMod p) cast_p d c r h0
  obtain ⟨h2, e2⟩ := answer_cast (R := ZMod p) cast_p d c' r (hc0 ▸ h0)
  have e : ((answer d c r : ℕ) : ZMod p) = answer d c' r := by
    rw [e1, e2]
    unfold coeffPoly
    exact sum_congr rfl (fun j hj => by simp only []; rw [h j (mem_range.1 hj)])
  rw [ZMod.natCast_eq_natCast_iff'] at e
  rwa [Nat.mod_eq_of_lt h1, Nat.mod_eq_of_lt h2] at e

theorem form {E : Pairing G1 G2 GT} {d a : ℕ} (hd : 1 ≤ d) (hd2 : d < 2 ^ 250)
    {s : ℕ → ZMod p} {K : Key G1 G2} (hK : Good E d a s K) (input input2 : ℕ → ℕ)
    (hin : ∀ i < 2 ^ d, input i < p) (Z : ℕ) (r : ℕ → ℕ) :
    ∃ ans q, ans < p ∧ (∀ (R : Type) [CommRing R], (p : R) = 0 →
        (ans : R) = maskedValue d input input2 Z (fun i => (r i : R))) ∧
      Form E.g1 a d s r (maskedValue d input input2 Z s) (fun x : ℕ × ℕ => (x.1 : ZMod p) + Z * x.2) (fun _ => True)
        (fun x t => prove K r (commit K input input2 x.1 x.2).coeffs input2 x.1 x.2 Z t) ans q := by
  have hpp : 0 < p := by decide +kernel
  have hlt : 2 ^ (d - 1) < 2 ^ d := Nat.pow_lt_pow_right (by decide) (by omega)
  have hpos := Nat.two_pow_pos d
  have hpos' := Nat.two_pow_pos (d - 1)
  set m := mixed d input input2 Z with hm
  have hm0 : m 0 < p := by
    rw [hm, mixed, Function.update_of_ne (by omega), Function.update_self]
    exact Nat.mod_lt _ hpp
  -- the coefficients with the blinding
  have hcm : ∀ rf v : ℕ, ∀ j < 2 ^ d,
      (let co := Function.update (preInput d input) (2 ^ d) rf
       let c1 := Function.update co 0 ((co 0 + (Z * input2 0) % p) % p)
       let c2 := Function.update c1 (2 ^ (d - 1)) ((c1 (2 ^ (d - 1)) + (Z * input2 1) % p) % p)
       Function.update c2 (2 ^ d) v) j = m j := by
    intro rf v j hj
    simp only [hm, mixed]
    rw [Function.update_of_ne (show j ≠ 2 ^ d by omega)]
    have e0 : ∀ k < 2 ^ d, Function.update (preInput d input) (2 ^ d) rf k = preInput d input k :=
      fun k hk => Function.update_of_ne (by omega) _ _
    have e1 : ∀ k < 2 ^ d, Function.update (Function.update (preInput d input) (2 ^ d) rf) 0
        ((Function.update (preInput d input) (2 ^ d) rf 0 + (Z * input2 0) % p) % p) k =
        Function.update (preInput d input) 0 ((preInput d input 0 + (Z * input2 0) % p) % p) k := by
      intro k hk
      rw [e0 0 hpos]
      by_cases hk0 : k = 0
      · subst hk0; rw [Function.update_self, Function.update_self]
      · rw [Function.update_of_ne hk0, Function.update_of_ne hk0, e0 k hk]
    by_cases hjk : j = 2 ^ (d - 1)
    · subst hjk; rw [Function.update_self, Function.update_self, e1 _ hlt]
    · rw [Function.update_of_ne hjk, Function.update_of_ne hjk, e1 j hj]
  have hmix : ∀ (R : Type) [CommRing R], (p : R) = 0 → ∀ x : ℕ → R,
      coeffPoly d (fun j => (m j : R)) x = maskedValue d input input2 Z x := by
    intro R _ hp x
    rw [← mixed_poly hp hd input input2 hin 0 0 Z x]
    unfold coeffPoly
    exact sum_congr rfl (fun j hj => by simp only []; rw [← hcm 0 0 j (mem_range.1 hj)])
  refine ⟨answer d m r, fun k => quot d (divide d m r).witnessCoeffs k s,
    (answer_cast (R := ZMod p) cast_p d m r hm0).1,
    fun R _ hp => (answer_cast hp d m r hm0).2.trans (hmix R hp _), ?_, ?_⟩
  · rw [(answer_cast (R := ZMod p) cast_p d m r hm0).2, ← hmix (ZMod p) cast_p s,
      divide_spec (R := ZMod p) cast_p d m r s]
    ring
  · rintro ⟨rf, rf2⟩ t -
    obtain ⟨hco, -⟩ := commit_eq hd hK input input2 rf rf2
    unfold prove
    simp only [hK.numOfVar]
    rw [hco]
    have hcm' := hcm rf ((rf + Z * rf2) % p)
    simp only [] at hcm'
    set co := Function.update (preInput d input) (2 ^ d) rf with hcod
    set c1 := Function.update co 0 ((co 0 + (Z * input2 0) % p) % p) with hc1
    set c2 := Function.update c1 (2 ^ (d - 1)) ((c1 (2 ^ (d - 1)) + (Z * input2 1) % p) % p) with hc2
    set c := Function.update c2 (2 ^ d) ((rf + Z * rf2) % p) with hc
    have hcl : c (2 ^ d) = (rf + Z * rf2) % p := by rw [hc, Function.update_self]
    have hclp : c (2 ^ d) < p := by rw [hcl]; exact Nat.mod_lt _ hpp
    rw [hK.g1Pre, preExp_eq _ _ (VpdTest.blind_lt hd2 _ hclp t r), Outcome.ok_bind]
    rw [divide_congr d hcm' r]
    refine ⟨_, rfl, answer_congr d hcm' r (by rw [hcm' 0 hpos]; exact hm0), ?_, ?_, ?_⟩
    · set gathered := (loop (2 ^ (d - 1) / w + 1) (fun i (s : (ℕ → G1) × (ℕ → ℕ)) =>
        let g := gather K (divide d m r).witnessCoeffs i s.2 s.1
        (g.witness, g.sp)) (fun _ => 0, fun _ => 0)).1 with hga
      have := loop_inv (n := d) (s := gathered) (b := fun u (wt : ℕ → G1) =>
        Function.update wt (d - 1 - u) (wt (d - 1 - u) + t (d - 1 - u) • K.pubG1 (2 ^ d)))
        (fun n (wt : ℕ → G1) => (∀ k < d - n, wt k = gathered k) ∧
          ∀ k < d, d - n ≤ k → wt k = gathered k + t k • K.pubG1 (2 ^ d))
        ⟨fun _ _ => rfl, fun k h1 h2 => by omega⟩
        (by
          rintro n hn wt ⟨h1, h2⟩
          refine ⟨fun k hk => ?_, fun k hk hk' => ?_⟩
          · rw [Function.update_of_ne (by omega), h1 k (by omega)]
          · rcases Nat.lt_or_ge k (d - n) with h | h
            · obtain rfl : k = d - 1 - n := by omega
              rw [Function.update_self, h1 _ h]
            · rw [Function.update_of_ne (by omega), h2 k hk h])
      intro k hk
      simp only []
      rw [Function.update_of_ne (by omega), this.2 k hk (by omega), hga, gathered_eq hK _ k hk, hK.blind,
        nsmul_eq, smul_smul, ← add_smul]
    · simp only []
      rw [Function.update_self, VpdTest.loop_sub_sum, loop_add_sum, nsmul_eq, sub_smul, sum_smul]
      congr 1
      · congr 1
        rw [Nat.cast_add, Nat.cast_sum, hcl, cast_mod_p cast_p, Nat.cast_add, Nat.cast_mul]
        congr 1
        exact sum_congr rfl (fun j _ => by rw [cast_mod_p cast_p, Nat.cast_mul])
      · exact sum_congr rfl (fun j hj => by
          have hj := mem_range.1 hj
          rw [hK.pub _ (Nat.pow_lt_pow_right (by decide) hj), monomial_two_pow _ _ hj, nsmul_eq,
            smul_smul])
    · intro i
      rw [hK.key]

theorem commit_form {E : Pairing G1 G2 GT} {d a : ℕ} (hd : 1 ≤ d) {s : ℕ → ZMod p} {K : Key G1 G2}
    (hK : Good E d a s K) (input input2 : ℕ → ℕ) (hin : ∀ i < 2 ^ d, input i < p) (rf rf2 : ℕ) :
    let C := commit K input input2 rf rf2
    C.digest = (mle d (fun j => (input j : ZMod p)) s + rf * s d) • E.g1 ∧
    C.digest2 = (input2 0 + input2 1 * s (d - 1) + rf2 * s d : ZMod p) • E.g1 ∧
    C.digesta = a • C.digest ∧ C.digest2a = a • C.digest2 := by
  intro C
  obtain ⟨-, h1, h2, h3, h4⟩ := commit_eq hd hK input input2 rf rf2
  rw [(preInput_spec d hd input hin).2.2 (ZMod p) cast_p s] at h1
  exact ⟨h1, h2, h3, h4⟩

end InputVpd
end Libra
