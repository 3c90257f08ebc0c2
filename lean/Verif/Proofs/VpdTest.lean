import Verif.Proofs.VpdR

namespace Libra
open Spec Finset Vpd

variable {G1 G2 GT : Type} [AddCommGroup G1] [AddCommGroup G2] [AddCommGroup GT]
  [Module (ZMod p) G1] [Module (ZMod p) G2] [Module (ZMod p) GT]

namespace VpdTest

structure Good (E : Pairing G1 G2 GT) (d a : ℕ) (s : ℕ → ZMod p) (K : VpdKey G1 G2) : Prop
    extends Vpd.Good E a K where
  numOfVar : K.numOfVar = d
  even : ∀ i < d, K.pubG1 (2 * i) = s i ^ 2 • E.g1
  odd : ∀ i < d, K.pubG1 (2 * i + 1) = s i • E.g1
  one : K.pubG1 (2 * d) = E.g1
  u5 : K.pubG1 (2 * d + 1) = s (d / 2 - 1) ^ 5 • E.g1
  u4 : K.pubG1 (2 * d + 2) = s (d / 2 - 1) ^ 4 • E.g1
  u3 : K.pubG1 (2 * d + 3) = s (d / 2 - 1) ^ 3 • E.g1
  v5 : K.pubG1 (2 * d + 4) = s (d - 2) ^ 5 • E.g1
  v4 : K.pubG1 (2 * d + 5) = s (d - 2) ^ 4 • E.g1
  v3 : K.pubG1 (2 * d + 6) = s (d - 2) ^ 3 • E.g1
  blind : K.pubG1 (2 * d + 7) = s d • E.g1
  pubG2 : ∀ i ≤ d, K.pubG2 (2 * i + 1) = s i • E.g2

theorem highPowers_eq (g : G1) (si square b : ℕ) (pub : ℕ → G1)
    (hsq : (square : ZMod p) = (si : ZMod p) ^ 2) :
    ∃ pub', highPowers (precompute g) si square b pub = .ok pub' ∧
      pub' b = (si : ZMod p) ^ 5 • g ∧ pub' (b + 1) = (si : ZMod p) ^ 4 • g ∧
      pub' (b + 2) = (si : ZMod p) ^ 3 • g ∧ ∀ k, (k < b ∨ b + 2 < k) → pub' k = pub k := by
  unfold highPowers
  simp only [preExp_eq _ _ (mod_lt_P _), Outcome.ok_bind, Outcome.pure_eq]
  refine ⟨_, rfl, ?_, ?_, ?_, ?_⟩
  · rw [Function.update_of_ne (by omega), Function.update_of_ne (by omega), Function.update_self,
      nsmul_eq]
    congr 1
    simp only [cast_mod_p cast_p, Nat.cast_mul, hsq]; ring
  · rw [Function.update_of_ne (by omega), Function.update_self, nsmul_eq]
    congr 1
    simp only [cast_mod_p cast_p, Nat.cast_mul, hsq]; ring
  · rw [Function.update_self, nsmul_eq]
    congr 1
    simp only [cast_mod_p cast_p, Nat.cast_mul, hsq]; ring
  · intro k hk
    rw [Function.update_of_ne (by omega), Function.update_of_ne (by omega),
      Function.update_of_ne (by omega)]

structure LoopInv (E : Pairing G1 G2 GT) (d : ℕ) (s : ℕ → ℕ) (n : ℕ)
    (pub : (ℕ → G1) × (ℕ → G2)) : Prop where
  even : ∀ i < n, pub.1 (2 * i) = (s i : ZMod p) ^ 2 • E.g1
  odd : ∀ i < n, pub.1 (2 * i + 1) = (s i : ZMod p) • E.g1
  two : ∀ i < n, pub.2 (2 * i + 1) = (s i : ZMod p) • E.g2
  u : d / 2 - 1 < n → pub.1 (2 * d + 1) = (s (d / 2 - 1) : ZMod p) ^ 5 • E.g1 ∧
    pub.1 (2 * d + 2) = (s (d / 2 - 1) : ZMod p) ^ 4 • E.g1 ∧
    pub.1 (2 * d + 3) = (s (d / 2 - 1) : ZMod p) ^ 3 • E.g1
  v : d - 2 < n → pub.1 (2 * d + 4) = (s (d - 2) : ZMod p) ^ 5 • E.g1 ∧
    pub.1 (2 * d + 5) = (s (d - 2) : ZMod p) ^ 4 • E.g1 ∧
    pub.1 (2 * d + 6) = (s (d - 2) : ZMod p) ^ 3 • E.g1

theorem keyGenStep_ok (E : Pairing G1 G2 GT) (d : ℕ) (hd : 2 ≤ d) (s : ℕ → ℕ)
    (hs : ∀ i ≤ d, s i < p) (n : ℕ) (hn : n < d) (pub : (ℕ → G1) × (ℕ → G2))
    (h : LoopInv E d s n pub) :
    ∃ pub', keyGenStep (precompute E.g1) (precompute E.g2) d s n pub = .ok pub' ∧
      LoopInv E d s (n + 1) pub' := by
  have hsn := lt_P (hs n hn.le)
  unfold keyGenStep
  simp only [preExp_eq _ _ hsn, preExp_eq _ _ (mod_lt_P _), Outcome.ok_bind]
  have hsq : ((s n * s n % p : ℕ) : ZMod p) = (s n : ZMod p) ^ 2 := by
    rw [cast_mod_p cast_p, Nat.cast_mul, sq]
  set pub1 : ℕ → G1 := Function.update (Function.update pub.1 (2 * n + 1) (s n • E.g1)) (2 * n)
    ((s n * s n % p) • E.g1) with hpub1
  -- the first block of high powers
  obtain ⟨pub2, e2, hu2, hk2⟩ : ∃ pub2, (if n + 1 = d / 2 then highPowers (precompute E.g1) (s n)
      (s n * s n % p) (2 * d + 1) pub1 else pure pub1) = Outcome.ok pub2 ∧
      (n + 1 = d / 2 → pub2 (2 * d + 1) = (s n : ZMod p) ^ 5 • E.g1 ∧
        pub2 (2 * d + 2) = (s n : ZMod p) ^ 4 • E.g1 ∧
        pub2 (2 * d + 3) = (s n : ZMod p) ^ 3 • E.g1) ∧
      ∀ k, (k < 2 * d + 1 ∨ 2 * d + 3 < k ∨ n + 1 ≠ d / 2) → pub2 k = pub1 k := by
    split_ifs with hc
    · obtain ⟨q, e, h5, h4, h3, hk⟩ := highPowers_eq E.g1 (s n) (s n * s n % p) (2 * d + 1) pub1 hsq
      exact ⟨q, e, fun _ => ⟨h5, h4, h3⟩, fun k hk' => hk k (by omega)⟩
    · exact ⟨pub1, rfl, fun h => absurd h hc, fun k _ => rfl⟩
  obtain ⟨pub3, e3, hu3, hk3⟩ : ∃ pub3, (if n + 2 = d then highPowers (precompute E.g1) (s n)
      (s n * s n % p) (2 * d + 4) pub2 else pure pub2) = Outcome.ok pub3 ∧
      (n + 2 = d → pub3 (2 * d + 4) = (s n : ZMod p) ^ 5 • E.g1 ∧
        pub3 (2 * d + 5) = (s n : ZMod p) ^ 4 • E.g1 ∧
        pub3 (2 * d + 6) = (s n : ZMod p) ^ 3 • E.g1) ∧
      ∀ k, (k < 2 * d + 4 ∨ 2 * d + 6 < k ∨ n + 2 ≠ d) → pub3 k = pub2 k := by
    split_ifs with hc
    · obtain ⟨q, e, h5, h4, h3, hk⟩ := highPowers_eq E.g1 (s n) (s n * s n % p) (2 * d + 4) pub2 hsq
      exact ⟨q, e, fun _ => ⟨h5, h4, h3⟩, fun k hk' => hk k (by omega)⟩
    · exact ⟨pub2, rfl, fun h => absurd h hc, fun k _ => rfl⟩
  rw [e2, Outcome.ok_bind, e3, Outcome.ok_bind]
  refine ⟨_, rfl, ?_, ?_, ?_, ?_, ?_⟩
  · intro i hi
    show pub3 _ = _
    rw [hk3 _ (by omega), hk2 _ (by omega), hpub1]
    rcases Nat.lt_or_ge i n with hin | hin
    · rw [Function.update_of_ne (by omega), Function.update_of_ne (by omega), h.even i hin]
    · obtain rfl : i = n := by omega
      rw [Function.update_self, nsmul_eq, hsq]
  · intro i hi
    show pub3 _ = _
    rw [hk3 _ (by omega), hk2 _ (by omega), hpub1]
    rcases Nat.lt_or_ge i n with hin | hin
    · rw [Function.update_of_ne (by omega), Function.update_of_ne (by omega), h.odd i hin]
    · obtain rfl : i = n := by omega
      rw [Function.update_of_ne (by omega), Function.update_self, nsmul_eq]
  · intro i hi
    show Function.update _ _ _ _ = _
    rcases Nat.lt_or_ge i n with hin | hin
    · rw [Function.update_of_ne (by omega), h.two i hin]
    · obtain rfl : i = n := by omega
      rw [Function.update_self, nsmul_eq]
  · intro hi
    show pub3 _ = _ ∧ pub3 _ = _ ∧ pub3 _ = _
    rw [hk3 _ (by omega), hk3 _ (by omega), hk3 _ (by omega)]
    rcases Nat.lt_or_ge (d / 2 - 1) n with hin | hin
    · rw [hk2 _ (by omega), hk2 _ (by omega), hk2 _ (by omega), hpub1]
      simp only [Function.update_of_ne (show 2 * d + 1 ≠ 2 * n by omega),
        Function.update_of_ne (show 2 * d + 2 ≠ 2 * n by omega),
        Function.update_of_ne (show 2 * d + 3 ≠ 2 * n by omega),
        Function.update_of_ne (show 2 * d + 1 ≠ 2 * n + 1 by omega),
        Function.update_of_ne (show 2 * d + 2 ≠ 2 * n + 1 by omega),
        Function.update_of_ne (show 2 * d + 3 ≠ 2 * n + 1 by omega)]
      exact h.u hin
    · have hnn : d / 2 - 1 = n := by omega
      rw [hnn]
      exact hu2 (by omega)
  · intro hi
    show pub3 _ = _ ∧ pub3 _ = _ ∧ pub3 _ = _
    rcases Nat.lt_or_ge (d - 2) n with hin | hin
    · rw [hk3 _ (by omega), hk3 _ (by omega), hk3 _ (by omega),
        hk2 _ (by omega), hk2 _ (by omega), hk2 _ (by omega), hpub1]
      simp only [Function.update_of_ne (show 2 * d + 4 ≠ 2 * n by omega),
        Function.update_of_ne (show 2 * d + 5 ≠ 2 * n by omega),
        Function.update_of_ne (show 2 * d + 6 ≠ 2 * n by omega),
        Function.update_of_ne (show 2 * d + 4 ≠ 2 * n + 1 by omega),
        Function.update_of_ne (show 2 * d + 5 ≠ 2 * n + 1 by omega),
        Function.update_of_ne (show 2 * d + 6 ≠ 2 * n + 1 by omega)]
      exact h.v hin
    · have hnn : d - 2 = n := by omega
      rw [hnn]
      exact hu3 (by omega)

theorem keyGen_good (E : Pairing G1 G2 GT) (d : ℕ) (hd : 2 ≤ d) (a : ℕ) (s : ℕ → ℕ)
    (hs : ∀ i ≤ d, s i < p) :
    ∃ K, keyGen E d a s = .ok K ∧ Good E d a (fun i => (s i : ZMod p)) K := by
  unfold keyGen
  simp only []
  obtain ⟨pub, e, h⟩ := loopM_ok (s := ((fun _ => 0 : ℕ → G1), (fun _ => 0 : ℕ → G2)))
    (LoopInv E d s) ⟨by simp, by simp, by simp, by simp, by simp⟩
    (fun i hi pub hp => keyGenStep_ok E d hd s hs i hi pub hp)
  rw [e, Outcome.ok_bind]
  simp only [preExp_eq _ _ (lt_P (hs d le_rfl)), Outcome.ok_bind, Outcome.pure_eq]
  have hu := h.u (by omega)
  have hv := h.v (by omega)
  refine ⟨_, rfl, ⟨rfl, rfl, rfl, rfl⟩, rfl, ?_, ?_, ?_, ?_, ?_, ?_, ?_, ?_, ?_, ?_, ?_⟩
  · intro i hi
    simp only [Function.update_of_ne (show 2 * i ≠ 2 * d + 7 by omega),
      Function.update_of_ne (show 2 * i ≠ 2 * d by omega)]
    exact h.even i hi
  · intro i hi
    simp only [Function.update_of_ne (show 2 * i + 1 ≠ 2 * d + 7 by omega),
      Function.update_of_ne (show 2 * i + 1 ≠ 2 * d by omega)]
    exact h.odd i hi
  · simp
  · simpa using hu.1
  · simpa using hu.2.1
  · simpa using hu.2.2
  · simpa using hv.1
  · simpa using hv.2.1
  · simpa using hv.2.2
  · simp [nsmul_eq]
  · intro i hi
    rcases Nat.lt_or_ge i d with hin | hin
    · simp only [Function.update_of_ne (show 2 * i + 1 ≠ 2 * d + 1 by omega),
        Function.update_of_ne (show 2 * i + 1 ≠ 2 * d by omega)]
      exact h.two i hin
    · obtain rfl : i = d := by omega
      simp [nsmul_eq]

section poly
variable {R : Type} [CommRing R]

/-- the part of the mask in variable `i` -/
def part (d : ℕ) (a : ℕ → R) (i : ℕ) (x : R) : R :=
  a (2 * i) * x ^ 2 + a (2 * i + 1) * x
    + (if i + 1 = d / 2 then a (2 * d + 1) * x ^ 5 + a (2 * d + 2) * x ^ 4 + a (2 * d + 3) * x ^ 3
      else 0)
    + (if i + 2 = d then a (2 * d + 4) * x ^ 5 + a (2 * d + 5) * x ^ 4 + a (2 * d + 6) * x ^ 3
      else 0)

theorem sumMaskPoly_eq (d : ℕ) (hd : 2 ≤ d) (a x : ℕ → R) :
    sumMaskPoly d a x = a (2 * d) + ∑ i ∈ range d, part d a i (x i) := by
  unfold sumMaskPoly part
  rw [sum_add_distrib (g := fun i => if i + 2 = d then _ else _),
    sum_add_distrib (g := fun i => if i + 1 = d / 2 then _ else _)]
  have h1 : ∀ f : ℕ → R, ∑ i ∈ range d, (if i + 1 = d / 2 then f i else 0) = f (d / 2 - 1) := by
    intro f
    rw [sum_eq_single (d / 2 - 1)]
    · rw [if_pos (by omega)]
    · intro b _ hb; rw [if_neg (by omega)]
    · intro hb; rw [mem_range] at hb; omega
  have h2 : ∀ f : ℕ → R, ∑ i ∈ range d, (if i + 2 = d then f i else 0) = f (d - 2) := by
    intro f
    rw [sum_eq_single (d - 2)]
    · rw [if_pos (by omega)]
    · intro b _ hb; rw [if_neg (by omega)]
    · intro hb; rw [mem_range] at hb; omega
  rw [h1 (fun i => a (2 * d + 1) * x i ^ 5 + a (2 * d + 2) * x i ^ 4 + a (2 * d + 3) * x i ^ 3),
    h2 (fun i => a (2 * d + 4) * x i ^ 5 + a (2 * d + 5) * x i ^ 4 + a (2 * d + 6) * x i ^ 3)]
  ring

theorem quinticValue_cast (hp : (p : R) = 0) (c : ℕ → ℕ) (ri i b ans : ℕ) :
    (quinticValue c ri i b ans : R) = ans + ((c b : R) * ri ^ 5 + c (b + 1) * ri ^ 4
      + c (b + 2) * ri ^ 3 + c (2 * i) * ri ^ 2 + c (2 * i + 1) * ri) := by
  simp only [quinticValue, cast_mod_p hp, Nat.cast_add, Nat.cast_mul]
  ring

theorem answer_cast (hp : (p : R) = 0) (d : ℕ) (hd : 3 ≤ d) (c r : ℕ → ℕ) :
    (answer d c r : R) = sumMaskPoly d (fun i => (c i : R)) (fun i => (r i : R)) := by
  rw [sumMaskPoly_eq d (by omega), answer, cast_mod_p hp, Nat.cast_add, add_comm]
  congr 1
  rw [loop_map (fun n : ℕ => (n : R)) (b' := fun i s => s + part d (fun i => (c i : R)) i (r i))]
  · rw [loop_add_sum, Nat.cast_zero, zero_add]
  · intro i hi s
    simp only []
    by_cases h1 : i + 1 = d / 2
    · have h2 : i + 2 ≠ d := by omega
      rw [if_neg (by omega), if_neg h2, if_pos h1, quinticValue_cast hp, part, if_pos h1, if_neg h2]
      ring
    · by_cases h2 : i + 2 = d
      · rw [if_neg (by omega), if_pos h2, if_neg h1, quinticValue_cast hp, part, if_neg h1,
          if_pos h2]
        ring
      · rw [if_pos ⟨h1, h2⟩, if_neg h1, if_neg h2, part, if_neg h1, if_neg h2]
        simp only [cast_mod_p hp, Nat.cast_add, Nat.cast_mul]
        ring

theorem answer_lt (d : ℕ) (c r : ℕ → ℕ) : answer d c r < p := Nat.mod_lt _ (by decide +kernel)

end poly

/-- quotient of part `i` by `x - r` -/
theorem quinticWitness_eq {E : Pairing G1 G2 GT} {K : VpdKey G1 G2}
    (hg : K.g1Pre = precompute E.g1) (c : ℕ → ℕ) (ri i b : ℕ) (s : ZMod p)
    (h4 : K.pubG1 (b + 1) = s ^ 4 • E.g1) (h3 : K.pubG1 (b + 2) = s ^ 3 • E.g1)
    (h2 : K.pubG1 (2 * i) = s ^ 2 • E.g1) (h1 : K.pubG1 (2 * i + 1) = s • E.g1) :
    ∃ ω : ZMod p, quinticWitness K c ri i b = .ok (ω • E.g1) ∧
      (s - ri) * ω = (c b * s ^ 5 + c (b + 1) * s ^ 4 + c (b + 2) * s ^ 3 + c (2 * i) * s ^ 2
          + c (2 * i + 1) * s)
        - (c b * ri ^ 5 + c (b + 1) * ri ^ 4 + c (b + 2) * ri ^ 3 + c (2 * i) * ri ^ 2
          + c (2 * i + 1) * ri) := by
  unfold quinticWitness
  simp only [hg, preExp_eq _ _ (mod_lt_P _), Outcome.ok_bind, Outcome.pure_eq, h1, h2, h3, h4,
    nsmul_eq, smul_smul, ← add_smul]
  refine ⟨_, rfl, ?_⟩
  simp only [cast_mod_p cast_p, Nat.cast_add, Nat.cast_mul]
  ring

theorem plainWitness_eq {E : Pairing G1 G2 GT} {d a : ℕ} (hd : 3 ≤ d) {s : ℕ → ZMod p}
    {K : VpdKey G1 G2} (hK : Good E d a s K) (c : ℕ → ℕ) (hc : ∀ i < 2 * d, c i < p)
    (ri i : ℕ) (hi : i < d) :
    ∃ ω : ZMod p, plainWitness K c ri i = .ok (ω • E.g1) ∧
      (s i - ri) * ω = part d (fun i => (c i : ZMod p)) i (s i)
        - part d (fun i => (c i : ZMod p)) i ri := by
  unfold plainWitness
  simp only [hK.numOfVar]
  by_cases h2 : i + 2 = d
  · have h1 : i + 1 ≠ d / 2 := by omega
    rw [if_pos h2]
    have hdi : d - 2 = i := by omega
    have h5 := hK.v4
    have h6 := hK.v3
    rw [hdi] at h5 h6
    obtain ⟨ω, e, hω⟩ := quinticWitness_eq hK.g1Pre c ri i (2 * d + 4) (s i) h5 h6
      (hK.even i hi) (hK.odd i hi)
    refine ⟨ω, e, ?_⟩
    simp only [part, if_neg h1, if_pos h2]
    rw [hω]; ring
  · by_cases h1 : i + 1 = d / 2
    · rw [if_neg h2, if_pos h1]
      have hdi : d / 2 - 1 = i := by omega
      have h5 := hK.u4
      have h6 := hK.u3
      rw [hdi] at h5 h6
      obtain ⟨ω, e, hω⟩ := quinticWitness_eq hK.g1Pre c ri i (2 * d + 1) (s i) h5 h6
        (hK.even i hi) (hK.odd i hi)
      refine ⟨ω, e, ?_⟩
      simp only [part, if_pos h1, if_neg h2]
      rw [hω]; ring
    · rw [if_neg h2, if_neg h1]
      simp only [hK.g1Pre, preExp_eq _ _ (mod_lt_P _), preExp_eq _ _ (lt_P (hc (2 * i + 1)
        (by omega))), Outcome.ok_bind, Outcome.pure_eq, hK.odd i hi, nsmul_eq, smul_smul,
        ← add_smul]
      refine ⟨_, rfl, ?_⟩
      simp only [part, if_neg h1, if_neg h2, cast_mod_p cast_p, Nat.cast_mul]
      ring

/-- the loop computing the first `d` witnesses -/
theorem witnessLoop {f : ℕ → Outcome G1} {g : ℕ → G1} {d : ℕ} (h : ∀ i < d, f i = .ok (g i)) :
    ∃ w, loopM d (fun i (w : ℕ → G1) => do
      let x ← f i
      pure (Function.update w i x)) (fun _ => 0) = .ok w ∧ ∀ i < d, w i = g i := by
  refine loopM_ok (fun n (w : ℕ → G1) => ∀ i < n, w i = g i) (fun _ h => absurd h (Nat.not_lt_zero _)) ?_
  intro i hi w hw
  refine ⟨Function.update w i (g i), ?_, ?_⟩
  · show (f i >>= _) = _
    rw [h i hi]; rfl
  · intro j hj
    rcases Nat.lt_or_ge j i with hji | hji
    · rw [Function.update_of_ne (by omega), hw j hji]
    · obtain rfl : j = i := by omega
      rw [Function.update_self]

/-- the sum `coeffs + Σ (t_i r_i % p)` stays below the 512 bits of the table -/
theorem blind_lt {d : ℕ} (hd : d < 2 ^ 250) (c : ℕ) (hc : c < p) (t r : ℕ → ℕ) :
    loop d (fun i tmp => tmp + (t i * r i) % p) c < 2 ^ P := by
  rw [loop_add_sum]
  have h1 : ∑ i ∈ range d, (t i * r i) % p ≤ d * p := by
    calc ∑ i ∈ range d, (t i * r i) % p ≤ ∑ i ∈ range d, p :=
          sum_le_sum (fun i _ => (Nat.mod_lt _ (by decide +kernel)).le)
      _ = d * p := by rw [sum_const, card_range, smul_eq_mul]
  have h2 : d * p ≤ 2 ^ 250 * 2 ^ 254 := Nat.mul_le_mul hd.le p_lt.le
  have h3 : (2 : ℕ) ^ 250 * 2 ^ 254 + 2 ^ 254 < 2 ^ P := by
    rw [← pow_add]; decide +kernel
  have h4 := p_lt
  exact lt_of_le_of_lt (Nat.add_le_add hc.le (h1.trans h2))
    (lt_of_le_of_lt (by rw [Nat.add_comm]; exact Nat.add_le_add le_rfl h4.le) h3)

omit [Module (ZMod p) G1] in
theorem loop_sub_sum (n : ℕ) (f : ℕ → G1) (a : G1) :
    loop n (fun i s => s - f i) a = a - ∑ i ∈ range n, f i := by
  induction n with
  | zero => simp
  | succ n ih => rw [loop_succ, ih, sum_range_succ]; abel

theorem complete [DecidableEq GT] {E : Pairing G1 G2 GT} {d a : ℕ} (hd : 3 ≤ d) (hd2 : d < 2 ^ 250)
    {s : ℕ → ZMod p} {K : VpdKey G1 G2} (hK : Good E d a s K) (input : ℕ → ℕ)
    (hin : ∀ i < 2 * d, input i < p) (rf : ℕ) (hrf : rf < p) (t r : ℕ → ℕ)
    (hr : ∀ i < d, r i < p) :
    ∃ O, prove K r input rf t = .ok O ∧ O.ans < p ∧
      (∀ (R : Type) [CommRing R], (p : R) = 0 →
        (O.ans : R) = sumMaskPoly d (fun i => (input i : R)) (fun i => (r i : R))) ∧
      verify E K d r (commit K input rf).1 O.ans O.witness O.witnessa = .ok true := by
  set c := Function.update input (2 * d + 7) rf with hc
  have hci : ∀ i, i < 2 * d + 7 → c i = input i := fun i hi => by
    rw [hc, Function.update_of_ne (by omega)]
  have hcl : c (2 * d + 7) = rf := by rw [hc, Function.update_self]
  choose! ω hω using fun i (hi : i < d) => plainWitness_eq hd hK c
    (fun i hi => by rw [hci i (by omega)]; exact hin i hi) (r i) i hi
  obtain ⟨wt, ew, hwt⟩ := witnessLoop (d := d)
    (f := fun i => do
      let x ← plainWitness K c (r i) i
      pure (x + t i • K.pubG1 (2 * d + 7)))
    (g := fun i => (ω i + t i * s d) • E.g1) (by
      intro i hi
      show (plainWitness K c (r i) i >>= _) = _
      rw [(hω i hi).1, Outcome.ok_bind, hK.blind, nsmul_eq, smul_smul, ← add_smul]; rfl)
  have ew' : loopM d (fun i (w : ℕ → G1) => do
      let x ← plainWitness K c (r i) i
      pure (Function.update w i (x + t i • K.pubG1 (2 * d + 7)))) (fun _ => 0) = .ok wt := by
    rw [← ew]
    congr 1
    funext i w
    cases plainWitness K c (r i) i <;> rfl
  unfold prove
  simp only [hK.numOfVar, ← hc]
  rw [ew', Outcome.ok_bind, hcl, hK.g1Pre, preExp_eq _ _ (blind_lt hd2 rf hrf t r), Outcome.ok_bind]
  have hval : ∀ (R : Type) [CommRing R], (p : R) = 0 →
      (answer d c r : R) = sumMaskPoly d (fun i => (input i : R)) (fun i => (r i : R)) := by
    intro R _ hp
    rw [answer_cast hp d hd]
    unfold sumMaskPoly
    simp only []
    rw [hci (2 * d) (by omega), hci (2 * d + 1) (by omega), hci (2 * d + 2) (by omega),
      hci (2 * d + 3) (by omega), hci (2 * d + 4) (by omega), hci (2 * d + 5) (by omega),
      hci (2 * d + 6) (by omega)]
    congr 3
    exact sum_congr rfl (fun i hi => by
      have := mem_range.1 hi
      rw [hci (2 * i) (by omega), hci (2 * i + 1) (by omega)])
  refine ⟨_, rfl, answer_lt _ _ _, hval, ?_⟩
  unfold verify
  simp only []
  rw [Nat.mod_eq_of_lt (answer_lt d c r)]
  obtain ⟨b, e, hb⟩ := finalCheck_eq E K (fun i => 2 * i + 1) d r (commit K input rf).1
    (answer d c r) (Function.update wt d (loop d (fun i w => w - t i • K.pubG1 (2 * i + 1))
      (loop d (fun i tmp => tmp + t i * r i % p) rf • E.g1))) hK.g1Pre hK.g2Pre
    (fun i hi => lt_P (hr i hi)) (lt_P (answer_lt _ _ _))
  rw [e, Outcome.ok_bind]
  have hb' : b = true := by
    rw [hb]
    have hcast : (answer d c r : ZMod p) = sumMaskPoly d (fun i => (c i : ZMod p))
      (fun i => (r i : ZMod p)) := answer_cast cast_p d hd c r
    refine finalEq_scalars E K _ d r _ _ _ s
      (fun i => if i < d then ω i + t i * s d
        else rf + ∑ i ∈ range d, (t i : ZMod p) * r i - ∑ i ∈ range d, (t i : ZMod p) * s i)
      (sumMaskPoly d (fun i => (c i : ZMod p)) s + rf * s d) hK.pubG2 ?_ ?_ ?_
    · intro i hi
      rcases Nat.lt_or_ge i d with hid | hid
      · rw [Function.update_of_ne (by omega), hwt i hid, if_pos hid]
      · obtain rfl : i = d := by omega
        rw [Function.update_self, if_neg (lt_irrefl i), loop_sub_sum, loop_add_sum, nsmul_eq,
          sub_smul, sum_smul]
        congr 1
        · congr 1
          rw [Nat.cast_add, Nat.cast_sum]
          congr 1
          exact sum_congr rfl (fun j _ => by rw [cast_mod_p cast_p, Nat.cast_mul])
        · exact sum_congr rfl (fun j hj => by
            rw [hK.odd j (mem_range.1 hj), nsmul_eq, smul_smul])
    · show (commit K input rf).1 = _
      simp only [commit, hK.numOfVar, ← hc]
      rw [loop_add_sum, zero_add, sum_range_succ, hcl, hK.blind, sum_range_succ, sum_range_succ,
        sum_range_succ, sum_range_succ, sum_range_succ, sum_range_succ, sum_range_succ,
        hK.one, hK.u5, hK.u4, hK.u3, hK.v5, hK.v4, hK.v3]
      have hsum : ∑ i ∈ range (2 * d), c i • K.pubG1 i =
          (∑ i ∈ range d, ((c (2 * i) : ZMod p) * s i ^ 2 + c (2 * i + 1) * s i)) • E.g1 := by
        have h2 : ∀ (m : ℕ) (f : ℕ → G1), ∑ i ∈ range (2 * m), f i =
            ∑ i ∈ range m, (f (2 * i) + f (2 * i + 1)) := by
          intro m f
          induction m with
          | zero => simp
          | succ m ih =>
            rw [show 2 * (m + 1) = 2 * m + 1 + 1 by ring, sum_range_succ, sum_range_succ, ih,
              sum_range_succ, add_assoc]
        rw [h2, sum_smul]
        exact sum_congr rfl (fun i hi => by
          have := mem_range.1 hi
          rw [hK.even i this, hK.odd i this, nsmul_eq, nsmul_eq, smul_smul, smul_smul, ← add_smul])
      rw [hsum]
      simp only [nsmul_eq, smul_smul, sumMaskPoly]
      module
    · rw [hcast, sumMaskPoly_eq d (by omega), sumMaskPoly_eq d (by omega), if_neg (lt_irrefl d)]
      have hstep : ∑ i ∈ range d, (s i - r i) * (if i < d then ω i + t i * s d
          else rf + ∑ i ∈ range d, (t i : ZMod p) * r i - ∑ i ∈ range d, (t i : ZMod p) * s i) =
          ∑ i ∈ range d, part d (fun i => (c i : ZMod p)) i (s i)
          - ∑ i ∈ range d, part d (fun i => (c i : ZMod p)) i (r i)
          + s d * (∑ i ∈ range d, (t i : ZMod p) * s i - ∑ i ∈ range d, (t i : ZMod p) * r i) := by
        rw [← sum_sub_distrib, ← sum_sub_distrib, mul_sum, ← sum_add_distrib]
        refine sum_congr rfl (fun i hi => ?_)
        have hid := mem_range.1 hi
        rw [if_pos hid, mul_add, (hω i hid).2]
        ring
      rw [hstep]
      ring
  rw [hb']
  have := hK.toGood.knowledge (d + 1) (Function.update wt d (loop d
    (fun i w => w - t i • K.pubG1 (2 * i + 1))
    (loop d (fun i tmp => tmp + t i * r i % p) rf • E.g1)))
  rw [this]
  rfl

end VpdTest
end Libra
