import Verif.Proofs.Multivariate
import Verif.Props.Vpd

/-!
# C92, C93, C94: the stand-alone commitment to a multilinear polynomial
-/

namespace Libra.Props
open Libra Spec Finset Multivariate

variable {G1 G2 GT : Type} [AddCommGroup G1] [AddCommGroup G2] [AddCommGroup GT]
  [Module (ZMod p) G1] [Module (ZMod p) G2] [Module (ZMod p) GT]

/-- the polynomial that a vector stands for: the multilinear extension of the vector, filled up with zeros
to a power of two, at a point -/
noncomputable def vectorPoly (input r : List ℤ) : ZMod p :=
  mle r.length (fun i => ((input.getD i 0 : ℤ) : ZMod p)) (fun i => ((r.getD i 0 : ℤ) : ZMod p))

theorem commit_value {D : ℕ} {s : ℕ → ℤ} (input : List ℤ) (l : ℕ) (hl : input.length ≤ 2 ^ l) :
    ∑ j ∈ range input.length, tableOf input j * key D s l j =
      mle l (tableOf input) (fun t => ((s (D - l + t) : ℤ) : ZMod p)) := by
  rw [mle, ← sum_subset (range_subset_range.2 hl)]
  · exact sum_congr rfl (fun j _ => mul_comm _ _)
  · intro i _ hi
    have : ¬ i < input.length := fun h => hi (mem_range.2 h)
    rw [tableOf, List.getD_eq_default _ _ (by omega)]
    simp

/-! ## C92: completeness -/

/-- A vector of even length: key generation, commitment and opening succeed, both checks accept, and the
answer is the value of the polynomial. The length need not be a power of two and may be smaller than the
keys allow. -/
theorem C92_complete [DecidableEq GT] (E : Pairing G1 G2 GT) (D : ℕ) (hD : D ≤ 30) (a : ℤ) (ha : 0 ≤ a)
    (ha' : a < p) (s : ℕ → ℤ) (hs : ∀ i < D, 0 ≤ s i) (input : List ℤ) (hne : input.length ≠ 0)
    (heven : input.length % 2 = 0) (hlen : input.length ≤ 2 ^ D) (hin : ∀ x ∈ input, -p ≤ x ∧ x < 2 ^ 254)
    (r : List ℤ) (hrl : r.length = Nat.clog 2 input.length) (hr : ∀ x ∈ r, 0 ≤ x ∧ x < p) :
    ∃ K digest digesta O, keygen E D a s = .ok K ∧ commit K input = .ok (digest, digesta) ∧
      checkCommit E K digest digesta = true ∧ prove K r input = .ok O ∧
      verify E K r digest O.ans O.witness O.witnessa = .ok true ∧
      0 ≤ O.ans ∧ O.ans < p ∧ (O.ans : ZMod p) = vectorPoly input r := by
  obtain ⟨K, e, h⟩ := keygen_good E D hD a ha ha' s hs
  have hc := commit_ok h input hne hlen hin
  have hpow : input.length ≤ 2 ^ r.length := by rw [hrl]; exact Nat.le_pow_clog (by norm_num) _
  have hr0 : r.length ≠ 0 := by
    intro h0; rw [h0] at hpow; simp at hpow; omega
  have hrD : r.length ≤ D := by rw [hrl]; exact Nat.clog_le_of_le_pow hlen
  have hr' : ∀ i < r.length, 0 ≤ r.getD i 0 ∧ r.getD i 0 < p := by
    intro i hi; rw [List.getD_eq_getElem _ _ hi]; exact hr _ (List.getElem_mem hi)
  rw [show 2 * (input.length / 2) = input.length by omega, ← hrl, commit_value input r.length hpow] at hc
  obtain ⟨O, b, e1, e2, o1, hb⟩ := honest_iff h r input hr0 hrD hD hpow hr'
    (mle r.length (tableOf input) (fun t => ((s (D - r.length + t) : ℤ) : ZMod p)))
  obtain ⟨a1, a2, a3⟩ := answer_eq r.length (fun i => r.getD i 0) input hpow
  rw [← o1] at a1 a2 a3
  refine ⟨K, _, _, O, e, hc, ?_, e1, ?_, a2, a3, a1⟩
  · rw [checkCommit, beq_iff_eq, h.ga, map_smul, map_smul, map_smul, LinearMap.smul_apply, smul_smul, mul_comm]
  · rw [e2, hb.2 (by rw [sub_self, zero_smul])]

/-- The program prints 1 for both checks, for one to thirty variables, whatever `rand()` and
`mpz_urandomm` return. -/
theorem C92_program [DecidableEq GT] (E : Pairing G1 G2 GT) (d : ℕ) (hd : 1 ≤ d) (hd' : d ≤ 30) (a : ℤ)
    (ha : 0 ≤ a) (ha' : a < p) (s : ℕ → ℤ) (hs : ∀ i < d, 0 ≤ s i) (input : ℕ → ℤ)
    (hin : ∀ i, 0 ≤ input i ∧ input i < 2 ^ 31) (r : ℕ → ℤ) (hr : ∀ i, 0 ≤ r i ∧ r i < p) :
    program E d a s input r = .ok (true, true) := by
  have h2 : (2 : ℕ) ^ d % 2 = 0 := by
    obtain ⟨k, rfl⟩ : ∃ k, d = k + 1 := ⟨d - 1, by omega⟩
    rw [pow_succ]; omega
  have hpos : 0 < (2 : ℕ) ^ d := Nat.two_pow_pos d
  obtain ⟨K, dg, dga, O, e1, e2, e3, e4, e5, _⟩ := C92_complete E d hd' a ha ha' s hs
    ((List.range (2 ^ d)).map input) (by simp) (by simpa using h2) (by simp)
    (by
      intro x hx
      obtain ⟨i, _, rfl⟩ := List.mem_map.1 hx
      have := hin i
      have pp := Mm.p_pos
      constructor
      · omega
      · have : (2 : ℤ) ^ 31 < 2 ^ 254 := by norm_num
        omega)
    ((List.range d).map r) (by simp [Nat.clog_pow]) (by
      intro x hx
      obtain ⟨i, _, rfl⟩ := List.mem_map.1 hx
      exact hr i)
  unfold program
  rw [e1, Outcome.ok_bind]
  dsimp only
  rw [e2, Outcome.ok_bind]
  dsimp only
  rw [e4, Outcome.ok_bind, e5, Outcome.ok_bind, e3]
  rfl

/-- With no variables, or more than thirty, the program has undefined behaviour. -/
theorem C92_sizes [DecidableEq GT] (E : Pairing G1 G2 GT) (d : ℕ) (hd : d = 0 ∨ 31 ≤ d) (a : ℤ)
    (ha : 0 ≤ a) (ha' : a < p) (s : ℕ → ℤ) (input r : ℕ → ℤ) (hin : ∀ i, 0 ≤ input i ∧ input i < 2 ^ 31) :
    program E d a s input r = .undefined := by
  unfold program
  rcases hd with rfl | hd
  · obtain ⟨K, e, h⟩ := keygen_good E 0 (by omega) a ha ha' s (by simp)
    have hc := commit_ok h ((List.range (2 ^ 0)).map input) (by simp) (by simp) (by
      intro x hx
      obtain ⟨i, _, rfl⟩ := List.mem_map.1 hx
      have := hin i
      have pp := Mm.p_pos
      constructor
      · omega
      · have : (2 : ℤ) ^ 31 < 2 ^ P := by norm_num [P]
        omega)
    rw [e, Outcome.ok_bind]
    dsimp only
    rw [hc, Outcome.ok_bind]
    dsimp only
    have : prove K ((List.range 0).map r) ((List.range (2 ^ 0)).map input) = .undefined := by
      unfold prove
      dsimp only
      rw [if_pos (Or.inl (by simp))]
    rw [this]
    rfl
  · have : keygen E d a s = .undefined := by
      unfold keygen
      rw [if_pos hd]
    rw [this]
    rfl

/-- four entries, one of them negative, in keys for eight -/
example :=
  have hp : (100 : ℤ) < p := by rw [Spec.p]; norm_num
  C92_complete toyPairing 3 (by norm_num) 7 (by norm_num) (by omega) (fun i => (i : ℤ) + 5)
    (fun i _ => by omega) [3, -4, 5, 6] (by decide) (by decide) (by decide)
    (by intro x hx; simp at hx; rcases hx with rfl | rfl | rfl | rfl <;> constructor <;> first | omega | norm_num)
    [11, 12] (by decide) (by intro x hx; simp at hx; rcases hx with rfl | rfl <;> constructor <;> omega)

/-! ## C93: vectors of odd length

Wanted: the same for vectors of every length. `multi_scalar` goes over pairs and drops the last entry of a
vector of odd length; the opening does not. -/

/-- An honest opening of a vector of odd length is accepted exactly if the entry that was dropped does not
matter: it is zero, or the secrets happen to make its public element zero. -/
theorem C93_odd_partial [DecidableEq GT] (E : Pairing G1 G2 GT) (hE : E.e E.g2 E.g1 ≠ 0) (D : ℕ) (hD : D ≤ 30)
    (a : ℤ) (ha : 0 ≤ a) (ha' : a < p) (s : ℕ → ℤ) (hs : ∀ i < D, 0 ≤ s i) (input : List ℤ)
    (hodd : input.length % 2 = 1) (h3 : 3 ≤ input.length) (hlen : input.length ≤ 2 ^ D)
    (hin : ∀ x ∈ input, -p ≤ x ∧ x < 2 ^ 254) (r : List ℤ) (hrl : r.length = Nat.clog 2 input.length)
    (hr : ∀ x ∈ r, 0 ≤ x ∧ x < p) :
    ∃ K digest digesta O b, keygen E D a s = .ok K ∧ commit K input = .ok (digest, digesta) ∧
      prove K r input = .ok O ∧ verify E K r digest O.ans O.witness O.witnessa = .ok b ∧
      (b = true ↔ ((input.getD (input.length - 1) 0 : ℤ) : ZMod p) = 0 ∨
        eqPoly r.length (fun t => ((s (D - r.length + t) : ℤ) : ZMod p)) (input.length - 1) = 0) := by
  obtain ⟨K, e, h⟩ := keygen_good E D hD a ha ha' s hs
  have hc := commit_ok h input (by omega) hlen hin
  have hpow : input.length ≤ 2 ^ r.length := by rw [hrl]; exact Nat.le_pow_clog (by norm_num) _
  have hr0 : r.length ≠ 0 := by
    intro h0; rw [h0] at hpow; simp at hpow; omega
  have hrD : r.length ≤ D := by rw [hrl]; exact Nat.clog_le_of_le_pow hlen
  have hr' : ∀ i < r.length, 0 ≤ r.getD i 0 ∧ r.getD i 0 < p := by
    intro i hi; rw [List.getD_eq_getElem _ _ hi]; exact hr _ (List.getElem_mem hi)
  obtain ⟨O, b, e1, e2, o1, hb⟩ := honest_iff h r input hr0 hrD hD hpow hr'
    (∑ j ∈ range (2 * (input.length / 2)), tableOf input j * key D s (Nat.clog 2 input.length) j)
  refine ⟨K, _, _, O, b, e, hc, e1, e2, hb.trans ?_⟩
  have hv := commit_value (D := D) (s := s) input r.length hpow
  obtain ⟨m, hm⟩ : ∃ m, input.length = 2 * m + 1 := ⟨input.length / 2, by omega⟩
  rw [← hv, ← hrl, show 2 * (input.length / 2) = 2 * m by omega, hm, sum_range_succ, sub_add_cancel_left,
    smul_eq_zero_iff_left hE, neg_eq_zero, mul_eq_zero, Nat.add_sub_cancel]
  rfl

/-- A vector of three entries whose honest opening is refused. -/
theorem C93_rejects : ∃ (a : ℤ) (s : ℕ → ℤ) (r : List ℤ) (K : Key (ZMod p) (ZMod p)) (digest digesta : ZMod p)
    (O : Opening (ZMod p)), (∀ x ∈ r, 0 ≤ x ∧ x < p) ∧ keygen toyPairing 2 a s = .ok K ∧
      commit K [1, 2, 3] = .ok (digest, digesta) ∧ r.length = 2 ∧ prove K r [1, 2, 3] = .ok O ∧
      verify toyPairing K r digest O.ans O.witness O.witnessa = .ok false := by
  have hp : (100 : ℤ) < p := by rw [Spec.p]; norm_num
  have hr : ∀ x ∈ [(11 : ℤ), 12], 0 ≤ x ∧ x < (p : ℤ) := by
    intro x hx; simp at hx; rcases hx with rfl | rfl <;> constructor <;> omega
  obtain ⟨K, d, da, O, b, e1, e2, e3, e4, hb⟩ := C93_odd_partial toyPairing
    (by show (1 : ZMod p) * 1 ≠ 0; simp) 2 (by norm_num) 7 (by norm_num) (by omega) (fun i => (i : ℤ) + 5)
    (fun i _ => by omega) [1, 2, 3] (by decide) (by decide) (by decide)
    (by intro x hx; simp at hx; rcases hx with rfl | rfl | rfl <;> constructor <;> first | omega | norm_num)
    [11, 12] (by decide) hr
  refine ⟨7, _, [11, 12], K, d, da, O, hr, e1, e2, rfl, e3, ?_⟩
  rw [e4]
  have : b ≠ true := by
    rw [Ne, hb]
    decide +kernel
  simp only [Bool.not_eq_true] at this
  rw [this]

/-! ## C94: binding

Wanted: with one commitment and one point, two accepted answers are the same modulo `p` unless the witnesses
reveal a relation between the secrets, and every witness comes with a correct companion. -/

/-- Accepted answers in the range of the table: two of them give a relation between the secrets, and the
companions from the second on are correct. -/
theorem C94_relation_partial [DecidableEq GT] (E : Pairing G1 G2 GT) (hE : NonDegenerate E) (D : ℕ) (hD : D ≤ 30)
    (a : ℤ) (ha : 0 ≤ a) (ha' : a < p) (s : ℕ → ℤ) (hs : ∀ i < D, 0 ≤ s i) (K : Key G1 G2)
    (hK : keygen E D a s = .ok K) (r : List ℤ) (hrD : r.length ≤ D) (hr : ∀ x ∈ r, 0 ≤ x ∧ x < p) (digest : G1)
    (ans ans' : ℤ) (h0 : 0 ≤ ans) (h1 : ans < 2 ^ 254) (h0' : 0 ≤ ans') (h1' : ans' < 2 ^ 254)
    (w wa w' wa' : ℕ → G1) (hv : verify E K r digest ans w wa = .ok true)
    (hv' : verify E K r digest ans' w' wa' = .ok true) :
    ((ans' : ZMod p) - ans) • E.g1 = ∑ i ∈ range r.length,
      (((s (D - r.length + i) : ℤ) : ZMod p) - ((r.getD i 0 : ℤ) : ZMod p)) • (w i - w' i) ∧
    ∀ i < r.length, i ≠ 0 → wa i = (a : ZMod p) • w i := by
  obtain ⟨K', e, h⟩ := keygen_good E D hD a ha ha' s hs
  obtain rfl : K = K' := by rw [hK] at e; injection e
  have hr' : ∀ i < r.length, 0 ≤ r.getD i 0 ∧ r.getD i 0 < p := by
    intro i hi; rw [List.getD_eq_getElem _ _ hi]; exact hr _ (List.getElem_mem hi)
  obtain ⟨b, e1, hb⟩ := verify_iff h r hrD hr' digest ans h0 h1 w wa
  obtain ⟨b', e1', hb'⟩ := verify_iff h r hrD hr' digest ans' h0' h1' w' wa'
  rw [hv] at e1
  rw [hv'] at e1'
  injection e1 with e1
  injection e1' with e1'
  obtain ⟨k, q⟩ := hb.1 e1.symm
  obtain ⟨_, q'⟩ := hb'.1 e1'.symm
  constructor
  · rw [← sub_eq_zero]
    apply hE
    have : ((ans' : ZMod p) - ans) • E.g1 =
        (digest - (ans : ZMod p) • E.g1) - (digest - (ans' : ZMod p) • E.g1) := by module
    rw [map_sub, this, map_sub, q, q', ← sum_sub_distrib, map_sum, sub_eq_zero]
    refine sum_congr rfl (fun i _ => ?_)
    rw [map_smul, map_sub, smul_sub]
    rfl
  · intro i hi hi0
    rw [← sub_eq_zero]
    apply hE
    rw [map_sub, k i hi hi0, map_smul, map_smul, LinearMap.smul_apply, sub_self]

/-- The first companion is never looked at. -/
theorem C94_first_unchecked [DecidableEq GT] (E : Pairing G1 G2 GT) (K : Key G1 G2) (r : List ℤ) (digest : G1)
    (ans : ℤ) (w wa : ℕ → G1) (x : G1) :
    verify E K r digest ans w (Function.update wa 0 x) = verify E K r digest ans w wa := by
  unfold verify
  have : ∀ n, loop n (fun i flag =>
      if i ≠ 0 then flag && (E.e E.g2 (Function.update wa 0 x i) == E.e K.ga (w i)) else flag) true =
      loop n (fun i flag => if i ≠ 0 then flag && (E.e E.g2 (wa i) == E.e K.ga (w i)) else flag) true := by
    intro n
    refine loop_congr (fun i _ flag => ?_)
    split_ifs with hi
    · rw [Function.update_of_ne hi]
    · rfl
  dsimp only
  rw [this]

theorem preExp_negative {G : Type} [AddCommGroup G] (g : G) (v : ℕ) (h1 : 1 ≤ v) (h2 : v ≤ 2 ^ 253) :
    preExp (doublings g) ((v : ℤ) - 2 ^ 254) = .ok (v • g) := by
  have hp : (2 : ℕ) ^ 254 = 2 * 2 ^ 253 := by rw [pow_succ]; ring
  have hlt : v < 2 ^ 254 := by omega
  have e : (v : ℤ) - 2 ^ 254 = Int.negSucc (2 ^ 254 - (v + 1)) := by
    rw [Int.negSucc_eq]
    have : ((2 ^ 254 - (v + 1) : ℕ) : ℤ) = 2 ^ 254 - (v + 1) := by
      rw [Nat.cast_sub (by omega)]; push_cast; ring
    rw [this]; ring
  have hn : ((v : ℤ) - 2 ^ 254).natAbs = 2 ^ 254 - v := by
    rw [e, Int.natAbs_negSucc]; omega
  have hs : Vpd.sizeInBase2 (2 ^ 254 - v) = 254 := by
    unfold Vpd.sizeInBase2
    rw [if_neg (by omega)]
    refine le_antisymm (Nat.size_le.2 (by omega)) (Nat.lt_size.2 (by omega))
  unfold preExp
  rw [hn, hs, loopM_pure (b' := fun i temp => temp + (if v.testBit i then 2 ^ i else 0) • g)]
  · rw [loop_add_sum, zero_add, ← Finset.sum_smul, ← Vpd.mod_two_pow_eq_sum, Nat.mod_eq_of_lt hlt]
  · intro i hi t
    have ht : ((v : ℤ) - 2 ^ 254).testBit i = v.testBit i := by
      rw [e]
      show (!(2 ^ 254 - (v + 1)).testBit i) = _
      rw [Nat.testBit_two_pow_sub_succ hlt]
      simp [hi]
    rw [ht]
    split_ifs with hb hP
    · rw [doublings_eq g i hP]
    · exact absurd hi hP
    · simp

/-- A negative number passes for the answer: if `ans` is accepted and lies between 1 and `2^253`, so is
`ans - 2^254`, which is another number modulo `p`. -/
theorem C94_negative [DecidableEq GT] (E : Pairing G1 G2 GT) (D : ℕ) (hD : D ≤ 30)
    (a : ℤ) (ha : 0 ≤ a) (ha' : a < p) (s : ℕ → ℤ) (hs : ∀ i < D, 0 ≤ s i) (K : Key G1 G2)
    (hK : keygen E D a s = .ok K) (r : List ℤ) (digest : G1) (ans : ℤ) (h1 : 1 ≤ ans) (h2 : ans ≤ 2 ^ 253)
    (w wa : ℕ → G1) :
    verify E K r digest (ans - 2 ^ 254) w wa = verify E K r digest ans w wa ∧
      ((ans - 2 ^ 254 : ℤ) : ZMod p) ≠ (ans : ZMod p) := by
  obtain ⟨K', e, h⟩ := keygen_good E D hD a ha ha' s hs
  obtain rfl : K = K' := by rw [hK] at e; injection e
  obtain ⟨v, rfl⟩ := Int.eq_ofNat_of_zero_le (by omega : 0 ≤ ans)
  have hv : v ≤ 2 ^ 253 := by exact_mod_cast h2
  constructor
  · unfold verify
    dsimp only
    rw [h.g1Pre, preExp_negative E.g1 v (by omega) hv, preExp_nat E.g1 v (lt_of_le_of_lt hv (by norm_num [P]))]
  · intro hc
    rw [Int.cast_sub, sub_eq_self, Int.cast_pow] at hc
    have h3 : ((2 : ℤ) : ZMod p) = 0 := eq_zero_of_pow_eq_zero hc
    rw [ZMod.intCast_zmod_eq_zero_iff_dvd] at h3
    revert h3
    decide +kernel

/-- An answer of 255 bits or more makes `verify` read beyond its table. -/
theorem C94_oversized [DecidableEq GT] (E : Pairing G1 G2 GT) (K : Key G1 G2) (r : List ℤ) (digest : G1) (ans : ℤ)
    (h : 2 ^ 254 ≤ ans) (w wa : ℕ → G1) : verify E K r digest ans w wa = .undefined := by
  obtain ⟨n, rfl⟩ := Int.eq_ofNat_of_zero_le (by have : (0 : ℤ) < 2 ^ 254 := by positivity
                                                 omega : 0 ≤ ans)
  have hn : 2 ^ 254 ≤ n := by exact_mod_cast h
  have h0 : n ≠ 0 := by
    rintro rfl; exact absurd hn (not_le.2 (Nat.two_pow_pos 254))
  have hs : 254 < n.size := Nat.lt_size.2 hn
  have key : preExp K.g1Pre (Int.ofNat n) = .undefined := by
    unfold preExp
    change loopM (Vpd.sizeInBase2 n) (fun i temp => if n.testBit i then
      (if i < P then .ok (temp + K.g1Pre i) else .undefined) else .ok temp) 0 = .undefined
    rw [show Vpd.sizeInBase2 n = n.size from if_neg h0]
    obtain ⟨m, hm⟩ : ∃ m, n.size = m + 1 := ⟨n.size - 1, by omega⟩
    rw [hm, loopM_succ]
    have htop : n.testBit m = true := by
      have a1 : 2 ^ m ≤ n := Nat.lt_size.1 (by omega)
      have a2 : n < 2 ^ (m + 1) := by
        have := Nat.lt_size_self n
        rwa [hm] at this
      rw [Nat.testBit_eq_decide_div_mod_eq]
      have : n / 2 ^ m = 1 := by
        apply Nat.div_eq_of_lt_le
        · simpa using a1
        · rw [pow_succ] at a2; omega
      rw [this]; rfl
    rcases Mm.loopM_ends (n := m) (b := fun i temp => if n.testBit i then
      (if i < P then Outcome.ok (temp + K.g1Pre i) else .undefined) else .ok temp) (by
        intro i t
        split_ifs
        · exact Or.inl ⟨_, rfl⟩
        · exact Or.inr rfl
        · exact Or.inl ⟨_, rfl⟩) 0 with ⟨t, e⟩ | e
    · rw [e]
      show (if n.testBit m then _ else _) = _
      rw [if_pos htop, if_neg (by unfold P; omega)]
    · rw [e]; rfl
  unfold verify
  dsimp only
  rw [show ((n : ℕ) : ℤ) = Int.ofNat n from rfl, key]
  rfl

/-- the situation of `C94_negative`: an honest opening of `(3, 4)` at 2 has the answer 5 -/
example : ∃ K digest digesta O, keygen toyPairing 1 7 (fun _ => 9) = .ok K ∧
    commit K [3, 4] = .ok (digest, digesta) ∧ prove K [2] [3, 4] = .ok O ∧ O.ans = 5 ∧
    verify toyPairing K [2] digest (5 - 2 ^ 254) O.witness O.witnessa = .ok true := by
  have hp : (100 : ℤ) < p := by rw [Spec.p]; norm_num
  obtain ⟨K, d, da, O, e1, e2, _, e3, e4, a0, a1, a2⟩ := C92_complete toyPairing 1 (by norm_num) 7 (by norm_num)
    (by omega) (fun _ => 9) (fun i _ => by omega) [3, 4] (by decide) (by decide) (by decide)
    (by intro x hx; simp at hx; rcases hx with rfl | rfl <;> constructor <;> first | omega | norm_num)
    [2] (by decide) (by intro x hx; simp at hx; subst hx; constructor <;> omega)
  have ha : O.ans = 5 := by
    have : (O.ans : ZMod p) = ((5 : ℤ) : ZMod p) := by rw [a2]; decide +kernel
    have := (ZMod.intCast_eq_intCast_iff' _ _ _).1 this
    rwa [Int.emod_eq_of_lt a0 a1, Int.emod_eq_of_lt (by norm_num) (by omega)] at this
  refine ⟨K, d, da, O, e1, e2, e3, ha, ?_⟩
  rw [(C94_negative toyPairing 1 (by norm_num) 7 (by norm_num) (by omega) (fun _ => 9) (fun i _ => by omega) K e1
    [2] d 5 (by norm_num) (by norm_num) O.witness O.witnessa).1, ← ha]
  exact e4

end Libra.Props
