import Verif.Model.SignedVpd
import Verif.Props.Vpd
import Verif.Proofs.FieldBits
import Verif.Proofs.Attack
import Verif.Proofs.TextNumbers
import Mathlib.Tactic.Positivity

/-!
# C95: answers that are not field elements

The verifiers of the three commitments of the protocol, on any integer the prover may send as the value of the
committed polynomial.
-/

namespace Libra.Props
open Libra Spec Finset

variable {G1 G2 GT : Type} [AddCommGroup G1] [AddCommGroup G2] [AddCommGroup GT]
  [Module (ZMod p) G1] [Module (ZMod p) G2] [Module (ZMod p) GT]

/-- The number an integer is taken for: itself, or for a negative one the number spelled by as many bits of its two's
complement as its absolute value has. -/
def takenFor (z : ℤ) : ℕ := if 0 ≤ z then z.natAbs else 2 ^ z.natAbs.size - z.natAbs

example : takenFor 5 = 5 ∧ takenFor (-5) = 3 ∧ takenFor (5 - 2 ^ 253) = 5 := by decide +kernel

theorem takenFor_natCast (n : ℕ) : takenFor n = n := by
  rw [takenFor, if_pos (by positivity), Int.natAbs_natCast]

theorem takenFor_le (z : ℤ) : takenFor z ≤ z.natAbs := by
  unfold takenFor
  split_ifs with h
  · exact le_rfl
  · have h0 : z.natAbs ≠ 0 := by omega
    obtain ⟨k, hk⟩ : ∃ k, z.natAbs.size = k + 1 := ⟨z.natAbs.size - 1, by
      have := Nat.size_pos.2 (Nat.pos_of_ne_zero h0); omega⟩
    have h1 : 2 ^ k ≤ z.natAbs := Nat.lt_size.1 (by omega)
    rw [hk, pow_succ]
    omega

theorem takenFor_bits (z : ℤ) (i : ℕ) (hi : i < Vpd.sizeInBase2 z.natAbs) :
    z.testBit i = (takenFor z).testBit i := by
  unfold takenFor
  split_ifs with h
  · obtain ⟨n, rfl⟩ := Int.eq_ofNat_of_zero_le h
    rfl
  · obtain ⟨m, rfl⟩ := Int.eq_negSucc_of_lt_zero (not_le.1 h)
    have e : (Int.negSucc m).natAbs = m + 1 := rfl
    rw [e] at hi ⊢
    rw [Vpd.sizeInBase2, if_neg (by omega)] at hi
    have hm : m < 2 ^ (m + 1).size := lt_trans (Nat.lt_succ_self m) (Nat.lt_size_self (m + 1))
    rw [Nat.testBit_two_pow_sub_succ hm]
    show (!m.testBit i) = _
    simp [hi]

theorem sizeInBase2_mono {m n : ℕ} (h : m ≤ n) : Vpd.sizeInBase2 m ≤ Vpd.sizeInBase2 n := by
  unfold Vpd.sizeInBase2
  split_ifs with h1 h2 h2
  · exact le_rfl
  · exact Nat.size_pos.2 (Nat.pos_of_ne_zero h2)
  · omega
  · exact Nat.size_le_size h

theorem preExpZ_eq {G : Type} [AddCommGroup G] (pre : ℕ → G) (z : ℤ) :
    Vpd.preExpZ pre z = Vpd.preExp pre (takenFor z) := by
  have key : ∀ k, Vpd.sizeInBase2 (takenFor z) + k ≤ Vpd.sizeInBase2 z.natAbs →
      loopM (Vpd.sizeInBase2 (takenFor z) + k) (fun i temp =>
        if z.testBit i then do
          let x ← Vpd.readPre pre i
          pure (temp + x)
        else (pure temp : Outcome G)) 0 = Vpd.preExp pre (takenFor z) := by
    intro k
    induction k with
    | zero =>
      intro hk
      refine FastTrack.loopM_congr_inv (fun _ => True) trivial (fun _ _ _ _ _ _ => trivial) (fun i hi s _ => ?_)
      rw [takenFor_bits z i (by omega)]
    | succ k ih =>
      intro hk
      rw [← Nat.add_assoc, loopM_succ, ih (by omega), takenFor_bits z _ (by omega),
        Nat.testBit_lt_two_pow (lt_of_lt_of_le (Vpd.lt_sizeInBase2 _)
          (Nat.pow_le_pow_right (by norm_num) (Nat.le_add_right _ _)))]
      cases Vpd.preExp pre (takenFor z) <;> rfl
  obtain ⟨k, hk⟩ := Nat.exists_eq_add_of_le (sizeInBase2_mono (takenFor_le z))
  unfold Vpd.preExpZ
  rw [hk]
  exact key k (by omega)

/-- Which integers pass for the answer: exactly those taken for a number that passes. This holds for every key, every
integer and everything the prover may send. -/
theorem C95_exact [DecidableEq GT] (E : Pairing G1 G2 GT) (r : ℕ → ℕ) (digest : G1) (z : ℤ) (w wa : ℕ → G1) :
    (∀ K, VpdR.verifyZ E K r digest z w wa = VpdR.verify E K r digest (takenFor z) w wa) ∧
    (∀ K n, VpdTest.verifyZ E K n r digest z w wa =
      (do let b ← VpdTest.verify E K n r digest (takenFor (z.tmod p)) w wa
          pure (b, z.tmod p))) ∧
    (∀ K n digest2 Z, InputVpd.verifyZ E K n r digest digest2 Z z w wa =
      InputVpd.verify E K n r digest digest2 Z (takenFor z) w wa) := by
  have hf : ∀ K idx n lhs z, Vpd.finalCheckZ E K idx n r lhs z w = Vpd.finalCheck E K idx n r lhs (takenFor z) w := by
    intro K idx n lhs z
    unfold Vpd.finalCheckZ Vpd.finalCheck
    rw [preExpZ_eq]
  refine ⟨fun K => ?_, fun K n => ?_, fun K n digest2 Z => ?_⟩
  · unfold VpdR.verifyZ VpdR.verify
    rw [hf]
  · unfold VpdTest.verifyZ VpdTest.verify
    have h0 : (0 : ℤ) < p := by exact_mod_cast (by decide +kernel : 0 < p)
    have hlt : takenFor (z.tmod p) < p := by
      refine lt_of_le_of_lt (takenFor_le _) ?_
      rw [Int.natAbs_tmod, Int.natAbs_natCast]
      exact Nat.mod_lt _ (by decide +kernel)
    dsimp only
    rw [hf, Nat.mod_eq_of_lt hlt]
    cases Vpd.finalCheck E K (fun i => 2 * i + 1) n r digest (takenFor (z.tmod p)) w <;> rfl
  · unfold InputVpd.verifyZ InputVpd.verify
    rw [hf]

/-- Answers that are field elements: the verifiers on integers are those of `Model/Vpd` and `Model/InputVpd`. -/
theorem C95_field [DecidableEq GT] (E : Pairing G1 G2 GT) (r : ℕ → ℕ) (digest : G1) (n : ℕ) (hn : n < p)
    (w wa : ℕ → G1) :
    (∀ K, VpdR.verifyZ E K r digest n w wa = VpdR.verify E K r digest n w wa) ∧
    (∀ K m, VpdTest.verifyZ E K m r digest n w wa =
      (do let b ← VpdTest.verify E K m r digest n w wa
          pure (b, (n : ℤ)))) ∧
    (∀ K m digest2 Z, InputVpd.verifyZ E K m r digest digest2 Z n w wa =
      InputVpd.verify E K m r digest digest2 Z n w wa) := by
  have h := C95_exact E r digest n w wa
  have e : (n : ℤ).tmod p = n := Int.tmod_eq_of_lt (by positivity) (by exact_mod_cast hn)
  rw [e, takenFor_natCast] at h
  exact h

theorem takenFor_negative (v : ℕ) (h1 : 1 ≤ v) (h2 : v ≤ 2 ^ 252) : takenFor ((v : ℤ) - 2 ^ 253) = v := by
  have hp : (2 : ℕ) ^ 253 = 2 * 2 ^ 252 := by rw [pow_succ]; ring
  have hz : ((v : ℤ) - 2 ^ 253) = -((2 ^ 253 - v : ℕ) : ℤ) := by
    rw [Nat.cast_sub (by omega)]; push_cast; ring
  rw [hz, takenFor, if_neg (by omega), Int.natAbs_neg, Int.natAbs_natCast]
  have hs : (2 ^ 253 - v).size = 253 :=
    le_antisymm (Nat.size_le.2 (by omega)) (Nat.lt_size.2 (by omega))
  rw [hs]
  omega

/-- A negative number passes for the answer, in all three commitments: where `v` between 1 and `2^252` is accepted, so
is `v - 2^253`, which is another number modulo `p`. -/
theorem C95_negative [DecidableEq GT] (E : Pairing G1 G2 GT) (r : ℕ → ℕ) (digest : G1) (v : ℕ) (h1 : 1 ≤ v)
    (h2 : v ≤ 2 ^ 252) (w wa : ℕ → G1) :
    (∀ K, VpdR.verifyZ E K r digest (v - 2 ^ 253) w wa = VpdR.verifyZ E K r digest v w wa) ∧
    (∀ K n, VpdTest.verify E K n r digest v w wa = .ok true →
      VpdTest.verifyZ E K n r digest (v - 2 ^ 253) w wa = .ok (true, v - 2 ^ 253)) ∧
    (∀ K n digest2 Z, InputVpd.verifyZ E K n r digest digest2 Z (v - 2 ^ 253) w wa =
      InputVpd.verifyZ E K n r digest digest2 Z v w wa) ∧
    ((v - 2 ^ 253 : ℤ) : ZMod p) ≠ (v : ZMod p) := by
  have hp : 2 ^ 253 < p := by decide +kernel
  have h := C95_exact E r digest (v - 2 ^ 253) w wa
  have h' := C95_field E r digest v (by
    have : (2 : ℕ) ^ 253 = 2 * 2 ^ 252 := by rw [pow_succ]; ring
    omega) w wa
  have e : ((v : ℤ) - 2 ^ 253).tmod p = (v : ℤ) - 2 ^ 253 := by
    have : (2 : ℤ) ^ 253 < p := by exact_mod_cast hp
    have h3 : (v : ℤ) ≤ 2 ^ 252 := by exact_mod_cast h2
    have h4 : (2 : ℤ) ^ 253 = 2 * 2 ^ 252 := by rw [pow_succ]; ring
    rw [← neg_sub ((2 : ℤ) ^ 253) v, Int.neg_tmod, Int.tmod_eq_of_lt (by omega) (by omega)]
  rw [e, takenFor_negative v h1 h2] at h
  refine ⟨fun K => ?_, fun K n hv => ?_, fun K n digest2 Z => ?_, ?_⟩
  · rw [h.1, h'.1]
  · rw [h.2.1, hv]; rfl
  · rw [h.2.2, h'.2.2]
  · intro hc
    rw [Int.cast_sub, Int.cast_natCast, sub_eq_self, Int.cast_pow] at hc
    have h3 : ((2 : ℤ) : ZMod p) = 0 := eq_zero_of_pow_eq_zero hc
    rw [ZMod.intCast_zmod_eq_zero_iff_dvd] at h3
    revert h3
    decide +kernel

/-- What binds: two accepted integers for one commitment and one point yield the relation of C30 between the numbers
they are taken for. Missing from the claim: that they are the same number modulo `p` as the answers sent, which is
false (`C95_negative`). -/
theorem C95_relation_partial [DecidableEq GT] (E : Pairing G1 G2 GT) (hE : NonDegenerate E) (z z' : ℤ)
    (hz : z.natAbs < p) (hz' : z'.natAbs < p) (a : ℕ) (s : ℕ → ℕ) (r : ℕ → ℕ) (digest : G1) (w wa w' wa' : ℕ → G1) :
    (∀ K, (∀ i ≤ 2, s i < p) → VpdR.keyGen E a s = .ok K → (∀ i < 2, r i < p) →
      VpdR.verifyZ E K r digest z w wa = .ok true → VpdR.verifyZ E K r digest z' w' wa' = .ok true →
      Relation E.g1 2 s r (takenFor z) (takenFor z') w w') ∧
    (∀ K d, 2 ≤ d → (∀ i ≤ d, s i < p) → VpdTest.keyGen E d a s = .ok K → (∀ i < d, r i < p) →
      VpdTest.verifyZ E K d r digest z w wa = .ok (true, z) → VpdTest.verifyZ E K d r digest z' w' wa' = .ok (true, z') →
      Relation E.g1 d s r (takenFor z) (takenFor z') w w') ∧
    (∀ K d digest2 Z, a < p → (∀ i ≤ d, s i < p) → InputVpd.keyGen E d a s = .ok K → (∀ i < d, r i < p) →
      InputVpd.verifyZ E K d r digest digest2 Z z w wa = .ok true →
      InputVpd.verifyZ E K d r digest digest2 Z z' w' wa' = .ok true →
      Relation E.g1 d s r (takenFor z) (takenFor z') w w') := by
  have l := lt_of_le_of_lt (takenFor_le z) hz
  have l' := lt_of_le_of_lt (takenFor_le z') hz'
  have h := C95_exact E r digest z w wa
  have h' := C95_exact E r digest z' w' wa'
  have tm : ∀ z : ℤ, z.natAbs < p → z.tmod p = z := by
    intro z hz
    rw [← Int.sign_mul_natAbs z, Int.mul_tmod]
    rcases lt_trichotomy z 0 with hs | hs | hs
    · rw [Int.sign_eq_neg_one_of_neg hs, ← Int.mul_tmod, neg_one_mul, Int.neg_tmod,
        Int.tmod_eq_of_lt (by positivity) (by exact_mod_cast hz)]
    · subst hs; simp
    · rw [Int.sign_eq_one_of_pos hs, ← Int.mul_tmod, one_mul,
        Int.tmod_eq_of_lt (by positivity) (by exact_mod_cast hz)]
  rw [tm z hz] at h
  rw [tm z' hz'] at h'
  refine ⟨fun K hs hK hr v v' => ?_, fun K d hd hs hK hr v v' => ?_, fun K d digest2 Z ha hs hK hr v v' => ?_⟩
  · rw [h.1] at v
    rw [h'.1] at v'
    exact C30_maskR E hE a s hs K hK r hr digest _ _ l l' w wa w' wa' v v'
  · rw [h.2.1] at v
    rw [h'.2.1] at v'
    obtain ⟨b, v, e⟩ := Outcome.bind_eq_ok v
    obtain ⟨b', v', e'⟩ := Outcome.bind_eq_ok v'
    injection e with e
    injection e' with e'
    injection e with e _
    injection e' with e' _
    subst e e'
    exact C30_sumMask E hE d hd a s hs K hK r hr digest _ _ w wa w' wa' v v'
  · rw [h.2.2] at v
    rw [h'.2.2] at v'
    exact C30_input E hE d a ha s hs K hK r hr digest digest2 Z _ _ l l' w wa w' wa' v v'

theorem length_decDigits (k n : ℕ) (h : n < 10 ^ (k + 1)) : (Txt.decDigits n).length ≤ k + 1 := by
  induction k generalizing n with
  | zero => rw [Txt.decDigits, dif_pos (by omega)]; simp
  | succ k ih =>
    rw [Txt.decDigits]
    split_ifs with h1
    · simp
    · rw [List.length_append, List.length_singleton]
      have := ih (n / 10) (by rw [pow_succ] at h; omega)
      omega

/-- What the verifier goes on with: an answer from 0 to `10^77` as it is; for a negative one the sign is read as the digit
`2^64 - 3` in front of the others. -/
theorem C95_goes_on (z : ℤ) (h : z.natAbs < 10 ^ 77) :
    (0 ≤ z → (answerValue z).toNat = z.natAbs) ∧
    (z < 0 → (answerValue z).toNat = (2 ^ 64 - 3) * 10 ^ (Txt.decDigits z.natAbs).length + z.natAbs) := by
  obtain ⟨hd, he⟩ := Txt.decDigits_spec z.natAbs
  have hl := length_decDigits 76 z.natAbs h
  have hg : IsDigits (Txt.decDigits z.natAbs) := fun c hc => by
    have := hd.2 c hc
    rw [Txt.isDigit, Bool.and_eq_true, decide_eq_true_eq, decide_eq_true_eq] at this
    exact this
  obtain ⟨e1, e2⟩ := u512_parse _ hg (by omega)
  constructor
  · intro h0
    rw [answerValue, Txt.showInt, if_neg (by omega)]
    exact e1.trans he
  · intro h0
    rw [answerValue, Txt.showInt, if_pos h0]
    unfold U512.ofDigits
    rw [List.foldr_cons]
    have hb : 10 ^ (Txt.decDigits z.natAbs).length ≤ 10 ^ 77 := Nat.pow_le_pow_right (by norm_num) hl
    have hv : (BitVec.ofInt 64 (('-'.toNat : Int) - 48) : U64).toNat = 2 ^ 64 - 3 := by decide
    rw [U512.toNat_add, U512.toNat_mul_of_lt, e1, e2, he, U512.toNat_ofU256, U256.toNat_ofU64, hv, Nat.mul_comm,
      Nat.add_comm]
    · apply Nat.mod_eq_of_lt
      omega
    · rw [e2]; omega
    · rw [U512.toNat_ofU256, U256.toNat_ofU64, hv]; omega

/-- so an accepted answer and the value the verifier goes on with are different numbers, the latter above `p` -/
theorem C95_other_value (v : ℕ) (h1 : 1 ≤ v) (h2 : v ≤ 2 ^ 252) :
    p < (answerValue ((v : ℤ) - 2 ^ 253)).toNat ∧ (answerValue (v : ℤ)).toNat = v := by
  have hp : (2 : ℕ) ^ 253 = 2 * 2 ^ 252 := by rw [pow_succ]; ring
  have hb : (2 : ℕ) ^ 253 < 10 ^ 77 := by norm_num
  have hz : ((v : ℤ) - 2 ^ 253) = -((2 ^ 253 - v : ℕ) : ℤ) := by
    rw [Nat.cast_sub (by omega)]; push_cast; ring
  have ha : ((v : ℤ) - 2 ^ 253).natAbs = 2 ^ 253 - v := by rw [hz, Int.natAbs_neg, Int.natAbs_natCast]
  constructor
  · rw [(C95_goes_on _ (by rw [ha]; omega)).2 (by rw [hz]; omega), ha]
    obtain ⟨hd, he⟩ := Txt.decDigits_spec (2 ^ 253 - v)
    have hg : IsDigits (Txt.decDigits (2 ^ 253 - v)) := fun c hc => by
      have := hd.2 c hc
      rw [Txt.isDigit, Bool.and_eq_true, decide_eq_true_eq, decide_eq_true_eq] at this
      exact this
    have hlt := decimal_lt _ hg
    rw [he] at hlt
    have hp' : p < (2 ^ 64 - 3) * 2 ^ 252 := by decide +kernel
    have : (2 ^ 64 - 3) * 2 ^ 252 ≤ (2 ^ 64 - 3) * 10 ^ (Txt.decDigits (2 ^ 253 - v)).length :=
      Nat.mul_le_mul_left _ (by omega)
    omega
  · rw [(C95_goes_on _ (by rw [Int.natAbs_natCast]; omega)).1 (by positivity), Int.natAbs_natCast]

/-- the situation of `C95_negative`: an honest opening of the constant polynomial 5 -/
example : ∃ K O, VpdR.keyGen toyPairing 7 toySecrets = .ok K ∧
    VpdR.prove K (fun _ => 2) (fun i => if i = 0 then 5 else 0) 9 (fun _ => 4) = .ok O ∧ O.ans = 5 ∧
    VpdR.verifyZ toyPairing K (fun _ => 2) (VpdR.commit K (fun i => if i = 0 then 5 else 0) 9).1
      (5 - 2 ^ 253) O.witness O.witnessa = .ok true := by
  have hp : 1003 < p := by decide +kernel
  obtain ⟨K, O, e1, e2, e3, e4, e5⟩ := C27_maskR toyPairing 7 toySecrets (toySecrets_lt 2 (by decide))
    (fun i => if i = 0 then 5 else 0) 9 (fun _ => 4) (fun _ => 2) (fun i _ => by omega)
  have ha : O.ans = 5 := by
    have : (O.ans : ZMod p) = ((5 : ℕ) : ZMod p) := by rw [e5]; decide +kernel
    have := (ZMod.natCast_eq_natCast_iff' _ _ _).1 this
    rwa [Nat.mod_eq_of_lt e4, Nat.mod_eq_of_lt (by omega)] at this
  refine ⟨K, O, e1, e2, ha, ?_⟩
  have h := (C95_negative toyPairing (fun _ => 2) (VpdR.commit K (fun i => if i = 0 then 5 else 0) 9).1 5
    (by norm_num) (by norm_num) O.witness O.witnessa).1 K
  rw [ha] at e3
  rw [show ((5 : ℤ) - 2 ^ 253) = ((5 : ℕ) : ℤ) - 2 ^ 253 from rfl, h,
    (C95_field toyPairing (fun _ => 2) _ 5 (by omega) O.witness O.witnessa).1 K]
  exact e3

end Libra.Props
