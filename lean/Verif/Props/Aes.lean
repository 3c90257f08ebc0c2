import Verif.Proofs.Aes
import Verif.Props.Transcript

/-!
# C82 The hash of the transcript is built from AES-128

Specification: `Spec/Aes.lean`, after FIPS 197.
-/

namespace Libra
namespace Props

open Transcript Spec

/-- the inverse used by the specification is the inverse of the field of 256 elements -/
theorem C82_inverse (b : BitVec 8) (hb : b ≠ 0) : Spec.Aes.gmul b (Spec.Aes.inv b) = 1 :=
  Aes.byte_cases (P := fun b => b ≠ 0 → Spec.Aes.gmul b (Spec.Aes.inv b) = 1) Aes.inv_table b hb

/-- C82. For every key and every block `aes128_enc` does not fail an assertion and returns the AES-128
encryption of the block. -/
theorem C82_aes128 (text key : BitVec 128) : ∃ y, Aes.enc text key = .ok y ∧
    Spec.Aes.bytesOf y = Spec.Aes.aes128 (Spec.Aes.bytesOf key) (Spec.Aes.bytesOf text) := by
  obtain ⟨y, e, h⟩ := Aes.enc_state text key
  refine ⟨y, e, ?_⟩
  funext i
  have := congrFun (congrFun h ⟨i % 4, by omega⟩) ⟨i / 4, by omega⟩
  rw [Aes.state_eq text] at this
  rw [Spec.Aes.aes128]
  refine Eq.trans ?_ this
  show Aes.byte y i = Aes.byte y (i % 4 + 4 * (i / 4))
  rw [Nat.mod_add_div]

/-- C82 for the hash: there is a function `mix` of two blocks that is AES-128 of the second block under the first,
added to the second, and `my_hhash` applies it to the two halves of its argument, for every argument. So all properties of
challenges proved for an arbitrary function `mix` (C35 to C37, C45) are about the hash of the code. -/
theorem C82_hash : ∃ mix : Mix, (∀ src, Aes.myHhash src = .ok (hhash mix src)) ∧
    ∀ key text, Spec.Aes.bytesOf (mix key text) = fun i =>
      Spec.Aes.aes128 (Spec.Aes.bytesOf key) (Spec.Aes.bytesOf text) i ^^^ Spec.Aes.bytesOf text i := by
  choose f hf hs using C82_aes128
  refine ⟨fun key text => f text key ^^^ text, fun src => ?_, fun key text => ?_⟩
  · simp only [Aes.myHhash, hf]
    rfl
  · rw [← hs]
    funext i
    exact Aes.byte_xor _ _ _

/-- there is only one such function -/
theorem C82_unique (mix mix' : Mix)
    (h : ∀ key text, Spec.Aes.bytesOf (mix key text) = Spec.Aes.bytesOf (mix' key text)) : mix = mix' := by
  funext key text
  exact Aes.bytes_inj (h key text)

/-- the example of FIPS 197, appendix B -/
example : Aes.enc 0x340737e0a29831318d305a88a8f64332 0x3c4fcf098815f7aba6d2ae2816157e2b = .ok 0x320b6a19978511dcfb09dc021d842539 := by decide +kernel

/-- C45 for the hash of the code: the number that is common to all challenges after the first is the encryption of
the block of zeros under the key of zeros. -/
theorem C45_constant {B : ℕ} (hB : 0 < B) (mix : Mix) (hm : ∀ src, Aes.myHhash src = .ok (hhash mix src))
    (msg : List (Container B)) (size : ℕ) (r : List FE) (msg' : List (Container B)) (hne : msg ≠ [])
    (h : random mix msg size = .ok (r, msg')) (i : ℕ) (hi : i < r.length) (h1 : 1 ≤ i) :
    ∃ x < 2 ^ 128, r[i].toNat = (x + 2 ^ 128 * 0x2e2b34ca59fa4c883b2c8aefd44be966) % p := by
  have h0 : mix 0 0 = 0x2e2b34ca59fa4c883b2c8aefd44be966#128 := by
    have e : Aes.myHhash 0 = .ok (0x2e2b34ca59fa4c883b2c8aefd44be966#128 ++ 0x2e2b34ca59fa4c883b2c8aefd44be966#128) := by
      decide +kernel
    have := (hm 0).symm.trans e
    have := congrArg (fun d : BitVec 256 => d.extractLsb' 128 128) (Outcome.ok.inj this)
    simp only [hhash] at this
    rw [BitVec.extractLsb'_append_eq_of_le (by omega), BitVec.extractLsb'_append_eq_of_le (by omega)] at this
    simpa using this
  have := half_constant hB mix msg size r msg' hne h i hi h1
  rwa [h0] at this

end Props
end Libra
