import Verif.Model.U512
import Verif.Model.Loop
import Verif.Proofs.Outcome

/-!
# The proof transcript

`/repo/include/linear_gkr/transcript.h`, and `my_hhash` of `/repo/include/infrastructure/my_hhash.h`.
The AES based function inside `my_hhash` is a parameter `mix` here:
what is proved holds for every such function.
`int` counters are unbounded (in the code they overflow at 2^31 bits).
-/

namespace Libra
namespace Transcript

/-- `class container` (transcript.h:7-48). `B` is `sizeof(bn::Ec1)`; a curve element is the content of
its memory. -/
inductive Container (B : ℕ) where
  | field (x : FE)
  | curve (x : Fin B → BitVec 8)
  | rand (x : FE)

variable {B : ℕ}

/-- `container::output` (transcript.h:27-47); `(x[i] >> j) & 1` is bit `j` of byte `i`. -/
def Container.output : Container B → List Bool
  | .field x => FE.bitStream x
  | .rand x => FE.bitStream x
  | .curve x => (List.finRange B).flatMap (fun i => (List.range 8).map (fun j => (x i).getLsbD j))

/-- `indicator == randomness_indicator` -/
def Container.isRand : Container B → Bool
  | .rand _ => true
  | _ => false

/-- `proof_transcript::output_bit_stream` (transcript.h:53-64) -/
def outputBitStream (msg : List (Container B)) (needRand : Bool) : List Bool :=
  msg.foldl (fun output x => if x.isRand && !needRand then output else output ++ x.output) []

/-- `proof_transcript::output_to_file` (transcript.h:65-86): the bytes given to `fwrite` -/
def outputToFile (msg : List (Container B)) : List (BitVec 8) :=
  let vec := outputBitStream msg false
  let bits := vec.length
  let bytes := if bits % 8 = 0 then bits / 8 else bits / 8 + 1
  let buf : ℕ → BitVec 8 := loop bits (fun i buf =>
    Function.update buf (i / 8) (buf (i / 8) |||
      ((BitVec.ofBool (vec.getD i false)).setWidth 8 <<< (i % 8)))) (fun _ => 0)
  (List.range bytes).map buf

/-- `sizeof(prime_field::field_element)`: two 128-bit limbs and a `u256b` of two 64-bit limbs and one
128-bit limb (prime_field.h:18-22, 57-61, 90-94) -/
def sizeofFieldElement : ℕ := 64

/-- the summand of a message in `get_proof_size` (transcript.h:149-152) -/
def Container.size : Container B → ℕ
  | .field _ => sizeofFieldElement / 2
  | _ => B

/-- `proof_transcript::get_proof_size` (transcript.h:142-156) -/
def getProofSize (msg : List (Container B)) : ℕ :=
  msg.foldl (fun ret x => if x.isRand then ret else ret + x.size) 0

/-- The function `key, text ↦ aes128_enc(text, key) ^ text` used twice by `my_hhash`
(my_hhash.h:101-103) -/
abbrev Mix : Type := BitVec 128 → BitVec 128 → BitVec 128

/-- `my_hhash` (my_hhash.h:96-112): `src` are 64 bytes, `dst` 32 bytes, least significant first. -/
def hhash (mix : Mix) (src : BitVec 512) : BitVec 256 :=
  mix (src.extractLsb' 256 128) (src.extractLsb' 384 128) ++
    mix (src.extractLsb' 0 128) (src.extractLsb' 128 128)

/-- `data[(i + off) / 32] |= x[cur + i] << ((i + off) & 31)` for `i < n`: the sixteen 32-bit integers
`data` are one 512-bit value, in which this sets bit `i + off`. -/
def setBits (x : List Bool) (cur off n : ℕ) (data : BitVec 512) : BitVec 512 :=
  loop n (fun i data => data ||| ((BitVec.ofBool (x.getD (cur + i) false)).setWidth 512 <<< (i + off)))
    data

/-- `while(x.size() % 512 != 0) x.push_back(0)` (transcript.h:93-94) -/
def pad (x : List Bool) : List Bool := x ++ List.replicate ((512 - x.length % 512) % 512) false

/-- The digest of the padded bit string (transcript.h:95-113). Reading `x[0]` of an empty vector is
undefined. -/
def absorb (mix : Mix) (x : List Bool) : Outcome (BitVec 256) :=
  if x.length = 0 then .undefined
  else .ok (loop ((x.length - 512 + 255) / 256) (fun k h =>
    hhash mix (setBits x (512 + 256 * k) 256 256 (h.setWidth 512)))
    (hhash mix (setBits x 0 0 512 0)))

/-- The loop that makes the field elements (transcript.h:116-127) -/
def squeeze (mix : Mix) (h : BitVec 256) (size : ℕ) : List FE :=
  (loop size (fun _ (s : List FE × BitVec 256) =>
    (s.1 ++ [U512.mod ⟨s.2.extractLsb' 0 128, s.2.extractLsb' 128 128, ⟨0, 0, 0⟩⟩],
      hhash mix (s.2.setWidth 512))) ([], h)).1

/-- `proof_transcript::random(int)` (transcript.h:88-133): the elements and the new `msg` -/
def random (mix : Mix) (msg : List (Container B)) (size : ℕ) :
    Outcome (List FE × List (Container B)) := do
  let h ← absorb mix (pad (outputBitStream msg true))
  let r := squeeze mix h size
  return (r, msg ++ r.map .rand)

/-- `proof_transcript::random()` (transcript.h:134-141) -/
def random1 (mix : Mix) (msg : List (Container B)) : Outcome (FE × List (Container B)) := do
  let (r, msg) ← random mix msg 1
  return (← Outcome.read r[0]?, msg)

end Transcript
end Libra
