import Mathlib.Data.Nat.Notation
import Mathlib.Data.Fin.Basic
import Mathlib.Data.Nat.Bitwise

/-!
# Vocabulary for proof files

A proof is a list of messages: numbers below 2^256 (field elements) and blocks of `B` bytes (curve
elements).
-/

namespace Libra.Spec

/-- what the prover sends -/
inductive Message (B : ℕ) where
  | number (n : ℕ)
  | point (bytes : Fin B → BitVec 8)

/-- number or point -/
inductive Kind where
  | number
  | point
deriving DecidableEq

/-- the kind of a message -/
def Message.kind {B : ℕ} : Message B → Kind
  | .number _ => .number
  | .point _ => .point

/-- the number with the binary digits `b`, least significant first -/
def ofBits : List Bool → ℕ
  | [] => 0
  | b :: l => b.toNat + 2 * ofBits l

/-- the bits of a sequence of bytes, least significant first -/
def unpack (file : List (BitVec 8)) : List Bool :=
  file.flatMap (fun b => (List.range 8).map b.getLsbD)

/-- Reading back a proof file whose sequence of kinds is known. -/
def decode {B : ℕ} : List Kind → List Bool → List (Message B)
  | [], _ => []
  | .number :: ks, bits => .number (ofBits (bits.take 256)) :: decode ks (bits.drop 256)
  | .point :: ks, bits =>
    .point (fun i => BitVec.ofNat 8 (ofBits ((bits.drop (8 * i)).take 8))) :: decode ks (bits.drop (8 * B))

/-- number of bytes of a message: 32 for a field element, `B` for a curve element -/
def Message.size {B : ℕ} : Message B → ℕ
  | .number _ => 32
  | .point _ => B

end Libra.Spec
