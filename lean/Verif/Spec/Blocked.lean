import Verif.Spec.Cmt
import Verif.Model.Blocked

/-!
# Specification: circuits repeated in blocks
-/

namespace Libra.Spec
open Libra Blocked

/-- At least `2^log >= 2` blocks that are copies of one add/mult circuit, with their own inputs. The
operands of dummy gates are wires too. (The reader of the code produces copies with equal inputs.) -/
structure Repeats (B : BlockedCircuit) : Prop where
  log : 1 ≤ B.log
  count : 2 ^ B.log ≤ B.total
  circuit : ∀ b < B.total, AddMultGates (B.blocks b)
  depth : ∀ b < B.total, (B.blocks b).depth = (B.blocks 0).depth
  bl : ∀ b < B.total, ∀ i < (B.blocks 0).depth, (B.blocks b).bl i = (B.blocks 0).bl i
  gates : ∀ b < B.total, ∀ i, i + 1 < (B.blocks 0).depth → ∀ g < 2 ^ (B.blocks 0).bl (i + 1),
    (B.blocks b).gate (i + 1) g = (B.blocks 0).gate (i + 1) g
  operands : ∀ i, i + 1 < (B.blocks 0).depth → ∀ g < 2 ^ (B.blocks 0).bl (i + 1),
    Wire ((B.blocks 0).bl i) ((B.blocks 0).gate (i + 1) g).u ∧
      Wire ((B.blocks 0).bl i) ((B.blocks 0).gate (i + 1) g).v

/-- The multilinear extension of a table with `2^k` blocks of `2^n` entries: at the point `rb` of the
block index and `r` of the index in the block. -/
def blockMle {F : Type} [CommRing F] (k n : ℕ) (V : ℕ → ℕ → F) (rb r : ℕ → F) : F :=
  mle k (fun b => mle n (V b) r) rb

/-- the value of gate `g` of layer `i` in block `b` -/
def blockValue {F : Type} [CommRing F] (B : BlockedCircuit) (i b g : ℕ) : F :=
  value (B.blocks b) i g

end Libra.Spec
