import Verif.Spec.Circuit

/-!
# Specification: a layer made of copies of a block

The circuit files may declare a layer as parallel: `block_size` gates repeated `repeat_num` times.
`Repeated` says what this promises about the gates.
-/

namespace Libra.Spec

/-- `g'` is the gate `g` with its wires moved up by `s`; the wires of `g` itself lie within the
first `2^nb` gates below. One-input gates keep the unused operand. The upper end of a range sum is
exclusive and must itself be a position of the block. -/
def CopyOf (nb : ℕ) (s : ℤ) (g g' : Gate) : Prop :=
  g'.ty = g.ty ∧
  (g.ty = 2 ∨
   (g.ty = 6 ∨ g.ty = 10) ∧ Wire nb g.u ∧ g.v = 0 ∧ g'.u = g.u + s ∧ g'.v = 0 ∨
   (g.ty = 0 ∨ g.ty = 1 ∨ g.ty = 5 ∨ g.ty = 7 ∨ g.ty = 8 ∨ g.ty = 9 ∨ g.ty = 12 ∨ g.ty = 13) ∧
     Wire nb g.u ∧ Wire nb g.v ∧ g'.u = g.u + s ∧ g'.v = g.v + s)

/-- Layer `i` consists of `repeat_num` copies of its first `block_size` gates: copy `c` reads the
gates of block `c` of the layer below. -/
structure Repeated (C : Circuit) (i : ℕ) : Prop where
  blockSize : (C.layer i).blockSize = 2 ^ (C.layer i).logBlockSize
  repeatNum : (C.layer i).repeatNum = 2 ^ (C.layer i).logRepeatNum
  length : C.bl i = (C.layer i).logBlockSize + (C.layer i).logRepeatNum
  lengthBelow : C.bl (i - 1) = (C.layer (i - 1)).logBlockSize + (C.layer i).logRepeatNum
  gates : ∀ c : ℕ, c < 2 ^ (C.layer i).logRepeatNum → ∀ g < 2 ^ (C.layer i).logBlockSize,
    CopyOf (C.layer (i - 1)).logBlockSize ((c * 2 ^ (C.layer (i - 1)).logBlockSize : ℕ) : ℤ)
      (C.gate i g) (C.gate i (c * 2 ^ (C.layer i).logBlockSize + g))

/-- Every layer above layer 1 that is declared parallel keeps the promise. -/
def ParallelOk (C : Circuit) : Prop :=
  ∀ i, 2 ≤ i → i < C.depth → (C.layer i).isParallel = true → Repeated C i

end Libra.Spec
