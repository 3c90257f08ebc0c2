import Verif.Spec.Sha256

/-!
# Specification: Merkle trees of the compression function
-/

namespace Libra.Spec.Sha256

/-- two hash values, one after the other, as a message -/
def concat (l r : ℕ → Word) (i : ℕ) : Word := if i < 8 then l i else r (i - 8)

/-- node `j` of level `k`: the hash value of leaf `j`, or of the two nodes below; every block starts from the hash value `H` -/
def merkleNode (K H : ℕ → Word) (leaves : ℕ → ℕ → Word) : ℕ → ℕ → ℕ → Word
  | 0, j => compress K (leaves j) H
  | k + 1, j => compress K (concat (merkleNode K H leaves k (2 * j)) (merkleNode K H leaves k (2 * j + 1))) H

/-- the message of node `j` of level `k` -/
def nodeMessage (K H : ℕ → Word) (leaves : ℕ → ℕ → Word) : ℕ → ℕ → ℕ → Word
  | 0, j => leaves j
  | k + 1, j => concat (merkleNode K H leaves k (2 * j)) (merkleNode K H leaves k (2 * j + 1))

/-- the root of the tree of the messages `leaves 0`, ..., `leaves (2^n - 1)` -/
def merkleRoot (K H : ℕ → Word) (leaves : ℕ → ℕ → Word) (n : ℕ) : ℕ → Word := merkleNode K H leaves n 0

end Libra.Spec.Sha256
