import Verif.Props.Reader
import Verif.Proofs.Matmul

/-!
# Values of the gates of a circuit that was read from a file
-/

namespace Libra.Props
open Libra Spec Reader Finset

variable {F : Type} [CommRing F]

theorem Describes.value_input {zk : Bool} {f : File} {C : Circuit} (h : Describes zk f C) {j : ℕ}
    (hj : j < (f.headD []).length) :
    (value C 1 j : F) = inputValue (gateOf zk (f.headD [])[j]) := by
  have e1 : C.gate 1 j = ⟨4, (j : ℤ), 0⟩ := by
    rw [Circuit.gate, Layer.gate, h.relay j hj]; rfl
  have e0 : C.gate 0 j = gateOf zk (f.headD [])[j] := by
    rw [Circuit.gate, Layer.gate, h.inputs j hj]; rfl
  rw [value, e1, gateValue]
  simp [value, e0]

theorem Describes.value_succ {zk : Bool} {f : File} {C : Circuit} (h : Describes zk f C) {i : ℕ} (hi : i + 1 < f.length)
    {j : ℕ} (hj : j < f[i + 1].length) :
    (value C (i + 2) j : F) = gateValue (gateOf zk f[i + 1][j]) (fun k => value C (i + 1) k.toNat) := by
  rw [value, Circuit.gate, Layer.gate, h.gates i hi j hj]; rfl

theorem gateValue_mult (zk : Bool) {g : ℤ} {u v : ℕ} (hu : u < 2 ^ 31) (hv : v < 2 ^ 31) (x : ℕ → F) :
    gateValue (gateOf zk ⟨1, g, u, v⟩) (fun k => x k.toNat) = x u * x v := by
  rw [gateOf]
  dsimp only
  rw [Matmul.int32_nat hu, Matmul.int32_nat hv, gateValue]
  simp

theorem gateValue_range (zk : Bool) {g : ℤ} {u n : ℕ} (hv : u + n < 2 ^ 31) (x : ℕ → F) :
    gateValue (gateOf zk ⟨5, g, (u : ℤ), ((u + n : ℕ) : ℤ)⟩) (fun k => x k.toNat) = ∑ k ∈ range n, x (u + k) := by
  rw [gateOf]
  dsimp only
  rw [Matmul.int32_nat (by omega), Matmul.int32_nat hv, gateValue]
  have e5 : (5 : ℤ) ≠ 0 ∧ (5 : ℤ) ≠ 1 ∧ (5 : ℤ) ≠ 2 ∧ (5 : ℤ) ≠ 3 ∧ (5 : ℤ) ≠ 4 := by decide
  simp only [e5.1, e5.2.1, e5.2.2.1, e5.2.2.2.1, e5.2.2.2.2, if_false, if_true]
  rw [if_neg (by simp), show (((u + n : ℕ) : ℤ) - (u : ℤ)).toNat = n by omega]
  exact sum_congr rfl (fun k _ => by rw [show ((u : ℤ) + (k : ℤ)).toNat = u + k by omega])

end Libra.Props
