import Verif.Spec.Cmt

/-!
# Specification: circuits the threaded prover can work on

The threaded prover cuts every layer into four parts of consecutive gates, one for each thread.
-/

namespace Libra.Spec

/-- The part of a layer with `2 ^ n` gates in which gate `i` lies; with at most four gates each gate is
a part. -/
def part (n i : ℕ) : ℕ := if n ≤ 2 then i else i / 2 ^ (n - 2)

/-- A gate and the gates it takes its operands from lie in the same part of their layers. -/
def Local (C : Circuit) : Prop :=
  ∀ l, l + 1 < C.depth → ∀ g < 2 ^ C.bl (l + 1), (C.gate (l + 1) g).ty ≠ 2 →
    part (C.bl (l + 1)) g = part (C.bl l) (C.gate (l + 1) g).u.toNat ∧
    part (C.bl l) (C.gate (l + 1) g).u.toNat = part (C.bl l) (C.gate (l + 1) g).v.toNat

/-- all inputs are constants -/
def ConstantInputs (C : Circuit) : Prop := ∀ g < 2 ^ C.bl 0, (C.gate 0 g).ty = 3

end Libra.Spec
