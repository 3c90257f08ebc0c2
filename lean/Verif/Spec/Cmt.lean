import Verif.Spec.Gkr

/-!
# Specification: circuits of the traditional protocol
-/

namespace Libra.Spec

/-- A circuit for the traditional protocols: it can be evaluated, the gates above the inputs are
additions, multiplications and dummies, and a layer below another one has at least two gates (the
reader adds a dummy to a layer with one gate). -/
structure AddMultGates (C : Circuit) : Prop extends Evaluable false C where
  types : ∀ i, i + 1 < C.depth → ∀ g < 2 ^ C.bl (i + 1),
    (C.gate (i + 1) g).ty = 0 ∨ (C.gate (i + 1) g).ty = 1 ∨ (C.gate (i + 1) g).ty = 2
  wide : ∀ i, i + 1 < C.depth → 1 ≤ C.bl i

/-- The prover of prover_clogc.cpp has room for 1000 layers. -/
structure AddMult (C : Circuit) : Prop extends AddMultGates C where
  small : C.depth ≤ 1000

end Libra.Spec
