import Verif.Spec.Circuit

/-!
# Specification: the same circuit with another input
-/

namespace Libra.Spec

/-- `C'` is `C` with other gates in the input layer. -/
structure OtherInputs (C C' : Circuit) : Prop where
  depth : C'.depth = C.depth
  layer : ∀ i, i ≠ 0 → C'.layer i = C.layer i
  input : ∃ gates, C'.layer 0 = { C.layer 0 with gates := gates }

end Libra.Spec
