import Verif.Model.ZkVerifier
import Mathlib.Tactic.NormNum

/-!
# C17: the second operand of a relay gate in the two branches of `predicates`
-/

namespace Libra.Props
open Libra Zk

variable {F : Type} [CommRing F]

/-- Gate by gate, a relay gate contributes `eq(g) eq(r_u, u) eq(r_v, 0)` to predicate 10 and nothing to the others, whatever
its second operand is. -/
theorem C17_zk_relay (g : Gate) (h : g.ty = 10) (bg : F) (tu tv ret : ℕ → F) :
    plainCase g bg tu tv ret 10 = ret 10 + bg * tu g.u.toNat * tv 0 ∧
      ∀ t, t ≠ 10 → plainCase g bg tu tv ret t = ret t := by
  constructor
  · simp [plainCase, h, addTo, mul_assoc]
  · intro t ht
    simp [plainCase, h, addTo, Function.update_of_ne ht]

/-- In a block of a parallel layer a relay gate contributes with its second operand. -/
theorem C17_zk_relay_block (g : Gate) (h : g.ty = 10) (nu : ℕ) (bg : F) (tu tv ret : ℕ → F) :
    blockCase g nu bg tu tv ret 10 = ret 10 + bg * tu (g.u.toNat % 2 ^ nu) * tv (g.v.toNat % 2 ^ nu) := by
  simp [blockCase, h, addTo, mul_assoc, Nat.and_two_pow_sub_one_eq_mod]

/-- the two branches differ on a relay gate with second operand 1 -/
example : plainCase (F := ℤ) ⟨10, 0, 1⟩ 1 (fun _ => 1) (fun i => i) (fun _ => 0) 10 = 0 ∧
    blockCase (F := ℤ) ⟨10, 0, 1⟩ 1 1 (fun _ => 1) (fun i => i) (fun _ => 0) 10 = 1 := by
  rw [(C17_zk_relay _ rfl _ _ _ _).1, C17_zk_relay_block _ rfl]
  norm_num

end Libra.Props
