import Verif.Props.Circuit

/-!
# C17: the verifier aborts on a one-input gate with a second input
-/

namespace Libra.Props
open Libra Spec

/-- `not_gate` and `relay_gate` end in a failed assertion on every layer that has a gate of their type
whose second input is not 0. -/
theorem C17_one_input_aborts {F : Type} [CommRing F] (C : Circuit) (T : FastTrack.BetaTables F) (depth : ℕ) (ty : ℤ)
    (g : ℕ) (hg : g < 2 ^ C.bl depth) (ht : (C.gate depth g).ty = ty) (hv : (C.gate depth g).v ≠ 0) :
    FastTrack.pred1 C T depth ty = .assertFail := by
  have key : ∀ n, g < n → loopM n (fun i ret =>
      let g := C.gate depth i
      if g.ty = ty then (do
        Outcome.assert (g.v == 0)
        return ret + (T.g0 i + T.g1 i) * T.u g.u.toNat * T.v g.v.toNat : Outcome F)
      else return ret) 0 = .assertFail := by
    intro n
    induction n with
    | zero => intro h; omega
    | succ n ih =>
      intro h
      rw [loopM_succ]
      by_cases c : g < n
      · rw [ih c]; rfl
      · obtain rfl : n = g := by omega
        clear ih c h
        have step : ∀ s : F, (if (C.gate depth n).ty = ty then (do
            Outcome.assert ((C.gate depth n).v == 0)
            return s + (T.g0 n + T.g1 n) * T.u (C.gate depth n).u.toNat * T.v (C.gate depth n).v.toNat : Outcome F)
            else return s) = .assertFail := by
          intro s
          rw [if_pos ht, show ((C.gate depth n).v == 0) = false by simpa using hv]
          rfl
        have pre : ∀ m ≤ n, ∃ o, loopM m (fun i ret =>
            let g := C.gate depth i
            if g.ty = ty then (do
              Outcome.assert (g.v == 0)
              return ret + (T.g0 i + T.g1 i) * T.u g.u.toNat * T.v g.v.toNat : Outcome F)
            else return ret) 0 = o ∧ (o = .assertFail ∨ ∃ s, o = .ok s) := by
          intro m
          induction m with
          | zero => intro _; exact ⟨_, rfl, .inr ⟨_, rfl⟩⟩
          | succ m ih =>
            intro hm
            obtain ⟨o, e, h⟩ := ih (by omega)
            refine ⟨_, rfl, ?_⟩
            rw [loopM_succ, e]
            rcases h with rfl | ⟨s, rfl⟩
            · exact .inl rfl
            · rw [Outcome.bind_ok]
              dsimp only
              by_cases c1 : (C.gate depth m).ty = ty
              · rw [if_pos c1]
                cases c2 : ((C.gate depth m).v == 0)
                · exact .inl rfl
                · exact .inr ⟨_, rfl⟩
              · rw [if_neg c1]; exact .inr ⟨_, rfl⟩
        obtain ⟨o, e, h⟩ := pre n le_rfl
        rw [e]
        rcases h with rfl | ⟨s, rfl⟩
        · rfl
        · rw [Outcome.bind_ok]; exact step s
  exact key _ hg

/-- a layer with such a gate -/
example : ∃ (C : Circuit) (g : ℕ), g < 2 ^ C.bl 1 ∧ (C.gate 1 g).ty = 6 ∧ (C.gate 1 g).v ≠ 0 :=
  ⟨{ layers := [{ gates := [], bitLength := 0 }, { gates := [some ⟨6, 0, 1⟩], bitLength := 0 }] }, 0, by decide⟩

end Libra.Props
