import Verif.Proofs.CmtSound
import Verif.Props.Cmt
import Verif.Props.Soundness

/-!
# C46: soundness of the traditional verifier
-/

namespace Libra.Props
open Libra Spec Finset FastTrack

section
variable {F : Type} [CommRing F] [DecidableEq F] [IsDomain F] [Fintype F] {σ : Type}

/-- If the claimed output is wrong in some place, the fraction of outcomes of the verifier's coins on
which `verify()` accepts is at most `cmtSoundnessError C / |F|`. The prover is an arbitrary state
machine that sees every challenge when it is sent; only the value of the claimed output at the first
point (`V_res`) is computed as in the code. -/
theorem C46_soundness (C : Circuit) (hwf : AddMult C) (A : Cmt.ProverApi σ F)
    (p : σ) (result : ℕ → F) (hA : A.evaluate A.start = .ok (p, result))
    (hres : ∀ omr r n N, A.vRes p omr r result n N = foldOutput omr r result n N)
    (hbad : ∃ g < 2 ^ C.bl (C.depth - 1), result g ≠ value C (C.depth - 1) g)
    (tables : BetaTables F) :
    ((univ.filter (fun ω : Coin C → F =>
      Cmt.verify C A tables (challenges C ω) = .ok ())).card : ℚ) / Fintype.card (Coin C → F) ≤
      cmtSoundnessError C / Fintype.card F := by
  have h := Cmt.soundness hwf hA hres hbad tables
  have h1 : (0 : ℚ) < Fintype.card F := by exact_mod_cast Fintype.card_pos
  have h2 : (0 : ℚ) < Fintype.card (Coin C → F) := by exact_mod_cast Fintype.card_pos
  rw [div_le_div_iff₀ h2 h1]
  exact_mod_cast h

end

/-- a prover that claims one output more than the true one and otherwise is honest -/
def offByOne (C : Circuit) (junk : Cmt.Prover Fp) : Cmt.ProverApi (Cmt.Prover Fp) Fp :=
  { Cmt.honest C junk with
    evaluate := fun P => do
      let (p, result) ← (Cmt.honest C junk).evaluate P
      return (p, Function.update result 0 (result 0 + 1)) }

theorem offByOne_evaluate {C : Circuit} {junk : Cmt.Prover Fp} {vals : List (List Fp)}
    (h : Cmt.evaluate C = .ok vals) :
    (offByOne C junk).evaluate (offByOne C junk).start =
      .ok ({ junk with circuitValue := valueFn vals },
        Function.update (valueFn vals (C.depth - 1)) 0 (valueFn vals (C.depth - 1) 0 + 1)) := by
  change ((Cmt.evaluate C >>= fun v => _) >>= _) = _
  rw [h]
  rfl

/-- the hypotheses can be met: an add/mult circuit and a prover with a wrong output -/
example (junk : Cmt.Prover Fp) : ∃ p result, AddMult addMultCircuit ∧
    (offByOne addMultCircuit junk).evaluate (offByOne addMultCircuit junk).start = .ok (p, result) ∧
    (∀ omr r n N, (offByOne addMultCircuit junk).vRes p omr r result n N =
      foldOutput omr r result n N) ∧
    ∃ g < 2 ^ addMultCircuit.bl (addMultCircuit.depth - 1),
      result g ≠ value addMultCircuit (addMultCircuit.depth - 1) g := by
  have h1 : 0 < 2 ^ addMultCircuit.bl (addMultCircuit.depth - 1) := by decide
  have h2 : addMultCircuit.depth - 1 < addMultCircuit.depth := by decide
  have hwf := addMultCircuit_wf
  generalize addMultCircuit = C at *
  have hev := Cmt.evaluate_ok (F := Fp) hwf
  refine ⟨_, _, hwf, offByOne_evaluate hev, fun _ _ _ _ => rfl, 0, h1, ?_⟩
  rw [Function.update_self, valueFn_allValues C h2 h1]
  intro h
  exact one_ne_zero (add_eq_left.1 h)

example : cmtSoundnessError addMultCircuit = 21 := by decide

theorem vRes_needed {F : Type} [CommRing F] [DecidableEq F] (h2 : (2 : F) * Cmt.inv2 = 1) (C : Circuit)
    (hwf : AddMult C) (fake : ℕ → F) :
    ∃ A : Cmt.ProverApi (Cmt.Prover F) F, (∃ p, A.evaluate A.start = .ok (p, fake)) ∧
      ∀ (tables : BetaTables F) (ch : Challenges F), Cmt.verify C A tables ch = .ok () := by
  have hev := Cmt.evaluate_ok (F := F) hwf
  let z : Cmt.Prover F := ⟨fun _ _ => 0, 0, 0, 0, 0, 0, 0, 0, 0, 0, fun _ => 0, fun _ => 0,
    fun _ => 0, fun _ => 0, ⟨fun _ => 0, fun _ => 0, ⟨fun _ => ⟨0, 0, 0⟩, fun _ => ⟨0, 0, 0⟩⟩⟩,
    fun _ => 0, fun _ => 0, fun _ => 0, fun _ => 0⟩
  let H := Cmt.honest C z
  refine ⟨{ H with
      evaluate := fun P => do let (p, _) ← H.evaluate P; return (p, fake)
      vRes := fun p omr r _ n N => foldOutput omr r (p.circuitValue (C.depth - 1)) n N },
    ⟨_, by simp [H, Cmt.honest, hev]; rfl⟩, fun tables ch => ?_⟩
  have := Cmt.complete h2 hwf z tables ch
  rw [Cmt.verify] at this ⊢
  have e1 : H.evaluate H.start = .ok ({ z with circuitValue := valueFn (allValues C C.depth) },
        valueFn (allValues C C.depth) (C.depth - 1)) := by
    simp [H, Cmt.honest, hev]
  change ((H.evaluate H.start >>= fun x => pure (x.1, fake)) >>= _) = _
  rw [e1]
  rw [e1] at this
  exact this

/-- `V_res` is a function of the prover. A prover that may choose its value is accepted with every
output, for all challenges. -/
theorem C46_vRes_needed (C : Circuit) (hwf : AddMult C) (fake : ℕ → Fp) :
    ∃ A : Cmt.ProverApi (Cmt.Prover Fp) Fp, (∃ p, A.evaluate A.start = .ok (p, fake)) ∧
      ∀ (tables : BetaTables Fp) (ch : Challenges Fp), Cmt.verify C A tables ch = .ok () :=
  vRes_needed C38_inv2 C hwf fake

end Libra.Props
