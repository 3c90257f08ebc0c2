import Verif.Proofs.SoundnessBound
import Verif.Props.Examples
import Verif.Model.Fp
import Mathlib.Data.ZMod.Basic
import Mathlib.Algebra.Order.Field.Basic

/-!
# C22: soundness of the plain protocol

The property fails for `verify()` as written, in two ways; both are proved here for all circuits.
What holds is proved with the suffix `_partial`.
-/

namespace Libra.Props
open Libra Spec Finset FastTrack

section
variable {F : Type} [CommRing F] [DecidableEq F]

/-! ## The property is false of the code -/

/-- **Inputs are not bound.** For every circuit `C` and every other choice of its inputs (`C'`), there
is a prover that claims the output of `C'` and is accepted by the verifier of `C`, for all
challenges. (Phase 2 of layer 1 replaces its challenges by 0, so its checks bind nothing.) -/
theorem C22_inputs_not_bound (C C' : Circuit) (hC : WellFormed false C) (hC' : WellFormed false C')
    (hsame : SameGates C C') (hn : 0 < C.bl 0) :
    ∃ A : ProverApi (Prover F) F,
      (∃ p result, A.evaluate A.start = .ok (p, result) ∧
        ∀ g < 2 ^ C.bl (C.depth - 1), result g = value C' (C'.depth - 1) g) ∧
      (∀ p omr r result n N, A.vRes p omr r result n N = foldOutput omr r result n N) ∧
      ∀ (tables : BetaTables F) (ch : Challenges F), verify C A tables ch = .ok () := by
  have hev := evaluate_ok (F := F) (var := .fastTrack) (C := C') (by simpa using hC'.toEvaluable)
  have hd := hC'.deep
  refine ⟨cheat C C' zeroProver, ?_, fun _ _ _ _ _ _ => rfl,
    fun tables ch => cheat_accepted hC.toEvaluable hC' hsame hn _ tables ch⟩
  refine ⟨_, _, by simp [cheat, honest, hev]; exact ⟨rfl, rfl⟩, fun g hg => ?_⟩
  rw [hsame.depth, hsame.bl] at hg
  exact valueFn_allValues C' (by omega) hg

/-- **The output is not bound.** The value of the claimed output at the random point is computed by the
prover (`p->V_res`), so a prover may return any output and is accepted, for all challenges. -/
theorem C22_output_not_bound (C : Circuit) (hC : WellFormed false C) (fake : ℕ → F) :
    ∃ A : ProverApi (Prover F) F, (∃ p, A.evaluate A.start = .ok (p, fake)) ∧
      ∀ (tables : BetaTables F) (ch : Challenges F), verify C A tables ch = .ok () := by
  have hev := evaluate_ok (F := F) (var := .fastTrack) (C := C) (by simpa using hC.toEvaluable)
  let H := honest C (zeroProver : Prover F)
  refine ⟨{ H with
      evaluate := fun P => do let (p, _) ← H.evaluate P; return (p, fake)
      vRes := fun p omr r _ n N => foldOutput omr r (p.circuitValue (C.depth - 1)) n N },
    ⟨_, by simp [H, honest, hev]; rfl⟩, fun tables ch => ?_⟩
  have := complete hC false (zeroProver : Prover F) tables ch
  rw [verify]
  rw [verifyWith] at this ⊢
  have e1 : H.evaluate H.start = .ok ({ zeroProver with circuitValue := valueFn (allValues C C.depth) },
        valueFn (allValues C C.depth) (C.depth - 1)) := by
    simp [H, honest, hev]
  change ((H.evaluate H.start >>= fun x => pure (x.1, fake)) >>= _) = _
  rw [e1]
  rw [e1] at this
  exact this

end

/-- the example circuit with another first input -/
def exampleCircuit' : Circuit := ⟨
  { gates := [some ⟨3, 6, 0⟩, some ⟨3, 7, 0⟩, some ⟨2, 0, 0⟩, some ⟨3, 2147483647, 0⟩], bitLength := 2 }
  :: exampleCircuit.layers.tail⟩

theorem exampleCircuit'_wf : WellFormed false exampleCircuit' := by
  apply wellFormed_of_check <;> decide +kernel

theorem exampleCircuit_same : SameGates exampleCircuit exampleCircuit' where
  depth := rfl
  bl i := by match i with
    | 0 => rfl
    | i + 1 => rfl
  gate i hi g := by match i, hi with
    | i + 1, _ => rfl

theorem Fp.toZ_value (C : Circuit) (i g : ℕ) :
    Fp.equiv (value C i g : Fp) = (value C i g : ZMod p) := by
  induction i generalizing g with
  | zero => simp only [value, inputValue]; split_ifs <;> simp
  | succ i ih =>
    simp only [value, gateValue]
    simp only [apply_ite Fp.equiv, map_add, map_mul, map_sub, map_sum, map_pow, map_ofNat, map_zero,
      map_one, map_intCast, ih]

/-- **C22 is false of the code**, with concrete data: the circuit is well formed, the claimed output is
not its output, `V_res` is computed correctly from the claimed output, and the verifier accepts for
all challenges. -/
theorem C22_unsound : ∃ (C : Circuit) (A : ProverApi (Prover Fp) Fp) (p : Prover Fp) (result : ℕ → Fp),
    WellFormed false C ∧ A.evaluate A.start = .ok (p, result) ∧
    (∀ p omr r result n N, A.vRes p omr r result n N = foldOutput omr r result n N) ∧
    (∃ g < 2 ^ C.bl (C.depth - 1), result g ≠ value C (C.depth - 1) g) ∧
    ∀ (tables : BetaTables Fp) (ch : Challenges Fp), verify C A tables ch = .ok () := by
  obtain ⟨A, ⟨p, result, e1, e2⟩, e3, e4⟩ := C22_inputs_not_bound (F := Fp) exampleCircuit
    exampleCircuit' exampleCircuit_wf exampleCircuit'_wf exampleCircuit_same (by decide)
  refine ⟨exampleCircuit, A, p, result, exampleCircuit_wf, e1, e3, ⟨0, by decide, ?_⟩, e4⟩
  rw [e2 0 (by decide)]
  intro h
  have h := congrArg Fp.equiv h
  rw [Fp.toZ_value, Fp.toZ_value] at h
  revert h
  decide +kernel

/-! ## What holds -/

section
variable {F : Type} [CommRing F] [DecidableEq F] [IsDomain F] [Fintype F] {σ : Type}

/-- Soundness of the repaired verifier: `verify()` with one more check (in layer 1 the messages of phase
2 are zero), against provers whose `V_res` is computed from the claimed output. If the claimed output
is wrong in some place, the fraction of outcomes of the verifier's coins on which it accepts is at
most `soundnessError C / |F|`. The prover is arbitrary: it is a state machine that sees every
challenge when it is sent. Missing for the full property: the code does not make that check, and
does not compute `V_res` itself. -/
theorem C22_soundness_partial (C : Circuit) (hwf : WellFormed false C) (A : ProverApi σ F)
    (p : σ) (result : ℕ → F) (hA : A.evaluate A.start = .ok (p, result))
    (hres : ∀ omr r n N, A.vRes p omr r result n N = foldOutput omr r result n N)
    (hbad : ∃ g < 2 ^ C.bl (C.depth - 1), result g ≠ value C (C.depth - 1) g)
    (tables : BetaTables F) :
    ((univ.filter (fun ω : Coin C → F =>
      verifyWith true C A tables (challenges C ω) = .ok ())).card : ℚ) / Fintype.card (Coin C → F) ≤
      soundnessError C / Fintype.card F := by
  have h := soundness hwf hA hres hbad tables
  have h1 : (0 : ℚ) < Fintype.card F := by exact_mod_cast Fintype.card_pos
  have h2 : (0 : ℚ) < Fintype.card (Coin C → F) := by exact_mod_cast Fintype.card_pos
  rw [div_le_div_iff₀ h2 h1]
  exact_mod_cast h

open Classical in
/-- The code as it is, down to layer 1: if the claimed output is wrong, the fraction of outcomes of the
coins on which `verify()` reaches layer 1 with a true claim about the values of layer 1 is at most
`soundnessError C / |F|`. Missing for the full property: layer 1 itself, see
`C22_inputs_not_bound`. -/
theorem C22_above_layer1_partial (C : Circuit) (hwf : WellFormed false C) (A : ProverApi σ F)
    (p : σ) (result : ℕ → F)
    (hbad : ∃ g < 2 ^ C.bl (C.depth - 1), result g ≠ value C (C.depth - 1) g)
    (tables : BetaTables F) :
    ((univ.filter (fun ω : Coin C → F => ∃ s, runTo false C A (challenges C ω)
        (startState C p result tables (challenges C ω)) (C.depth - 1) 1 = .ok s ∧
        s.sum = s.alpha * mle (C.bl 1) (value C 1) s.r0 +
          s.beta * mle (C.bl 1) (value C 1) s.r1)).card : ℚ) / Fintype.card (Coin C → F) ≤
      soundnessError C / Fintype.card F := by
  have h := soundness_above hwf A p result hbad tables
  have h1 : (0 : ℚ) < Fintype.card F := by exact_mod_cast Fintype.card_pos
  have h2 : (0 : ℚ) < Fintype.card (Coin C → F) := by exact_mod_cast Fintype.card_pos
  rw [div_le_div_iff₀ h2 h1]
  exact_mod_cast h

end

/-- For the code's field the denominator is the 254-bit prime. -/
theorem C22_field_size : Fintype.card Fp = p := by
  rw [Fintype.card_congr Fp.equiv.toEquiv, ZMod.card]

/-- the error of the example circuit is 30 / p -/
example : soundnessError exampleCircuit = 30 := by decide

/-- the hypotheses of the two partial theorems are met by the cheating prover of `C22_unsound` -/
example : ∃ (A : ProverApi (Prover Fp) Fp) (p : Prover Fp) (result : ℕ → Fp),
    A.evaluate A.start = .ok (p, result) ∧
    (∀ omr r n N, A.vRes p omr r result n N = foldOutput omr r result n N) ∧
    ∃ C, WellFormed false C ∧ ∃ g < 2 ^ C.bl (C.depth - 1), result g ≠ value C (C.depth - 1) g := by
  obtain ⟨C, A, p, result, h1, h2, h3, h4, _⟩ := C22_unsound
  exact ⟨A, p, result, h2, fun _ _ _ _ => h3 _ _ _ _ _ _, C, h1, h4⟩

end Libra.Props
