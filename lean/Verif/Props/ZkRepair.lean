import Verif.Proofs.ZkSoundBound
import Verif.Proofs.ZkRepairComplete
import Verif.Proofs.ZkStricter
import Verif.Props.Zk

/-!
# C42: which checks make the zero-knowledge verifier sound
-/

namespace Libra.Props
open Libra Spec Finset FastTrack Zk
variable {G1 G2 GT : Type} [AddCommGroup G1] [AddCommGroup G2] [AddCommGroup GT]
  [Module (ZMod p) G1] [Module (ZMod p) G2] [Module (ZMod p) GT] [DecidableEq GT]

/-- The full claim is `Libra.Props.C42_unsound` negated: it is false of the code. With the checks of
`Spec.verifyFixed` (announced sums, `v_u` fixed before phase 2, ideal commitments made before the run,
the claim about the output computed by the verifier) a wrong output is accepted with probability at
most `zkSoundnessError C / |F|`, whatever the prover does. -/
theorem C42_soundness_partial {σ : Type} (E : Pairing G1 G2 GT) (C : Circuit) (hwf : WellFormed true C)
    (hpar : ParallelOk C) (hlen : ∀ i, i + 1 < C.depth → 1 ≤ C.bl i) (A : ProverApi σ Fp G1 G2)
    (X : Committed σ Fp) (hX : X.Early) (p : σ) (result : ℕ → Fp)
    (hA : A.evaluate A.start = .ok (p, result))
    (hbad : ∃ g < 2 ^ C.bl (C.depth - 1), result g ≠ value C (C.depth - 1) g) (tables : VTables Fp) :
    ((univ.filter (fun ω : ZkCoin C → Fp =>
      verifyFixed E C A X tables (zkChallenges C ω) = .ok ())).card : ℚ) / Fintype.card (ZkCoin C → Fp) ≤
      zkSoundnessError C / Fintype.card Fp := by
  have h := Zk.soundness (E := E) hwf hpar hlen hX hA hbad tables
  have h1 : (0 : ℚ) < Fintype.card Fp := by exact_mod_cast Fintype.card_pos
  have h2 : (0 : ℚ) < Fintype.card (ZkCoin C → Fp) := by exact_mod_cast Fintype.card_pos
  rw [div_le_div_iff₀ h2 h1]
  exact_mod_cast h

/-- The honest prover passes the added checks: it is accepted for all challenges. -/
theorem C42_repair_complete (E : Pairing G1 G2 GT) (C : Circuit) (hwf : WellFormed true C)
    (hpar : ParallelOk C) (hlen : ∀ i, i + 1 < C.depth → 1 ≤ C.bl i ∧ C.bl i < 2 ^ 248)
    (coins : Coins Fp) (hco : CoinsOk C coins) (junk : Prover Fp G1 G2) (tables : VTables Fp)
    (ch : Zk.Challenges Fp) :
    verifyFixed E C (Zk.honest E C coins junk) (honestCommitted coins) tables ch = .ok () :=
  complete_fixed E hwf hpar (fun i hi => ⟨(hlen i hi).1, by have := (hlen i hi).2; omega⟩) hco junk tables ch

/-- The repaired verifier is the code with more checks: for the challenges of the code (zero for `rv` and
`rc` of layer 1), whatever the repaired verifier accepts the verifier of the code accepts, if `V_res`
folds the output. -/
theorem C42_repair_stricter {σ : Type} (E : Pairing G1 G2 GT) (C : Circuit) (A : ProverApi σ Fp G1 G2)
    (hres : ∀ s omr r result n N, A.vRes s omr r result n N = foldOutput omr r result n N)
    (X : Committed σ Fp) (tables : VTables Fp) (ch : Zk.Challenges Fp) (hrv : ch.rv 1 = fun _ => 0)
    (hrc : ch.rc 1 = 0) (h : verifyFixed E C A X tables ch = .ok ()) :
    Zk.verify E C A tables ch = .ok () :=
  verifyFixed_stricter E C A hres X tables ch hrv hrc h

/-- a prover that claims one output more than the true one and otherwise is honest -/
def zkOffByOne : ProverApi (Prover Fp (ZMod p) (ZMod p)) Fp (ZMod p) (ZMod p) :=
  { Zk.honest toyPairing exampleParallel exampleCoins blankProver with
    evaluate := fun P => do
      let (p, result) ← (Zk.honest toyPairing exampleParallel exampleCoins blankProver).evaluate P
      return (p, Function.update result 0 (result 0 + 1)) }

theorem exampleParallel_len : ∀ i, i + 1 < exampleParallel.depth →
    1 ≤ exampleParallel.bl i ∧ exampleParallel.bl i < 2 ^ 248 := fun i hi => by
  have hi : i < 3 := by have : i + 1 < 4 := hi; omega
  interval_cases i <;> exact ⟨by decide, lt_trans (by decide : _ < 3) (by norm_num)⟩

/-- the bound applies to a prover with a wrong output, and it is far below 1 -/
example (tables : VTables Fp) : ((univ.filter (fun ω : ZkCoin exampleParallel → Fp =>
      verifyFixed toyPairing exampleParallel zkOffByOne (honestCommitted exampleCoins) tables
        (zkChallenges exampleParallel ω) = .ok ())).card : ℚ) / Fintype.card (ZkCoin exampleParallel → Fp) ≤
      53 / Fintype.card Fp := by
  have hev := evaluate_ok (F := Fp) (var := .zk) (C := exampleParallel)
    (by simpa using exampleParallel_wf.toEvaluable)
  have h := C42_soundness_partial toyPairing exampleParallel exampleParallel_wf exampleParallel_ok
    (fun i hi => (exampleParallel_len i hi).1) zkOffByOne (honestCommitted exampleCoins) (fun _ _ _ => rfl)
    _ _ (by simp only [zkOffByOne, Zk.honest, hev, Outcome.ok_bind, Outcome.pure_eq]; rfl)
    ⟨0, by decide, by
      rw [Function.update_self]
      have : valueFn (F := Fp) (allValues exampleParallel exampleParallel.depth) (exampleParallel.depth - 1) 0
        = value exampleParallel (exampleParallel.depth - 1) 0 := by decide +kernel
      rw [this]
      simp⟩ tables
  have e : zkSoundnessError exampleParallel = 53 := by decide
  rwa [e] at h

example (tables : VTables Fp) (ch : Zk.Challenges Fp) := C42_repair_complete toyPairing exampleParallel
  exampleParallel_wf exampleParallel_ok exampleParallel_len exampleCoins exampleCoins_ok blankProver tables ch

example (tables : VTables Fp) := C42_repair_stricter toyPairing exampleParallel
  (Zk.honest toyPairing exampleParallel exampleCoins blankProver) (fun _ _ _ _ _ _ => rfl)
  (honestCommitted exampleCoins) tables ⟨⟨0, 0, 0, 0, 0, 0⟩, 0, 0⟩ rfl rfl
  (C42_repair_complete toyPairing exampleParallel exampleParallel_wf exampleParallel_ok
    exampleParallel_len exampleCoins exampleCoins_ok blankProver tables _)

end Libra.Props
