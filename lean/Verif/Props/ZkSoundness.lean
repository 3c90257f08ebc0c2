import Verif.Proofs.ZkAttack
import Verif.Props.Zk

/-!
# C42: the zero-knowledge verifier is not sound
-/

namespace Libra.Props
open Libra Spec Finset FastTrack Zk
variable {G1 G2 GT : Type} [AddCommGroup G1] [AddCommGroup G2] [AddCommGroup GT]
  [Module (ZMod p) G1] [Module (ZMod p) G2] [Module (ZMod p) GT] [DecidableEq GT]

/-- For every circuit of at least two layers, every prover and every list `w` of output values there is a
prover that claims the output `w`, evaluates this claim correctly at the verifier's random point, sends
the same commitments and messages in all layers (only the announced sum of the mask of the last layer is
different), and gets the same answer from the verifier for all challenges. -/
theorem C42_claim_any_output {σ : Type} (E : Pairing G1 G2 GT) (C : Circuit) (hd : 2 ≤ C.depth)
    (A : ProverApi σ Fp G1 G2) (w : ℕ → Fp) :
    (∀ s r, A.evaluate A.start = .ok (s, r) →
      ∃ t, (reclaim A C w).evaluate (reclaim A C w).start = .ok (t, w)) ∧
    (∀ s r n, (reclaim A C w).vRes s (oneMinus r) r w n (2 ^ n) = mle n w r) ∧
    ∀ tables ch, Zk.verify E C (reclaim A C w) tables ch = Zk.verify E C A tables ch := by
  refine ⟨fun s r h => ⟨(s, r, 0), ?_⟩, fun s r n => foldOutput_spec (oneMinus r) _ _ _ (fun _ _ => rfl),
    reclaim_verify E A C hd w⟩
  change (A.evaluate A.start >>= _) = _
  rw [h]; rfl

/-- C42 is false: every output, in particular a wrong one, is accepted with probability 1. -/
theorem C42_unsound (E : Pairing G1 G2 GT) (C : Circuit) (hwf : WellFormed true C)
    (hpar : ParallelOk C) (hlen : ∀ i, i + 1 < C.depth → 1 ≤ C.bl i ∧ C.bl i < 2 ^ 248)
    (coins : Coins Fp) (hco : CoinsOk C coins) (junk : Prover Fp G1 G2) (w : ℕ → Fp) :
    ∃ (σ : Type) (A : ProverApi σ Fp G1 G2) (s : σ), A.evaluate A.start = .ok (s, w) ∧
      (∀ s r n, A.vRes s (oneMinus r) r w n (2 ^ n) = mle n w r) ∧
      ∀ tables ch, Zk.verify E C A tables ch = .ok () := by
  have hd := hwf.deep
  obtain ⟨h1, h2, h3⟩ := C42_claim_any_output E C hd (Zk.honest E C coins junk) w
  have hev := evaluate_ok (F := Fp) (var := .zk) (C := C) (by simpa using hwf.toEvaluable)
  obtain ⟨s, h⟩ := h1 _ _ (by simp only [Zk.honest, hev, Outcome.ok_bind, Outcome.pure_eq]; rfl)
  exact ⟨_, _, s, h, h2, fun tables ch => by
    rw [h3, C23_zk_complete E C hwf hpar hlen coins hco junk]⟩

/-- the output of the example is not `(1, 1)`, but it is accepted -/
example : (value exampleParallel 3 0 : Fp) ≠ 1 ∧ ∃ (σ : Type) (A : ProverApi σ Fp (ZMod p) (ZMod p)) (s : σ),
    A.evaluate A.start = .ok (s, fun _ => 1) ∧
      (∀ s r n, A.vRes s (oneMinus r) r (fun _ => 1) n (2 ^ n) = mle n (fun _ => 1) r) ∧
      ∀ tables ch, Zk.verify toyPairing exampleParallel A tables ch = .ok () :=
  ⟨by decide +kernel, C42_unsound toyPairing exampleParallel exampleParallel_wf exampleParallel_ok
    (fun i hi => by
      have hi : i < 3 := by have : i + 1 < 4 := hi; omega
      interval_cases i <;> exact ⟨by decide, lt_trans (by decide : _ < 3) (by norm_num)⟩)
    exampleCoins exampleCoins_ok blankProver (fun _ => 1)⟩

end Libra.Props
