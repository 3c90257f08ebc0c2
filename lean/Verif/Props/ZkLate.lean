import Verif.Proofs.ZkLate
import Verif.Props.ZkRepair

/-!
# C96: the masks of the values are committed too late
-/

namespace Libra.Props
open Libra Spec Finset FastTrack Zk
variable {G1 G2 GT : Type} [AddCommGroup G1] [AddCommGroup G2] [AddCommGroup GT]
  [Module (ZMod p) G1] [Module (ZMod p) G2] [Module (ZMod p) GT] [DecidableEq GT]

/-- C96 is false. `C` is a circuit of at least three layers with the committed input, `C'` the same circuit with
any other input. There is a prover with the commitment for `C` and the output of `C'`, each of whose masks is the one
committed by `sumcheck_init` of its layer (`X.R`), that passes all checks of the repaired verifier unless the
challenges of layer 2 satisfy one equation. -/
theorem C96_late_masks (E : Pairing G1 G2 GT) (C C' : Circuit) (ho : OtherInputs C C') (hwf : WellFormed true C)
    (hwf' : WellFormed true C') (hd : 3 ≤ C.depth) (hpar : ParallelOk C)
    (hlen : ∀ i, i + 1 < C.depth → 1 ≤ C.bl i ∧ C.bl i < 2 ^ 248) (coins : Coins Fp) (hco : CoinsOk C coins)
    (junk : Prover Fp G1 G2) :
    ∃ (σ : Type) (A : ProverApi σ Fp G1 G2) (X : Committed σ Fp) (s : σ) (result : ℕ → Fp),
      A.evaluate A.start = .ok (s, result) ∧
      (∀ g < 2 ^ C.bl (C.depth - 1), result g = value C' (C.depth - 1) g) ∧
      X.inputMask = coins.maskr ∧
      ∀ tables ch, ch.alpha 2 * maskFactor C 1 (ch.ru 2) + ch.beta 2 * maskFactor C 1 (ch.rv 2) ≠ 0 →
        verifyFixed E C A X tables ch = .ok () := by
  have hev' := evaluate_ok (F := Fp) (var := .zk) (C := C') (by simpa using hwf'.toEvaluable)
  refine ⟨_, late E C C' coins junk, flagged (lateCommitted coins), _, _,
    by simp only [late, switch, Zk.honest, hev', Outcome.ok_bind, Outcome.pure_eq]; rfl, fun g hg => ?_, rfl,
    fun tables ch hch => late_accepted E ho (by decide +kernel) hwf hwf' hd hpar
      (fun i hi => ⟨(hlen i hi).1, by have := (hlen i hi).2; omega⟩) hco junk tables ch hch⟩
  rw [← ho.depth]
  exact valueFn_allValues C' (by rw [ho.depth]; omega) (by rw [ho.depth, other_bl ho]; exact hg)

/-- So the output of the circuit on another input is accepted with probability at least
`1 - (2 l + 1) / |F|`, where `l` is the bit length of layer 1. -/
theorem C96_accepted (E : Pairing G1 G2 GT) (C C' : Circuit) (ho : OtherInputs C C') (hwf : WellFormed true C)
    (hwf' : WellFormed true C') (hd : 3 ≤ C.depth) (hpar : ParallelOk C)
    (hlen : ∀ i, i + 1 < C.depth → 1 ≤ C.bl i ∧ C.bl i < 2 ^ 248) (coins : Coins Fp) (hco : CoinsOk C coins)
    (junk : Prover Fp G1 G2) (tables : VTables Fp) :
    ∃ (σ : Type) (A : ProverApi σ Fp G1 G2) (X : Committed σ Fp) (s : σ) (result : ℕ → Fp),
      A.evaluate A.start = .ok (s, result) ∧
      (∀ g < 2 ^ C.bl (C.depth - 1), result g = value C' (C.depth - 1) g) ∧
      1 - ((2 * C.bl 1 + 1 : ℕ) : ℚ) / Fintype.card Fp ≤ ((univ.filter (fun ω : ZkCoin C → Fp =>
        verifyFixed E C A X tables (zkChallenges C ω) = .ok ())).card : ℚ) / Fintype.card (ZkCoin C → Fp) := by
  obtain ⟨σ, A, X, s, result, h1, h2, -, h3⟩ := C96_late_masks E C C' ho hwf hwf' hd hpar hlen coins hco junk
  refine ⟨σ, A, X, s, result, h1, h2, ?_⟩
  have hc := late_count (F := Fp) C hd
  set bad := univ.filter (fun ω : ZkCoin C → Fp => (zkChallenges C ω).alpha 2 * maskFactor C 1 ((zkChallenges C ω).ru 2) +
        (zkChallenges C ω).beta 2 * maskFactor C 1 ((zkChallenges C ω).rv 2) = 0) with hbad
  set good := univ.filter (fun ω : ZkCoin C → Fp => verifyFixed E C A X tables (zkChallenges C ω) = .ok ()) with hgood
  have hcover : Fintype.card (ZkCoin C → Fp) ≤ good.card + bad.card := by
    rw [← card_univ]
    refine (card_le_card (t := good ∪ bad) (fun ω _ => ?_)).trans (card_union_le _ _)
    by_cases hω : ω ∈ bad
    · exact mem_union_right _ hω
    · refine mem_union_left _ (mem_filter.2 ⟨mem_univ _, h3 _ _ fun h => hω ?_⟩)
      exact mem_filter.2 ⟨mem_univ _, h⟩
  have k1 : (0 : ℚ) < Fintype.card Fp := by exact_mod_cast Fintype.card_pos
  have k2 : (0 : ℚ) < Fintype.card (ZkCoin C → Fp) := by exact_mod_cast Fintype.card_pos
  have hc' : (bad.card : ℚ) / Fintype.card (ZkCoin C → Fp) ≤ ((2 * C.bl 1 + 1 : ℕ) : ℚ) / Fintype.card Fp := by
    rw [div_le_div_iff₀ k2 k1]; exact_mod_cast hc
  have hcover' : (Fintype.card (ZkCoin C → Fp) : ℚ) ≤ good.card + bad.card := by exact_mod_cast hcover
  have : (1 : ℚ) ≤ good.card / Fintype.card (ZkCoin C → Fp) + bad.card / Fintype.card (ZkCoin C → Fp) := by
    rw [← add_div, le_div_iff₀ k2, one_mul]; exact hcover'
  linarith

/-- `exampleParallel` with another input -/
def exampleParallel' : Circuit := ⟨[
  { gates := [some ⟨3, 1, 0⟩, some ⟨3, 7, 0⟩, some ⟨3, 1, 0⟩, some ⟨3, 5, 0⟩], bitLength := 2 },
  { gates := [some ⟨4, 0, 0⟩, some ⟨4, 1, 0⟩, some ⟨4, 2, 0⟩, some ⟨4, 3, 0⟩], bitLength := 2,
    isParallel := true, blockSize := 2, logBlockSize := 1, repeatNum := 2, logRepeatNum := 1 },
  { gates := [some ⟨12, 0, 1⟩, some ⟨1, 0, 1⟩, some ⟨12, 2, 3⟩, some ⟨1, 2, 3⟩], bitLength := 2,
    isParallel := true, blockSize := 2, logBlockSize := 1, repeatNum := 2, logRepeatNum := 1 },
  { gates := [some ⟨7, 0, 3⟩, some ⟨1, 2, 0⟩], bitLength := 1 }]⟩

theorem exampleParallel_other : OtherInputs exampleParallel exampleParallel' := by
  refine ⟨rfl, fun i hi => ?_, _, rfl⟩
  obtain ⟨j, rfl⟩ : ∃ j, i = j + 1 := ⟨i - 1, by omega⟩
  rfl

/-- the two outputs differ -/
example : (value exampleParallel' 3 0 : Fp) ≠ value exampleParallel 3 0 := by decide +kernel

example (tables : VTables Fp) := C96_accepted toyPairing exampleParallel exampleParallel' exampleParallel_other
  exampleParallel_wf (by apply wellFormed_of_check <;> decide +kernel) (by decide) exampleParallel_ok
  exampleParallel_len exampleCoins exampleCoins_ok blankProver tables

end Libra.Props
