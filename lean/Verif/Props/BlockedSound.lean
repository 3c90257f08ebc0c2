import Verif.Proofs.BlockedSound
import Verif.Props.Blocked

/-!
# C48: soundness of the verifier for repeated circuits, if `beta_blk_val` is right
-/

namespace Libra.Props
open Libra Spec Finset FastTrack Blocked

/-- Full claim: a wrong output of some block is accepted with small probability only. That is false of
the code (`C48_unsound`): the verifier takes `beta_blk_val` from the prover. Here the value the verifier
reads is the right one, the equality of the two points of the block index that it sent; everything else
is up to the prover, an arbitrary state machine that sees every challenge when it is sent. -/
theorem C48_soundness_partial {F : Type} [CommRing F] [DecidableEq F] [IsDomain F] [Fintype F] {σ : Type}
    (B : BlockedCircuit) (hB : Repeats B) (A : Blocked.ProverApi σ F) (p : σ) (result : ℕ → F)
    (hA : A.evaluate A.start = .ok (p, result))
    (hres : ∀ omr r omrb rb n k N, A.vRes p omr r omrb rb result n k N =
      foldBlocked omr r omrb rb result n k N)
    (hbad : ∃ b < 2 ^ B.log, ∃ g < 2 ^ (B.blocks 0).bl ((B.blocks 0).depth - 1),
      result (b * 2 ^ (B.blocks 0).bl ((B.blocks 0).depth - 1) + g) ≠
        value (B.blocks b) ((B.blocks 0).depth - 1) g)
    (tables : BetaTables F) :
    ((univ.filter (fun ω : BlockCoin B → F =>
      Blocked.verify B (withBeta B A) tables (blockChallenges B ω) = .ok ())).card : ℚ) /
        Fintype.card (BlockCoin B → F) ≤ blockSoundnessError B / Fintype.card F := by
  have h := Blocked.soundness hB hA hres hbad tables
  have h1 : (0 : ℚ) < Fintype.card F := by exact_mod_cast Fintype.card_pos
  have h2 : (0 : ℚ) < Fintype.card (BlockCoin B → F) := by exact_mod_cast Fintype.card_pos
  rw [div_le_div_iff₀ h2 h1]
  exact_mod_cast h

/-- The honest prover sends the right `beta_blk_val`: with the recomputed value it is accepted for all
challenges as before. -/
theorem C48_repair_complete (B : BlockedCircuit) (hB : Repeats B) (junk : Blocked.Prover Fp)
    (tables : BetaTables Fp) (ch : BlockChallenges Fp) :
    Blocked.verify B (withBeta B (Blocked.honest B junk)) tables ch = .ok () :=
  Blocked.honest_withBeta C38_inv2 hB junk tables ch

example (junk : Blocked.Prover Fp) (tables : BetaTables Fp) (ch : BlockChallenges Fp) :
    Blocked.verify fiveBlocks (withBeta fiveBlocks (Blocked.honest fiveBlocks junk)) tables ch = .ok () :=
  C48_repair_complete fiveBlocks fiveBlocks_repeats junk tables ch

/-- the hypotheses can be met: the prover of `C48_unsound` with the output 0 for `fiveBlocks` -/
example : ∃ (σ : Type) (A : Blocked.ProverApi σ Fp) (p : σ) (fake : ℕ → Fp),
    Repeats fiveBlocks ∧ A.evaluate A.start = .ok (p, fake) ∧
    (∀ omr r omrb rb n k N, A.vRes p omr r omrb rb fake n k N = foldBlocked omr r omrb rb fake n k N) ∧
    ∃ b < 2 ^ fiveBlocks.log, ∃ g < 2 ^ (fiveBlocks.blocks 0).bl ((fiveBlocks.blocks 0).depth - 1),
      fake (b * 2 ^ (fiveBlocks.blocks 0).bl ((fiveBlocks.blocks 0).depth - 1) + g) ≠
        value (fiveBlocks.blocks b) ((fiveBlocks.blocks 0).depth - 1) g := by
  obtain ⟨σ, A, ⟨p, h1, h2⟩, -⟩ := C48_unsound fiveBlocks fiveBlocks_repeats (by decide) (fun _ => 0)
  exact ⟨σ, A, p, _, fiveBlocks_repeats, h1, h2, 0, by decide, 0, by decide, by decide +kernel⟩

example : blockSoundnessError fiveBlocks = 31 := by decide

end Libra.Props
