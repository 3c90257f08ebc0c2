import Verif.Proofs.BlockedAttack
import Verif.Props.Cmt

/-!
# C47, C48: the protocol for circuits repeated in blocks
-/

namespace Libra.Props
open Libra Spec Finset FastTrack Blocked

/-- the circuit of one block, with the inputs `a` and `b` -/
def blockCircuit (a b : ℤ) : Circuit := ⟨[
  { gates := [some ⟨3, a, 0⟩, some ⟨3, b, 0⟩], bitLength := 1 },
  { gates := [some ⟨0, 0, 1⟩, some ⟨1, 1, 0⟩, some ⟨2, 0, 0⟩, some ⟨1, 1, 1⟩], bitLength := 2 },
  { gates := [some ⟨0, 3, 1⟩, some ⟨1, 0, 1⟩], bitLength := 1 }]⟩

theorem blockCircuit_wf {a b : ℤ} (ha : 0 ≤ a ∧ a < 2 ^ 31) (hb : 0 ≤ b ∧ b < 2 ^ 31) :
    AddMultGates (blockCircuit a b) where
  nonempty := Nat.succ_pos _
  shallow := by change 3 < 1000000; norm_num
  full := by
    intro i hi
    obtain h | h | h : i = 0 ∨ i = 1 ∨ i = 2 := by change i < 3 at hi; omega
    all_goals
      subst h
      refine ⟨rfl, fun g hg => ?_⟩
    · obtain h | h : g = 0 ∨ g = 1 := by change g < 2 ^ 1 at hg; omega
      all_goals subst h; rfl
    · obtain h | h | h | h : g = 0 ∨ g = 1 ∨ g = 2 ∨ g = 3 := by change g < 2 ^ 2 at hg; omega
      all_goals subst h; rfl
    · obtain h | h : g = 0 ∨ g = 1 := by change g < 2 ^ 1 at hg; omega
      all_goals subst h; rfl
  inputs := by
    intro g hg
    obtain h | h : g = 0 ∨ g = 1 := by change g < 2 ^ 1 at hg; omega
    · subst h; exact Or.inl ⟨rfl, le_trans (by norm_num) ha.1, ha.2⟩
    · subst h; exact Or.inl ⟨rfl, le_trans (by norm_num) hb.1, hb.2⟩
  gates := fun i hi => by
    have : ∀ i < 2, ∀ g < 2 ^ (blockCircuit 0 0).bl (i + 1),
      GateOk false ((blockCircuit 0 0).bl i) ((blockCircuit 0 0).gate (i + 1) g) := by decide +kernel
    have h3 : i + 1 < 3 := hi
    obtain h | h : i = 0 ∨ i = 1 := by omega
    · subst h; exact this 0 Nat.two_pos
    · subst h; exact this 1 Nat.one_lt_two
  types := fun i hi => by
    have : ∀ i < 2, ∀ g < 2 ^ (blockCircuit 0 0).bl (i + 1),
      ((blockCircuit 0 0).gate (i + 1) g).ty = 0 ∨ ((blockCircuit 0 0).gate (i + 1) g).ty = 1 ∨
        ((blockCircuit 0 0).gate (i + 1) g).ty = 2 := by decide +kernel
    have h3 : i + 1 < 3 := hi
    obtain h | h : i = 0 ∨ i = 1 := by omega
    · subst h; exact this 0 Nat.two_pos
    · subst h; exact this 1 Nat.one_lt_two
  wide := fun i hi => by
    have h3 : i + 1 < 3 := hi
    obtain h | h : i = 0 ∨ i = 1 := by omega
    · subst h; exact le_refl 1
    · subst h; exact (by decide : 1 ≤ 2)

/-- five blocks with different inputs, of which the protocol uses four -/
def fiveBlocks : BlockedCircuit := ⟨fun b => blockCircuit (b + 1) (10 * b + 3), 5, 2⟩

theorem fiveBlocks_repeats : Repeats fiveBlocks where
  log := by decide
  count := by decide
  circuit := fun b hb => by
    have h5 : b < 5 := hb
    exact blockCircuit_wf (by omega) (by omega)
  depth := fun _ _ => rfl
  bl := fun b _ i hi => by
    obtain h | h | h : i = 0 ∨ i = 1 ∨ i = 2 := by change i < 3 at hi; omega
    all_goals subst h; rfl
  gates := fun b _ i hi g _ => by
    obtain h | h : i = 0 ∨ i = 1 := by change i + 1 < 3 at hi; omega
    all_goals subst h; rfl
  operands := fun i hi => by
    have : ∀ i < 2, ∀ g < 2 ^ (fiveBlocks.blocks 0).bl (i + 1),
      Wire ((fiveBlocks.blocks 0).bl i) ((fiveBlocks.blocks 0).gate (i + 1) g).u ∧
      Wire ((fiveBlocks.blocks 0).bl i) ((fiveBlocks.blocks 0).gate (i + 1) g).v := by decide +kernel
    exact this i (by change i + 1 < 3 at hi; omega)

/-- `verify()` returns true: for every repeated add/mult circuit, every content of the uninitialised
members and tables, and every sequence of challenges. -/
theorem C47_complete (B : BlockedCircuit) (hB : Repeats B) (junk : Blocked.Prover Fp)
    (tables : BetaTables Fp) (ch : BlockChallenges Fp) :
    Blocked.verify B (Blocked.honest B junk) tables ch = .ok () :=
  Blocked.complete C38_inv2 hB junk tables ch

example (junk : Blocked.Prover Fp) (tables : BetaTables Fp) (ch : BlockChallenges Fp) :
    Blocked.verify fiveBlocks (Blocked.honest fiveBlocks junk) tables ch = .ok () :=
  C47_complete fiveBlocks fiveBlocks_repeats junk tables ch

/-- Over any commutative ring the same holds as soon as the constant is the inverse of 2. -/
theorem C47_complete_ring {F : Type} [CommRing F] [DecidableEq F] (h2 : (2 : F) * Cmt.inv2 = 1)
    (B : BlockedCircuit) (hB : Repeats B) (junk : Blocked.Prover F) (tables : BetaTables F)
    (ch : BlockChallenges F) : Blocked.verify B (Blocked.honest B junk) tables ch = .ok () :=
  Blocked.complete h2 hB junk tables ch

/-- The output of `evaluate()` is the output of every block, one block after the other. -/
theorem C47_evaluate {F : Type} [CommRing F] [DecidableEq F] (B : BlockedCircuit) (hB : Repeats B)
    (junk : Blocked.Prover F) :
    ∃ p result, (Blocked.honest B junk).evaluate (Blocked.honest B junk).start = .ok (p, result) ∧
      ∀ b < B.total, ∀ g < 2 ^ (B.blocks 0).bl ((B.blocks 0).depth - 1),
        result (b * 2 ^ (B.blocks 0).bl ((B.blocks 0).depth - 1) + g) =
          (value (B.blocks b) ((B.blocks b).depth - 1) g : F) := by
  have hev := Blocked.evaluate_ok (F := F) hB
  have h0 := (hB.circuit 0 (total_pos hB)).nonempty
  refine ⟨_, _, by simp [Blocked.honest, hev]; exact ⟨rfl, rfl⟩, fun b hb g hg => ?_⟩
  rw [resultOf_eq _ hb hg, hB.depth b hb]
  exact blockFn_allBlocks hB hb (by omega) hg

/-- With a single block (`log = 0`) the prover reads an entry of a one-element array that does not
exist: the run has no defined result, whatever the circuit. -/
theorem C47_one_block {F : Type} [CommRing F] [DecidableEq F] (B : BlockedCircuit) (h0 : B.log = 0)
    (hd : 2 ≤ (B.blocks 0).depth) (junk : Blocked.Prover F) (tables : BetaTables F)
    (ch : BlockChallenges F) : Blocked.verify B (Blocked.honest B junk) tables ch ≠ .ok () := by
  intro h
  rw [Blocked.verify] at h
  obtain ⟨⟨p, result⟩, -, h⟩ := Outcome.bind_eq_ok' h
  dsimp only at h
  split_ifs at h
  · exact absurd h (by simp)
  obtain ⟨a0, -, h⟩ := Outcome.bind_eq_ok' h
  obtain ⟨s, e, -⟩ := Outcome.bind_eq_ok' h
  obtain ⟨m, hm⟩ : ∃ m, (B.blocks 0).depth - 1 = m + 1 := ⟨(B.blocks 0).depth - 2, by omega⟩
  rw [hm, loopDownM_succ] at e
  obtain ⟨s1, e1, -⟩ := Outcome.bind_eq_ok' e
  rw [Blocked.layerStep] at e1
  simp only [h0, loopM, Outcome.pure_eq, Outcome.ok_bind, Blocked.honest,
    Blocked.Prover.phase1Init, if_true] at e1
  exact absurd e1 (by simp)

/-- If the number of blocks is smaller than `2^log`, both read beyond the arrays: the run has no defined
result. The two numbers are independent arguments of the program. -/
theorem C47_few_blocks {F : Type} [CommRing F] [DecidableEq F] {σ : Type} (B : BlockedCircuit)
    (h0 : B.total < 2 ^ B.log) (A : Blocked.ProverApi σ F) (tables : BetaTables F)
    (ch : BlockChallenges F) : Blocked.verify B A tables ch ≠ .ok () := by
  intro h
  rw [Blocked.verify] at h
  obtain ⟨⟨p, result⟩, -, h⟩ := Outcome.bind_eq_ok' h
  dsimp only at h
  rw [if_pos h0] at h
  exact absurd h (by simp)

/-! ## C48: soundness -/

/-- The verifier takes `beta_blk_val` from the prover. For every repeated circuit and every output
`fake`, right or wrong, there is a prover with that output, and with `V_res` computed as in the code,
that is accepted for all challenges at which the polynomial of no layer vanishes. -/
theorem C48_unsound (B : BlockedCircuit) (hB : Repeats B) (hd : 2 ≤ (B.blocks 0).depth)
    (fake : ℕ → Fp) :
    ∃ (σ : Type) (A : Blocked.ProverApi σ Fp),
      (∃ p, A.evaluate A.start = .ok (p, fake) ∧
        ∀ omr r omrb rb n k N, A.vRes p omr r omrb rb fake n k N = foldBlocked omr r omrb rb fake n k N) ∧
      ∀ (tables : BetaTables Fp) (ch : BlockChallenges Fp),
        (∀ i, 1 ≤ i → i < (B.blocks 0).depth → layerPoly (B.blocks 0) i
          (if i = (B.blocks 0).depth - 1 then 1 else ch.alpha (i + 1))
          (if i = (B.blocks 0).depth - 1 then 0 else ch.beta (i + 1))
          (if i = (B.blocks 0).depth - 1 then ch.r0 else ch.ru (i + 1))
          (if i = (B.blocks 0).depth - 1 then ch.r1 else ch.rv (i + 1))
          (fun g => mle B.log (fun b => value (B.blocks b) (i - 1) g) (ch.rb i))
          (ch.ru i) (ch.rv i) ≠ 0) →
        Blocked.verify B A tables ch = .ok () := by
  refine ⟨_, Blocked.cheat B fake Cmt.inv2, ⟨_, rfl, fun _ _ _ _ _ _ _ => rfl⟩,
    fun tables ch hne => cheat_accepted C38_inv2 hB hd fake tables ch (fun i h1 h2 => ?_)⟩
  have := hne i h1 h2
  rw [layerPoly_opOf (layer_facts hB h1 h2).1, ← blockMle_swap, ← blockMle_swap] at this
  rw [predValue, claimOf]
  split_ifs at this ⊢ <;> exact this

/-- challenges for `fiveBlocks` -/
def blockDraws : BlockChallenges Fp where
  r0 := fun _ => 2
  r1 := fun _ => 3
  ru := fun _ _ => 3
  rv := fun _ _ => 5
  alpha := fun _ => 2
  beta := fun _ => 3
  rb0 := fun _ => 5
  rb := fun _ _ => 4

/-- A wrong output of the five blocks is accepted. -/
theorem C48_unsound_run : ∃ (σ : Type) (A : Blocked.ProverApi σ Fp) (p : σ) (fake : ℕ → Fp),
    A.evaluate A.start = .ok (p, fake) ∧
    (∀ omr r omrb rb n k N, A.vRes p omr r omrb rb fake n k N = foldBlocked omr r omrb rb fake n k N) ∧
    fake 0 ≠ value (fiveBlocks.blocks 0) 2 0 ∧
    ∀ tables, Blocked.verify fiveBlocks A tables blockDraws = .ok () := by
  obtain ⟨σ, A, ⟨p, h1, h2⟩, h3⟩ := C48_unsound fiveBlocks fiveBlocks_repeats (by decide) (fun _ => 0)
  refine ⟨σ, A, p, _, h1, h2, by decide +kernel, fun tables => h3 tables blockDraws ?_⟩
  intro i h1 h2
  obtain h | h : i = 1 ∨ i = 2 := by change i < 3 at h2; omega
  · subst h; decide +kernel
  · subst h; decide +kernel

end Libra.Props
