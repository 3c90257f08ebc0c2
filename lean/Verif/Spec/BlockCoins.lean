import Verif.Spec.Coins
import Verif.Spec.Blocked

/-!
# Specification: the random coins of the verifier for repeated circuits, and `beta_blk_val`
-/

namespace Libra.Spec
open FastTrack Blocked Finset

/-- The draws of `verify()` for a circuit repeated in blocks: those of the traditional verifier, the
first point of the block index, and for each layer a point of the block index. -/
abbrev BlockCoin (B : BlockedCircuit) : Type :=
  Coin (B.blocks 0) ⊕ Fin B.log ⊕ (Fin (B.blocks 0).depth × Fin B.log)

set_option synthInstance.maxSize 512 in
instance (B : BlockedCircuit) : DecidableEq (BlockCoin B) := inferInstance

set_option synthInstance.maxSize 512 in
instance (B : BlockedCircuit) : Fintype (BlockCoin B) := inferInstance

namespace BlockCoin
variable {B : BlockedCircuit}
abbrev base (c : Coin (B.blocks 0)) : BlockCoin B := .inl c
abbrev rb0 (j : Fin B.log) : BlockCoin B := .inr (.inl j)
abbrev rb (i : Fin (B.blocks 0).depth) (j : Fin B.log) : BlockCoin B := .inr (.inr (i, j))
end BlockCoin

/-- the challenges made of an outcome of the draws -/
def blockChallenges {F : Type} [CommRing F] (B : BlockedCircuit) (ω : BlockCoin B → F) :
    BlockChallenges F where
  toChallenges := challenges (B.blocks 0) (fun c => ω (.base c))
  rb0 j := if h : j < B.log then ω (.rb0 ⟨j, h⟩) else 0
  rb i j := if hi : i < (B.blocks 0).depth then
    if hj : j < B.log then ω (.rb ⟨i, hi⟩ ⟨j, hj⟩) else 0 else 0

/-- The sum of the degrees: that of the traditional verifier, 1 for every variable of the block index
of the output, and 3 for every round of phase 0. -/
def blockSoundnessError (B : BlockedCircuit) : ℕ :=
  cmtSoundnessError (B.blocks 0) + B.log +
    ∑ i ∈ range (B.blocks 0).depth, if i = 0 then 0 else 3 * B.log

/-- what `beta_blk_val` has to be: the multilinear extension of equality at two points -/
def eqAt {F : Type} [CommRing F] (k : ℕ) (x y : ℕ → F) : F :=
  ∏ j ∈ range k, (x j * y j + (1 - x j) * (1 - y j))

/-- the state of a prover, and the points of the block index that the verifier sent -/
structure Tracked (σ F : Type) where
  p : σ
  rb0 : ℕ → F
  rb : ℕ → F

/-- The prover `A` with the right `beta_blk_val`: it answers as `A` does, but the verifier gets
`beta_blk_val` from the challenges that it sent for the block index. -/
def withBeta {F σ : Type} [CommRing F] (B : BlockedCircuit) (A : Blocked.ProverApi σ F) :
    Blocked.ProverApi (Tracked σ F) F where
  start := ⟨A.start, fun _ => 0, fun _ => 0⟩
  evaluate s := do
    let (p, result) ← A.evaluate s.p
    return ({ s with p := p }, result)
  vRes s := A.vRes s.p
  sumcheckInit s layerId blk g u v a b rb0 r0 r1 omrb0 omr0 omr1 :=
    { s with p := A.sumcheckInit s.p layerId blk g u v a b rb0 r0 r1 omrb0 omr0 omr1, rb0 := rb0 }
  phase0Init s := { s with p := A.phase0Init s.p }
  phase0Update s prev bit := do
    let (p, poly) ← A.phase0Update s.p prev bit
    return ({ s with p := p,
                     rb := if bit = 0 then s.rb else Function.update s.rb (bit - 1) prev }, poly)
  phase1Init s prev := do
    let p ← A.phase1Init s.p prev
    return { s with p := p, rb := Function.update s.rb (B.log - 1) prev }
  phase1Update s prev bit := do
    let (p, poly) ← A.phase1Update s.p prev bit
    return ({ s with p := p }, poly)
  phase2Init s prev := do
    let p ← A.phase2Init s.p prev
    return { s with p := p }
  phase2Update s prev bit := do
    let (p, poly) ← A.phase2Update s.p prev bit
    return ({ s with p := p }, poly)
  finalize s prev := ({ s with p := (A.finalize s.p prev).1 }, (A.finalize s.p prev).2)
  betaBlkVal s := eqAt B.log s.rb0 s.rb

end Libra.Spec
