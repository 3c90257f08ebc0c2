import Verif.Proofs.ParaComplete

/-!
# A scheduler

The threads run one after the other, in a fixed order.
-/

namespace Libra.ParaTrack
open Spec Threads Threads.Prog FastTrack
variable {F : Type} [CommRing F]

/-- the arrays of `V_res` after `k` rounds -/
def vResIn (order : List (Fin numThreads)) (omr r raw : ℕ → F) (outputSize : ℕ) : ℕ → VLoc → F
  | 0 => fun
    | .out i => raw i
    | .nout _ => 0
  | k + 1 =>
    let m := vResIn order omr r raw outputSize k
    let half := (outputSize >>> k) >>> 1
    vSwap (if numThreads ≤ half then
      inOrder (fun id : Fin numThreads => vResThread (omr k) (r k) half id) order m
    else ((forRange 0 half (vResBody (omr k) (r k))).run m).1)

/-- The threaded prover when every thread is run to its end before the next one, in the given order;
`junk` are the uninitialised members. -/
def serial (order : List (Fin numThreads)) (C : Circuit) (junk : Prover F) :
    Cmt.ProverApi (Prover F × Unit) F where
  start := (junk, ())
  evaluate s := do
    let vals ← evaluate C
    return (({ s.1 with circuitValue := valueFn vals }, ()), valueFn vals (C.depth - 1))
  vRes _ omr r raw rSize outputSize := vResIn order omr r raw outputSize rSize (.out 0)
  sumcheckInit s layerId g u v a b r0 r1 omr0 omr1 :=
    (s.1.sumcheckInit layerId g u v a b r0 r1 omr0 omr1, ())
  phase1Init s :=
    let P := s.1.phase1Main C
    ({ P with mem := inOrder (P.phase1Threads C) order s.1.mem }, ())
  phase1Update s prev bit :=
    let m := inOrder (fun id : Fin numThreads =>
      updateThread true (bit == 0) prev (s.1.totalUv >>> 1) id) order s.1.mem
    .ok (({ s.1 with mem := swapTabs m, totalUv := s.1.totalUv >>> 1 }, ()), collect m)
  phase2Init s prev ru omru :=
    let P := s.1.phase2Main C prev ru omru
    .ok ({ P with mem := inOrder (P.phase2Threads C) order s.1.mem }, ())
  phase2Update s prev bit :=
    let m := inOrder (fun id : Fin numThreads =>
      updateThread false (bit == 0) prev (s.1.totalUv >>> 1) id) order (clearRets s.1.mem)
    .ok (({ s.1 with mem := swapTabs m, totalUv := s.1.totalUv >>> 1 }, ()), collect m)
  finalize s prev := (((s.1.finalize prev).1, ()), (s.1.finalize prev).2)

theorem vResIn_loop {order : List (Fin numThreads)} (hn : order.Nodup) (hall : ∀ i, i ∈ order)
    (omr r raw : ℕ → F) (outputSize k : ℕ) :
    VResLoop omr r raw outputSize k (vResIn order omr r raw outputSize k) := by
  induction k with
  | zero => exact .init (fun i _ => rfl)
  | succ k ih =>
    refine .round ih ?_
    unfold VResRound
    split_ifs with h
    · exact joins_inOrder hn hall _ _
    · rfl

theorem serial_scheduled {order : List (Fin numThreads)} (hn : order.Nodup) (hall : ∀ i, i ∈ order)
    (C : Circuit) (junk : Prover F) : Scheduled C (serial order C junk) where
  evaluate s := by
    cases h : (evaluate C : Outcome (List (List F))) <;> simp [serial, h] <;> rfl
  vRes s omr r raw rSize outputSize := ⟨_, vResIn_loop hn hall omr r raw outputSize rSize, rfl⟩
  sumcheckInit _ _ _ _ _ _ _ _ _ _ _ := rfl
  phase1Init _ := ⟨_, joins_inOrder hn hall _ _, rfl⟩
  phase1Update _ _ _ := ⟨_, _, rfl, _, joins_inOrder hn hall _ _, rfl, rfl⟩
  phase2Init _ _ _ _ := ⟨_, rfl, _, joins_inOrder hn hall _ _, rfl⟩
  phase2Update _ _ _ := ⟨_, _, rfl, _, joins_inOrder hn hall _ _, rfl, rfl⟩
  finalize _ _ := ⟨rfl, rfl⟩

end Libra.ParaTrack
