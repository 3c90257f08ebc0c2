import Verif.Proofs.FiatShamirAttack
import Verif.Props.ZkSoundness

/-!
# C23, C35: the zk verifier with its transcript
-/

namespace Libra.Props
open Libra Spec Finset FastTrack Zk Transcript
variable {G1 G2 GT : Type} [AddCommGroup G1] [AddCommGroup G2] [AddCommGroup GT]
  [Module (ZMod p) G1] [Module (ZMod p) G2] [Module (ZMod p) GT] [DecidableEq GT] {B : ℕ}

/-- With the challenges taken from the transcript the honest prover is accepted, for every mixing function and
every encoding of group elements. -/
theorem C23_fiat_shamir (hB : 0 < B) (mix : Mix) (enc : G1 → Fin B → BitVec 8) (E : Pairing G1 G2 GT) (C : Circuit)
    (hwf : WellFormed true C) (hpar : ParallelOk C) (hlen : ∀ i, i + 1 < C.depth → 1 ≤ C.bl i ∧ C.bl i < 2 ^ 248)
    (coins : Coins Fp) (hco : CoinsOk C coins) (junk : Prover Fp G1 G2) (tables : VTables Fp) :
    ∃ m, verifyFS mix enc E C (Zk.honest E C coins junk) tables = .ok m := by
  obtain ⟨ch, m, -, e, -⟩ := verifyFS_traced hB mix enc E C (Zk.honest E C coins junk) tables
  exact ⟨m, by rw [e, C23_zk_complete E C hwf hpar hlen coins hco junk, Outcome.ok_bind]⟩

/-- The verifier with its transcript accepts a prover exactly if the verifier of `Verif.Model.ZkVerifier`
does for the challenges that were drawn. -/
theorem C35_some_challenges {σ : Type} (hB : 0 < B) (mix : Mix) (enc : G1 → Fin B → BitVec 8) (E : Pairing G1 G2 GT)
    (C : Circuit) (A : ProverApi σ Fp G1 G2) (tables : VTables Fp) :
    ∃ ch, (∃ m, verifyFS mix enc E C A tables = .ok m) ↔ Zk.verify E C A tables ch = .ok () := by
  obtain ⟨ch, m, -, e, -⟩ := verifyFS_traced hB mix enc E C A tables
  refine ⟨ch, fun ⟨m', h⟩ => ?_, fun h => ⟨m, by rw [e, h, Outcome.ok_bind]⟩⟩
  rw [e] at h
  obtain ⟨_, h, -⟩ := Outcome.bind_eq_ok' h
  exact h

/-- C35 is false, whatever the mixing function is. For every circuit and every list `w` of output values some
prover is accepted that claims the output `w`, evaluates it correctly at the random point, and sends in all layers
exactly the commitments, announced sums, openings and messages of the honest prover, but for the first
polynomial of the last layer: the challenge this polynomial has to be fixed before is already known. -/
theorem C35_false (hB : 0 < B) (mix : Mix) (enc : G1 → Fin B → BitVec 8) (E : Pairing G1 G2 GT) (C : Circuit)
    (hwf : WellFormed true C) (hpar : ParallelOk C) (hlen : ∀ i, i + 1 < C.depth → 1 ≤ C.bl i ∧ C.bl i < 2 ^ 248)
    (coins : Coins Fp) (hco : CoinsOk C coins) (junk : Prover Fp G1 G2) (w : ℕ → Fp) (tables : VTables Fp) :
    ∃ (q : QuadraticPoly Fp) (m : List (Container B)),
      verifyFS mix enc E C (foresee (Zk.honest E C coins junk) C w q) tables = .ok m ∧
      (∃ s, (foresee (Zk.honest E C coins junk) C w q).evaluate
        (foresee (Zk.honest E C coins junk) C w q).start = .ok (s, w)) ∧
      ∀ s r n, (foresee (Zk.honest E C coins junk) C w q).vRes s (oneMinus r) r w n (2 ^ n) = mle n w r := by
  have hd := hwf.deep
  obtain ⟨q, m, h⟩ := foresee_FS hB mix enc E C hd (hlen (C.depth - 2) (by omega)).1 (Zk.honest E C coins junk) w
    tables (C23_zk_complete E C hwf hpar hlen coins hco junk tables)
  have hev := evaluate_ok (F := Fp) (var := .zk) (C := C) (by simpa using hwf.toEvaluable)
  obtain ⟨P, r, hP⟩ : ∃ P r, (Zk.honest E C coins junk).evaluate (Zk.honest E C coins junk).start = .ok (P, r) :=
    ⟨_, _, by simp only [Zk.honest, hev, Outcome.ok_bind, Outcome.pure_eq]; rfl⟩
  refine ⟨q, m, h, ⟨(P, 0), ?_⟩, fun s r n => foldOutput_spec (oneMinus r) _ _ _ (fun _ _ => rfl)⟩
  change ((Zk.honest E C coins junk).evaluate (Zk.honest E C coins junk).start >>= _) = _
  rw [hP]; rfl

/-- a mixing function and an encoding: the wrong output `(1, 1)` of the example is accepted -/
example : (value exampleParallel 3 0 : Fp) ≠ 1 ∧ ∃ (q : QuadraticPoly Fp) (m : List (Container 4)),
    verifyFS (fun k x => x ^^^ k.rotateLeft 3) (fun x j => BitVec.ofNat 8 (x.val + j)) toyPairing exampleParallel
      (foresee (Zk.honest toyPairing exampleParallel exampleCoins blankProver) exampleParallel (fun _ => 1) q)
      blankTables = .ok m :=
  ⟨by decide +kernel, by
    obtain ⟨q, m, h, -⟩ := C35_false (by decide) (fun k x => x ^^^ k.rotateLeft 3)
      (fun (x : ZMod p) (j : Fin 4) => BitVec.ofNat 8 (x.val + j)) toyPairing exampleParallel exampleParallel_wf
      exampleParallel_ok
      (fun i hi => by
        have hi : i < 3 := by have : i + 1 < 4 := hi; omega
        interval_cases i <;> exact ⟨by decide, lt_trans (by decide : _ < 3) (by norm_num)⟩)
      exampleCoins exampleCoins_ok blankProver (fun _ => 1) blankTables
    exact ⟨q, m, h⟩⟩

end Libra.Props
