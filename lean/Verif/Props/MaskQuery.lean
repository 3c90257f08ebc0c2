import Verif.Proofs.ZkMasked
import Verif.Proofs.ZkLayer

/-!
# C24: what the unused queries of the zero-knowledge prover return
-/

namespace Libra.Props
open Libra Spec Zk Finset
variable {F G1 G2 GT : Type} [Field F]

theorem loop_qAt (P : Zk.Prover F G1 G2) (n off : ℕ)
    (x : ℕ → F) (s : F) (body : ℕ → F → F)
    (hb : ∀ i < n, ∀ s, body i s = s + qAt n P.maskpoly (off + i) (x i)) :
    loop n body s = s + ∑ j ∈ range n, qAt n P.maskpoly (off + j) (x j) := by
  rw [← loop_add_sum]
  exact loop_congr (fun i hi s => hb i hi s)

/-- `query` returns the value of the sum-check mask at the point of the challenges. -/
theorem C24_query (P : Zk.Prover F G1 G2) (n : ℕ) (hn : 1 ≤ n) (hu : P.base.lengthU = n)
    (hv : P.base.lengthV = n) (u v : ℕ → F) (rc : F) :
    P.query u v rc = sumMaskPoly (2 * n + 1) P.maskpoly (joinPoint n u v rc) := by
  rw [sumMaskPoly_join n hn]
  unfold Prover.query
  dsimp only
  simp only [hu, hv]
  rw [loop_qAt P n 0 u 0, loop_qAt P n n v]
  · rw [qAt, hi_zero _ _ (by omega) (by omega), lo, ← two_mul n]
    simp only [zero_add]
    ring
  · intro i hlt s
    rw [qAt, hi, lo]
    by_cases c : i + 1 = n
    · rw [if_pos c, if_neg (by omega), if_pos (by omega), highTerms_eq hu hv, Nat.add_comm i n]
      ring
    · rw [if_neg c, if_neg (by omega), if_neg (by omega), Nat.add_comm i n]
      ring
  · intro i hlt s
    rw [qAt, hi, lo, zero_add]
    by_cases c : i + 1 = n
    · rw [if_pos c, if_pos c, if_neg (by omega), highTerms_eq hu hv]
      ring
    · rw [if_neg c, if_neg c, if_neg (by omega)]
      ring

/-- `queryRg1` and `queryRg2` return what the masks of the two output claims contribute to the last message
of the layer at the challenge `x`: the message is their sum plus the one that is sent without those masks
(`Iuv = 0`). -/
theorem C24_queryRg (P : Zk.Prover F G1 G2) (prev : F) (k : ℕ) (general x : F) :
    (P.finalround prev k general).2.eval x =
      P.queryRg1 x + P.queryRg2 x + (({ P with Iuv := 0 } : Zk.Prover F G1 G2).finalround prev k general).2.eval x := by
  simp only [Prover.finalround, Prover.queryRg1, Prover.queryRg2, QuadraticPoly.eval, Prover.highTerms]
  ring

/-- a prover in the middle of a layer with two variables per input: five variables, coefficients 1, at the
point `(1, ..., 1)` -/
example (P : Zk.Prover ℚ Unit Unit) :
    let Q := { P with base := { P.base with lengthU := 2, lengthV := 2 }, maskpoly := fun _ => 1 }
    Q.base.lengthU = 2 ∧ Q.base.lengthV = 2 ∧ Q.query (fun _ => 1) (fun _ => 1) 1 = 17 := by
  refine ⟨rfl, rfl, ?_⟩
  rw [C24_query _ 2 (by norm_num) rfl rfl]
  simp only [sumMaskPoly, sum_range_succ, joinPoint]
  norm_num

end Libra.Props
