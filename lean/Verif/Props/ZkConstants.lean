import Verif.Proofs.ConstantCount
import Verif.Proofs.ZkConstants
import Verif.Props.Inputs
import Verif.Props.Zk

/-!
# C41: constants above the input layer in the zero-knowledge protocol
-/

namespace Libra.Props
open Libra Spec Reader Finset

variable {G1 G2 GT : Type} [AddCommGroup G1] [AddCommGroup G2] [AddCommGroup GT]
  [Module (ZMod p) G1] [Module (ZMod p) G2] [Module (ZMod p) GT] [DecidableEq GT]

/-- C41, zero-knowledge version, constants in any layer: whatever the coins of the prover, the honest proof is accepted exactly when
the constants of every layer have weight zero, and rejected otherwise. -/
theorem C41_zk_exact (E : Pairing G1 G2 GT) (C : Circuit) (h : WellFormedUpToConstants true C) (hpar : ParallelOk C)
    (hlen : ∀ i, i + 1 < C.depth → C.bl i < 2 ^ 248) (coins : Zk.Coins Fp) (hco : Zk.CoinsOk C coins) (junk : Zk.Prover Fp G1 G2)
    (tables : Zk.VTables Fp) (ch : Zk.Challenges Fp) :
    Zk.verify E C (Zk.honest E C coins junk) tables ch =
      if ∀ i < C.depth, 1 ≤ i → runWeight C ch.toChallenges i = 0 then .ok () else .reject :=
  Zk.zk_constants_run E h hpar (fun i hi => by have := hlen i hi; omega) hco junk tables ch

/-- C41, zero-knowledge version: the honest proof for a circuit with a constant other than zero above the input layer is almost
never accepted: with probability at most `(n + 1) / |F|`, for a layer of `2 ^ n` gates, whatever the masking challenges `rho`, `rc`. -/
theorem C41_zk_almost_never (E : Pairing G1 G2 GT) (C : Circuit) (h : WellFormedUpToConstants true C)
    (hpar : ParallelOk C)
    (hlen : ∀ i, i + 1 < C.depth → C.bl i < 2 ^ 248) (coins : Zk.Coins Fp) (hco : Zk.CoinsOk C coins) (junk : Zk.Prover Fp G1 G2)
    (tables : Zk.VTables Fp) (rho rc : ℕ → Fp) (i g : ℕ) (hi : 1 ≤ i) (hd : i < C.depth) (hg : g < 2 ^ C.bl i)
    (h3 : (C.gate i g).ty = 3) (hu : ((C.gate i g).u : Fp) ≠ 0) :
    ((univ.filter (fun ω : Coin C → Fp =>
      Zk.verify E C (Zk.honest E C coins junk) tables ⟨challenges C ω, rho, rc⟩ = .ok ())).card : ℚ) /
      Fintype.card (Coin C → Fp) ≤ (C.bl i + 1 : ℕ) / Fintype.card Fp := by
  have hc := FastTrack.weight_count (F := Fp) (fun ω : Coin C → Fp =>
      Zk.verify E C (Zk.honest E C coins junk) tables ⟨challenges C ω, rho, rc⟩ = .ok ()) hd
      ⟨g, hg, by rwa [constants, if_pos h3]⟩ (fun ω hω => by
        rw [C41_zk_exact E C h hpar hlen coins hco] at hω
        split_ifs at hω with hall
        exact hall i hd hi)
  have h1 : (0 : ℚ) < Fintype.card Fp := by exact_mod_cast Fintype.card_pos
  have h2 : (0 : ℚ) < Fintype.card (Coin C → Fp) := by exact_mod_cast Fintype.card_pos
  rw [div_le_div_iff₀ h2 h1]
  exact_mod_cast hc

/-- the circuit of `constFile` in the zero-knowledge version, no layer parallel -/
def zkConst : Circuit := circuitWithMeta constFile [noMeta, noMeta]

theorem zkConst_ok : WellFormedUpToConstants true zkConst := by
  have h3 : ∀ i < zkConst.depth, (zkConst.layer i).gates.length = 2 ^ zkConst.bl i ∧
    ∀ g < 2 ^ zkConst.bl i, (zkConst.layer i).gates[g]? = some (some (zkConst.gate i g)) := by decide +kernel
  have h5 : ∀ i < zkConst.depth - 1, ∀ g < 2 ^ zkConst.bl (i + 1), GateOk true (zkConst.bl i) (zkConst.gate (i + 1) g) := by
    decide +kernel
  have h6 : ∀ i < zkConst.depth - 2, ∀ g < 2 ^ zkConst.bl (i + 2), (zkConst.gate (i + 2) g).ty ≠ 4 ∧
      ((zkConst.gate (i + 2) g).ty = 6 ∨ (zkConst.gate (i + 2) g).ty = 10 → (zkConst.gate (i + 2) g).v = 0) := by
    decide +kernel
  exact ⟨⟨by decide +kernel, by decide +kernel, h3, by decide +kernel, fun i hi => h5 i (by omega)⟩, by decide +kernel,
    by decide +kernel, fun i hi => h6 i (by omega), by decide +kernel, by decide +kernel⟩

/-- C41 for a file, zero-knowledge version: it is read, it can be evaluated, and its honest proof is accepted if and only if
`9 * r = 0` for the first coordinate `r` of the first random point. -/
theorem C41_zk_false (E : Pairing G1 G2 GT) : ∃ (file metaFile : List ℤ) (C : Circuit), readZk file metaFile = .ok C ∧
    (∃ vals : List (List Fp), evaluate .zk C = .ok vals) ∧
    ∀ (coins : Zk.Coins Fp), Zk.CoinsOk C coins → ∀ (junk : Zk.Prover Fp G1 G2) (tables : Zk.VTables Fp) (ch : Zk.Challenges Fp),
      Zk.verify E C (Zk.honest E C coins junk) tables ch = if 9 * ch.r0 0 = 0 then .ok () else .reject := by
  refine ⟨tokens constFile, [noMeta, noMeta].flatMap MetaLine.tokens, zkConst, ?_, ?_, ?_⟩
  · have := readZk_ok constFile [noMeta, noMeta] [] [] (by decide +kernel)
      ((FileOk_iff _ _).2 ⟨by decide +kernel, by decide +kernel, fun _ => by decide +kernel⟩) (by decide +kernel) rfl
    rwa [List.append_nil, List.append_nil] at this
  · exact ⟨_, evaluate_ok (var := .zk) (by simpa using zkConst_ok.toEvaluable)⟩
  · intro coins hco junk tables ch
    have hd : zkConst.depth = 3 := by decide +kernel
    have hb : ∀ i < 3, zkConst.bl i = 1 := by decide +kernel
    have hp : ∀ i < 3, (zkConst.layer i).isParallel = false := by decide +kernel
    rw [C41_zk_exact E zkConst zkConst_ok (fun i _ hi h => by rw [hp i (by omega)] at h; simp at h)
      (fun i hi => by rw [hb i (by omega)]; norm_num) coins hco]
    have e0 : zkConst.gate 2 0 = ⟨0, 0, 1⟩ := by decide +kernel
    have e1 : zkConst.gate 2 1 = ⟨3, 9, 0⟩ := by decide +kernel
    have f0 : zkConst.gate 1 0 = ⟨4, 0, 0⟩ := by decide +kernel
    have f1 : zkConst.gate 1 1 = ⟨4, 1, 0⟩ := by decide +kernel
    have w1 : runWeight zkConst ch.toChallenges 1 = 0 := by
      rw [runWeight, hd, if_neg (by norm_num), hb 1 (by norm_num)]
      simp only [mle, constants, pow_one, Finset.sum_range_succ, Finset.sum_range_zero, f0, f1]
      rw [if_neg (by norm_num), if_neg (by norm_num)]
      ring
    have w2 : runWeight zkConst ch.toChallenges 2 = 9 * ch.r0 0 := by
      rw [runWeight, hd, if_pos rfl, hb 2 (by norm_num)]
      simp only [mle, constants, eqPoly, pow_one, Finset.sum_range_succ, Finset.sum_range_zero, Finset.prod_range_succ,
        Finset.prod_range_zero, e0, e1]
      rw [if_neg (by decide), if_pos trivial, if_pos (by decide : Nat.testBit 1 0 = true)]
      push_cast
      ring
    have hiff : (∀ i < zkConst.depth, 1 ≤ i → runWeight zkConst ch.toChallenges i = 0) ↔ 9 * ch.r0 0 = 0 := by
      rw [hd]
      constructor
      · intro a; rw [← w2]; exact a 2 (by norm_num) (by norm_num)
      · intro a i hi h1
        have : i = 1 ∨ i = 2 := by omega
        rcases this with rfl | rfl
        · exact w1
        · rw [w2]; exact a
    simp only [hiff]

/-- coins of the prover for the circuit exist -/
example : Zk.CoinsOk zkConst exampleCoins := by
  have hp : 1003 < p := by decide +kernel
  have hb : ∀ i < 3, zkConst.bl i ≤ 1 := by decide +kernel
  have hd : zkConst.depth = 3 := by decide +kernel
  refine ⟨fun i _ _ => toySecrets_lt 2 (by decide), fun i _ hi => toySecrets_lt _ ?_, fun i _ _ => ?_,
    ?_, toySecrets_lt _ (by have := hb 0 (by norm_num); omega)⟩
  · have := hb (i - 1) (by omega)
    omega
  · change 11 < p; omega
  · change 5 < p; omega

end Libra.Props
