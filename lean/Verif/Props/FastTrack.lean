import Verif.Proofs.Splice
import Verif.Props.Examples
import Verif.Model.Fp

/-!
# C19-C21: the plain protocol with the honest prover
-/

namespace Libra.Props
open Libra Spec Finset FastTrack
variable {F : Type} [CommRing F] [DecidableEq F]

/-! ## C19 completeness -/

/-- `verify()` returns true: for every well-formed circuit, every content of the uninitialised
members and tables, and every sequence of challenges. -/
theorem C19_complete (C : Circuit) (hwf : WellFormed false C) (junk : Prover F)
    (tables : BetaTables F) (ch : Challenges F) :
    verify C (honest C junk) tables ch = .ok () :=
  complete hwf false junk tables ch

example : WellFormed false exampleCircuit := exampleCircuit_wf

/-- the theorem applies to the code's field -/
example (junk : Prover Fp) (tables : BetaTables Fp) (ch : Challenges Fp) :
    verify exampleCircuit (honest exampleCircuit junk) tables ch = .ok () :=
  C19_complete exampleCircuit exampleCircuit_wf junk tables ch

/-! ## C20 honest round polynomials -/

/-- the prover after `evaluate()` and `sumcheck_init` -/
def initialised (C : Circuit) (junk : Prover F) (vals : List (List F)) (i : ℕ) (α β : F)
    (r0 r1 : ℕ → F) : Prover F :=
  Prover.sumcheckInit { junk with circuitValue := valueFn vals } i (C.bl i) (C.bl (i - 1))
    (C.bl (i - 1)) α β r0 r1 (fun j => 1 - r0 j) (fun j => 1 - r1 j)

omit [DecidableEq F] in
theorem initialised_ready {C : Circuit} (hwf : WellFormed false C) (junk : Prover F)
    {vals : List (List F)} (hv : evaluate .fastTrack C = .ok vals) (i : ℕ) (α β : F)
    (r0 r1 : ℕ → F) : Ready C i (initialised C junk vals i α β r0 r1) := by
  have hev := evaluate_ok (F := F) (var := .fastTrack) (C := C) (by simpa using hwf.toEvaluable)
  rw [hev] at hv
  cases hv
  exact ⟨fun j hj _ g hg => valueFn_allValues C hj hg, rfl, rfl, rfl, fun _ _ => rfl, fun _ _ => rfl⟩

omit [DecidableEq F] in
/-- Phase 1, round `k`: the message at `x` is the sum over the remaining variables of the first
operand and all variables of the second. -/
theorem C20_phase1 (C : Circuit) (hwf : WellFormed false C) (junk : Prover F)
    (vals : List (List F)) (hv : evaluate .fastTrack C = .ok vals) (i : ℕ) (hi : 1 ≤ i)
    (hd : i < C.depth) (α β : F) (r0 r1 ru : ℕ → F) (k : ℕ) (hk : k < C.bl (i - 1)) (x : F) :
    (roundMsg ((initialised C junk vals i α β r0 r1).phase1Init .fastTrack C) ru k).eval x =
      ∑ b ∈ range (2 ^ (C.bl (i - 1) - (k + 1))),
        (∑ y ∈ range (2 ^ C.bl (i - 1)),
          layerPoly C i α β r0 r1 (value C (i - 1)) (splice ru k x b) (corner y) +
        relayPoly C i α β r0 r1 (value C (i - 1)) (splice ru k x b)) := by
  have hl := layerOk hwf hi hd
  have hr := initialised_ready hwf junk hv i α β r0 r1
  obtain ⟨h1, h2, _⟩ := phase1_ready (var := .fastTrack) hr hl
  have h2' : ∀ k < 2 ^ C.bl (i - 1), (((initialised C junk vals i α β r0 r1).phase1Init .fastTrack C).tabs.vMultAdd
      k).b = value C (i - 1) k := fun k hk => by rw [h2 k hk, hr.val (i - 1) (by omega) (by omega) k hk]
  rw [roundMsg_eval h1 h2' ru hk, polyAt_splice hk]
  refine sum_congr rfl (fun b _ => ?_)
  rw [phase1_final (var := .fastTrack) hr hl]
  set z := splice ru k x b
  have e1 : halfSum C i (comb (C.bl i) α β r0 r1) (eqPoly (C.bl (i - 1)) z)
      (mle (C.bl (i - 1)) (value C (i - 1)) z)
      ((initialised C junk vals i α β r0 r1).circuitValue (i - 1)) =
      ∑ y ∈ range (2 ^ C.bl (i - 1)), layerPoly C i α β r0 r1 (value C (i - 1)) z (corner y) := by
    rw [← halfSum_eq_sum hl]
    refine sum_congr rfl (fun g hg => ?_)
    rw [gateHalf_congr (hl.gates g (mem_range.1 hg)) (fun _ _ => rfl)
      (hr.val (i - 1) (by omega) (by omega))]
  change halfSum C i (comb (C.bl i) α β r0 r1) _ _ _ + relayCoef C i (comb (C.bl i) α β r0 r1) _ * _ = _
  rw [e1]
  congr 1
  unfold relayCoef relayPoly
  by_cases h : i = 1
  · subst h; rfl
  · rw [if_neg h, if_neg h, zero_mul]

omit [DecidableEq F] in
/-- Phase 2, round `k`, after a phase 1 with the challenges `ru`: the message at `x` is the sum over
the remaining variables of the second operand, with the first operand at `ru`. -/
theorem C20_phase2 (C : Circuit) (hwf : WellFormed false C) (junk : Prover F)
    (vals : List (List F)) (hv : evaluate .fastTrack C = .ok vals) (i : ℕ) (hi : 1 ≤ i)
    (hd : i < C.depth) (α β : F) (r0 r1 ru rv : ℕ → F) :
    ∃ Q, (roundState ((initialised C junk vals i α β r0 r1).phase1Init .fastTrack C) ru
        (C.bl (i - 1))).phase2Init C (prevOf ru (C.bl (i - 1))) ru (fun j => 1 - ru j) = .ok Q ∧
      ∀ k < C.bl (i - 1), ∀ x, (roundMsg Q rv k).eval x =
        ∑ b ∈ range (2 ^ (C.bl (i - 1) - (k + 1))),
          layerPoly C i α β r0 r1 (value C (i - 1)) ru (splice rv k x b) := by
  have hl := layerOk hwf hi hd
  have hr := initialised_ready hwf junk hv i α β r0 r1
  obtain ⟨h1, h2, hw, _⟩ := phase1_ready (var := .fastTrack) hr hl
  have h2' : ∀ k < 2 ^ C.bl (i - 1), (((initialised C junk vals i α β r0 r1).phase1Init .fastTrack C).tabs.vMultAdd
      k).b = value C (i - 1) k := fun k hk => by rw [h2 k hk, hr.val (i - 1) (by omega) (by omega) k hk]
  have he := roundState_eq h1 h2' ru (le_refl _)
  have hvu := roundState_vV h1 h2' ru
  set P2 := roundState ((initialised C junk vals i α β r0 r1).phase1Init .fastTrack C) ru (C.bl (i - 1))
  obtain ⟨Q, hQ, hQe, hV3, tmpU, hU, hphi, _⟩ := phase2_ready (P := P2) hl (by rw [he]; rfl)
    (by rw [he]; rfl) (prevOf ru (C.bl (i - 1))) ru (fun j => 1 - ru j) (fun _ _ => rfl)
  refine ⟨Q, hQ, fun k hk x => ?_⟩
  have htg : P2.tmpG = ((initialised C junk vals i α β r0 r1).phase1Init .fastTrack C).tmpG := by rw [he]; rfl
  have hcv : P2.circuitValue = (initialised C junk vals i α β r0 r1).circuitValue := by rw [he]; rfl
  rw [htg] at hphi
  have hV3' : ∀ k < 2 ^ C.bl (i - 1), (Q.tabs.vMultAdd k).b = value C (i - 1) k := fun k hk => by
    rw [hV3 k hk, hcv, hr.val (i - 1) (by omega) (by omega) k hk]
  have hu : Q.vU = mle (C.bl (i - 1)) (value C (i - 1)) ru := by rw [hQe]; exact hvu
  rw [roundMsg_eval (by rw [hQe]) hV3' rv hk, polyAt_splice hk]
  refine sum_congr rfl (fun b _ => ?_)
  rw [phase2_final hl hw hU hphi, hu]
  rfl

omit [DecidableEq F] in
/-- The messages are consistent: `p_0(0) + p_0(1)` is the claim about the layer, and
`p_{k+1}(0) + p_{k+1}(1) = p_k(r_k)`. -/
theorem C20_claims (C : Circuit) (hwf : WellFormed false C) (junk : Prover F)
    (vals : List (List F)) (hv : evaluate .fastTrack C = .ok vals) (i : ℕ) (hi : 1 ≤ i)
    (hd : i < C.depth) (α β : F) (r0 r1 ru : ℕ → F) :
    let msg := roundMsg ((initialised C junk vals i α β r0 r1).phase1Init .fastTrack C) ru
    (0 < C.bl (i - 1) → (msg 0).eval 0 + (msg 0).eval 1 =
      α * mle (C.bl i) (value C i) r0 + β * mle (C.bl i) (value C i) r1) ∧
    ∀ k, k + 1 < C.bl (i - 1) → (msg (k + 1)).eval 0 + (msg (k + 1)).eval 1 = (msg k).eval (ru k) := by
  intro msg
  have hl := layerOk hwf hi hd
  have hr := initialised_ready hwf junk hv i α β r0 r1
  obtain ⟨h1, h2, _⟩ := phase1_ready (var := .fastTrack) hr hl
  have he := fun k hk x => roundMsg_eval h1 h2 ru (k := k) hk x
  refine ⟨fun h => ?_, fun k hk => ?_⟩
  · rw [he 0 h, he 0 h, polyAt_sum h, claimAt_zero]
    exact phase1_start hi hr hd hl
  · rw [he _ hk, he _ hk, he k (by omega), polyAt_sum hk, polyAt_next]

/-! ## C21 final claims are evaluations of the previous layer -/

omit [DecidableEq F] in
theorem C21_final_claims (C : Circuit) (hwf : WellFormed false C) (junk : Prover F)
    (vals : List (List F)) (hv : evaluate .fastTrack C = .ok vals) (i : ℕ) (hi : 1 ≤ i)
    (hd : i < C.depth) (α β : F) (r0 r1 ru rv : ℕ → F) :
    ∃ Q, (roundState ((initialised C junk vals i α β r0 r1).phase1Init .fastTrack C) ru
        (C.bl (i - 1))).phase2Init C (prevOf ru (C.bl (i - 1))) ru (fun j => 1 - ru j) = .ok Q ∧
      ((roundState Q rv (C.bl (i - 1))).finalize (prevOf rv (C.bl (i - 1)))).2 =
        (mle (C.bl (i - 1)) (value C (i - 1)) ru, mle (C.bl (i - 1)) (value C (i - 1)) rv) := by
  have hl := layerOk hwf hi hd
  have hr := initialised_ready hwf junk hv i α β r0 r1
  obtain ⟨h1, h2, hw, _⟩ := phase1_ready (var := .fastTrack) hr hl
  have h2' : ∀ k < 2 ^ C.bl (i - 1), (((initialised C junk vals i α β r0 r1).phase1Init .fastTrack C).tabs.vMultAdd
      k).b = value C (i - 1) k := fun k hk => by rw [h2 k hk, hr.val (i - 1) (by omega) (by omega) k hk]
  have he := roundState_eq h1 h2' ru (le_refl _)
  have hvu := roundState_vV h1 h2' ru
  set P2 := roundState ((initialised C junk vals i α β r0 r1).phase1Init .fastTrack C) ru (C.bl (i - 1))
  obtain ⟨Q, hQ, hQe, hV3, _⟩ := phase2_ready (P := P2) hl (by rw [he]; rfl)
    (by rw [he]; rfl) (prevOf ru (C.bl (i - 1))) ru (fun j => 1 - ru j) (fun _ _ => rfl)
  refine ⟨Q, hQ, ?_⟩
  have hcv : P2.circuitValue = (initialised C junk vals i α β r0 r1).circuitValue := by rw [he]; rfl
  have hV3' : ∀ k < 2 ^ C.bl (i - 1), (Q.tabs.vMultAdd k).b = value C (i - 1) k := fun k hk => by
    rw [hV3 k hk, hcv, hr.val (i - 1) (by omega) (by omega) k hk]
  have ht : Q.totalUv = 2 ^ C.bl (i - 1) := by rw [hQe]
  have hq := roundState_eq ht hV3' rv (le_refl _)
  rw [Prover.finalize]
  dsimp only
  rw [roundState_vV ht hV3' rv, hq]
  dsimp only
  rw [hQe, hvu]

/-- the hypotheses of C20 and C21 are met: `evaluate` succeeds on the example and layer 2 has two
rounds per phase -/
example : (∃ vals : List (List Fp), evaluate .fastTrack exampleCircuit = .ok vals) ∧
    2 < exampleCircuit.depth ∧ exampleCircuit.bl 1 = 2 :=
  ⟨⟨_, evaluate_ok (by simpa using exampleCircuit_wf.toEvaluable)⟩, by decide, by decide⟩

end Libra.Props
