import Verif.Proofs.ZkRepairComplete
import Verif.Proofs.ZkAttack
import Verif.Proofs.ZkStricter
import Verif.Proofs.Attack
import Verif.Proofs.ZkSoundBound
import Verif.Spec.OtherInputs

/-!
# A prover that chooses the mask of layer 1 after it has seen the point

If the masks of the values are committed when their layer begins, and not before the run, a prover can prove
the output of the circuit on another input: down to layer 2 it is honest about the other input, and the mask of
layer 1 is chosen so that the two claims about the layer become true for the committed input.
-/

namespace Libra.Zk
open Libra Spec Finset Libra.FastTrack
variable {F : Type} {G1 G2 GT σ : Type}

/-- `B` if the flag is set, else `A` -/
def pick (A B : ProverApi σ F G1 G2) (b : Bool) : ProverApi σ F G1 G2 := if b then B else A

/-- Like `A`, but with the commitment of `B`; in layer 1 like `B`, which goes on with the state `sw` makes of
`A`'s. The state carries whether layer 1 is reached. -/
def switch (A B : ProverApi σ F G1 G2) (sw : σ → F → F → (ℕ → F) → (ℕ → F) → σ) :
    ProverApi (σ × Bool) F G1 G2 where
  start := (A.start, false)
  evaluate s := do
    let (p, result) ← A.evaluate s.1
    return ((p, s.2), result)
  keygenAndCommit s n := do
    let (p, d) ← B.keygenAndCommit s.1 n
    return ((p, s.2), d)
  vRes s := (pick A B s.2).vRes s.1
  sumcheckInit s layerId g u v a b r0 r1 omr0 omr1 := do
    let (p, d) ← (pick A B (layerId == 1)).sumcheckInit (if layerId = 1 then sw s.1 a b r0 r1 else s.1)
      layerId g u v a b r0 r1 omr0 omr1
    return ((p, layerId == 1), d)
  maskPreRho s len := do
    let (p, d) ← (pick A B s.2).maskPreRho s.1 len
    return ((p, s.2), d)
  setRho s rho := ((pick A B s.2).setRho s.1 rho, s.2)
  maskAfterRho s len := ((pick A B s.2).maskAfterRho s.1 len, s.2)
  sumc s := (pick A B s.2).sumc s.1
  phase1Init s := ((pick A B s.2).phase1Init s.1, s.2)
  phase1Update s x k := ((((pick A B s.2).phase1Update s.1 x k).1, s.2), ((pick A B s.2).phase1Update s.1 x k).2)
  phase1Last s x k := ((((pick A B s.2).phase1Last s.1 x k).1, s.2), ((pick A B s.2).phase1Last s.1 x k).2)
  phase2Init s x ru omru := do
    let p ← (pick A B s.2).phase2Init s.1 x ru omru
    return (p, s.2)
  phase2Update s x k := ((((pick A B s.2).phase2Update s.1 x k).1, s.2), ((pick A B s.2).phase2Update s.1 x k).2)
  phase2Last s x k := ((((pick A B s.2).phase2Last s.1 x k).1, s.2), ((pick A B s.2).phase2Last s.1 x k).2)
  vU s := (pick A B s.2).vU s.1
  finalize s x := ((((pick A B s.2).finalize s.1 x).1, s.2), ((pick A B s.2).finalize s.1 x).2)
  finalround s x k g := ((((pick A B s.2).finalround s.1 x k g).1, s.2), ((pick A B s.2).finalround s.1 x k g).2)
  prepreu1 s := (pick A B s.2).prepreu1 s.1
  preprev1 s := (pick A B s.2).preprev1 s.1
  proveR s r := do
    let (p, o) ← (pick A B s.2).proveR s.1 r
    return ((p, s.2), o)
  proveMask s r := do
    let (p, o) ← (pick A B s.2).proveMask s.1 r
    return ((p, s.2), o)
  Iuv s := (pick A B s.2).Iuv s.1
  preZu s := (pick A B s.2).preZu s.1
  preZv s := (pick A B s.2).preZv s.1
  Zu s := (pick A B s.2).Zu s.1
  proveInput s r Z := do
    let (p, o) ← (pick A B s.2).proveInput s.1 r Z
    return ((p, s.2), o)
  keyR s := (pick A B s.2).keyR s.1
  keyMask s := (pick A B s.2).keyMask s.1
  keyInput s := (pick A B s.2).keyInput s.1

/-- the commitments of a prover with a flag -/
def flagged (X : Committed σ F) : Committed (σ × Bool) F := ⟨fun i s => X.R i s.1, X.inputMask, fun s => X.mask s.1⟩

/-- the verifier's state with the flag added to the prover's -/
def withFlag (b : Bool) (s : VState σ F) : VState (σ × Bool) F :=
  ⟨(s.prover, b), s.alpha, s.beta, s.sum, s.r0, s.r1, s.omr0, s.omr1, s.tables⟩

variable [CommRing F] [DecidableEq F]

theorem switch_round1 (A B : ProverApi σ F G1 G2) (sw) (b : Bool) (n : ℕ) (ru : ℕ → F) (j : ℕ) (s : σ × F × F) :
    round1 (switch A B sw) n ru j ((s.1, b), s.2) =
      round1 (pick A B b) n ru j s >>= fun s => .ok ((s.1, b), s.2) := by
  unfold round1
  split_ifs
  · change (Outcome.check _ >>= _) = (Outcome.check _ >>= _) >>= _
    rw [bind_assoc']; rfl
  · change (Outcome.check _ >>= _) = (Outcome.check _ >>= _) >>= _
    rw [bind_assoc']; rfl

theorem switch_round2 (A B : ProverApi σ F G1 G2) (sw) (b : Bool) (n : ℕ) (rv : ℕ → F) (relay vu : F) (j : ℕ)
    (s : σ × F × F) :
    round2Fixed (switch A B sw) n rv relay vu j ((s.1, b), s.2) =
      round2Fixed (pick A B b) n rv relay vu j s >>= fun s => .ok ((s.1, b), s.2) := by
  unfold round2Fixed
  refine sim_step (fun q : σ × F × F => ((q.1, b), q.2)) ?_ fun q => ?_
  · unfold round2
    dsimp only
    split_ifs
    all_goals (rw [bind_assoc']; rfl)
  · refine sim_step id (bind_id' _) fun _ => ?_
    rfl

variable [AddCommGroup G1] [AddCommGroup G2] [AddCommGroup GT]
  [Module (ZMod Spec.p) G1] [Module (ZMod Spec.p) G2] [Module (ZMod Spec.p) GT] [Gmp F] [DecidableEq GT]

theorem switch_layer (E : Pairing G1 G2 GT) (C : Circuit) (A B : ProverApi σ F G1 G2) (sw) (X : Committed σ F)
    (ch : Challenges F) (i : ℕ) (b : Bool) (s : VState σ F) :
    layerStepFixed E C (switch A B sw) (flagged X) ch i (withFlag b s) =
      layerStepFixed E C (pick A B (i == 1)) X ch i
        { s with prover := if i = 1 then sw s.prover s.alpha s.beta s.r0 s.r1 else s.prover } >>= fun s' =>
        .ok (withFlag (i == 1) s') := by
  rw [layerStepFixed, layerStepFixed]
  refine sim_step (fun q : σ × (G1 × G1) => ((q.1, i == 1), q.2)) rfl fun ⟨P, DR⟩ => ?_
  generalize (i == 1) = f
  refine sim_step (fun q : σ × (G1 × G1) => ((q.1, f), q.2)) rfl fun ⟨P, DM⟩ => ?_
  dsimp only
  refine sim_step id (bind_id' _) fun _ => ?_
  refine sim_step (fun q : σ × F × F => ((q.1, f), q.2))
    (loopM_sim (fun q : σ × F × F => ((q.1, f), q.2)) (switch_round1 A B sw f _ _)
      ((pick A B f).phase1Init ((pick A B f).maskAfterRho ((pick A B f).setRho P (ch.rho i)) (C.bl (i - 1) * 2 + 1)),
        _, 0)) fun ⟨P, sum, prev⟩ => ?_
  refine sim_step (fun P : σ => (P, f)) rfl fun P => ?_
  refine sim_step (fun q : σ × F × F => ((q.1, f), q.2))
    (loopM_sim (fun q : σ × F × F => ((q.1, f), q.2)) (switch_round2 A B sw f _ _ _ _)
      (P, sum, 0)) fun ⟨P, sum, prev⟩ => ?_
  refine sim_step id (bind_id' _) fun _ => ?_
  refine sim_step id (bind_id' _) fun pv => ?_
  refine sim_step id (bind_id' _) fun _ => ?_
  refine sim_step id (bind_id' _) fun _ => ?_
  refine sim_step id (bind_id' _) fun _ => ?_
  refine sim_step (fun q : σ × VpdR.Opening G1 => ((q.1, f), q.2)) rfl fun ⟨P, o1⟩ => ?_
  refine sim_step id (bind_id' _) fun v1 => ?_
  refine sim_step id (bind_id' _) fun _ => ?_
  refine sim_step id (bind_id' _) fun _ => ?_
  refine sim_step (fun q : σ × VpdR.Opening G1 => ((q.1, f), q.2)) rfl fun ⟨P, o2⟩ => ?_
  refine sim_step id (bind_id' _) fun v2 => ?_
  refine sim_step id (bind_id' _) fun _ => ?_
  refine sim_step id (bind_id' _) fun _ => ?_
  refine sim_step (fun q : σ × VpdR.Opening G1 => ((q.1, f), q.2)) rfl fun ⟨P, o3⟩ => ?_
  refine sim_step id (bind_id' _) fun v3 => ?_
  refine sim_step id (bind_id' _) fun _ => ?_
  refine sim_step id (bind_id' _) fun _ => ?_
  refine sim_step id (bind_id' _) fun _ => ?_
  refine sim_step id (bind_id' _) fun _ => ?_
  refine sim_step id (bind_id' _) fun _ => ?_
  rfl

/-! ## the verifier does not see the input layer -/

theorem other_bl {C C' : Circuit} (h : OtherInputs C C') : C'.bl = C.bl := by
  funext i
  by_cases hi : i = 0
  · obtain ⟨g, hg⟩ := h.input
    subst hi; rw [Circuit.bl, hg, Circuit.bl]
  · rw [Circuit.bl, h.layer i hi, Circuit.bl]

theorem other_block {C C' : Circuit} (h : OtherInputs C C') (i : ℕ) :
    (C'.layer i).logBlockSize = (C.layer i).logBlockSize := by
  by_cases hi : i = 0
  · obtain ⟨g, hg⟩ := h.input
    subst hi; rw [hg]
  · rw [h.layer i hi]

theorem other_gate {C C' : Circuit} (h : OtherInputs C C') {i : ℕ} (hi : i ≠ 0) : C'.gate i = C.gate i := by
  funext g; rw [Circuit.gate, h.layer i hi, Circuit.gate]

theorem other_parallel {C C' : Circuit} (h : OtherInputs C C') (hp : ParallelOk C) : ParallelOk C' := by
  intro i h2 hd hi
  rw [h.layer i (by omega)] at hi
  rw [h.depth] at hd
  have hr := hp i h2 hd hi
  exact ⟨by rw [h.layer i (by omega)]; exact hr.1, by rw [h.layer i (by omega)]; exact hr.2,
    by rw [other_bl h, h.layer i (by omega)]; exact hr.3,
    by rw [other_bl h, other_block h, h.layer i (by omega)]; exact hr.4, by
      rw [other_block h (i - 1), h.layer i (by omega), other_gate h (by omega)]; exact hr.5⟩

theorem other_layer (E : Pairing G1 G2 GT) {C C' : Circuit} (h : OtherInputs C C') (A : ProverApi σ F G1 G2)
    (X : Committed σ F) (ch : Challenges F) {i : ℕ} (hi : i ≠ 0) (s : VState σ F) :
    layerStepFixed E C' A X ch i s = layerStepFixed E C A X ch i s := by
  simp only [layerStepFixed, maskFactor, predicates, betaInit, directRelay, other_bl h, h.depth, h.layer i hi,
    other_block h, other_gate h hi]

omit [CommRing F] [DecidableEq F] [Gmp F] in
theorem other_coins {C C' : Circuit} (h : OtherInputs C C') {coins : Coins F} (hco : CoinsOk C coins) :
    CoinsOk C' coins := by
  obtain ⟨h1, h2, h3, h4, h5⟩ := hco
  exact ⟨by rw [h.depth]; exact h1, by rw [h.depth, other_bl h]; exact h2, by rw [h.depth]; exact h3, h4,
    by rw [other_bl h]; exact h5⟩

/-! ## the attack -/

/-- What the prover in the code is committed to: the mask that `sumcheck_init` has just committed. -/
def lateCommitted (coins : Coins F) : Committed (Prover F G1 G2) F where
  R _ P := P.preR
  inputMask := coins.maskr
  mask P := fun j => (P.maskpolyGmp j : F)

end Libra.Zk

namespace Libra.Zk
open Libra Spec Finset Libra.FastTrack
variable {F : Type} [Field F] [DecidableEq F] {G1 G2 GT : Type} [AddCommGroup G1] [AddCommGroup G2] [AddCommGroup GT]
  [Module (ZMod Spec.p) G1] [Module (ZMod Spec.p) G2] [Module (ZMod Spec.p) GT] [Gmp F] [DecidableEq GT]

/-- The change of the constant coefficient of the mask of layer 1. -/
def shift (C C' : Circuit) (P : Prover F G1 G2) (a b : F) (r0 r1 : ℕ → F) : F :=
  (a * (mle (C.bl 1) (value C' 1) r0 - mle (C.bl 1) (value C 1) r0) +
    b * (mle (C.bl 1) (value C' 1) r1 - mle (C.bl 1) (value C 1) r1)) / (2 * (a * P.Zu + b * P.Zv))

/-- The prover goes on with the values of `C`, and with a mask that makes up for the difference. -/
def rebase (C C' : Circuit) (P : Prover F G1 G2) (a b : F) (r0 r1 : ℕ → F) : Prover F G1 G2 :=
  { P with base := { P.base with circuitValue := valueFn (allValues C C.depth) },
           maskR := Function.update P.maskR 0 (P.maskR 0 + shift C C' P a b r0 r1) }

/-- A prover with the commitment to the input of `C` and the output of `C'`. -/
def late (E : Pairing G1 G2 GT) (C C' : Circuit) (coins : Coins F) (junk : Prover F G1 G2) :
    ProverApi (Prover F G1 G2 × Bool) F G1 G2 :=
  switch (honest E C' coins junk) (honest E C coins junk) (rebase C C')

omit [DecidableEq F] [Gmp F] in
theorem sr_update (m : ℕ → F) (d x : F) : sr (Function.update m 0 (m 0 + d)) x = sr m x + 2 * d := by
  simp only [sr, maskRPoly, Function.update_self, Function.update_of_ne (show 1 ≠ 0 by decide),
    Function.update_of_ne (show 2 ≠ 0 by decide), Function.update_of_ne (show 3 ≠ 0 by decide),
    Function.update_of_ne (show 4 ≠ 0 by decide), Function.update_of_ne (show 5 ≠ 0 by decide)]
  ring

omit [DecidableEq F] [AddCommGroup G1] [AddCommGroup G2] [Module (ZMod p) G1] [Module (ZMod p) G2] [Gmp F] in
/-- the claims about layer 1 become true for the committed input -/
theorem rebase_inv {C C' : Circuit} (h : OtherInputs C C') (h2 : (2 : F) ≠ 0) {P0 : Prover F G1 G2}
    {s : VState (Prover F G1 G2) F} (hs : FixedInv C' P0 1 s)
    (hne : s.alpha * s.prover.Zu + s.beta * s.prover.Zv ≠ 0) :
    FixedInv C P0 1 { s with prover := rebase C C' s.prover s.alpha s.beta s.r0 s.r1 } := by
  have hb := other_bl h
  refine ⟨⟨fun j hj _ g hg => valueFn_allValues C hj hg, ?_, ?_, ?_, ⟨hs.frame.1, hs.frame.2, hs.frame.3, hs.frame.4, hs.frame.5, hs.frame.6⟩⟩, ?_, ?_, ?_, ?_⟩
  · rw [← hb]; exact hs.om0
  · rw [← hb]; exact hs.om1
  · rw [if_neg (by decide)]
    have := hs.sum
    rw [if_neg (by decide), hb] at this
    change s.sum = s.alpha * (_ + s.prover.Zu * sr (Function.update _ 0 (_ + _)) s.prover.preu1) +
      s.beta * (_ + s.prover.Zv * sr (Function.update _ 0 (_ + _)) s.prover.prev1)
    rw [this, sr_update, sr_update]
    have e : shift C C' s.prover s.alpha s.beta s.r0 s.r1 * (2 * (s.alpha * s.prover.Zu + s.beta * s.prover.Zv)) =
        s.alpha * (mle (C.bl 1) (value C' 1) s.r0 - mle (C.bl 1) (value C 1) s.r0) +
        s.beta * (mle (C.bl 1) (value C' 1) s.r1 - mle (C.bl 1) (value C 1) s.r1) :=
      div_mul_cancel₀ _ (mul_ne_zero h2 hne)
    linear_combination -e
  · intro _ hd; have := hs.preu1 (by decide) (by rw [h.depth]; exact hd); rw [hb] at this; exact this
  · intro _ hd; have := hs.prev1 (by decide) (by rw [h.depth]; exact hd); rw [hb] at this; exact this
  · have := hs.Zu; rw [maskFactor, hb, h.depth] at this; rw [maskFactor]; exact this
  · intro _; have := hs.Zv (by decide); rw [maskFactor, hb, h.depth] at this; rw [maskFactor]; exact this

variable [LawfulGmp F]

/-- the layers down to layer 2 -/
theorem late_upper (E : Pairing G1 G2 GT) {C C' : Circuit} (h : OtherInputs C C') (hwf' : WellFormed true C')
    (hpar : ParallelOk C) (hlen : ∀ i, i + 1 < C.depth → 1 ≤ C.bl i ∧ 2 * C.bl i + 1 < 2 ^ 250)
    {coins : Coins F} (hco : CoinsOk C coins) (junk : Prover F G1 G2) (ch : Challenges F)
    {i : ℕ} (h2 : 2 ≤ i) (hd : i < C.depth) {P0 : Prover F G1 G2} {s : VState (Prover F G1 G2) F}
    (hs : FixedInv C' P0 i s) (b : Bool) :
    ∃ s', layerStepFixed E C (late E C C' coins junk) (flagged (lateCommitted coins)) ch i (withFlag b s) =
        .ok (withFlag false s') ∧ FixedInv C' P0 (i - 1) s' := by
  have hb := other_bl h
  obtain ⟨s', e, hs', -⟩ := honest_layer_fixed (X := lateCommitted coins) E hwf' (other_parallel h hpar)
    (other_coins h hco) junk ch (show 1 ≤ i by omega) (by rw [h.depth]; exact hd)
    (by rw [hb]; exact (hlen (i - 1) (by omega)).1) (by rw [hb]; exact (hlen (i - 1) (by omega)).2) hs
    (fun _ => rfl) (fun _ h _ => h)
  refine ⟨s', ?_, hs'⟩
  rw [late, switch_layer, if_neg (by omega), show (i == 1) = false from beq_false_of_ne (by omega)]
  change layerStepFixed E C (honest E C' coins junk) (lateCommitted coins) ch i s >>= _ = _
  rw [← other_layer E h _ _ _ (by omega), e]
  rfl

omit [LawfulGmp F] in
theorem layerStepFixed_next {σ : Type} {E : Pairing G1 G2 GT} {C : Circuit} {A : ProverApi σ F G1 G2} {X : Committed σ F}
    {ch : Challenges F} {i : ℕ} {s s' : VState σ F} (h : layerStepFixed E C A X ch i s = .ok s') :
    s'.alpha = ch.alpha i ∧ s'.beta = ch.beta i ∧ s'.r0 = ch.ru i ∧ s'.r1 = ch.rv i := by
  unfold layerStepFixed at h
  obtain ⟨_, -, h⟩ := Outcome.bind_eq_ok' h
  obtain ⟨_, -, h⟩ := Outcome.bind_eq_ok' h
  replace h := skip_check h
  obtain ⟨_, -, h⟩ := Outcome.bind_eq_ok' h
  obtain ⟨_, -, h⟩ := Outcome.bind_eq_ok' h
  obtain ⟨_, -, h⟩ := Outcome.bind_eq_ok' h
  replace h := skip_check h
  obtain ⟨_, -, h⟩ := Outcome.bind_eq_ok' h
  replace h := skip_check (skip_check (skip_check h))
  obtain ⟨_, -, h⟩ := Outcome.bind_eq_ok' h
  obtain ⟨_, -, h⟩ := Outcome.bind_eq_ok' h
  replace h := skip_check (skip_check h)
  obtain ⟨_, -, h⟩ := Outcome.bind_eq_ok' h
  obtain ⟨_, -, h⟩ := Outcome.bind_eq_ok' h
  replace h := skip_check (skip_check h)
  obtain ⟨_, -, h⟩ := Outcome.bind_eq_ok' h
  obtain ⟨_, -, h⟩ := Outcome.bind_eq_ok' h
  replace h := skip_check (skip_check (skip_check (skip_check (skip_check h))))
  cases h
  exact ⟨rfl, rfl, rfl, rfl⟩

/-- the other output is accepted -/
theorem late_accepted (E : Pairing G1 G2 GT) {C C' : Circuit} (h : OtherInputs C C') (h2 : (2 : F) ≠ 0)
    (hwf : WellFormed true C) (hwf' : WellFormed true C') (hd : 3 ≤ C.depth)
    (hpar : ParallelOk C) (hlen : ∀ i, i + 1 < C.depth → 1 ≤ C.bl i ∧ 2 * C.bl i + 1 < 2 ^ 250)
    {coins : Coins F} (hco : CoinsOk C coins) (junk : Prover F G1 G2) (tables : VTables F) (ch : Challenges F)
    (hch : ch.alpha 2 * maskFactor C 1 (ch.ru 2) + ch.beta 2 * maskFactor C 1 (ch.rv 2) ≠ 0) :
    verifyFixed E C (late E C C' coins junk) (flagged (lateCommitted coins)) tables ch = .ok () := by
  have hb := other_bl h
  have hev' := evaluate_ok (F := F) (var := .zk) (C := C') (by simpa using hwf'.toEvaluable)
  obtain ⟨P1, hP1⟩ : ∃ P1 : Prover F G1 G2, P1 = { junk.fresh with
      base := { junk.base with circuitValue := valueFn (allValues C' C'.depth) } } := ⟨_, rfl⟩
  obtain ⟨P2, D, e2, hb2, hZu, hZv, hmr, hfinish⟩ := finish E hwf.toEvaluable (hlen 0 (by omega)).1
    (hlen 0 (by omega)).2 hco P1
  have e1 : (late E C C' coins junk).evaluate (late E C C' coins junk).start =
      .ok ((P1, false), valueFn (allValues C' C'.depth) (C'.depth - 1)) := by
    simp only [late, switch, honest, hev', Outcome.ok_bind, Outcome.pure_eq, hP1]
    rfl
  have e2 : (late E C C' coins junk).keygenAndCommit (P1, false) (C.bl 0) = .ok ((P2, false), D) := by
    simp only [late, switch, honest, e2, Outcome.ok_bind, Outcome.pure_eq]
  rw [verifyFixed, e1, Outcome.ok_bind]
  dsimp only
  rw [e2, Outcome.ok_bind]
  dsimp only
  have hstart := start_inv (C := C') (by rw [h.depth]; omega) (P2 := P2) (by rw [hb2, hP1]) (by rw [hZu, hP1]; rfl)
    (by rw [hZv, hP1]; rfl) tables ch
  rw [hb, h.depth] at hstart
  rw [h.depth]
  obtain ⟨s0, hs0⟩ : ∃ s0 : VState (Prover F G1 G2) F, s0 = ⟨P2, 1, 0, 1 * foldOutput (oneMinus ch.r0) ch.r0
      (valueFn (allValues C' C.depth) (C.depth - 1)) (C.bl (C.depth - 1)) (2 ^ C.bl (C.depth - 1)),
      ch.r0, ch.r1, oneMinus ch.r0, oneMinus ch.r1, tables⟩ := ⟨_, rfl⟩
  rw [← hs0] at hstart
  rw [show (⟨(P2, false), 1, 0, 1 * foldOutput (oneMinus ch.r0) ch.r0
      (valueFn (allValues C' C.depth) (C.depth - 1)) (C.bl (C.depth - 1)) (2 ^ C.bl (C.depth - 1)),
      ch.r0, ch.r1, oneMinus ch.r0, oneMinus ch.r1, tables⟩ : VState (Prover F G1 G2 × Bool) F) = withFlag false s0 by
    rw [hs0]; rfl]
  have hloop : ∃ s', loopDownM (C.depth - 1) (layerStepFixed E C (late E C C' coins junk)
      (flagged (lateCommitted coins)) ch) (withFlag false s0) = .ok (withFlag true s') ∧ FixedInv C P2 0 s' := by
    rw [loopDownM_split (by omega)]
    obtain ⟨_, e, s1, rfl, hs1, hs1'⟩ := loopDownM_ok (n := C.depth - 1 - 1)
      (b := fun k => layerStepFixed E C (late E C C' coins junk) (flagged (lateCommitted coins)) ch (k + 1))
      (s := withFlag false s0)
      (fun i t => ∃ s, t = withFlag false s ∧ FixedInv C' P2 (i + 1) s ∧ (i + 1 ≠ C.depth - 1 → s.alpha = ch.alpha (i + 2) ∧
        s.beta = ch.beta (i + 2) ∧ s.r0 = ch.ru (i + 2) ∧ s.r1 = ch.rv (i + 2)))
      ⟨s0, rfl, by rw [show C.depth - 1 - 1 + 1 = C.depth - 1 by omega]; exact hstart, fun h => absurd (by omega) h⟩
      (fun i hi hn t ht => by
        obtain ⟨s, rfl, hs, -⟩ := ht
        obtain ⟨s', e, hs'⟩ := late_upper E h hwf' hpar hlen hco junk ch (show 2 ≤ i + 1 by omega) (by omega) hs false
        have hnext := layerStepFixed_next e
        refine ⟨_, e, s', rfl, ?_, fun _ => ?_⟩
        · rw [show i - 1 + 1 = i + 1 - 1 by omega]; exact hs'
        · rw [show i - 1 + 2 = i + 1 by omega]; exact hnext)
    rw [e]
    obtain ⟨ea, eb, er0, er1⟩ := hs1' (by omega)
    have hne : s1.alpha * s1.prover.Zu + s1.beta * s1.prover.Zv ≠ 0 := by
      rw [hs1.Zu, hs1.Zv (by decide), ea, eb, er0, er1, maskFactor, maskFactor, hb, h.depth]
      exact hch
    obtain ⟨s', e', hs', -⟩ := honest_layer_fixed (X := lateCommitted coins) E hwf hpar hco junk ch (le_refl 1) (by omega)
      (hlen 0 (by omega)).1 (hlen 0 (by omega)).2 (rebase_inv h h2 hs1 hne) (fun _ => rfl) (fun _ h _ => h)
    refine ⟨s', ?_, hs'⟩
    change layerStepFixed E C (late E C C' coins junk) (flagged (lateCommitted coins)) ch 1 (withFlag false s1) = _
    rw [late, switch_layer, if_pos rfl]
    change layerStepFixed E C (honest E C coins junk) (lateCommitted coins) ch 1 _ >>= _ = _
    rw [e']
    rfl
  obtain ⟨s', e, hs'⟩ := hloop
  rw [e, Outcome.ok_bind]
  obtain ⟨O, e3, hO, hval⟩ := hfinish s' hs'.toLayerInv
  change (((s'.prover.proveInput coins (fun j => Gmp.toMpz (s'.r0 j)) (Gmp.toMpz s'.prover.Zu) >>=
    fun o => Outcome.ok (s'.prover, o)) >>= fun q => Outcome.ok ((q.1, true), q.2)) >>= _) = _
  rw [e3, Outcome.ok_bind, Outcome.ok_bind, Outcome.ok_bind]
  change (InputVpd.verify E s'.prover.keyInput (C.bl 0) (fun j => Gmp.toMpz (s'.r0 j)) D.digest D.digest2
    (Gmp.toMpz s'.prover.Zu) O.ans O.witness O.witnessa >>= _) = _
  rw [hO, Outcome.ok_bind, Outcome.check_true, Outcome.ok_bind]
  have hval2 : (O.ans : F) = mle (C.bl 0) (value C 0) s'.r0 + (∏ j ∈ range (C.bl 0), (1 - s'.r0 j) * s'.r0 j) *
      (coins.maskr 0 + coins.maskr 1 * s'.r0 (C.bl 0 - 1)) := by
    rw [← hval, hs'.sum, if_pos rfl, hs'.Zu, hmr, maskFactor, if_neg (by omega)]
  change (Outcome.check ((O.ans : F) == mle (C.bl 0) (value C 0) s'.r0 + (∏ j ∈ range (C.bl 0), (1 - s'.r0 j) * s'.r0 j) *
      (coins.maskr 0 + coins.maskr 1 * s'.r0 (C.bl 0 - 1))) >>= fun _ => Outcome.check (s'.sum == (O.ans : F))) = _
  rw [← hval2, beq_self_eq_true, Outcome.check_true, Outcome.ok_bind, hval, beq_self_eq_true, Outcome.check_true]

end Libra.Zk

namespace Libra.Zk
open Libra Spec Finset Libra.FastTrack Counting
variable {F : Type} [Field F] [DecidableEq F] [Fintype F]

/-- the events that spoil the attack: a coordinate of the first point is 0 or 1, or the combination is zero -/
def Spoiled (C : Circuit) : Option (Fin (C.bl 1)) → (ZkCoin C → F) → Prop
  | some j, ω => (zkChallenges C ω).ru 2 j = 0 ∨ (zkChallenges C ω).ru 2 j = 1
  | none, ω => maskFactor C 1 ((zkChallenges C ω).ru 2) ≠ 0 ∧
      (zkChallenges C ω).alpha 2 * maskFactor C 1 ((zkChallenges C ω).ru 2) +
        (zkChallenges C ω).beta 2 * maskFactor C 1 ((zkChallenges C ω).rv 2) = 0

/-- for how many challenges the attack can fail -/
theorem late_count (C : Circuit) (hd : 3 ≤ C.depth) :
    (univ.filter (fun ω : ZkCoin C → F => (zkChallenges C ω).alpha 2 * maskFactor C 1 ((zkChallenges C ω).ru 2) +
        (zkChallenges C ω).beta 2 * maskFactor C 1 ((zkChallenges C ω).rv 2) = 0)).card * Fintype.card F ≤
      (2 * C.bl 1 + 1) * Fintype.card (ZkCoin C → F) := by
  have hsum : ∑ k : Option (Fin (C.bl 1)), (if k = none then 1 else 2) = 2 * C.bl 1 + 1 := by
    rw [Fintype.sum_option]; simp; ring
  rw [← hsum]
  refine card_union univ (Spoiled C)
    (fun k => match k with
      | some j => .inl (.ru ⟨2, by omega⟩ j)
      | none => .inl (.alpha ⟨2, by omega⟩)) _ (fun k _ => ?_) _ (fun ω h => ?_)
  · match k with
    | some j =>
      intro ω
      refine ⟨{0, 1}, (card_le_two).trans (by simp), fun x hx => ?_⟩
      have e : (zkChallenges C (Function.update ω (.inl (.ru ⟨2, by omega⟩ j)) x)).ru 2 j = x := by
        simp only [zkChallenges, challenges]
        rw [dif_pos (show 2 < C.depth by omega), dif_pos (show (j : ℕ) < C.bl (2 - 1) from j.2)]
        exact Function.update_self _ _ _
      simp only [Spoiled, e] at hx
      simpa using hx
    | none =>
      intro ω
      set c : ZkCoin C := .inl (.alpha ⟨2, by omega⟩) with hc
      set ch0 := zkChallenges C (Function.update ω c 0) with hch0
      refine ⟨{-(ch0.beta 2 * maskFactor C 1 (ch0.rv 2)) / maskFactor C 1 (ch0.ru 2)}, by simp, fun x hx => ?_⟩
      obtain ⟨-, -, hru, hrv, -, hbeta, -, -⟩ := zkChallenges_update (F := F) ω c x 0
      have e1 : (zkChallenges C (Function.update ω c x)).ru 2 = ch0.ru 2 := funext fun j => hru 2 j (by simp [hc, Coin.alpha, Coin.ru])
      have e2 : (zkChallenges C (Function.update ω c x)).rv 2 = ch0.rv 2 := funext fun j => hrv 2 j (by simp [hc, Coin.alpha, Coin.rv])
      have e3 : (zkChallenges C (Function.update ω c x)).beta 2 = ch0.beta 2 := hbeta 2 (by simp [hc, Coin.alpha, Coin.beta])
      have e4 : (zkChallenges C (Function.update ω c x)).alpha 2 = x := by
        simp only [zkChallenges, challenges]
        rw [dif_pos (show 2 < C.depth by omega)]
        exact Function.update_self _ _ _
      change _ ∧ _ = _ at hx
      rw [e1, e2, e3, e4] at hx
      rw [mem_singleton, eq_div_iff hx.1]
      linear_combination hx.2
  · by_contra hno
    push Not at hno
    refine hno none (mem_univ _) ⟨?_, h⟩
    rw [maskFactor, if_neg (by omega), prod_ne_zero_iff]
    intro j hj
    have := hno (some ⟨j, mem_range.1 hj⟩) (mem_univ _)
    simp only [Spoiled, not_or] at this
    exact mul_ne_zero (sub_ne_zero.2 (Ne.symm this.2)) this.1

end Libra.Zk
