import Verif.Model.ZkVerifier
import Verif.Proofs.Outcome
import Mathlib.Tactic.Ring
import Mathlib.Tactic.Set

/-!
# Turning an accepted zk prover into an accepted prover for any other output
-/

namespace Libra.Zk
open FastTrack
variable {F : Type} [CommRing F] {G1 G2 GT σ : Type}

/-- Like `A`, but the output is claimed to be `w`. The value of the claimed output at the random
point is computed correctly from `w`; the difference to the value `A` would have claimed is hidden
in the announced sum of the mask of the last layer. The state carries the output of `A` and the
difference. -/
def reclaim (A : ProverApi σ F G1 G2) (C : Circuit) (w : ℕ → F) :
    ProverApi (σ × (ℕ → F) × F) F G1 G2 where
  start := (A.start, fun _ => 0, 0)
  evaluate s := do
    let (p, result) ← A.evaluate s.1
    return ((p, result, 0), w)
  keygenAndCommit s n := do
    let (p, d) ← A.keygenAndCommit s.1 n
    return ((p, s.2), d)
  vRes _ omr r result rSize outputSize := foldOutput omr r result rSize outputSize
  sumcheckInit s layerId g u v a b r0 r1 omr0 omr1 := do
    let (p, d) ← A.sumcheckInit s.1 layerId g u v a b r0 r1 omr0 omr1
    return ((p, s.2.1, if layerId = C.depth - 1 then
      A.vRes s.1 omr0 r0 s.2.1 g (2 ^ g) - foldOutput omr0 r0 w g (2 ^ g) else 0), d)
  maskPreRho s len := do
    let (p, d) ← A.maskPreRho s.1 len
    return ((p, s.2), d)
  setRho s rho := (A.setRho s.1 rho, s.2)
  maskAfterRho s len := (A.maskAfterRho s.1 len, s.2)
  sumc s := A.sumc s.1 + s.2.2
  phase1Init s := (A.phase1Init s.1, s.2)
  phase1Update s x k := (((A.phase1Update s.1 x k).1, s.2), (A.phase1Update s.1 x k).2)
  phase1Last s x k := (((A.phase1Last s.1 x k).1, s.2), (A.phase1Last s.1 x k).2)
  phase2Init s x ru omru := do
    let p ← A.phase2Init s.1 x ru omru
    return (p, s.2)
  phase2Update s x k := (((A.phase2Update s.1 x k).1, s.2), (A.phase2Update s.1 x k).2)
  phase2Last s x k := (((A.phase2Last s.1 x k).1, s.2), (A.phase2Last s.1 x k).2)
  vU s := A.vU s.1
  finalize s x := (((A.finalize s.1 x).1, s.2), (A.finalize s.1 x).2)
  finalround s x k g := (((A.finalround s.1 x k g).1, s.2), (A.finalround s.1 x k g).2)
  prepreu1 s := A.prepreu1 s.1
  preprev1 s := A.preprev1 s.1
  proveR s r := do
    let (p, o) ← A.proveR s.1 r
    return ((p, s.2), o)
  proveMask s r := do
    let (p, o) ← A.proveMask s.1 r
    return ((p, s.2), o)
  Iuv s := A.Iuv s.1
  preZu s := A.preZu s.1
  preZv s := A.preZv s.1
  Zu s := A.Zu s.1
  proveInput s r Z := do
    let (p, o) ← A.proveInput s.1 r Z
    return ((p, s.2), o)
  keyR s := A.keyR s.1
  keyMask s := A.keyMask s.1
  keyInput s := A.keyInput s.1

theorem bind_assoc' {α β γ : Type _} (x : Outcome α) (f : α → Outcome β) (g : β → Outcome γ) :
    (x >>= f) >>= g = x >>= fun a => f a >>= g := by cases x <;> rfl

theorem bind_congr' {α β : Type _} (x : Outcome α) {f g : α → Outcome β} (h : ∀ a, f a = g a) :
    (x >>= f) = x >>= g := by rw [funext h]

theorem bind_id' {α : Type _} (x : Outcome α) : x = x >>= fun a => Outcome.ok (id a) := by cases x <;> rfl

theorem sim_step {α α' β β' : Type _} {X : Outcome α} {X' : Outcome α'} {K : α → Outcome β} {K' : α' → Outcome β'}
    {ψ : β → Outcome β'} (φ : α → α') (hX : X' = X >>= fun a => Outcome.ok (φ a)) (h : ∀ a, K' (φ a) = K a >>= ψ) :
    (X' >>= K') = (X >>= K) >>= ψ := by
  rw [hX, bind_assoc', bind_assoc']
  exact bind_congr' _ h

/-- a loop whose state carries a passive component -/
theorem loopM_sim {α β : Type} (φ : α → β) {n : ℕ} {b : ℕ → α → Outcome α} {b' : ℕ → β → Outcome β}
    (h : ∀ j s, b' j (φ s) = b j s >>= fun s => .ok (φ s)) (s : α) :
    loopM n b' (φ s) = loopM n b s >>= fun s => .ok (φ s) := by
  induction n with
  | zero => rfl
  | succ n ih =>
    rw [loopM_succ, loopM_succ, ih]
    change ((loopM n b s >>= _) >>= _) = ((loopM n b s >>= b n) >>= _)
    rw [bind_assoc', bind_assoc']
    exact bind_congr' _ (fun s => h n s)

variable [DecidableEq F]

theorem round1_sim (A : ProverApi σ F G1 G2) (C : Circuit) (w : ℕ → F) (n : ℕ) (ru : ℕ → F)
    (m : (ℕ → F) × F) (j : ℕ) (s : σ × F × F) :
    round1 (reclaim A C w) n ru j ((s.1, m), s.2) =
      round1 A n ru j s >>= fun s => .ok ((s.1, m), s.2) := by
  unfold round1
  split_ifs
  · change (Outcome.check _ >>= _) = (Outcome.check _ >>= _) >>= _
    rw [bind_assoc']; rfl
  · change (Outcome.check _ >>= _) = (Outcome.check _ >>= _) >>= _
    rw [bind_assoc']; rfl

theorem round2_sim (A : ProverApi σ F G1 G2) (C : Circuit) (w : ℕ → F) (n layer : ℕ) (rv : ℕ → F) (relay : F)
    (m : (ℕ → F) × F) (j : ℕ) (s : σ × F × F) :
    round2 (reclaim A C w) n layer rv relay j ((s.1, m), s.2) =
      round2 A n layer rv relay j s >>= fun s => .ok ((s.1, m), s.2) := by
  unfold round2
  split_ifs
  · change (Outcome.check _ >>= _) = (Outcome.check _ >>= _) >>= _
    rw [bind_assoc']; rfl
  · change (Outcome.check _ >>= _) = (Outcome.check _ >>= _) >>= _
    rw [bind_assoc']; rfl
  · change (Outcome.check _ >>= _) = (Outcome.check _ >>= _) >>= _
    rw [bind_assoc']; rfl
  · change (Outcome.check _ >>= _) = (Outcome.check _ >>= _) >>= _
    rw [bind_assoc']; rfl

variable [AddCommGroup G1] [AddCommGroup G2] [AddCommGroup GT]
  [Module (ZMod Spec.p) G1] [Module (ZMod Spec.p) G2] [Module (ZMod Spec.p) GT] [Gmp F] [DecidableEq GT]

/-- the verifier's state with a passive component added to the prover's -/
def lift (m : (ℕ → F) × F) (s : VState σ F) : VState (σ × (ℕ → F) × F) F :=
  ⟨(s.prover, m), s.alpha, s.beta, s.sum, s.r0, s.r1, s.omr0, s.omr1, s.tables⟩

/-- the difference hidden in layer `i` -/
def debt (A : ProverApi σ F G1 G2) (C : Circuit) (w result : ℕ → F) (i : ℕ) (s : VState σ F) : F :=
  if i = C.depth - 1 then
      A.vRes s.prover s.omr0 s.r0 result (C.bl i) (2 ^ C.bl i) - foldOutput s.omr0 s.r0 w (C.bl i) (2 ^ C.bl i)
    else 0

theorem layerStep_sim (E : Pairing G1 G2 GT) (A : ProverApi σ F G1 G2) (C : Circuit) (w result : ℕ → F) (d : F)
    (ch : Challenges F) (i : ℕ) (s : VState σ F) :
    layerStep E C (reclaim A C w) ch i (lift (result, d) s) =
      layerStep E C A ch i { s with sum := s.sum + debt A C w result i s } >>= fun s' =>
        .ok (lift (result, debt A C w result i s) s') := by
  rw [layerStep, layerStep]
  refine sim_step (fun q : σ × (G1 × G1) => ((q.1, result, debt A C w result i s), q.2)) rfl fun ⟨P, DR⟩ => ?_
  generalize hd' : debt A C w result i s = d'
  refine sim_step (fun q : σ × (G1 × G1) => ((q.1, result, d'), q.2)) rfl fun ⟨P, DM⟩ => ?_
  dsimp only
  have hsum : (lift (result, d) s).sum + (reclaim A C w).sumc ((reclaim A C w).maskAfterRho
      ((reclaim A C w).setRho (P, result, d') (ch.rho i)) (C.bl (i - 1) * 2 + 1)) =
      s.sum + d' + A.sumc (A.maskAfterRho (A.setRho P (ch.rho i)) (C.bl (i - 1) * 2 + 1)) := by
    change s.sum + (A.sumc (A.maskAfterRho (A.setRho P (ch.rho i)) (C.bl (i - 1) * 2 + 1)) + d') = _; ring
  rw [hsum]
  refine sim_step (fun q : σ × F × F => ((q.1, result, d'), q.2))
    (loopM_sim (fun q : σ × F × F => ((q.1, result, d'), q.2)) (round1_sim A C w _ _ (result, d'))
      (A.phase1Init (A.maskAfterRho (A.setRho P (ch.rho i)) (C.bl (i - 1) * 2 + 1)), _, 0)) fun ⟨P, sum, prev⟩ => ?_
  refine sim_step (fun P : σ => (P, result, d')) rfl fun P => ?_
  refine sim_step (fun q : σ × F × F => ((q.1, result, d'), q.2))
    (loopM_sim (fun q : σ × F × F => ((q.1, result, d'), q.2)) (round2_sim A C w _ _ _ _ (result, d'))
      (P, sum, 0)) fun ⟨P, sum, prev⟩ => ?_
  refine sim_step id (bind_id' _) fun pv => ?_
  refine sim_step id (bind_id' _) fun _ => ?_
  refine sim_step (fun q : σ × VpdR.Opening G1 => ((q.1, result, d'), q.2)) rfl fun ⟨P, o1⟩ => ?_
  refine sim_step id (bind_id' _) fun v1 => ?_
  refine sim_step (fun q : σ × VpdR.Opening G1 => ((q.1, result, d'), q.2)) rfl fun ⟨P, o2⟩ => ?_
  refine sim_step id (bind_id' _) fun v2 => ?_
  refine sim_step id (bind_id' _) fun _ => ?_
  refine sim_step (fun q : σ × VpdR.Opening G1 => ((q.1, result, d'), q.2)) rfl fun ⟨P, o3⟩ => ?_
  refine sim_step id (bind_id' _) fun v3 => ?_
  refine sim_step id (bind_id' _) fun _ => ?_
  refine sim_step id (bind_id' _) fun _ => ?_
  rfl

theorem debt_zero (A : ProverApi σ F G1 G2) (C : Circuit) (w result : ℕ → F) {i : ℕ} (hi : i ≠ C.depth - 1)
    (s : VState σ F) : debt A C w result i s = 0 := if_neg hi

theorem layers_sim (E : Pairing G1 G2 GT) (A : ProverApi σ F G1 G2) (C : Circuit) (w result : ℕ → F)
    (ch : Challenges F) : ∀ n, n < C.depth - 1 → ∀ d (s : VState σ F),
    ∃ f : VState σ F → F, loopDownM n (layerStep E C (reclaim A C w) ch) (lift (result, d) s) =
      loopDownM n (layerStep E C A ch) s >>= fun s' => .ok (lift (result, f s') s') := by
  intro n
  induction n with
  | zero => intro _ d s; exact ⟨fun _ => d, rfl⟩
  | succ n ih =>
    intro hn d s
    have h0 := debt_zero A C w result (show n + 1 ≠ C.depth - 1 by omega) s
    have e := layerStep_sim E A C w result d ch (n + 1) s
    rw [h0, add_zero] at e
    rw [loopDownM_succ, loopDownM_succ, e]
    change ∃ f, ((layerStep E C A ch (n + 1) s >>= _) >>= _) = (layerStep E C A ch (n + 1) s >>= _) >>= _
    simp only [bind_assoc', Outcome.ok_bind]
    have key : ∀ s1, ∃ f : VState σ F → F, loopDownM n (layerStep E C (reclaim A C w) ch) (lift (result, 0) s1) =
      loopDownM n (layerStep E C A ch) s1 >>= fun s' => .ok (lift (result, f s') s') := fun s1 => ih (by omega) 0 s1
    cases hx : layerStep E C A ch (n + 1) s with
    | ok s1 =>
      obtain ⟨f, hf⟩ := key s1
      exact ⟨f, hf⟩
    | _ => exact ⟨fun _ => 0, rfl⟩

/-- the verifier answers the same -/
theorem reclaim_verify (E : Pairing G1 G2 GT) (A : ProverApi σ F G1 G2) (C : Circuit) (hd : 2 ≤ C.depth)
    (w : ℕ → F) (tables : VTables F) (ch : Challenges F) :
    verify E C (reclaim A C w) tables ch = verify E C A tables ch := by
  rw [verify, verify]
  change ((A.evaluate A.start >>= fun q => Outcome.ok ((q.1, q.2, 0), w)) >>= _) = _
  rw [bind_assoc']
  refine bind_congr' _ fun ⟨P, result⟩ => ?_
  rw [Outcome.ok_bind]
  change ((A.keygenAndCommit P (C.bl 0) >>= fun q => Outcome.ok ((q.1, result, 0), q.2)) >>= _) = _
  rw [bind_assoc']
  refine bind_congr' _ fun ⟨P, dig⟩ => ?_
  rw [Outcome.ok_bind]
  dsimp only
  obtain ⟨t, ht⟩ : ∃ t, C.depth = t + 2 := ⟨C.depth - 2, by omega⟩
  have ht1 : C.depth - 1 = t + 1 := by omega
  set V : VState σ F := ⟨P, 1, 0, 1 * foldOutput (oneMinus ch.r0) ch.r0 w (C.bl (C.depth - 1)) (2 ^ C.bl (C.depth - 1)),
    ch.r0, ch.r1, oneMinus ch.r0, oneMinus ch.r1, tables⟩ with hV
  have hdebt : V.sum + debt A C w result (C.depth - 1) V =
      1 * A.vRes P (oneMinus ch.r0) ch.r0 result (C.bl (C.depth - 1)) (2 ^ C.bl (C.depth - 1)) := by
    rw [debt, if_pos rfl]; simp only [hV]; ring
  have e := layerStep_sim E A C w result 0 ch (C.depth - 1) V
  rw [hdebt] at e
  change (loopDownM (C.depth - 1) (layerStep E C (reclaim A C w) ch) (lift (result, 0) V) >>= _) = _
  have : loopDownM (C.depth - 1) (layerStep E C (reclaim A C w) ch) (lift (result, 0) V) =
      layerStep E C (reclaim A C w) ch (C.depth - 1) (lift (result, 0) V) >>=
        loopDownM t (layerStep E C (reclaim A C w) ch) := by rw [ht1]; rfl
  rw [this, e]
  have : ∀ V' : VState σ F, loopDownM (C.depth - 1) (layerStep E C A ch) V' =
      layerStep E C A ch (C.depth - 1) V' >>= loopDownM t (layerStep E C A ch) := fun V' => by rw [ht1]; rfl
  rw [this, bind_assoc', bind_assoc', bind_assoc']
  refine bind_congr' _ fun s1 => ?_
  rw [Outcome.ok_bind]
  obtain ⟨f, hf⟩ := layers_sim E A C w result ch t (by omega) (debt A C w result (C.depth - 1) V) s1
  rw [hf, bind_assoc']
  refine bind_congr' _ fun s2 => ?_
  rw [Outcome.ok_bind]
  change ((A.proveInput s2.prover _ _ >>= fun q => Outcome.ok ((q.1, result, f s2), q.2)) >>= _) = _
  rw [bind_assoc']
  rfl

end Libra.Zk
