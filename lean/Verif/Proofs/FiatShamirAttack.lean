import Verif.Proofs.FiatShamir
import Mathlib.Tactic.LinearCombination

/-!
# A prover that knows the challenges of a layer before its first message
-/

namespace Libra.Zk
open Transcript FastTrack
variable {F : Type} [CommRing F] {G1 G2 GT σ : Type}

/-- Like `A`, but the output is claimed to be `w`, and the polynomial `q` is added to the first polynomial
sent for the last layer. All commitments, announced sums, openings and other messages are those of `A`. The
state carries the number of the current layer. -/
def foresee (A : ProverApi σ F G1 G2) (C : Circuit) (w : ℕ → F) (q : QuadraticPoly F) :
    ProverApi (σ × ℕ) F G1 G2 where
  start := (A.start, 0)
  evaluate s := do
    let (p, _) ← A.evaluate s.1
    return ((p, s.2), w)
  keygenAndCommit s n := do
    let (p, d) ← A.keygenAndCommit s.1 n
    return ((p, s.2), d)
  vRes _ omr r result rSize outputSize := foldOutput omr r result rSize outputSize
  sumcheckInit s layerId g u v a b r0 r1 omr0 omr1 := do
    let (p, d) ← A.sumcheckInit s.1 layerId g u v a b r0 r1 omr0 omr1
    return ((p, layerId), d)
  maskPreRho s len := do
    let (p, d) ← A.maskPreRho s.1 len
    return ((p, s.2), d)
  setRho s rho := (A.setRho s.1 rho, s.2)
  maskAfterRho s len := (A.maskAfterRho s.1 len, s.2)
  sumc s := A.sumc s.1
  phase1Init s := (A.phase1Init s.1, s.2)
  phase1Update s x k := (((A.phase1Update s.1 x k).1, s.2),
    if s.2 = C.depth - 1 ∧ k = 0 then (A.phase1Update s.1 x k).2.add q else (A.phase1Update s.1 x k).2)
  phase1Last s x k := (((A.phase1Last s.1 x k).1, s.2),
    if s.2 = C.depth - 1 ∧ k = 0 then (A.phase1Last s.1 x k).2.add ⟨0, 0, 0, q.a, q.b, q.c⟩
    else (A.phase1Last s.1 x k).2)
  phase2Init s x ru omru := do
    let p ← A.phase2Init s.1 x ru omru
    return (p, s.2)
  phase2Update s x k := (((A.phase2Update s.1 x k).1, s.2), (A.phase2Update s.1 x k).2)
  phase2Last s x k := (((A.phase2Last s.1 x k).1, s.2), (A.phase2Last s.1 x k).2)
  vU s := A.vU s.1
  finalize s x := (((A.finalize s.1 x).1, s.2), (A.finalize s.1 x).2)
  finalround s x k g := (((A.finalround s.1 x k g).1, s.2), (A.finalround s.1 x k g).2)
  prepreu1 s := A.prepreu1 s.1
  preprev1 s := A.preprev1 s.1
  proveR s r := do
    let (p, o) ← A.proveR s.1 r
    return ((p, s.2), o)
  proveMask s r := do
    let (p, o) ← A.proveMask s.1 r
    return ((p, s.2), o)
  Iuv s := A.Iuv s.1
  preZu s := A.preZu s.1
  preZv s := A.preZv s.1
  Zu s := A.Zu s.1
  proveInput s r Z := do
    let (p, o) ← A.proveInput s.1 r Z
    return ((p, s.2), o)
  keyR s := A.keyR s.1
  keyMask s := A.keyMask s.1
  keyInput s := A.keyInput s.1

theorem loopM_sim_idx {α β : Type} (φ : ℕ → α → β) {n : ℕ} {b : ℕ → α → Outcome α} {b' : ℕ → β → Outcome β}
    (h : ∀ j s, b' j (φ j s) = b j s >>= fun s => .ok (φ (j + 1) s)) (s : α) :
    loopM n b' (φ 0 s) = loopM n b s >>= fun s => .ok (φ n s) := by
  induction n with
  | zero => rfl
  | succ n ih =>
    rw [loopM_succ, loopM_succ, ih]
    change ((loopM n b s >>= _) >>= _) = ((loopM n b s >>= b n) >>= _)
    rw [bind_assoc', bind_assoc']
    exact bind_congr' _ (fun s => h n s)

/-- what is added at round `k` of the layer `L` -/
def corr (C : Circuit) (q : QuadraticPoly F) (L k : ℕ) (x : F) : F :=
  if L = C.depth - 1 ∧ k = 0 then q.eval x else 0

theorem foresee_update (A : ProverApi σ F G1 G2) (C : Circuit) (w : ℕ → F) (q : QuadraticPoly F) (s : σ) (L : ℕ) (x : F)
    (k : ℕ) (y : F) : ((foresee A C w q).phase1Update (s, L) x k).2.eval y =
      (A.phase1Update s x k).2.eval y + corr C q L k y := by
  simp only [foresee, corr]
  split_ifs
  · simp only [QuadraticPoly.add, QuadraticPoly.eval]; ring
  · ring

theorem foresee_last (A : ProverApi σ F G1 G2) (C : Circuit) (w : ℕ → F) (q : QuadraticPoly F) (s : σ) (L : ℕ) (x : F)
    (k : ℕ) (y : F) : ((foresee A C w q).phase1Last (s, L) x k).2.eval y =
      (A.phase1Last s x k).2.eval y + corr C q L k y := by
  simp only [foresee, corr]
  split_ifs
  · simp only [QuintuplePoly.add, QuintuplePoly.eval, QuadraticPoly.eval]; ring
  · ring

variable [DecidableEq F]

theorem beq_shift {a0 a1 c0 c1 s d : F} (h : c0 + c1 = d) : ((a0 + c0) + (a1 + c1) == s + d) = (a0 + a1 == s) := by
  rw [Bool.eq_iff_iff]
  simp only [beq_iff_eq]
  constructor <;> intro e
  · linear_combination e - h
  · linear_combination e + h

theorem round1_foresee (A : ProverApi σ F G1 G2) (C : Circuit) (w : ℕ → F) (q : QuadraticPoly F) (n : ℕ) (ru : ℕ → F)
    (L : ℕ) (d : F) (hd : corr C q L 0 0 + corr C q L 0 1 = d) (hr : corr C q L 0 (ru 0) = 0) (j : ℕ) (s : σ × F × F) :
    round1 (foresee A C w q) n ru j ((s.1, L), s.2.1 + (if j = 0 then d else 0), s.2.2) =
      round1 A n ru j s >>= fun s => .ok ((s.1, L), s.2.1 + (if j + 1 = 0 then d else 0), s.2.2) := by
  have h1 : corr C q L j 0 + corr C q L j 1 = if j = 0 then d else 0 := by
    split_ifs with h
    · rw [h, hd]
    · simp [corr, h]
  have h2 : corr C q L j (ru j) = 0 := by
    by_cases h : j = 0
    · rw [h, hr]
    · simp [corr, h]
  rw [if_neg (show ¬ j + 1 = 0 by omega)]
  generalize (if j = 0 then d else 0) = e at h1
  unfold round1
  split_ifs with hn
  · dsimp only
    rw [foresee_last, foresee_last, foresee_last, h2, beq_shift h1, bind_assoc']
    refine bind_congr' _ fun _ => ?_
    rfl
  · dsimp only
    rw [foresee_update, foresee_update, foresee_update, h2, beq_shift h1, bind_assoc']
    refine bind_congr' _ fun _ => ?_
    rfl

theorem round2_foresee (A : ProverApi σ F G1 G2) (C : Circuit) (w : ℕ → F) (q : QuadraticPoly F) (n layer : ℕ)
    (rv : ℕ → F) (relay : F) (L : ℕ) (j : ℕ) (s : σ × F × F) :
    round2 (foresee A C w q) n layer rv relay j ((s.1, L), s.2) =
      round2 A n layer rv relay j s >>= fun s => .ok ((s.1, L), s.2) := by
  unfold round2
  split_ifs
  · change (Outcome.check _ >>= _) = (Outcome.check _ >>= _) >>= _
    rw [bind_assoc']; rfl
  · change (Outcome.check _ >>= _) = (Outcome.check _ >>= _) >>= _
    rw [bind_assoc']; rfl
  · change (Outcome.check _ >>= _) = (Outcome.check _ >>= _) >>= _
    rw [bind_assoc']; rfl
  · change (Outcome.check _ >>= _) = (Outcome.check _ >>= _) >>= _
    rw [bind_assoc']; rfl

variable [AddCommGroup G1] [AddCommGroup G2] [AddCommGroup GT]
  [Module (ZMod Spec.p) G1] [Module (ZMod Spec.p) G2] [Module (ZMod Spec.p) GT] [Gmp F] [DecidableEq GT]

/-- the verifier's state with the number of a layer added to the prover's, and a change of the claim -/
def liftN (L : ℕ) (d : F) (s : VState σ F) : VState (σ × ℕ) F :=
  ⟨(s.prover, L), s.alpha, s.beta, s.sum + d, s.r0, s.r1, s.omr0, s.omr1, s.tables⟩

theorem layerStep_foresee (E : Pairing G1 G2 GT) (A : ProverApi σ F G1 G2) (C : Circuit) (w : ℕ → F)
    (q : QuadraticPoly F) (d : F) (ch : Challenges F) (L i : ℕ) (hn : d = 0 ∨ 1 ≤ C.bl (i - 1))
    (hd : corr C q i 0 0 + corr C q i 0 1 = d) (hr : corr C q i 0 (ch.ru i 0) = 0) (s : VState σ F) :
    layerStep E C (foresee A C w q) ch i (liftN L d s) =
      layerStep E C A ch i s >>= fun s' => .ok (liftN i 0 s') := by
  rw [layerStep, layerStep]
  refine sim_step (fun q : σ × (G1 × G1) => ((q.1, i), q.2)) rfl fun ⟨P, DR⟩ => ?_
  refine sim_step (fun q : σ × (G1 × G1) => ((q.1, i), q.2)) rfl fun ⟨P, DM⟩ => ?_
  dsimp only
  have hsum : (liftN L d s).sum + (foresee A C w q).sumc ((foresee A C w q).maskAfterRho
      ((foresee A C w q).setRho (P, i) (ch.rho i)) (C.bl (i - 1) * 2 + 1)) =
      (s.sum + A.sumc (A.maskAfterRho (A.setRho P (ch.rho i)) (C.bl (i - 1) * 2 + 1))) + if 0 = 0 then d else 0 := by
    change s.sum + d + A.sumc (A.maskAfterRho (A.setRho P (ch.rho i)) (C.bl (i - 1) * 2 + 1)) = _
    rw [if_pos rfl]; ring
  rw [hsum]
  have hφ : ∀ x : F, x + (if C.bl (i - 1) = 0 then d else 0) = x := by
    intro x
    rcases hn with h | h
    · rw [h, ite_self, add_zero]
    · rw [if_neg (by omega), add_zero]
  refine sim_step (fun q : σ × F × F => ((q.1, i), q.2.1 + (if C.bl (i - 1) = 0 then d else 0), q.2.2))
    (loopM_sim_idx (fun j (q : σ × F × F) => ((q.1, i), q.2.1 + (if j = 0 then d else 0), q.2.2))
      (round1_foresee A C w q _ _ i d hd hr)
      (A.phase1Init (A.maskAfterRho (A.setRho P (ch.rho i)) (C.bl (i - 1) * 2 + 1)), _, 0)) fun ⟨P, sum, prev⟩ => ?_
  dsimp only
  rw [hφ]
  refine sim_step (fun P : σ => (P, i)) rfl fun P => ?_
  refine sim_step (fun q : σ × F × F => ((q.1, i), q.2))
    (loopM_sim (fun q : σ × F × F => ((q.1, i), q.2)) (round2_foresee A C w q _ _ _ _ i)
      (P, sum, 0)) fun ⟨P, sum, prev⟩ => ?_
  refine sim_step id (bind_id' _) fun pv => ?_
  refine sim_step id (bind_id' _) fun _ => ?_
  refine sim_step (fun q : σ × VpdR.Opening G1 => ((q.1, i), q.2)) rfl fun ⟨P, o1⟩ => ?_
  refine sim_step id (bind_id' _) fun v1 => ?_
  refine sim_step (fun q : σ × VpdR.Opening G1 => ((q.1, i), q.2)) rfl fun ⟨P, o2⟩ => ?_
  refine sim_step id (bind_id' _) fun v2 => ?_
  refine sim_step id (bind_id' _) fun _ => ?_
  refine sim_step (fun q : σ × VpdR.Opening G1 => ((q.1, i), q.2)) rfl fun ⟨P, o3⟩ => ?_
  refine sim_step id (bind_id' _) fun v3 => ?_
  refine sim_step id (bind_id' _) fun _ => ?_
  refine sim_step id (bind_id' _) fun _ => ?_
  dsimp only
  rw [Outcome.pure_eq, Outcome.pure_eq, Outcome.ok_bind]
  simp only [liftN, add_zero]
  rfl

theorem corr_lower (C : Circuit) (q : QuadraticPoly F) {i : ℕ} (h : i ≠ C.depth - 1) (x : F) : corr C q i 0 x = 0 :=
  if_neg (fun hh => h hh.1)

theorem layers_foresee (E : Pairing G1 G2 GT) (A : ProverApi σ F G1 G2) (C : Circuit) (w : ℕ → F) (q : QuadraticPoly F)
    (ch : Challenges F) : ∀ n, n < C.depth - 1 → ∀ L (s : VState σ F),
    ∃ L', loopDownM n (layerStep E C (foresee A C w q) ch) (liftN L 0 s) =
      loopDownM n (layerStep E C A ch) s >>= fun s' => .ok (liftN L' 0 s') := by
  intro n
  induction n with
  | zero => intro _ L s; exact ⟨L, rfl⟩
  | succ n ih =>
    intro hn L s
    have h0 : n + 1 ≠ C.depth - 1 := by omega
    have e := layerStep_foresee E A C w q 0 ch L (n + 1) (Or.inl rfl)
      (by rw [corr_lower C q h0, corr_lower C q h0, add_zero]) (corr_lower C q h0 _) s
    rw [loopDownM_succ, loopDownM_succ, e]
    change ∃ f, ((layerStep E C A ch (n + 1) s >>= _) >>= _) = (layerStep E C A ch (n + 1) s >>= _) >>= _
    simp only [bind_assoc', Outcome.ok_bind]
    cases hx : layerStep E C A ch (n + 1) s with
    | ok s1 =>
      obtain ⟨L', h⟩ := ih (by omega) (n + 1) s1
      exact ⟨L', h⟩
    | _ => exact ⟨0, rfl⟩

/-- the verifier answers the same if the polynomial `q` makes up for the difference of the claims and vanishes at
the first challenge of the last layer -/
theorem foresee_verify (E : Pairing G1 G2 GT) (A : ProverApi σ F G1 G2) (C : Circuit) (hd : 2 ≤ C.depth)
    (hbl : 1 ≤ C.bl (C.depth - 2)) (w : ℕ → F) (q : QuadraticPoly F) (tables : VTables F) (ch : Challenges F)
    (hq : ∀ P result, A.evaluate A.start = .ok (P, result) → ∀ P' dig, A.keygenAndCommit P (C.bl 0) = .ok (P', dig) →
      q.eval 0 + q.eval 1 = foldOutput (oneMinus ch.r0) ch.r0 w (C.bl (C.depth - 1)) (2 ^ C.bl (C.depth - 1)) -
        A.vRes P' (oneMinus ch.r0) ch.r0 result (C.bl (C.depth - 1)) (2 ^ C.bl (C.depth - 1)))
    (hr : q.eval (ch.ru (C.depth - 1) 0) = 0) :
    verify E C (foresee A C w q) tables ch = verify E C A tables ch := by
  rw [verify, verify]
  change ((A.evaluate A.start >>= fun q => Outcome.ok ((q.1, 0), w)) >>= _) = _
  rw [bind_assoc']
  cases h1 : A.evaluate A.start with
  | ok v =>
    obtain ⟨P, result⟩ := v
    simp only [Outcome.ok_bind]
    change ((A.keygenAndCommit P (C.bl 0) >>= fun q => Outcome.ok ((q.1, 0), q.2)) >>= _) = _
    rw [bind_assoc']
    cases h2 : A.keygenAndCommit P (C.bl 0) with
    | ok v =>
      obtain ⟨P', dig⟩ := v
      rw [Outcome.ok_bind, Outcome.ok_bind, Outcome.ok_bind]
      dsimp only
      obtain ⟨t, ht⟩ : ∃ t, C.depth = t + 2 := ⟨C.depth - 2, by omega⟩
      have ht1 : C.depth - 1 = t + 1 := by omega
      set V : VState σ F := ⟨P', 1, 0, 1 * A.vRes P' (oneMinus ch.r0) ch.r0 result (C.bl (C.depth - 1))
        (2 ^ C.bl (C.depth - 1)), ch.r0, ch.r1, oneMinus ch.r0, oneMinus ch.r1, tables⟩ with hV
      have hqq := hq P result h1 P' dig h2
      generalize hdd : q.eval 0 + q.eval 1 = d at hqq
      have hl : (⟨(P', 0), 1, 0, 1 * (foresee A C w q).vRes (P', 0) (oneMinus ch.r0) ch.r0 w (C.bl (C.depth - 1))
        (2 ^ C.bl (C.depth - 1)), ch.r0, ch.r1, oneMinus ch.r0, oneMinus ch.r1, tables⟩ : VState (σ × ℕ) F) =
          liftN 0 d V := by
        simp only [liftN, hV, VState.mk.injEq, true_and, and_true]
        change 1 * foldOutput (oneMinus ch.r0) ch.r0 w (C.bl (C.depth - 1)) (2 ^ C.bl (C.depth - 1)) = _
        rw [hqq]; ring
      rw [hl]
      have e := layerStep_foresee E A C w q d ch 0 (C.depth - 1) (Or.inr (by rwa [show C.depth - 1 - 1 = C.depth - 2 by omega]))
        (by rw [corr, corr, if_pos ⟨rfl, rfl⟩, if_pos ⟨rfl, rfl⟩, hdd]) (by rw [corr, if_pos ⟨rfl, rfl⟩, hr]) V
      have : loopDownM (C.depth - 1) (layerStep E C (foresee A C w q) ch) (liftN 0 d V) =
          layerStep E C (foresee A C w q) ch (C.depth - 1) (liftN 0 d V) >>=
            loopDownM t (layerStep E C (foresee A C w q) ch) := by rw [ht1]; rfl
      rw [this, e]
      have : ∀ V' : VState σ F, loopDownM (C.depth - 1) (layerStep E C A ch) V' =
          layerStep E C A ch (C.depth - 1) V' >>= loopDownM t (layerStep E C A ch) := fun V' => by rw [ht1]; rfl
      rw [this, bind_assoc', bind_assoc', bind_assoc']
      refine bind_congr' _ fun s1 => ?_
      rw [Outcome.ok_bind]
      obtain ⟨L, hf⟩ := layers_foresee E A C w q ch t (by omega) (C.depth - 1) s1
      rw [hf, bind_assoc']
      refine bind_congr' _ fun s2 => ?_
      rw [Outcome.ok_bind]
      change ((A.proveInput s2.prover _ _ >>= fun q => Outcome.ok ((q.1, L), q.2)) >>= _) = _
      rw [bind_assoc']
      refine bind_congr' _ fun ⟨P, o⟩ => ?_
      simp only [Outcome.ok_bind, liftN, add_zero]
      rfl
    | _ => rfl
  | _ => rfl

end Libra.Zk

namespace Libra.Zk
open Transcript FastTrack
variable {G1 G2 GT : Type} [AddCommGroup G1] [AddCommGroup G2] [AddCommGroup GT]
  [Module (ZMod Spec.p) G1] [Module (ZMod Spec.p) G2] [Module (ZMod Spec.p) GT] [DecidableEq GT]
  {σ : Type} {B : ℕ}

theorem startFS_foresee (mix : Mix) (enc : G1 → Fin B → BitVec 8) (C : Circuit) (A : ProverApi σ Fp G1 G2) (w : ℕ → Fp)
    (q : QuadraticPoly Fp) (tables : VTables Fp) {V : VState σ Fp} {dig : InputVpd.Commitment G1}
    {m : List (Container B)} (h : startFS mix enc C A tables = .ok ((V, dig), m)) :
    (∃ d, startFS mix enc C (foresee A C w q) tables = .ok ((liftN 0 d V, dig), m)) ∧
    ∀ P result, A.evaluate A.start = .ok (P, result) → ∀ P' dig, A.keygenAndCommit P (C.bl 0) = .ok (P', dig) →
      V.sum = A.vRes P' (oneMinus V.r0) V.r0 result (C.bl (C.depth - 1)) (2 ^ C.bl (C.depth - 1)) := by
  unfold startFS at h
  obtain ⟨⟨P, result⟩, h1, h⟩ := Outcome.bind_eq_ok' h
  obtain ⟨⟨P', dig'⟩, h2, h⟩ := Outcome.bind_eq_ok' h
  obtain ⟨⟨r0, m1⟩, h3, h⟩ := Outcome.bind_eq_ok' h
  obtain ⟨⟨r1, m2⟩, h4, h⟩ := Outcome.bind_eq_ok' h
  dsimp only at h h4
  rw [Outcome.pure_eq] at h
  have e := Outcome.ok.inj h
  obtain ⟨e1, rfl⟩ := Prod.mk.inj e
  obtain ⟨rfl, rfl⟩ := Prod.mk.inj e1
  constructor
  · refine ⟨foldOutput (oneMinus r0) r0 w (C.bl (C.depth - 1)) (2 ^ C.bl (C.depth - 1)) -
      A.vRes P' (oneMinus r0) r0 result (C.bl (C.depth - 1)) (2 ^ C.bl (C.depth - 1)), ?_⟩
    unfold startFS
    change ((A.evaluate A.start >>= fun q => Outcome.ok ((q.1, 0), w)) >>= _) = _
    rw [h1, Outcome.ok_bind, Outcome.ok_bind]
    change ((A.keygenAndCommit P (C.bl 0) >>= fun q => Outcome.ok ((q.1, 0), q.2)) >>= _) = _
    rw [h2, Outcome.ok_bind, Outcome.ok_bind]
    change (draw mix _ _ >>= _) = _
    rw [h3, Outcome.ok_bind]
    change (draw mix _ _ >>= _) = _
    rw [h4, Outcome.ok_bind]
    have : 1 * foldOutput (oneMinus r0) r0 w (C.bl (C.depth - 1)) (2 ^ C.bl (C.depth - 1)) =
      1 * A.vRes P' (oneMinus r0) r0 result (C.bl (C.depth - 1)) (2 ^ C.bl (C.depth - 1)) +
      (foldOutput (oneMinus r0) r0 w (C.bl (C.depth - 1)) (2 ^ C.bl (C.depth - 1)) -
      A.vRes P' (oneMinus r0) r0 result (C.bl (C.depth - 1)) (2 ^ C.bl (C.depth - 1))) := by ring
    simp only [liftN]
    rw [← this]
    rfl
  · intro P2 result2 h1' P2' dig2 h2'
    rw [h1] at h1'
    obtain ⟨rfl, rfl⟩ := Prod.mk.inj (Outcome.ok.inj h1')
    rw [h2] at h2'
    obtain ⟨rfl, rfl⟩ := Prod.mk.inj (Outcome.ok.inj h2')
    exact one_mul _

theorem layerStartFS_foresee (mix : Mix) (enc : G1 → Fin B → BitVec 8) (C : Circuit) (A : ProverApi σ Fp G1 G2)
    (w : ℕ → Fp) (q : QuadraticPoly Fp) (i L : ℕ) (d : Fp) (V : VState σ Fp) (m : List (Container B))
    {S : LayerStart σ G1} {m' : List (Container B)} (h : layerStartFS mix enc C A i V m = .ok (S, m')) :
    ∃ S', layerStartFS mix enc C (foresee A C w q) i (liftN L d V) m = .ok (S', m') ∧ S'.ru = S.ru := by
  unfold layerStartFS at h
  obtain ⟨⟨rho, m1⟩, h1, h⟩ := Outcome.bind_eq_ok' h
  obtain ⟨⟨P, dR⟩, h2, h⟩ := Outcome.bind_eq_ok' h
  obtain ⟨⟨P', dM⟩, h3, h⟩ := Outcome.bind_eq_ok' h
  obtain ⟨⟨ru, m2⟩, h4, h⟩ := Outcome.bind_eq_ok' h
  obtain ⟨⟨rv, m3⟩, h5, h⟩ := Outcome.bind_eq_ok' h
  obtain ⟨⟨rc, m4⟩, h6, h⟩ := Outcome.bind_eq_ok' h
  dsimp only at h h2 h3 h4 h5 h6
  rw [Outcome.pure_eq] at h
  obtain ⟨rfl, rfl⟩ := Prod.mk.inj (Outcome.ok.inj h)
  refine ⟨⟨(A.maskAfterRho (A.setRho P' (rho 0)) (C.bl (i - 1) * 2 + 1), i), dR, dM, rho 0, ru, rv, rc 0⟩, ?_, rfl⟩
  unfold layerStartFS
  rw [h1, Outcome.ok_bind]
  change ((A.sumcheckInit V.prover i (C.bl i) (C.bl (i - 1)) (C.bl (i - 1)) V.alpha V.beta V.r0 V.r1 V.omr0 V.omr1 >>=
    fun q => Outcome.ok ((q.1, i), q.2)) >>= _) = _
  rw [h2, Outcome.ok_bind, Outcome.ok_bind]
  change ((A.maskPreRho P _ >>= fun q => Outcome.ok ((q.1, i), q.2)) >>= _) = _
  rw [h3, Outcome.ok_bind, Outcome.ok_bind]
  change (draw mix _ _ >>= _) = _
  rw [h4, Outcome.ok_bind]
  change (draw mix _ _ >>= _) = _
  rw [h5, Outcome.ok_bind]
  change (draw mix _ _ >>= _) = _
  rw [h6, Outcome.ok_bind]
  rfl

/-- a quadratic polynomial with a given root and a given sum of its values at 0 and 1 -/
theorem exists_quadratic (r δ : Fp) : ∃ q : QuadraticPoly Fp, q.eval 0 + q.eval 1 = δ ∧ q.eval r = 0 := by
  by_cases h : 1 - 2 * r = 0
  · refine ⟨⟨2 * δ, -(4 * δ * r), 2 * δ * r ^ 2⟩, ?_, ?_⟩
    · simp only [QuadraticPoly.eval]
      have h : 2 * r = 1 := (sub_eq_zero.mp h).symm
      linear_combination (-δ + 2 * δ * r) * h
    · simp only [QuadraticPoly.eval]; ring
  · refine ⟨⟨0, δ / (1 - 2 * r), -(δ / (1 - 2 * r) * r)⟩, ?_, ?_⟩
    · simp only [QuadraticPoly.eval]
      field_simp
      ring
    · simp only [QuadraticPoly.eval]; ring

/-- whatever prover is accepted, every other output is accepted -/
theorem foresee_FS (hB : 0 < B) (mix : Mix) (enc : G1 → Fin B → BitVec 8) (E : Pairing G1 G2 GT) (C : Circuit)
    (hd : 2 ≤ C.depth) (hbl : 1 ≤ C.bl (C.depth - 2)) (A : ProverApi σ Fp G1 G2) (w : ℕ → Fp) (tables : VTables Fp)
    (hA : ∀ ch, verify E C A tables ch = .ok ()) :
    ∃ q m, verifyFS mix enc E C (foresee A C w q) tables = .ok m := by
  obtain ⟨ch, m, -, e, h⟩ := verifyFS_traced hB mix enc E C A tables
  rw [hA, Outcome.ok_bind] at e
  obtain ⟨⟨⟨V, dig⟩, m1⟩, h1, h2⟩ := Outcome.bind_eq_ok' e
  obtain ⟨S, m2, h3⟩ : ∃ S m2, layerStartFS mix enc C A (C.depth - 1) V m1 = .ok (S, m2) := by
    obtain ⟨⟨s, m2⟩, h3, -⟩ := Outcome.bind_eq_ok' h2
    obtain ⟨t, ht⟩ : ∃ t, C.depth - 1 = t + 1 := ⟨C.depth - 2, by omega⟩
    rw [ht] at h3 ⊢
    obtain ⟨_, h4, -⟩ := Outcome.bind_eq_ok' h3
    obtain ⟨⟨S, m3⟩, h5, -⟩ := Outcome.bind_eq_ok' h4
    exact ⟨S, m3, h5⟩
  obtain ⟨q, hq1, hq2⟩ := exists_quadratic (S.ru 0)
    (foldOutput (oneMinus V.r0) V.r0 w (C.bl (C.depth - 1)) (2 ^ C.bl (C.depth - 1)) - V.sum)
  obtain ⟨⟨d, h4⟩, h5⟩ := startFS_foresee mix enc C A w q tables h1
  obtain ⟨S', h6, h7⟩ := layerStartFS_foresee mix enc C A w q (C.depth - 1) 0 d V m1 h3
  obtain ⟨ch', m', -, e', h'⟩ := verifyFS_traced hB mix enc E C (foresee A C w q) tables
  obtain ⟨hr0, hru⟩ := h' _ h4
  have hru := hru S' m2 hd h6
  have hr0 : ch'.r0 = V.r0 := hr0
  refine ⟨q, m', ?_⟩
  rw [e', foresee_verify E A C hd hbl w q tables ch', hA, Outcome.ok_bind]
  · intro P result hP P' dig' hP'
    rw [hr0, hq1, h5 P result hP P' dig' hP']
  · rw [hru, h7, hq2]

end Libra.Zk
