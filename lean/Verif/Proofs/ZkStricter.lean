import Verif.Spec.ZkRepair
import Verif.Proofs.Outcome

/-!
# The repaired zero-knowledge verifier only adds checks
-/

namespace Libra.Zk
open Spec FastTrack

theorem bind_mono {α β : Type} {x : Outcome α} {f g : α → Outcome β} {r : β}
    (h : (x >>= f) = .ok r) (hfg : ∀ a, f a = .ok r → g a = .ok r) : (x >>= g) = .ok r := by
  cases x with
  | ok a => exact hfg a h
  | _ => cases h

theorem skip_check {β : Type} {b : Bool} {f : Unit → Outcome β} {r : β}
    (h : (Outcome.check b >>= f) = .ok r) : f () = .ok r := by
  cases b with
  | true => exact h
  | false => cases h

theorem loopM_mono {α : Type} {f g : ℕ → α → Outcome α} (hfg : ∀ j s t, f j s = .ok t → g j s = .ok t)
    (n : ℕ) (s t : α) (h : loopM n f s = .ok t) : loopM n g s = .ok t := by
  induction n generalizing t with
  | zero => exact h
  | succ n ih =>
    rw [loopM] at h ⊢
    cases e : loopM n f s with
    | ok u => rw [e] at h; rw [ih u e]; exact hfg _ _ _ h
    | _ => rw [e] at h; cases h

theorem loopDownM_mono {α : Type} {f g : ℕ → α → Outcome α} (hfg : ∀ j s t, f j s = .ok t → g j s = .ok t)
    (n : ℕ) (s t : α) (h : loopDownM n f s = .ok t) : loopDownM n g s = .ok t := by
  induction n generalizing s with
  | zero => exact h
  | succ n ih =>
    rw [loopDownM] at h ⊢
    obtain ⟨a, e, h⟩ := Outcome.bind_eq_ok h
    rw [hfg _ _ _ e]; exact ih a h

variable {F : Type} [CommRing F] {G1 G2 GT : Type} [AddCommGroup G1] [AddCommGroup G2] [AddCommGroup GT]
  [Module (ZMod p) G1] [Module (ZMod p) G2] [Module (ZMod p) GT] [Gmp F]
  [DecidableEq F] [DecidableEq GT] {σ : Type}

omit [AddCommGroup G1] [AddCommGroup G2] [Module (ZMod p) G1] [Module (ZMod p) G2] [Gmp F] in
theorem round2Fixed_ok {A : ProverApi σ F G1 G2} {n i : ℕ} {rv : ℕ → F} (hi : i = 1 → rv = fun _ => 0)
    {relay vu : F} (j : ℕ) (s t : σ × F × F) (h : round2Fixed A n rv relay vu j s = .ok t) :
    round2 A n i rv relay j s = .ok t := by
  have e : round2 A n i rv relay j s = round2 A n 2 rv relay j s := by
    by_cases h1 : i = 1
    · subst h1; rw [hi rfl]; simp [round2]
    · simp [round2, h1]
  rw [e]
  rw [round2Fixed] at h
  cases e' : round2 A n 2 rv relay j s with
  | ok u => rw [e'] at h; exact skip_check h
  | _ => rw [e'] at h; cases h

theorem layerStepFixed_stricter (E : Pairing G1 G2 GT) (C : Circuit) (A : ProverApi σ F G1 G2)
    (X : Committed σ F) (ch : Challenges F) (hrv : ch.rv 1 = fun _ => 0) (hrc : ch.rc 1 = 0) (i : ℕ)
    (s t : VState σ F) (h : layerStepFixed E C A X ch i s = .ok t) : layerStep E C A ch i s = .ok t := by
  have e1 : (fun j => if i = 1 then 0 else ch.rv i j) = ch.rv i := by
    by_cases h1 : i = 1
    · subst h1; simp [hrv]
    · simp [h1]
  have e2 : (if i = 1 then 0 else ch.rc i) = ch.rc i := by
    by_cases h1 : i = 1
    · subst h1; simp [hrc]
    · simp [h1]
  unfold layerStepFixed at h
  unfold layerStep
  rw [e1, e2]
  refine bind_mono h fun ⟨P, D⟩ h => ?_
  refine bind_mono h fun ⟨P, M⟩ h => ?_
  replace h := skip_check h
  refine bind_mono h fun ⟨P, x, y⟩ h => ?_
  refine bind_mono h fun P h => ?_
  obtain ⟨⟨P, x, y⟩, hl, h⟩ := Outcome.bind_eq_ok h
  have hl := loopM_mono (round2Fixed_ok (i := i) (fun h1 => by subst h1; exact hrv)) _ _ _ hl
  rw [hl, Outcome.ok_bind]
  replace h := skip_check h
  refine bind_mono h fun pv h => ?_
  refine bind_mono h fun _ h => ?_
  replace h := skip_check (skip_check h)
  refine bind_mono h fun ⟨P, o1⟩ h => ?_
  refine bind_mono h fun v1 h => ?_
  replace h := skip_check (skip_check h)
  refine bind_mono h fun ⟨P, o2⟩ h => ?_
  refine bind_mono h fun v2 h => ?_
  replace h := skip_check h
  refine bind_mono h fun _ h => ?_
  refine bind_mono h fun ⟨P, o3⟩ h => ?_
  refine bind_mono h fun v3 h => ?_
  replace h := skip_check h
  refine bind_mono h fun _ h => ?_
  exact skip_check (skip_check h)

theorem verifyFixed_stricter (E : Pairing G1 G2 GT) (C : Circuit) (A : ProverApi σ F G1 G2)
    (hres : ∀ s omr r result n N, A.vRes s omr r result n N = foldOutput omr r result n N)
    (X : Committed σ F) (tables : VTables F) (ch : Challenges F) (hrv : ch.rv 1 = fun _ => 0)
    (hrc : ch.rc 1 = 0) (h : verifyFixed E C A X tables ch = .ok ()) : verify E C A tables ch = .ok () := by
  unfold verifyFixed at h
  unfold verify
  refine bind_mono h fun ⟨P, result⟩ h => ?_
  refine bind_mono h fun ⟨P, digest⟩ h => ?_
  obtain ⟨s, hl, h⟩ := Outcome.bind_eq_ok h
  have hl := loopDownM_mono (layerStepFixed_stricter E C A X ch hrv hrc) _ _ _ hl
  dsimp only
  rw [hres, hl, Outcome.ok_bind]
  refine bind_mono h fun ⟨P, o⟩ h => ?_
  refine bind_mono h fun v h => ?_
  refine bind_mono h fun _ h => ?_
  exact skip_check h

end Libra.Zk
