import Verif.Model.FiatShamir
import Verif.Props.Transcript
import Verif.Proofs.ZkAttack

/-!
# The verifier with a transcript is the verifier with some challenges
-/

namespace Libra.Zk
open Transcript FastTrack
variable {G1 G2 GT : Type} [AddCommGroup G1] [AddCommGroup G2] [AddCommGroup GT]
  [Module (ZMod Spec.p) G1] [Module (ZMod Spec.p) G2] [Module (ZMod Spec.p) GT] [DecidableEq GT]
  {σ : Type} {B : ℕ}

/-- `X` does what `Y` does for some value of a parameter, and leaves a non-empty transcript. -/
def Traced {α Θ : Type} (X : Outcome (α × List (Container B))) (Y : Θ → Outcome α) : Prop :=
  ∃ θ m, m ≠ [] ∧ X = Y θ >>= fun a => .ok (a, m)

theorem Traced.step {α β Θ : Type} [Nonempty Θ] {X : Outcome (α × List (Container B))} {Y : Outcome α}
    {K : α × List (Container B) → Outcome (β × List (Container B))} {K' : Θ → α → Outcome β}
    (hX : Traced X (fun _ : Unit => Y)) (hK : ∀ a m, m ≠ [] → Traced (K (a, m)) (fun θ => K' θ a)) :
    Traced (X >>= K) (fun θ => Y >>= K' θ) := by
  obtain ⟨-, m, hm, rfl⟩ := hX
  cases Y with
  | ok a => exact hK a m hm
  | _ => exact ⟨Classical.arbitrary Θ, m, hm, rfl⟩

theorem Traced.plain {α β Θ : Type} [Nonempty Θ] {Y : Outcome α} {m : List (Container B)} (hm : m ≠ [])
    {K : α → Outcome (β × List (Container B))} {K' : Θ → α → Outcome β}
    (hK : ∀ a, Traced (K a) (fun θ => K' θ a)) :
    Traced (Y >>= K) (fun θ => Y >>= K' θ) := by
  cases Y with
  | ok a => exact hK a
  | _ => exact ⟨Classical.arbitrary Θ, m, hm, rfl⟩

theorem Traced.reparam {α Θ Θ' : Type} {X : Outcome (α × List (Container B))} {Y : Θ → Outcome α} (f : Θ' → Θ)
    (h : Traced X (fun θ => Y (f θ))) : Traced X Y := by
  obtain ⟨θ, m, hm, e⟩ := h
  exact ⟨f θ, m, hm, e⟩

theorem Traced.done {α Θ : Type} [Nonempty Θ] (a : α) {m : List (Container B)} (hm : m ≠ []) :
    Traced (.ok (a, m)) (fun _ : Θ => .ok a) := ⟨Classical.arbitrary Θ, m, hm, rfl⟩

theorem Traced.loopM {α : Type} {b : ℕ → α × List (Container B) → Outcome (α × List (Container B))}
    {b' : ℕ → α → Outcome α} (h : ∀ j a m, m ≠ [] → Traced (b j (a, m)) (fun _ : Unit => b' j a)) (n : ℕ) (a : α)
    {m : List (Container B)} (hm : m ≠ []) : Traced (loopM n b (a, m)) (fun _ : Unit => loopM n b' a) := by
  induction n with
  | zero => exact Traced.done a hm
  | succ n ih => exact Traced.step ih (fun a m hm => h n a m hm)

theorem draw_ok (hB : 0 < B) (mix : Mix) {msg : List (Container B)} (hm : msg ≠ []) (size : ℕ) :
    ∃ r msg', draw mix msg size = .ok (r, msg') ∧ msg' ≠ [] := by
  obtain ⟨r, e, -⟩ := Props.C37_random hB mix msg hm size
  refine ⟨fun j => challenge (r.getD j U512.zero), msg ++ r.map .rand, ?_, by simp [hm]⟩
  rw [draw, e]; rfl

theorem append_ne {α : Type} {l l' : List α} (h : l ≠ []) : l ++ l' ≠ [] := by simp [h]

theorem round1_traced (A : ProverApi σ Fp G1 G2) (n : ℕ) (ru : ℕ → Fp) (j : ℕ) (a : σ × Fp × Fp)
    (m : List (Container B)) (hm : m ≠ []) :
    Traced (round1FS A n ru j (a, m)) (fun _ : Unit => round1 A n ru j a) := by
  unfold round1FS round1
  split_ifs
  · exact Traced.plain hm fun _ => Traced.done _ (append_ne hm)
  · exact Traced.plain hm fun _ => Traced.done _ (append_ne hm)

theorem round2_traced (A : ProverApi σ Fp G1 G2) (n layer : ℕ) (rv : ℕ → Fp) (relay : Fp) (j : ℕ)
    (a : σ × Fp × Fp) (m : List (Container B)) (hm : m ≠ []) :
    Traced (round2FS A n layer rv relay j (a, m)) (fun _ : Unit => round2 A n layer rv relay j a) := by
  unfold round2FS round2
  by_cases h : j + 1 = n
  · rw [if_pos h, if_pos h]
    exact Traced.plain hm fun _ => Traced.done _ (append_ne hm)
  · rw [if_neg h, if_neg h]
    exact Traced.plain hm fun _ => Traced.done _ (append_ne hm)

/-- the challenges of layer `i` -/
structure LayerCh where
  rho : Fp
  ru : ℕ → Fp
  rv : ℕ → Fp
  rc : Fp
  alpha : Fp
  beta : Fp

instance : Nonempty LayerCh := ⟨⟨0, fun _ => 0, fun _ => 0, 0, 0, 0⟩⟩

/-- put the challenges of a layer into the challenges of a run -/
def LayerCh.set (θ : LayerCh) (i : ℕ) (ch : Challenges Fp) : Challenges Fp :=
  { r0 := ch.r0, r1 := ch.r1, ru := Function.update ch.ru i θ.ru, rv := Function.update ch.rv i θ.rv,
    alpha := Function.update ch.alpha i θ.alpha, beta := Function.update ch.beta i θ.beta,
    rho := Function.update ch.rho i θ.rho, rc := Function.update ch.rc i θ.rc }

/-- constant challenges -/
def LayerCh.const (θ : LayerCh) : Challenges Fp :=
  { r0 := fun _ => 0, r1 := fun _ => 0, ru := fun _ => θ.ru, rv := fun _ => θ.rv,
    alpha := fun _ => θ.alpha, beta := fun _ => θ.beta, rho := fun _ => θ.rho, rc := fun _ => θ.rc }

/-- a layer uses only the challenges of this layer -/
theorem layerStep_congr (E : Pairing G1 G2 GT) (C : Circuit) (A : ProverApi σ Fp G1 G2) (ch ch' : Challenges Fp)
    (i : ℕ) (h1 : ch.rho i = ch'.rho i) (h2 : ch.ru i = ch'.ru i) (h3 : ch.rv i = ch'.rv i)
    (h4 : ch.rc i = ch'.rc i) (h5 : ch.alpha i = ch'.alpha i) (h6 : ch.beta i = ch'.beta i) (s : VState σ Fp) :
    layerStep E C A ch i s = layerStep E C A ch' i s := by
  unfold layerStep
  rw [h1, h2, h3, h4, h5, h6]

theorem rest_traced (hB : 0 < B) (mix : Mix) (enc : G1 → Fin B → BitVec 8) (E : Pairing G1 G2 GT) (C : Circuit)
    (A : ProverApi σ Fp G1 G2) (i : ℕ) (s : VState σ Fp) (m : List (Container B)) (hm : m ≠ []) {P P' : σ}
    {dR dM : G1 × G1} (h1 : A.sumcheckInit s.prover i (C.bl i) (C.bl (i - 1)) (C.bl (i - 1)) s.alpha s.beta s.r0 s.r1
      s.omr0 s.omr1 = .ok (P, dR)) (h2 : A.maskPreRho P (C.bl (i - 1) * 2 + 1) = .ok (P', dM))
    (rho : Fp) (ru rv : ℕ → Fp) (rc : Fp) :
    Traced (layerRestFS mix enc E C A i s
        ⟨A.maskAfterRho (A.setRho P' rho) (C.bl (i - 1) * 2 + 1), dR, dM, rho, ru, rv, rc⟩ m)
      (fun ab : Fp × Fp => layerStep E C A (LayerCh.const ⟨rho, ru, rv, rc, ab.1, ab.2⟩) i s) := by
  unfold layerRestFS layerStep
  simp only [h1, h2, Outcome.ok_bind]
  refine Traced.step (Traced.loopM (round1_traced A _ _) _ _ hm) fun ⟨P, sum, prev⟩ m hm => ?_
  refine Traced.plain hm fun P => ?_
  refine Traced.step (Traced.loopM (round2_traced A _ _ _ _) _ _ hm) fun ⟨P, sum, prev⟩ m hm => ?_
  refine Traced.plain hm fun pv => ?_
  refine Traced.plain hm fun _ => ?_
  refine Traced.plain hm fun ⟨P, o1⟩ => ?_
  refine Traced.plain hm fun v1 => ?_
  refine Traced.plain hm fun ⟨P, o2⟩ => ?_
  refine Traced.plain hm fun v2 => ?_
  refine Traced.plain hm fun _ => ?_
  refine Traced.plain hm fun ⟨P, o3⟩ => ?_
  refine Traced.plain hm fun v3 => ?_
  refine Traced.plain hm fun _ => ?_
  refine Traced.plain hm fun _ => ?_
  obtain ⟨al, m5, e5, hm5⟩ := draw_ok hB mix (msg := m ++ openingMsg enc 3 o1 ++ openingMsg enc 3 o2 ++
    openingMsg enc (C.bl (i - 1) + C.bl (i - 1) + 2) o3) (append_ne (append_ne (append_ne hm))) 1
  obtain ⟨be, m6, e6, hm6⟩ := draw_ok hB mix hm5 1
  dsimp only
  rw [e5, Outcome.ok_bind, e6, Outcome.ok_bind]
  refine Traced.reparam (fun _ : Unit => (al 0, be 0)) ?_
  exact Traced.done _ hm6

theorem layer_traced (hB : 0 < B) (mix : Mix) (enc : G1 → Fin B → BitVec 8) (E : Pairing G1 G2 GT) (C : Circuit)
    (A : ProverApi σ Fp G1 G2) (i : ℕ) (s : VState σ Fp) (m : List (Container B)) (hm : m ≠ []) :
    ∃ θ m', m' ≠ [] ∧ layerStepFS mix enc E C A i (s, m) =
        layerStep E C A (LayerCh.const θ) i s >>= (fun a => .ok (a, m')) ∧
      ∀ S m'', layerStartFS mix enc C A i s m = .ok (S, m'') → θ.ru = S.ru := by
  obtain ⟨rho, m1, e1, hm1⟩ := draw_ok hB mix hm 1
  have hno : (∀ S m'', layerStartFS mix enc C A i s m ≠ .ok (S, m'')) →
      (∀ θ, layerStepFS mix enc E C A i (s, m) = layerStep E C A (LayerCh.const θ) i s >>= (fun a => .ok (a, m))) →
      ∃ θ m', m' ≠ [] ∧ layerStepFS mix enc E C A i (s, m) =
        layerStep E C A (LayerCh.const θ) i s >>= (fun a => .ok (a, m')) ∧
      ∀ S m'', layerStartFS mix enc C A i s m = .ok (S, m'') → θ.ru = S.ru := fun h1 h2 =>
    ⟨⟨0, fun _ => 0, fun _ => 0, 0, 0, 0⟩, m, hm, h2 _, fun S m'' h => absurd h (h1 S m'')⟩
  have hstart : layerStartFS mix enc C A i s m = A.sumcheckInit s.prover i (C.bl i) (C.bl (i - 1)) (C.bl (i - 1))
      s.alpha s.beta s.r0 s.r1 s.omr0 s.omr1 >>= fun q => A.maskPreRho q.1 (C.bl (i - 1) * 2 + 1) >>= fun q' =>
        draw mix (m1 ++ points enc [q'.2.1, q'.2.2] ++ points enc [q.2.1, q.2.2]) (C.bl (i - 1)) >>= fun x =>
        draw mix x.2 (C.bl (i - 1)) >>= fun y => draw mix y.2 1 >>= fun z =>
        pure (⟨A.maskAfterRho (A.setRho q'.1 (rho 0)) (C.bl (i - 1) * 2 + 1), q.2, q'.2, rho 0, x.1, y.1, z.1 0⟩,
          z.2) := by
    unfold layerStartFS
    rw [e1, Outcome.ok_bind]
  have hstep : layerStepFS mix enc E C A i (s, m) = layerStartFS mix enc C A i s m >>= fun q =>
      layerRestFS mix enc E C A i s q.1 q.2 := rfl
  rw [hstep]
  cases h1 : A.sumcheckInit s.prover i (C.bl i) (C.bl (i - 1)) (C.bl (i - 1)) s.alpha s.beta s.r0 s.r1 s.omr0 s.omr1 with
  | ok q =>
    obtain ⟨P, dR⟩ := q
    rw [h1, Outcome.ok_bind] at hstart
    cases h2 : A.maskPreRho P (C.bl (i - 1) * 2 + 1) with
    | ok q =>
      obtain ⟨P', dM⟩ := q
      rw [h2, Outcome.ok_bind] at hstart
      obtain ⟨ru, m2, e2, hm2⟩ := draw_ok hB mix
        (msg := m1 ++ points enc [dM.1, dM.2] ++ points enc [dR.1, dR.2]) (append_ne (append_ne hm1)) (C.bl (i - 1))
      obtain ⟨rv, m3, e3, hm3⟩ := draw_ok hB mix hm2 (C.bl (i - 1))
      obtain ⟨rc, m4, e4, hm4⟩ := draw_ok hB mix hm3 1
      dsimp only at hstart
      rw [e2, Outcome.ok_bind, e3, Outcome.ok_bind, e4, Outcome.ok_bind, Outcome.pure_eq] at hstart
      rw [hstart, Outcome.ok_bind]
      obtain ⟨ab, m5, hm5, e5⟩ := rest_traced hB mix enc E C A i s m4 hm4 h1 h2 (rho 0) ru rv (rc 0)
      refine ⟨⟨rho 0, ru, rv, rc 0, ab.1, ab.2⟩, m5, hm5, e5, fun S m'' h => ?_⟩
      rw [← (Prod.mk.inj (Outcome.ok.inj h)).1]
    | _ =>
      rw [h2] at hstart
      rw [hstep] at hno
      refine hno (fun S m'' h => ?_) (fun θ => ?_)
      · rw [hstart] at h; cases h
      · rw [hstart]
        unfold layerStep
        simp only [h1, Outcome.ok_bind, h2]; rfl
  | _ =>
    rw [h1] at hstart
    rw [hstep] at hno
    refine hno (fun S m'' h => ?_) (fun θ => ?_)
    · rw [hstart] at h; cases h
    · rw [hstart]
      unfold layerStep
      simp only [h1]; rfl

theorem loopDownM_congr {α : Type} {b b' : ℕ → α → Outcome α} {n : ℕ} (h : ∀ i ≤ n, ∀ s, b i s = b' i s) (s : α) :
    loopDownM n b s = loopDownM n b' s := by
  induction n generalizing s with
  | zero => rfl
  | succ n ih =>
    rw [loopDownM_succ, loopDownM_succ, h (n + 1) le_rfl, funext (fun s => ih (fun i hi => h i (by omega)) s)]

theorem layerStep_set_ne (E : Pairing G1 G2 GT) (C : Circuit) (A : ProverApi σ Fp G1 G2) (ch : Challenges Fp)
    (θ : LayerCh) (k i : ℕ) (h : i ≠ k) (s : VState σ Fp) :
    layerStep E C A (θ.set k ch) i s = layerStep E C A ch i s := by
  have h1 : (θ.set k ch).rho i = ch.rho i := Function.update_of_ne h _ _
  have h2 : (θ.set k ch).ru i = ch.ru i := Function.update_of_ne h _ _
  have h3 : (θ.set k ch).rv i = ch.rv i := Function.update_of_ne h _ _
  have h4 : (θ.set k ch).rc i = ch.rc i := Function.update_of_ne h _ _
  have h5 : (θ.set k ch).alpha i = ch.alpha i := Function.update_of_ne h _ _
  have h6 : (θ.set k ch).beta i = ch.beta i := Function.update_of_ne h _ _
  exact layerStep_congr E C A _ _ i h1 h2 h3 h4 h5 h6 s

theorem layers_congr (E : Pairing G1 G2 GT) (C : Circuit) (A : ProverApi σ Fp G1 G2) (ch : Challenges Fp)
    (θ : LayerCh) (k n : ℕ) (h : n < k) (s : VState σ Fp) :
    loopDownM n (layerStep E C A (θ.set k ch)) s = loopDownM n (layerStep E C A ch) s :=
  loopDownM_congr (fun i hi s => layerStep_set_ne E C A ch θ k i (by omega) s) s

theorem layers_traced (hB : 0 < B) (mix : Mix) (enc : G1 → Fin B → BitVec 8) (E : Pairing G1 G2 GT) (C : Circuit)
    (A : ProverApi σ Fp G1 G2) (n : ℕ) (s : VState σ Fp) (m : List (Container B)) (hm : m ≠ []) :
    ∃ ch m', m' ≠ [] ∧ loopDownM n (layerStepFS mix enc E C A) (s, m) =
        loopDownM n (layerStep E C A ch) s >>= (fun a => .ok (a, m')) ∧
      ∀ S m'', 1 ≤ n → layerStartFS mix enc C A n s m = .ok (S, m'') → ch.ru n = S.ru := by
  induction n generalizing s m with
  | zero => exact ⟨LayerCh.const ⟨0, fun _ => 0, fun _ => 0, 0, 0, 0⟩, m, hm, rfl, fun _ _ h => by omega⟩
  | succ n ih =>
    obtain ⟨θ, m1, hm1, e, hru⟩ := layer_traced hB mix enc E C A (n + 1) s m hm
    have hθ : ∀ ch, layerStep E C A (θ.set (n + 1) ch) (n + 1) s = layerStep E C A θ.const (n + 1) s := fun ch =>
      layerStep_congr E C A _ _ (n + 1) (Function.update_self _ _ _) (Function.update_self _ _ _)
        (Function.update_self _ _ _) (Function.update_self _ _ _) (Function.update_self _ _ _)
        (Function.update_self _ _ _) s
    have hrun : ∀ ch, loopDownM (n + 1) (layerStep E C A (θ.set (n + 1) ch)) s =
        layerStep E C A θ.const (n + 1) s >>= loopDownM n (layerStep E C A ch) := by
      intro ch
      rw [loopDownM_succ, hθ, funext (layers_congr E C A ch θ (n + 1) n (by omega))]
      rfl
    have hFS : loopDownM (n + 1) (layerStepFS mix enc E C A) (s, m) =
      layerStepFS mix enc E C A (n + 1) (s, m) >>= loopDownM n (layerStepFS mix enc E C A) := rfl
    have hset : ∀ ch, (θ.set (n + 1) ch).ru (n + 1) = θ.ru := fun ch => Function.update_self _ _ _
    rw [hFS, e]
    cases hl : layerStep E C A θ.const (n + 1) s with
    | ok s1 =>
      obtain ⟨ch, m2, hm2, e2, -⟩ := ih s1 m1 hm1
      refine ⟨θ.set (n + 1) ch, m2, hm2, ?_, fun S m'' _ h => by rw [hset, hru S m'' h]⟩
      rw [hrun, hl, Outcome.ok_bind, Outcome.ok_bind, Outcome.ok_bind, e2]
    | _ =>
      refine ⟨θ.set (n + 1) θ.const, m1, hm1, ?_, fun S m'' _ h => by rw [hset, hru S m'' h]⟩
      rw [hrun, hl]; rfl

/-- The last part of the verifier, after the layers -/
theorem end_traced (enc : G1 → Fin B → BitVec 8) (E : Pairing G1 G2 GT) (C : Circuit)
    (A : ProverApi σ Fp G1 G2) (dig : InputVpd.Commitment G1) (s : VState σ Fp) (m : List (Container B)) (hm : m ≠ []) :
    ∃ m', m' ≠ [] ∧ (do
      let r : ℕ → ℕ := fun j => Gmp.toMpz (s.r0 j)
      let (p, o) ← A.proveInput s.prover r (Gmp.toMpz (A.Zu s.prover))
      let msg := m ++ openingMsg enc (C.bl 0 + 1) o
      let v ← InputVpd.verify E (A.keyInput p) (C.bl 0) r dig.digest dig.digest2
        (Gmp.toMpz (A.Zu p)) o.ans o.witness o.witnessa
      Outcome.check v
      Outcome.check (s.sum == (o.ans : Fp))
      return msg : Outcome (List (Container B))) = (do
      let r : ℕ → ℕ := fun j => Gmp.toMpz (s.r0 j)
      let (p, o) ← A.proveInput s.prover r (Gmp.toMpz (A.Zu s.prover))
      let v ← InputVpd.verify E (A.keyInput p) (C.bl 0) r dig.digest dig.digest2
        (Gmp.toMpz (A.Zu p)) o.ans o.witness o.witnessa
      Outcome.check v
      Outcome.check (s.sum == (o.ans : Fp)) : Outcome Unit) >>= fun _ => .ok m' := by
  dsimp only
  cases A.proveInput s.prover (fun j => Gmp.toMpz (s.r0 j)) (Gmp.toMpz (A.Zu s.prover)) with
  | ok q =>
    obtain ⟨p, o⟩ := q
    refine ⟨m ++ openingMsg enc (C.bl 0 + 1) o, append_ne hm, ?_⟩
    simp only [Outcome.ok_bind, bind_assoc', Outcome.pure_eq]
  | _ => exact ⟨m, hm, rfl⟩

/-- The verifier with a transcript answers like the verifier with some challenges; the point for the output and
the first challenges of the last layer are those drawn at the start. -/
theorem verifyFS_traced (hB : 0 < B) (mix : Mix) (enc : G1 → Fin B → BitVec 8) (E : Pairing G1 G2 GT) (C : Circuit)
    (A : ProverApi σ Fp G1 G2) (tables : VTables Fp) :
    ∃ ch m, m ≠ [] ∧ verifyFS mix enc E C A tables = verify E C A tables ch >>= (fun _ => .ok m) ∧
      ∀ q, startFS mix enc C A tables = .ok q → ch.r0 = q.1.1.r0 ∧
        ∀ S m', 2 ≤ C.depth → layerStartFS mix enc C A (C.depth - 1) q.1.1 q.2 = .ok (S, m') →
          ch.ru (C.depth - 1) = S.ru := by
  obtain ⟨m0, hm0⟩ : ∃ m : List (Container B), m ≠ [] := ⟨[.field U512.zero], by simp⟩
  let ch0 : Challenges Fp := LayerCh.const ⟨0, fun _ => 0, fun _ => 0, 0, 0, 0⟩
  have hstart : startFS mix enc C A tables = A.evaluate A.start >>= fun q => A.keygenAndCommit q.1 (C.bl 0) >>=
      fun q' => draw mix (points enc [q'.2.digest, q'.2.digesta] ++ points enc [q'.2.digest2, q'.2.digest2a])
        (C.bl (C.depth - 1)) >>= fun x => draw mix x.2 (C.bl (C.depth - 1)) >>= fun y =>
        pure ((⟨q'.1, 1, 0, 1 * A.vRes q'.1 (oneMinus x.1) x.1 q.2 (C.bl (C.depth - 1)) (2 ^ C.bl (C.depth - 1)),
          x.1, y.1, oneMinus x.1, oneMinus y.1, tables⟩, q'.2), y.2) := rfl
  have hFS : verifyFS mix enc E C A tables = startFS mix enc C A tables >>= fun q =>
      loopDownM (C.depth - 1) (layerStepFS mix enc E C A) (q.1.1, q.2) >>= fun t => (do
      let r : ℕ → ℕ := fun j => Gmp.toMpz (t.1.r0 j)
      let (p, o) ← A.proveInput t.1.prover r (Gmp.toMpz (A.Zu t.1.prover))
      let msg := t.2 ++ openingMsg enc (C.bl 0 + 1) o
      let v ← InputVpd.verify E (A.keyInput p) (C.bl 0) r q.1.2.digest q.1.2.digest2
        (Gmp.toMpz (A.Zu p)) o.ans o.witness o.witnessa
      Outcome.check v
      Outcome.check (t.1.sum == (o.ans : Fp))
      return msg) := rfl
  have hV : ∀ ch, verify E C A tables ch = A.evaluate A.start >>= fun q => A.keygenAndCommit q.1 (C.bl 0) >>=
      fun q' => loopDownM (C.depth - 1) (layerStep E C A ch) ⟨q'.1, 1, 0, 1 * A.vRes q'.1 (oneMinus ch.r0) ch.r0 q.2
        (C.bl (C.depth - 1)) (2 ^ C.bl (C.depth - 1)), ch.r0, ch.r1, oneMinus ch.r0, oneMinus ch.r1, tables⟩ >>=
      fun t => (do
      let r : ℕ → ℕ := fun j => Gmp.toMpz (t.r0 j)
      let (p, o) ← A.proveInput t.prover r (Gmp.toMpz (A.Zu t.prover))
      let v ← InputVpd.verify E (A.keyInput p) (C.bl 0) r q'.2.digest q'.2.digest2
        (Gmp.toMpz (A.Zu p)) o.ans o.witness o.witnessa
      Outcome.check v
      Outcome.check (t.sum == (o.ans : Fp))) := fun _ => rfl
  cases h1 : A.evaluate A.start with
  | ok q =>
    obtain ⟨P, result⟩ := q
    rw [h1, Outcome.ok_bind] at hstart
    cases h2 : A.keygenAndCommit P (C.bl 0) with
    | ok q =>
      obtain ⟨P', dig⟩ := q
      dsimp only at hstart
      rw [h2, Outcome.ok_bind] at hstart
      have hne : points (B := B) enc [dig.digest, dig.digesta] ++ points enc [dig.digest2, dig.digest2a] ≠ [] := by
        simp [points]
      obtain ⟨r0, m1, e1, hm1⟩ := draw_ok hB mix hne (C.bl (C.depth - 1))
      obtain ⟨r1, m2, e2, hm2⟩ := draw_ok hB mix hm1 (C.bl (C.depth - 1))
      dsimp only at hstart
      rw [e1, Outcome.ok_bind, e2, Outcome.ok_bind, Outcome.pure_eq] at hstart
      rw [hFS, hstart, Outcome.ok_bind]
      dsimp only
      generalize hVV : (⟨P', 1, 0, 1 * A.vRes P' (oneMinus r0) r0 result (C.bl (C.depth - 1)) (2 ^ C.bl (C.depth - 1)),
        r0, r1, oneMinus r0, oneMinus r1, tables⟩ : VState σ Fp) = V
      obtain ⟨ch, m3, hm3, e3, hru⟩ := layers_traced hB mix enc E C A (C.depth - 1) V m2 hm2
      have hl : ∀ n s, loopDownM n (layerStep E C A { ch with r0 := r0, r1 := r1 }) s =
          loopDownM n (layerStep E C A ch) s := fun n s =>
        loopDownM_congr (n := n) (fun j _ s => layerStep_congr E C A _ _ j rfl rfl rfl rfl rfl rfl s) s
      have hfin : ∀ q, (Outcome.ok ((V, dig), m2) : Outcome _) = .ok q → r0 = q.1.1.r0 ∧
        ∀ S m', 2 ≤ C.depth → layerStartFS mix enc C A (C.depth - 1) q.1.1 q.2 = .ok (S, m') →
          ch.ru (C.depth - 1) = S.ru := by
        intro q hq
        cases Outcome.ok.inj hq
        exact ⟨by rw [← hVV], fun S m' h2 h => hru S m' (by omega) h⟩
      have hv := hV { ch with r0 := r0, r1 := r1 }
      dsimp only at hv
      rw [h1, Outcome.ok_bind] at hv
      dsimp only at hv
      rw [h2, Outcome.ok_bind] at hv
      dsimp only at hv
      rw [hVV, hl] at hv
      rw [e3]
      cases h3 : loopDownM (C.depth - 1) (layerStep E C A ch) V with
      | ok t =>
        rw [h3, Outcome.ok_bind] at hv
        obtain ⟨m4, hm4, e4⟩ := end_traced enc E C A dig t m3 hm3
        exact ⟨{ ch with r0 := r0, r1 := r1 }, m4, hm4, by rw [hv]; exact e4, hfin⟩
      | _ =>
        rw [h3] at hv
        exact ⟨{ ch with r0 := r0, r1 := r1 }, m3, hm3, by rw [hv]; rfl, hfin⟩
    | _ =>
      dsimp only at hstart
      rw [h2] at hstart
      refine ⟨ch0, m0, hm0, ?_, fun q hq => by rw [hstart] at hq; cases hq⟩
      rw [hFS, hstart, hV, h1, Outcome.ok_bind]
      dsimp only
      rw [h2]; rfl
  | _ =>
    rw [h1] at hstart
    refine ⟨ch0, m0, hm0, ?_, fun q hq => by rw [hstart] at hq; cases hq⟩
    rw [hFS, hstart, hV, h1]; rfl

end Libra.Zk
