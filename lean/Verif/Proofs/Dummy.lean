import Verif.Proofs.Attack

/-!
# Dummy inputs with a non-zero operand
-/

namespace Libra.FastTrack
open Libra Spec Finset
variable {F : Type} [CommRing F]

/-- the circuit in which dummy inputs are inputs -/
def constify (C : Circuit) : Circuit :=
  match C.layers with
  | [] => ⟨[]⟩
  | L :: Ls => ⟨{ L with gates := L.gates.map (Option.map (fun g => ⟨3, g.u, g.v⟩)) } :: Ls⟩

theorem constify_layer (C : Circuit) (i : ℕ) (h : i ≠ 0) : (constify C).layer i = C.layer i := by
  obtain ⟨Ls⟩ := C
  cases Ls with
  | nil => rfl
  | cons L Ls =>
    obtain ⟨j, rfl⟩ : ∃ j, i = j + 1 := ⟨i - 1, by omega⟩
    rfl

theorem constify_bl (C : Circuit) (i : ℕ) : (constify C).bl i = C.bl i := by
  obtain ⟨Ls⟩ := C
  cases Ls with
  | nil => rfl
  | cons L Ls => cases i <;> rfl

theorem constify_same (C : Circuit) : SameGates C (constify C) where
  depth := by
    obtain ⟨Ls⟩ := C
    cases Ls <;> rfl
  bl i := (constify_bl C i).symm
  gate i hi g := by rw [Circuit.gate, Circuit.gate, constify_layer C i hi]

theorem constify_evaluate (C : Circuit)
    (hin : ∀ x, some x ∈ (C.layer 0).gates → x.ty = 3 ∨ x.ty = 2) :
    (evaluate .fastTrack C : Outcome (List (List F))) = evaluate .fastTrack (constify C) := by
  obtain ⟨Ls⟩ := C
  cases Ls with
  | nil => rfl
  | cons L Ls =>
    have hin : ∀ x, some x ∈ L.gates → x.ty = 3 ∨ x.ty = 2 := hin
    unfold evaluate
    have hd : (constify ⟨L :: Ls⟩).depth = Circuit.depth ⟨L :: Ls⟩ := rfl
    rw [hd]
    have he : evalInput (F := F) { L with gates := L.gates.map (Option.map (fun g => ⟨3, g.u, g.v⟩)) }
        = evalInput L := by
      unfold evalInput evalLayer
      congr 1
      funext j vals
      simp only [Layer.readGate, List.getElem?_map]
      cases hj : L.gates[j]? with
      | none => rfl
      | some o =>
        cases o with
        | none => rfl
        | some x =>
          have hm : some x ∈ L.gates := List.mem_of_getElem? hj
          rcases hin x hm with h | h <;> simp [h]
    have e1 : (Outcome.read ((⟨L :: Ls⟩ : Circuit).layers[0]?)) = .ok L := rfl
    have e2 : (Outcome.read ((constify ⟨L :: Ls⟩).layers[0]?)) =
      .ok { L with gates := L.gates.map (Option.map (fun g => ⟨3, g.u, g.v⟩)) } := rfl
    rw [e1, e2, Outcome.ok_bind, Outcome.ok_bind, he]
    rfl

variable [DecidableEq F]

/-- in the layers above the inputs, the honest provers of the two circuits act alike -/
theorem honest_layer_congr {C C' : Circuit} (h : SameGates C C') (fixed : Bool) (junk : Prover F)
    (ch : Challenges F) {i : ℕ} (hi : 1 ≤ i) (s : VState (Prover F) F) :
    layerStep fixed C (honest C junk) ch i s = layerStep fixed C' (honest C' junk) ch i s := by
  rw [layerStep_congr h fixed _ ch hi]
  have e1 : C.bl = C'.bl := funext h.bl
  have e2 : C.gate i = C'.gate i := funext (h.gate i (by omega))
  set n := C'.bl (i - 1)
  set p := ((honest C' junk).phase1Init ((honest C' junk).sumcheckInit s.prover i (C'.bl i) n n
    s.alpha s.beta s.r0 s.r1 s.omr0 s.omr1)) with hp
  have hp' : ((honest C junk).phase1Init ((honest C junk).sumcheckInit s.prover i (C'.bl i) n n
    s.alpha s.beta s.r0 s.r1 s.omr0 s.omr1)) = p := by
    simp only [hp, honest, Prover.phase1Init, Prover.sumcheckInit, e1, e2]
  rw [layerStep, layerStep]
  simp only
  rw [hp']
  change (loopM n (round1 (honest C' junk) (ch.ru i)) (p, s.sum, 0) >>= _) =
    (loopM n (round1 (honest C' junk) (ch.ru i)) (p, s.sum, 0) >>= _)
  cases e : loopM n (round1 (honest C' junk) (ch.ru i)) (p, s.sum, 0) with
  | ok t =>
    have ht : t.1.layerId = i := by
      refine loopM_eq_ok e (fun _ s => s.1.layerId = i) rfl (fun j _ s s' hs hs' => ?_)
      rw [round1] at hs'
      obtain ⟨_, _, h2⟩ := Outcome.bind_eq_ok' hs'
      cases h2
      exact hs
    rw [Outcome.ok_bind, Outcome.ok_bind]
    obtain ⟨t1, t2, t3⟩ := t
    dsimp only at ht ⊢
    have e3 : (honest C junk).phase2Init t1 t3 (ch.ru i) (oneMinus (ch.ru i)) =
        (honest C' junk).phase2Init t1 t3 (ch.ru i) (oneMinus (ch.ru i)) := by
      simp only [honest, Prover.phase2Init, Prover.phase2Tables, ht, e1, e2]
    rw [e3]
    rfl
  | _ => rfl

theorem layerStep_r0 {σ : Type} {C : Circuit} {fixed : Bool} {A : ProverApi σ F} {ch : Challenges F}
    {i : ℕ} {s s' : VState σ F} (h : layerStep fixed C A ch i s = .ok s') : s'.r0 = ch.ru i := by
  unfold layerStep at h
  obtain ⟨_, -, h⟩ := Outcome.bind_eq_ok' h
  obtain ⟨_, -, h⟩ := Outcome.bind_eq_ok' h
  obtain ⟨_, -, h⟩ := Outcome.bind_eq_ok' h
  obtain ⟨_, -, h⟩ := Outcome.bind_eq_ok' h
  obtain ⟨_, -, h⟩ := Outcome.bind_eq_ok' h
  obtain ⟨_, -, h⟩ := Outcome.bind_eq_ok' h
  cases h; rfl

/-- the operands of the dummy inputs -/
def dummyOperand (C : Circuit) (g : ℕ) : F :=
  if (C.gate 0 g).ty = 2 then (inputNumber (C.gate 0 g).u : F) else 0

theorem constify_gate {C : Circuit} {g : ℕ} {x : Gate} (h : (C.layer 0).gates[g]? = some (some x)) :
    (constify C).gate 0 g = ⟨3, x.u, x.v⟩ := by
  obtain ⟨Ls⟩ := C
  cases Ls with
  | nil => simp [Circuit.layer] at h
  | cons L Ls =>
    have h : L.gates[g]? = some (some x) := h
    change Layer.gate { L with gates := L.gates.map (Option.map (fun g => ⟨3, g.u, g.v⟩)) } g = _
    simp [Layer.gate, h]

theorem dummy_run {C : Circuit} (hwf : WellFormed false (constify C))
    (hin : ∀ g < 2 ^ C.bl 0, ∃ x, (C.layer 0).gates[g]? = some (some x) ∧ (x.ty = 3 ∨ x.ty = 2))
    (hall : ∀ x, some x ∈ (C.layer 0).gates → x.ty = 3 ∨ x.ty = 2)
    (fixed : Bool) (junk : Prover F) (tables : BetaTables F) (ch : Challenges F) :
    verifyWith fixed C (honest C junk) tables ch =
      Outcome.check (mle (C.bl 0) (value (constify C) 0) (ch.ru 1) ==
        mle (C.bl 0) (value C 0) (ch.ru 1)) := by
  set C' := constify C with hC'
  have hsame : SameGates C C' := constify_same C
  have hev := evaluate_ok (F := F) (var := .fastTrack) (C := C') (by simpa using hwf.toEvaluable)
  have hd := hwf.deep
  have hdep := hsame.depth
  rw [verifyWith]
  have he : (honest C junk).evaluate (honest C junk).start =
      .ok ({ junk with circuitValue := valueFn (allValues C' C'.depth) },
        valueFn (allValues C' C'.depth) (C'.depth - 1)) := by
    simp only [honest]
    rw [constify_evaluate C hall, hev, hdep]
    rfl
  rw [he, Outcome.ok_bind]
  dsimp only
  have hv := fun {i j} (hi : i < C'.depth) (hj : j < 2 ^ C'.bl i) =>
    valueFn_allValues (F := F) C' hi hj
  set s0 : VState (Prover F) F :=
    { prover := { junk with circuitValue := valueFn (allValues C' C'.depth) }, alpha := 1, beta := 0,
      sum := 1 * (honest C junk).vRes { junk with circuitValue := valueFn (allValues C' C'.depth) }
        (oneMinus ch.r0) ch.r0 (valueFn (allValues C' C'.depth) (C'.depth - 1)) (C.bl (C.depth - 1))
        (2 ^ C.bl (C.depth - 1)),
      r0 := ch.r0, r1 := ch.r1, omr0 := oneMinus ch.r0, omr1 := oneMinus ch.r1,
      tables := tables } with hs0
  have hinv : LayerInv C' (C'.depth - 1) s0 := by
    refine ⟨fun j hj _ g hg => hv hj hg, fun _ _ => rfl, fun _ _ _ => rfl, ?_⟩
    rw [if_neg (by omega)]
    change 1 * foldOutput (oneMinus ch.r0) ch.r0 _ _ _ = 1 * mle _ _ _ + 0 * _
    rw [foldOutput_spec (oneMinus ch.r0) _ _ _ (fun _ _ => rfl), zero_mul, add_zero, hdep, hsame.bl]
    congr 1
    exact mle_congr (fun g hg => hv (by omega) hg) (fun _ _ => rfl)
  obtain ⟨s1, e1, hs1⟩ := loopDownM_ok (b := fun i => layerStep fixed C (honest C junk) ch (i + 1))
    (n := C'.depth - 2) (s := s0)
    (fun i s => LayerInv C' (i + 1) s)
    (by rw [show C'.depth - 2 + 1 = C'.depth - 1 by omega]; exact hinv)
    (fun i hi hn s hs => by
      rw [honest_layer_congr hsame _ _ _ (by omega)]
      have := honest_layer hwf fixed junk ch (i := i + 1) (by omega) (by omega) hs
      rwa [show i + 1 - 1 = i - 1 + 1 by omega] at this)
  obtain ⟨s2, e2, h2⟩ := honest_layer hwf fixed junk ch (i := 1) le_rfl (by omega) hs1
  have hr0 := layerStep_r0 e2
  rw [← honest_layer_congr hsame fixed junk ch le_rfl] at e2
  obtain ⟨T, hT, hTv⟩ : ∃ T : ℕ → F, verifierInput C = .ok T ∧
      ∀ g < 2 ^ C.bl 0, T g = value C 0 g := by
    have : verifierInput C = .ok (loop (2 ^ C.bl 0) (fun g T =>
        Function.update T g (value C 0 g : F)) (fun _ => 0)) := by
      refine loopM_pure (fun g hg T => ?_)
      obtain ⟨x, hx, ht⟩ := hin g hg
      have hgate : C.gate 0 g = x := by simp [Circuit.gate, Layer.gate, hx]
      have hxr : -2 ^ 31 ≤ x.u ∧ x.u < 2 ^ 31 := by
        have := hwf.inputs g (by rw [constify_bl]; exact hg)
        rw [constify_gate hx] at this
        simpa using this
      rcases ht with a | a
      · simp [hgate, a, value, inputValue, ofCInt_input hxr.1 hxr.2]
      · simp [hgate, a, value, inputValue]
    exact ⟨_, this, fun g hg => by rw [loop_write, if_pos hg]⟩
  rw [hdep, loopDownM_split (by omega), show C'.depth - 1 - 1 = C'.depth - 2 by omega]
  have h20 := h2.om0
  have h2s := h2.sum
  simp only [Nat.sub_self, if_true] at h20 h2s
  have hb : C'.bl 0 = C.bl 0 := constify_bl C 0
  rw [hb] at h20 h2s
  rw [e1, Outcome.bind_ok, e2, Outcome.ok_bind, hT, Outcome.ok_bind,
    foldOutput_spec _ _ _ _ h20, h2s, mle_congr hTv (fun _ _ => rfl), hr0]

/-- the honest prover is accepted exactly when the extension of the dummy operands vanishes -/
theorem dummy_iff {C : Circuit} (hwf : WellFormed false (constify C))
    (hin : ∀ g < 2 ^ C.bl 0, ∃ x, (C.layer 0).gates[g]? = some (some x) ∧ (x.ty = 3 ∨ x.ty = 2))
    (hall : ∀ x, some x ∈ (C.layer 0).gates → x.ty = 3 ∨ x.ty = 2)
    (fixed : Bool) (junk : Prover F) (tables : BetaTables F) (ch : Challenges F) :
    verifyWith fixed C (honest C junk) tables ch = .ok () ↔
      mle (C.bl 0) (dummyOperand C) (ch.ru 1) = 0 := by
  rw [dummy_run hwf hin hall, Outcome.check_ok_iff, beq_iff_eq, ← sub_eq_zero]
  have : mle (C.bl 0) (value (constify C) 0) (ch.ru 1) - mle (C.bl 0) (value C 0) (ch.ru 1)
      = mle (C.bl 0) (dummyOperand C : ℕ → F) (ch.ru 1) := by
    unfold mle
    rw [← Finset.sum_sub_distrib]
    refine Finset.sum_congr rfl (fun g hg => ?_)
    rw [← mul_sub]
    congr 1
    obtain ⟨x, hx, ht⟩ := hin g (by simpa using hg)
    have hgate : C.gate 0 g = x := by simp [Circuit.gate, Layer.gate, hx]
    rcases ht with h | h <;> simp [value, inputValue, dummyOperand, constify_gate hx, hgate, h]
  rw [this]

end Libra.FastTrack
