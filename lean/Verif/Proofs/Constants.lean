import Verif.Proofs.FastTrackComplete

/-!
# Constants above the input layers
-/

namespace Libra.FastTrack
open Libra Spec Finset
variable {F : Type} [CommRing F]

/-- a constant becomes a dummy -/
def dropConst (g : Gate) : Gate := if g.ty = 3 then ⟨2, 0, 0⟩ else g

/-- the circuit without the constants of layer `i` -/
def noConst (C : Circuit) (i : ℕ) : Circuit :=
  ⟨C.layers.modify i (fun L => { L with gates := L.gates.map (Option.map dropConst) })⟩

theorem noConst_depth (C : Circuit) (i : ℕ) : (noConst C i).depth = C.depth := by
  simp [noConst, Circuit.depth]

theorem noConst_layer_ne (C : Circuit) {i j : ℕ} (h : i ≠ j) : (noConst C i).layer j = C.layer j := by
  simp [noConst, Circuit.layer, List.getElem?_modify, h]

theorem noConst_layer (C : Circuit) (i : ℕ) : (noConst C i).layer i =
    { C.layer i with gates := (C.layer i).gates.map (Option.map dropConst) } := by
  simp only [noConst, Circuit.layer, List.getElem?_modify]
  cases C.layers[i]? <;> simp

theorem noConst_bl (C : Circuit) (i j : ℕ) : (noConst C i).bl j = C.bl j := by
  by_cases h : i = j
  · subst h; rw [Circuit.bl, noConst_layer]; rfl
  · rw [Circuit.bl, noConst_layer_ne C h]; rfl

theorem noConst_gate (C : Circuit) (i g : ℕ) : (noConst C i).gate i g = dropConst (C.gate i g) := by
  rw [Circuit.gate, noConst_layer, Circuit.gate, Layer.gate, Layer.gate]
  simp only [List.getElem?_map]
  cases (C.layer i).gates[g]? with
  | none => rfl
  | some o => cases o <;> rfl

theorem noConst_value_lt (C : Circuit) {i j : ℕ} (h : j < i) (g : ℕ) :
    (value (noConst C i) j g : F) = value C j g := by
  induction j generalizing g with
  | zero => simp only [value, Circuit.gate, noConst_layer_ne C (show i ≠ 0 by omega)]
  | succ j ih =>
    simp only [value, Circuit.gate, noConst_layer_ne C (show i ≠ j + 1 by omega)]
    congr 1
    funext k
    exact ih (by omega) _

/-- the constants of layer `i` -/
def constPart (C : Circuit) (i g : ℕ) : F :=
  if (C.gate i g).ty = 3 then ((C.gate i g).u : F) else 0

theorem noConst_value (C : Circuit) (i g : ℕ) (hi : i ≠ 0) :
    (value C i g : F) = value (noConst C i) i g + constPart C i g := by
  obtain ⟨k, rfl⟩ : ∃ k, i = k + 1 := ⟨i - 1, by omega⟩
  simp only [value, noConst_gate, constPart]
  have hv : (fun w : ℤ => (value (noConst C (k + 1)) k w.toNat : F)) = fun w => value C k w.toNat :=
    funext fun w => noConst_value_lt C (by omega) _
  rw [hv]
  by_cases h3 : (C.gate (k + 1) g).ty = 3
  · simp [dropConst, h3, gateValue]
  · simp [dropConst, h3]

theorem noConst_phase1Init (C : Circuit) (P : Prover F) :
    P.phase1Init .fastTrack (noConst C P.layerId) = P.phase1Init .fastTrack C := by
  unfold Prover.phase1Init
  simp only [noConst_bl, noConst_gate]
  congr 1
  congr 1
  funext i T
  by_cases h : (C.gate P.layerId i).ty = 3
  · simp [dropConst, h, phase1Gate]
  · simp [dropConst, h]

theorem mle_add_table (n : ℕ) (V W : ℕ → F) (r : ℕ → F) :
    mle n (fun g => V g + W g) r = mle n V r + mle n W r := by
  simp only [mle, mul_add, sum_add_distrib]

variable [DecidableEq F]

/-- a wrong claim is noticed by the check of the first round -/
theorem rounds1_reject {σ : Type} {A : ProverApi σ F} {r : ℕ → F} {n : ℕ} {p : σ} {c c' : F}
    {t : σ × F × F} (hn : 1 ≤ n) (hok : loopM n (round1 A r) (p, c, 0) = .ok t) (hne : c' ≠ c) :
    loopM n (round1 A r) (p, c', 0) = .reject := by
  have h1 : ∃ t1, round1 A r 0 (p, c, 0) = .ok t1 := by
    have : ∀ k, ∀ t, loopM (k + 1) (round1 A r) (p, c, 0) = .ok t →
        ∃ t1, round1 A r 0 (p, c, 0) = .ok t1 := by
      intro k
      induction k with
      | zero => intro t h; exact ⟨t, h⟩
      | succ k ih =>
        intro t h
        rw [loopM_succ] at h
        obtain ⟨s, e, -⟩ := Outcome.bind_eq_ok h
        exact ih s e
    obtain ⟨m, rfl⟩ : ∃ m, n = m + 1 := ⟨n - 1, by omega⟩
    exact this m t hok
  obtain ⟨t1, h1⟩ := h1
  have hsum : (A.phase1Update p 0 0).2.eval 0 + (A.phase1Update p 0 0).2.eval 1 = c := by
    rw [round1] at h1
    obtain ⟨_, e, -⟩ := Outcome.bind_eq_ok' h1
    simpa using Outcome.check_ok_iff.1 e
  have hrej : round1 A r 0 (p, c', 0) = .reject := by
    rw [round1]
    simp only []
    have : ((A.phase1Update p 0 0).2.eval 0 + (A.phase1Update p 0 0).2.eval 1 == c') = false := by
      rw [hsum]; simpa using fun h => hne h.symm
    rw [this]; rfl
  obtain ⟨m, rfl⟩ : ∃ m, n = m + 1 := ⟨n - 1, by omega⟩
  clear hn hok
  induction m with
  | zero => exact hrej
  | succ m ih => rw [loopM_succ, ih]; rfl

/-- The circuit can be evaluated and its last layer is a gate layer above layer 1 with constants (and no
direct relays). If the extension of these constants at the first challenge point is not zero,
the honest prover is rejected. -/
theorem const_reject {C : Circuit} (hev : Evaluable false C) (hd : 3 ≤ C.depth)
    (hv0 : ∀ g < 2 ^ C.bl (C.depth - 1), (C.gate (C.depth - 1) g).ty = 6 ∨
      (C.gate (C.depth - 1) g).ty = 10 → (C.gate (C.depth - 1) g).v = 0)
    (hno4 : ∀ g < 2 ^ C.bl (C.depth - 1), (C.gate (C.depth - 1) g).ty ≠ 4)
    (hbl : 1 ≤ C.bl (C.depth - 2)) (fixed : Bool) (junk : Prover F) (tables : BetaTables F)
    (ch : Challenges F)
    (hc : mle (C.bl (C.depth - 1)) (constPart C (C.depth - 1)) ch.r0 ≠ 0) :
    verifyWith fixed C (honest C junk) tables ch = .reject := by
  set i := C.depth - 1 with hi
  set C' := noConst C i with hC'
  have hbl' : ∀ j, C'.bl j = C.bl j := noConst_bl C i
  have hl : LayerOk false C' i := by
    have hg : ∀ g < 2 ^ C.bl i, GateOk false (C.bl (i - 1)) (C.gate i g) := by
      have := hev.gates (i - 1) (by omega)
      rwa [show i - 1 + 1 = i by omega] at this
    refine ⟨?_, ?_, ?_, fun h => by omega, ?_⟩
    · intro g hgl
      rw [hbl'] at hgl ⊢
      rw [hC', noConst_gate]
      unfold dropConst
      split_ifs
      · right; left; rfl
      · exact hg g hgl
    · intro g hgl
      rw [hbl'] at hgl
      rw [hC', noConst_gate]
      unfold dropConst
      split_ifs
      · intro _; rfl
      · exact hv0 g hgl
    · intro g hgl
      rw [hC', noConst_gate]
      unfold dropConst
      split_ifs with h
      · norm_num
      · exact h
    · intro _ g hgl
      rw [hbl'] at hgl
      rw [hC', noConst_gate]
      unfold dropConst
      split_ifs
      · norm_num
      · exact hno4 g hgl
  have hevo := evaluate_ok (F := F) (var := .fastTrack) (C := C) (by simpa using hev)
  rw [verifyWith]
  have he : (honest C junk).evaluate (honest C junk).start =
      .ok ({ junk with circuitValue := valueFn (allValues C C.depth) },
        valueFn (allValues C C.depth) (C.depth - 1)) := by
    simp [honest, hevo]
  rw [he, Outcome.ok_bind]
  dsimp only
  have hv := fun {i j} (hi : i < C.depth) (hj : j < 2 ^ C.bl i) =>
    valueFn_allValues (F := F) C hi hj
  rw [← hi]
  set s0 : VState (Prover F) F :=
    { prover := { junk with circuitValue := valueFn (allValues C C.depth) }, alpha := 1, beta := 0,
      sum := 1 * (honest C junk).vRes { junk with circuitValue := valueFn (allValues C C.depth) }
        (oneMinus ch.r0) ch.r0 (valueFn (allValues C C.depth) i) (C.bl i)
        (2 ^ C.bl i),
      r0 := ch.r0, r1 := ch.r1, omr0 := oneMinus ch.r0, omr1 := oneMinus ch.r1,
      tables := tables } with hs0
  have hsum : s0.sum = mle (C.bl i) (value C i) ch.r0 := by
    change 1 * foldOutput (oneMinus ch.r0) ch.r0 _ _ _ = _
    rw [foldOutput_spec (oneMinus ch.r0) _ _ _ (fun _ _ => rfl), one_mul]
    exact mle_congr (fun g hg => hv (by omega) hg) (fun _ _ => rfl)
  set n := C.bl (i - 1) with hn
  set P : Prover F := s0.prover.sumcheckInit i (C.bl i) n n 1 0 ch.r0 ch.r1 (oneMinus ch.r0)
    (oneMinus ch.r1) with hP
  -- a prover whose values are those of the circuit without constants
  have hval : ∀ j < i, ∀ g < 2 ^ C.bl j, P.circuitValue j g = value C' j g := by
    intro j hj g hg
    rw [hC', noConst_value_lt C hj]
    exact hv (by omega) hg
  set P' : Prover F := { P with
    circuitValue := fun j g => if j = i then (Spec.value C' i g) else P.circuitValue j g } with hP'
  have hr : Ready C' i P' := by
    refine ⟨?_, rfl, (hbl' _).symm, (hbl' _).symm, fun _ _ => rfl, fun _ _ => rfl⟩
    intro j hj _ g hg
    rw [hC', noConst_depth] at hj
    rw [hbl'] at hg
    by_cases hji : j = i
    · subst hji; simp [hP']
    · simp only [hP', hji, if_false]
      exact hval j (by omega) g hg
  have hs := phase1_start (var := .fastTrack) (by omega) hr (by rw [hC', noConst_depth]; omega) hl
  obtain ⟨ht, hV, -, -⟩ := phase1_ready (var := .fastTrack) hr hl
  -- the tables are those of the real prover
  have htabs : (P'.phase1Init .fastTrack C').tabs = (P.phase1Init .fastTrack C).tabs ∧
      (P'.phase1Init .fastTrack C').totalUv = (P.phase1Init .fastTrack C).totalUv := by
    have e : P'.phase1Init .fastTrack C' = P'.phase1Init .fastTrack C := noConst_phase1Init C P'
    rw [e]
    have hlay : P'.circuitValue (P'.layerId - 1) = P.circuitValue (P.layerId - 1) := by
      funext g
      change (if i - 1 = i then _ else _) = _
      rw [if_neg (by omega)]
    unfold Prover.phase1Init
    rw [hlay]
    exact ⟨rfl, rfl⟩
  have hcv : P'.circuitValue (i - 1) = P.circuitValue (i - 1) := by
    funext g
    change (if i - 1 = i then _ else _) = _
    rw [if_neg (by omega)]
  simp only [hbl'] at hs ht hV
  rw [htabs.2] at ht
  rw [htabs.1, hcv] at hV
  have hA : tabA (P'.phase1Init .fastTrack C') = tabA (P.phase1Init .fastTrack C) := by
    unfold tabA; rw [htabs.1]
  have hB : tabB (P'.phase1Init .fastTrack C') = tabB (P.phase1Init .fastTrack C) := by
    unfold tabB; rw [htabs.1]
  rw [hA, hB, hcv] at hs
  have hok := rounds1 C junk ht hV (ch.ru i) (C.bl (i - 1)) le_rfl
  rw [hs] at hok
  have hclaim : s0.sum ≠ P'.alpha * mle (C.bl i) (value C' i) P'.r0
      + P'.beta * mle (C.bl i) (value C' i) P'.r1 := by
    rw [hsum]
    change _ ≠ 1 * mle (C.bl i) (value C' i) ch.r0 + 0 * _
    have e : mle (C.bl i) (value C i) ch.r0 = mle (C.bl i) (value C' i) ch.r0 +
        mle (C.bl i) (constPart C i) ch.r0 := by
      rw [← mle_add_table]
      exact mle_congr (fun g _ => noConst_value C i g (by omega)) (fun _ _ => rfl)
    rw [e, one_mul, zero_mul, add_zero]
    intro h
    exact hc (by simpa using h)
  have hrej := rounds1_reject (by rw [show i - 1 = C.depth - 2 by omega]; exact hbl) hok hclaim
  obtain ⟨m, hm⟩ : ∃ m, i = m + 1 := ⟨i - 1, by omega⟩
  have hstep : layerStep fixed C (honest C junk) ch i s0 = .reject := by
    rw [layerStep]
    change (loopM n (round1 (honest C junk) (ch.ru i)) (P.phase1Init .fastTrack C, s0.sum, 0) >>= _) = _
    rw [hrej]; rfl
  have : loopDownM i (layerStep fixed C (honest C junk) ch) s0 = .reject := by
    rw [hm] at hstep ⊢
    rw [loopDownM_succ, hstep]; rfl
  rw [this]; rfl

end Libra.FastTrack
