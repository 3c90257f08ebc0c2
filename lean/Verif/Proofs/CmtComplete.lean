import Verif.Proofs.Cmt

/-!
# Completeness of the traditional protocol
-/

namespace Libra.Cmt
open Libra Spec Finset FastTrack
variable {F : Type} [CommRing F]

/-! ## evaluation -/

theorem evaluate_ok {C : Circuit} (h : AddMult C) :
    evaluate C = .ok (allValues C C.depth : List (List F)) := by
  have hin : evalInput (C.layer 0) = .ok (block (2 ^ C.bl 0) (value C 0 : ℕ → F)) := by
    refine evalLayer_ok _ (fun j hj => ⟨C.gate 0 j, (h.full 0 h.nonempty).2 j hj, ?_⟩)
    rcases h.inputs j hj with ⟨h1, h2, h3⟩ | ⟨h1, h2⟩
    · simp [h1, value, inputValue, ofCInt_input h2 h3]
    · simp [h1, value, inputValue, h2, ofCInt]
  unfold evaluate
  rw [layer_eq C h.nonempty]
  simp only [Outcome.read_some, Outcome.ok_bind, hin, h.shallow, decide_true, Outcome.assert_true]
  obtain ⟨s, hs, e⟩ := loopM_ok (n := C.depth - 1) (s := [block (2 ^ C.bl 0) (value C 0 : ℕ → F)])
    (b := fun k vals => do
      let L ← Outcome.read (C.layers[k + 1]?)
      let prev ← Outcome.read (vals[k]?)
      let v ← if k + 1 < 1000 then evalLayer L (evalGate prev) else .undefined
      return vals ++ [v])
    (fun i vals => vals = allValues C (i + 1)) rfl (by
      rintro i hi vals rfl
      refine ⟨_, ?_, (block_succ (i + 1) _).symm⟩
      rw [layer_eq C (i := i + 1) (by omega), allValues, block_getElem? _ _ _ (by omega)]
      have : evalLayer (C.layer (i + 1)) (evalGate (block (2 ^ C.bl i) (value C i)))
          = .ok (block (2 ^ C.bl (i + 1)) (value C (i + 1) : ℕ → F)) := by
        refine evalLayer_ok _ (fun j hj => ⟨C.gate (i + 1) j, (h.full _ (by omega)).2 j hj, ?_⟩)
        have e : evalGate (block (2 ^ C.bl i) (value C i : ℕ → F)) (C.gate (i + 1) j) =
            Libra.evalGate .fastTrack (block (2 ^ C.bl i) (value C i)) (C.gate (i + 1) j) := by
          rcases h.types i (by omega) j hj with ht | ht | ht <;>
            simp [evalGate, Libra.evalGate, ht]
        rw [e]
        exact evalGate_ok (var := .fastTrack) _ (by simpa using h.gates i (by omega) j hj)
      have h1000 : i + 1 < 1000 := by have := h.small; omega
      simp only [Outcome.read_some, Outcome.ok_bind, if_pos h1000, this]
      rfl)
  rw [hs, e, Nat.sub_add_cancel h.nonempty]

/-! ## one layer -/

/-- the gates of a layer as functions -/
def tyOf (C : Circuit) (i g : ℕ) : ℤ := (C.gate i g).ty
def uOf (C : Circuit) (i g : ℕ) : ℕ := (C.gate i g).u.toNat
def vOf (C : Circuit) (i g : ℕ) : ℕ := (C.gate i g).v.toNat

/-- what the protocol needs to know about layer `i` -/
structure LayerAM (C : Circuit) (i : ℕ) : Prop where
  ty : ∀ g < 2 ^ C.bl i, tyOf C i g = 0 ∨ tyOf C i g = 1 ∨ tyOf C i g = 2
  u : ∀ g < 2 ^ C.bl i, tyOf C i g ≠ 2 → uOf C i g < 2 ^ C.bl (i - 1)
  v : ∀ g < 2 ^ C.bl i, tyOf C i g ≠ 2 → vOf C i g < 2 ^ C.bl (i - 1)
  wide : 1 ≤ C.bl (i - 1)

theorem layerAM {C : Circuit} (h : AddMultGates C) {i : ℕ} (h1 : 1 ≤ i) (hd : i < C.depth) :
    LayerAM C i := by
  obtain ⟨i, rfl⟩ : ∃ k, i = k + 1 := ⟨i - 1, by omega⟩
  have key : ∀ g < 2 ^ C.bl (i + 1), (C.gate (i + 1) g).ty ≠ 2 →
      Wire (C.bl i) (C.gate (i + 1) g).u ∧ Wire (C.bl i) (C.gate (i + 1) g).v := by
    intro g hg ht
    have := h.gates i hd g hg
    rcases h.types i hd g hg with h0 | h0 | h0
    · simpa [GateOk, h0] using this
    · simpa [GateOk, h0] using this
    · exact absurd h0 ht
  exact ⟨h.types i hd, fun g hg ht => (key g hg ht).1.lt, fun g hg ht => (key g hg ht).2.lt,
    h.wide i hd⟩

theorem opOf_comm (ty : ℤ) (a b : F) : opOf ty a b = opOf ty b a := by
  unfold opOf; split_ifs <;> ring

theorem opOf_value {C : Circuit} {i : ℕ} (h : LayerAM C i) (h1 : 1 ≤ i) {g : ℕ}
    (hg : g < 2 ^ C.bl i) :
    opOf (tyOf C i g) (value C (i - 1) (uOf C i g)) (value C (i - 1) (vOf C i g)) =
      (value C i g : F) := by
  obtain ⟨i, rfl⟩ : ∃ k, i = k + 1 := ⟨i - 1, by omega⟩
  rcases h.ty g hg with ht | ht | ht <;> rw [tyOf] at ht <;>
    simp [opOf, tyOf, value, gateValue, ht, uOf, vOf]

theorem gatePoly_opOf {C : Circuit} {i : ℕ} (h : LayerAM C i) {g : ℕ} (hg : g < 2 ^ C.bl i)
    (ex ey : ℕ → F) (a b : F) :
    gatePoly (C.gate i g) ex ey a b =
      ex (uOf C i g) * ey (vOf C i g) * opOf (tyOf C i g) a b := by
  rcases h.ty g hg with ht | ht | ht <;> rw [tyOf] at ht <;>
    simp [opOf, tyOf, gatePoly, ht, uOf, vOf]

/-- tables of phase 1 -/
def A1 (C : Circuit) (i : ℕ) (c V : ℕ → F) : ℕ → F :=
  tabA (2 ^ C.bl i) (tyOf C i) c (uOf C i) (fun g => V (vOf C i g))
def B1 (C : Circuit) (i : ℕ) (c V : ℕ → F) : ℕ → F :=
  tabB (2 ^ C.bl i) (tyOf C i) c (uOf C i) (fun g => V (vOf C i g))

/-- tables of phase 2 -/
def A2 (C : Circuit) (i : ℕ) (c ex : ℕ → F) (a : F) : ℕ → F :=
  tabA (2 ^ C.bl i) (tyOf C i) (fun g => c g * ex (uOf C i g)) (vOf C i) (fun _ => a)
def B2 (C : Circuit) (i : ℕ) (c ex : ℕ → F) (a : F) : ℕ → F :=
  tabB (2 ^ C.bl i) (tyOf C i) (fun g => c g * ex (uOf C i g)) (vOf C i) (fun _ => a)

/-- the claim in the middle of a layer: the first operand at a point, the second boolean -/
def midClaim (C : Circuit) (i : ℕ) (c ex : ℕ → F) (a : F) (V : ℕ → F) : F :=
  ∑ g ∈ range (2 ^ C.bl i), c g * ex (uOf C i g) * opOf (tyOf C i g) a (V (vOf C i g))

/-- the claim at the end of a layer -/
def endClaim (C : Circuit) (i : ℕ) (c ex ey : ℕ → F) (a b : F) : F :=
  ∑ g ∈ range (2 ^ C.bl i),
    c g * ex (uOf C i g) * ey (vOf C i g) * opOf (tyOf C i g) a b

theorem claim1_zero {C : Circuit} {i : ℕ} (h : LayerAM C i) (h1 : 1 ≤ i) (α β : F) (r0 r1 ru : ℕ → F) :
    claimAt (C.bl (i - 1)) ru (A1 C i (comb (C.bl i) α β r0 r1) (value C (i - 1))) (value C (i - 1))
      (B1 C i (comb (C.bl i) α β r0 r1) (value C (i - 1))) 0 =
      α * mle (C.bl i) (value C i) r0 + β * mle (C.bl i) (value C i) r1 := by
  rw [claimAt_zero, A1, B1, tab_claim h.u, ← sum_comb_value]
  exact sum_congr rfl (fun g hg => by rw [opOf_value h h1 (mem_range.1 hg)])

theorem claim1_last {C : Circuit} {i : ℕ} (h : LayerAM C i) (c V ru : ℕ → F) :
    claimAt (C.bl (i - 1)) ru (A1 C i c V) V (B1 C i c V) (C.bl (i - 1)) =
      midClaim C i c (eqPoly (C.bl (i - 1)) ru) (mle (C.bl (i - 1)) V ru) V := by
  rw [claimAt_last, A1, B1, tab_last h.u, midClaim]

theorem claim2_zero {C : Circuit} {i : ℕ} (h : LayerAM C i) (c ex V rv : ℕ → F) (a : F) :
    claimAt (C.bl (i - 1)) rv (A2 C i c ex a) V (B2 C i c ex a) 0 = midClaim C i c ex a V := by
  rw [claimAt_zero, A2, B2, tab_claim h.v, midClaim]
  exact sum_congr rfl (fun g _ => by rw [opOf_comm])

theorem claim2_last {C : Circuit} {i : ℕ} (h : LayerAM C i) (c ex V rv : ℕ → F) (a : F) :
    claimAt (C.bl (i - 1)) rv (A2 C i c ex a) V (B2 C i c ex a) (C.bl (i - 1)) =
      endClaim C i c ex (eqPoly (C.bl (i - 1)) rv) a (mle (C.bl (i - 1)) V rv) := by
  rw [claimAt_last, A2, B2, tab_last h.v, endClaim]
  exact sum_congr rfl (fun g _ => by rw [opOf_comm])

/-- the right hand side of the verifier's final check of a layer -/
theorem pred_end (C : Circuit) (T : BetaTables F) (i : ℕ) (vu vv : F) :
    pred2 C T i 0 * (vu + vv) + pred2 C T i 1 * vu * vv =
      endClaim C i (fun g => T.g0 g + T.g1 g) T.u T.v vu vv := by
  rw [pred2_eq, pred2_eq, endClaim, sum_mul, sum_mul, sum_mul, ← sum_add_distrib]
  refine sum_congr rfl (fun g _ => ?_)
  unfold opOf tyOf uOf vOf
  by_cases h0 : (C.gate i g).ty = 0
  · simp [h0]
  · by_cases h1 : (C.gate i g).ty = 1
    · simp [h1]; ring
    · simp [h0, h1]

theorem endClaim_congr {C : Circuit} {i : ℕ} (h : LayerAM C i) {c c' ex ex' ey ey' : ℕ → F}
    (hc : ∀ g < 2 ^ C.bl i, c g = c' g) (hx : ∀ k < 2 ^ C.bl (i - 1), ex k = ex' k)
    (hy : ∀ k < 2 ^ C.bl (i - 1), ey k = ey' k) (a b : F) :
    endClaim C i c ex ey a b = endClaim C i c' ex' ey' a b := by
  refine sum_congr rfl (fun g hg => ?_)
  have hg := mem_range.1 hg
  by_cases h2 : tyOf C i g = 2
  · simp [opOf, h2]
  · rw [hc g hg, hx _ (h.u g hg h2), hy _ (h.v g hg h2)]

/-! ## the honest prover in one layer -/

/-- the prover is initialised for layer `i` -/
structure Ready (C : Circuit) (i : ℕ) (P : Prover F) : Prop where
  val : ∀ j < C.depth, ∀ g < 2 ^ C.bl j, P.circuitValue j g = value C j g
  id : P.layerId = i
  lg : P.lengthG = C.bl i
  om0 : ∀ j < C.bl i, P.omr0 j = 1 - P.r0 j
  om1 : ∀ j < C.bl i, P.omr1 j = 1 - P.r1 j

theorem copyV_eq (m : ℕ) (src V : ℕ → F) (k : ℕ) :
    copyV m src V k = if k < m then src k else V k := loop_write src V m k

theorem phase1_holds {C : Circuit} {i : ℕ} {P : Prover F} (hr : Ready C i P) (hd : i - 1 < C.depth)
    (r : ℕ → F) :
    HoldsAt (C.bl (i - 1)) (2 ^ C.bl i) (uOf C i) (comb (C.bl i) P.alpha P.beta P.r0 P.r1)
      (value C (i - 1)) r 0 (P.phase1Init C).core := by
  refine ⟨fun k hk => ?_, fun g hg => ?_⟩
  · rw [Nat.sub_zero] at hk
    simp only [Prover.phase1Init]
    rw [copyV_eq, hr.id, if_pos hk, hr.val (i - 1) hd k hk]
    rfl
  · rw [eqPoly_zero, mul_one]
    simp only [Prover.phase1Init]
    rw [hr.lg, loop_write (fun g => halves (C.bl i >>> 1) _ _ g + halves (C.bl i >>> 1) _ _ g),
      if_pos hg, halves_doubling hr.om0 g hg, halves_doubling hr.om1 g hg, comb]
    ring

variable [DecidableEq F]

/-- invariant of the layer loop before layer `i` -/
structure LayerInv (C : Circuit) (i : ℕ) (s : VState (Prover F) F) : Prop where
  val : ∀ j < C.depth, ∀ g < 2 ^ C.bl j, s.prover.circuitValue j g = value C j g
  om0 : ∀ j < C.bl i, s.omr0 j = 1 - s.r0 j
  om1 : ∀ j < C.bl i, s.omr1 j = 1 - s.r1 j
  sum : s.sum = s.alpha * mle (C.bl i) (value C i) s.r0 + s.beta * mle (C.bl i) (value C i) s.r1

omit [DecidableEq F] in
/-- `update` of the tables with the values read by the prover or with the true values -/
theorem update_congr {ty : ℕ → ℤ} {w : ℕ → ℕ} {o o' : ℕ → F} {N t : ℕ} {K : Core F}
    {prev : F} {bit : ℕ} (h : ∀ g < N, ty g ≠ 2 → o g = o' g) :
    K.update ty w o N t prev bit = K.update ty w o' N t prev bit := by
  rw [Core.update, Core.update]
  simp only
  congr 1
  generalize loop _ _ K.lins = L
  have : ∀ m ≤ N, loopM m (fun i T => gateMsg bit (ty i) (w i)
      (if bit = 0 then K.V else bindV prev (t >>> bit) K.V) (o i)
      ((if bit = 0 then K.bgs else bindBeta w prev (bit - 1) N K.bgs) i) T) L =
      loopM m (fun i T => gateMsg bit (ty i) (w i)
      (if bit = 0 then K.V else bindV prev (t >>> bit) K.V) (o' i)
      ((if bit = 0 then K.bgs else bindBeta w prev (bit - 1) N K.bgs) i) T) L := by
    intro m
    induction m with
    | zero => intro _; rfl
    | succ m ih =>
      intro hm
      rw [loopM_succ, loopM_succ, ih (by omega)]
      congr 1
      funext T
      by_cases h2 : ty m = 2
      · simp [gateMsg, h2]
      · rw [h m (by omega) h2]
  exact this N le_rfl

theorem honest_layer (h2 : (2 : F) * inv2 = 1) {C : Circuit} (hwf : AddMult C) (junk : Prover F)
    (ch : Challenges F) {i : ℕ} (h1 : 1 ≤ i) (hd : i < C.depth) {s : VState (Prover F) F}
    (hs : LayerInv C i s) :
    ∃ s', layerStep C (honest C junk) ch i s = .ok s' ∧ LayerInv C (i - 1) s' := by
  have hl := layerAM hwf.toAddMultGates h1 hd
  set n := C.bl (i - 1) with hn
  set P : Prover F := s.prover.sumcheckInit i (C.bl i) n n s.alpha s.beta s.r0 s.r1 s.omr0 s.omr1
    with hP
  have hr : Ready C i P := ⟨hs.val, rfl, rfl, hs.om0, hs.om1⟩
  set w := comb (C.bl i) s.alpha s.beta s.r0 s.r1 with hw
  set V : ℕ → F := value C (i - 1) with hV
  set ru := ch.ru i with hru
  set rv := ch.rv i with hrv
  set P1 := P.phase1Init C with hP1
  have hcv : ∀ g < 2 ^ C.bl i, tyOf C i g ≠ 2 → s.prover.circuitValue (i - 1) (vOf C i g) =
      V (vOf C i g) := fun g hg h2 => hs.val (i - 1) (by omega) _ (hl.v g hg h2)
  have hold1 := phase1_holds hr (by omega) ru
  obtain ⟨K1, e1, hK1⟩ := rounds h2 hl.ty hl.u (o := fun g => V (vOf C i g)) (P := P1)
    (Prover.phase1Update C)
    (fun K prev bit => by
      rw [← update_congr hcv]; rfl)
    hold1 n le_rfl
  change loopM n (round (Prover.phase1Update C) ru) (P1, claimAt n ru (A1 C i w V) V (B1 C i w V) 0, 0) =
    .ok ({ P1 with core := K1 }, claimAt n ru (A1 C i w V) V (B1 C i w V) n, prevOf ru n) at e1
  rw [claim1_zero hl h1, ← hs.sum, claim1_last hl] at e1
  set vu := mle n V ru with hvu
  have hvu' := holds_last hl.wide hK1
  set P3 : Prover F := { P1 with
    vU := vu
    core := { K1 with
      V := copyV (2 ^ n) (s.prover.circuitValue (i - 1)) K1.V
      bgs := bindBeta (uOf C i) (prevOf ru n) (n - 1) (2 ^ C.bl i) K1.bgs } } with hP3
  have e2 : Prover.phase2Init C { P1 with core := K1 } (prevOf ru n) = .ok P3 := by
    rw [Prover.phase2Init]
    change (if n = 0 then Outcome.undefined else _) = _
    rw [if_neg (by have := hl.wide; omega), hP3, hvu, ← hvu']
    rfl
  have hold2 : HoldsAt n (2 ^ C.bl i) (vOf C i) (fun g => w g * eqPoly n ru (uOf C i g)) V rv 0
      P3.core := by
    refine ⟨fun k hk => ?_, fun g hg => ?_⟩
    · rw [Nat.sub_zero] at hk
      change copyV (2 ^ n) _ K1.V k = V k
      rw [copyV_eq, if_pos hk, hs.val (i - 1) (by omega) k hk]
    · change bindBeta (uOf C i) (prevOf ru n) (n - 1) (2 ^ C.bl i) K1.bgs g = _
      rw [bindBeta_eq, if_pos hg, hK1.bgs g hg, eqPoly_zero, mul_one]
      obtain ⟨m, hm⟩ : ∃ m, n = m + 1 := ⟨n - 1, by have := hl.wide; omega⟩
      rw [hm, Nat.add_sub_cancel, eqPoly_succ, bitF, prevOf, if_neg (Nat.succ_ne_zero m),
        Nat.add_sub_cancel, mul_assoc]
      rfl
  obtain ⟨K2, e3, hK2⟩ := rounds h2 hl.ty hl.v (o := fun _ => vu) (P := P3) (r := rv)
    (Prover.phase2Update C) (fun K prev bit => rfl) hold2 n le_rfl
  change loopM n (round (Prover.phase2Update C) rv) (P3,
    claimAt n rv (A2 C i w (eqPoly n ru) vu) V (B2 C i w (eqPoly n ru) vu) 0, 0) =
    .ok ({ P3 with core := K2 }, claimAt n rv (A2 C i w (eqPoly n ru) vu) V
      (B2 C i w (eqPoly n ru) vu) n, prevOf rv n) at e3
  rw [claim2_zero hl, claim2_last hl] at e3
  have hvv := holds_last hl.wide hK2
  set vv := mle n V rv with hvvdef
  set T := betaInit C s.tables i s.alpha s.beta s.r0 s.r1 ru rv s.omr0 s.omr1 (oneMinus ru)
    (oneMinus rv) with hT
  obtain ⟨b1, b2, b3⟩ := betaInit_spec C s.tables i s.alpha s.beta s.r0 s.r1 ru rv s.omr0 s.omr1
    (oneMinus ru) (oneMinus rv) hs.om0 hs.om1 (fun _ _ => rfl)
  have hend := endClaim_congr hl b1 b2 (b3 (fun _ _ => rfl)) vu vv
  refine ⟨{ prover := { P3 with core := K2, vV := vv }, alpha := ch.alpha i, beta := ch.beta i,
            sum := ch.alpha i * vu + ch.beta i * vv,
            r0 := ru, r1 := rv, omr0 := oneMinus ru, omr1 := oneMinus rv, tables := T }, ?_, ?_⟩
  · rw [layerStep]
    change (loopM n (round (Prover.phase1Update C) ru) (P1, s.sum, 0) >>= _) = _
    rw [e1, Outcome.ok_bind]
    change (Prover.phase2Init C { P1 with core := K1 } (prevOf ru n) >>= _) = _
    rw [e2, Outcome.ok_bind]
    change (loopM n (round (Prover.phase2Update C) rv) (P3, _, 0) >>= _) = _
    rw [e3, Outcome.ok_bind]
    change (Outcome.check (endClaim C i w (eqPoly n ru) (eqPoly n rv) vu vv ==
        pred2 C T i 0 * (vu + (K2.V 0 * (1 - prevOf rv n) + K2.V 1 * prevOf rv n)) +
        pred2 C T i 1 * vu * (K2.V 0 * (1 - prevOf rv n) + K2.V 1 * prevOf rv n)) >>= fun _ =>
      Outcome.ok (VState.mk { P3 with core := K2, vV := K2.V 0 * (1 - prevOf rv n) + K2.V 1 * prevOf rv n }
        (ch.alpha i) (ch.beta i)
        (ch.alpha i * vu + ch.beta i * (K2.V 0 * (1 - prevOf rv n) + K2.V 1 * prevOf rv n))
        ru rv (oneMinus ru) (oneMinus rv) T)) = _
    rw [hvv, pred_end, hend, beq_self_eq_true, Outcome.check_true, Outcome.ok_bind]
  · exact ⟨hs.val, fun _ _ => rfl, fun _ _ => rfl, rfl⟩

theorem complete (h2 : (2 : F) * inv2 = 1) {C : Circuit} (hwf : AddMult C) (junk : Prover F)
    (tables : BetaTables F) (ch : Challenges F) : verify C (honest C junk) tables ch = .ok () := by
  have hev := evaluate_ok (F := F) hwf
  have hd := hwf.nonempty
  rw [verify]
  have he : (honest C junk).evaluate (honest C junk).start =
      .ok ({ junk with circuitValue := valueFn (allValues C C.depth) },
        valueFn (allValues C C.depth) (C.depth - 1)) := by
    simp [honest, hev]
  rw [he, Outcome.ok_bind]
  dsimp only
  have hv := fun {i j} (hi : i < C.depth) (hj : j < 2 ^ C.bl i) =>
    valueFn_allValues (F := F) C hi hj
  set s0 : VState (Prover F) F :=
    { prover := { junk with circuitValue := valueFn (allValues C C.depth) }, alpha := 1, beta := 0,
      sum := 1 * (honest C junk).vRes { junk with circuitValue := valueFn (allValues C C.depth) }
        (oneMinus ch.r0) ch.r0 (valueFn (allValues C C.depth) (C.depth - 1)) (C.bl (C.depth - 1))
        (2 ^ C.bl (C.depth - 1)),
      r0 := ch.r0, r1 := ch.r1, omr0 := oneMinus ch.r0, omr1 := oneMinus ch.r1,
      tables := tables } with hs0
  have hinv : LayerInv C (C.depth - 1) s0 := by
    refine ⟨fun j hj g hg => hv hj hg, fun _ _ => rfl, fun _ _ => rfl, ?_⟩
    change 1 * foldOutput (oneMinus ch.r0) ch.r0 _ _ _ = 1 * mle _ _ _ + 0 * _
    rw [foldOutput_spec (oneMinus ch.r0) _ _ _ (fun _ _ => rfl), zero_mul, add_zero]
    congr 1
    exact mle_congr (fun g hg => hv (by omega) hg) (fun _ _ => rfl)
  obtain ⟨s', e, hs'⟩ := loopDownM_ok (LayerInv C) hinv
    (fun i hi hn s hs => honest_layer h2 hwf junk ch hi (by omega) hs)
  obtain ⟨T, hT, hTv⟩ := verifierInput_ok (F := F) hwf.toEvaluable
  rw [e, Outcome.ok_bind, hT, Outcome.ok_bind, foldOutput_spec _ _ _ _ hs'.om0,
    foldOutput_spec _ _ _ _ hs'.om1, hs'.sum, mle_congr hTv (fun _ _ => rfl),
    mle_congr hTv (fun _ _ => rfl), mul_comm (mle _ _ s'.r0), mul_comm (mle _ _ s'.r1),
    beq_self_eq_true, Outcome.check_true]

end Libra.Cmt
