import Verif.Proofs.Layer

/-!
# The honest run of the plain protocol
-/

namespace Libra.FastTrack
open Libra Spec Finset
variable {F : Type} [CommRing F]

/-! ## the verifier's predicates -/

theorem pred2_eq (C : Circuit) (T : BetaTables F) (i : ℕ) (ty : ℤ) :
    pred2 C T i ty = ∑ g ∈ range (2 ^ C.bl i), if (C.gate i g).ty = ty then
      (T.g0 g + T.g1 g) * T.u (C.gate i g).u.toNat * T.v (C.gate i g).v.toNat else 0 := by
  rw [pred2, ← zero_add (∑ g ∈ _, _), ← loop_add_sum]
  refine loop_congr (fun g _ s => ?_)
  dsimp only
  split_ifs <;> simp

theorem pred1_eq {C : Circuit} {i : ℕ} (T : BetaTables F) (ty : ℤ)
    (h : ∀ g < 2 ^ C.bl i, (C.gate i g).ty = ty → (C.gate i g).v = 0) :
    pred1 C T i ty = .ok (∑ g ∈ range (2 ^ C.bl i), if (C.gate i g).ty = ty then
      (T.g0 g + T.g1 g) * T.u (C.gate i g).u.toNat * T.v (C.gate i g).v.toNat else 0) := by
  rw [pred1, ← zero_add (∑ g ∈ _, _), ← loop_add_sum]
  refine loopM_pure (fun g hg s => ?_)
  dsimp only
  by_cases ht : (C.gate i g).ty = ty
  · rw [if_pos ht, if_pos ht, h g hg ht]; rfl
  · rw [if_neg ht, if_neg ht]; simp

theorem sumGate_eq (C : Circuit) (T : BetaTables F) (i : ℕ) :
    sumGate C T i = ∑ g ∈ range (2 ^ C.bl i), if (C.gate i g).ty = 5 then
      (T.g0 g + T.g1 g) * (∑ j ∈ Ico (C.gate i g).u.toNat (C.gate i g).v.toNat, T.u j) * T.v 0
      else 0 := by
  rw [sumGate, ← zero_add (∑ g ∈ _, _), ← loop_add_sum]
  refine loop_congr (fun g _ s => ?_)
  dsimp only
  split_ifs
  · rw [loopFrom_add_sum, mul_sum, sum_mul]
    congr 1
    exact sum_congr rfl (fun _ _ => by ring)
  · simp

/-- the right hand side of the verifier's final check of a layer -/
theorem predicates_eq {C : Circuit} {i : ℕ} (h : LayerOk false C i) (T : BetaTables F) :
    ∃ notV relayV, pred1 C T i 6 = .ok notV ∧ pred1 C T i 10 = .ok relayV ∧
    ∀ vu vv relay : F, pred2 C T i 0 * (vu + vv) + pred2 C T i 1 * vu * vv + relay * vu
      + notV * (1 - vu) + pred2 C T i 7 * (vu - vv) + pred2 C T i 8 * (vu + vv - 2 * vu * vv)
      + pred2 C T i 9 * (vv - vu * vv) + sumGate C T i * vu + relayV * vu =
      polySum C i (fun g => T.g0 g + T.g1 g) T.u T.v vu vv + relay * vu := by
  refine ⟨_, _, pred1_eq T 6 (fun g hg e => h.v0 g hg (.inl e)),
    pred1_eq T 10 (fun g hg e => h.v0 g hg (.inr e)), fun vu vv relay => ?_⟩
  have hps : polySum C i (fun g => T.g0 g + T.g1 g) T.u T.v vu vv = ∑ g ∈ range (2 ^ C.bl i),
      ((if (C.gate i g).ty = 0 then
        (T.g0 g + T.g1 g) * T.u (C.gate i g).u.toNat * T.v (C.gate i g).v.toNat else 0) * (vu + vv)
      + (if (C.gate i g).ty = 1 then
        (T.g0 g + T.g1 g) * T.u (C.gate i g).u.toNat * T.v (C.gate i g).v.toNat else 0) * vu * vv
      + (if (C.gate i g).ty = 6 then
        (T.g0 g + T.g1 g) * T.u (C.gate i g).u.toNat * T.v (C.gate i g).v.toNat else 0) * (1 - vu)
      + (if (C.gate i g).ty = 7 then
        (T.g0 g + T.g1 g) * T.u (C.gate i g).u.toNat * T.v (C.gate i g).v.toNat else 0) * (vu - vv)
      + (if (C.gate i g).ty = 8 then
        (T.g0 g + T.g1 g) * T.u (C.gate i g).u.toNat * T.v (C.gate i g).v.toNat else 0) *
          (vu + vv - 2 * vu * vv)
      + (if (C.gate i g).ty = 9 then
        (T.g0 g + T.g1 g) * T.u (C.gate i g).u.toNat * T.v (C.gate i g).v.toNat else 0) *
          (vv - vu * vv)
      + (if (C.gate i g).ty = 5 then (T.g0 g + T.g1 g) *
        (∑ j ∈ Ico (C.gate i g).u.toNat (C.gate i g).v.toNat, T.u j) * T.v 0 else 0) * vu
      + (if (C.gate i g).ty = 10 then
        (T.g0 g + T.g1 g) * T.u (C.gate i g).u.toNat * T.v (C.gate i g).v.toNat else 0) * vu) := by
    refine sum_congr rfl (fun g hg => ?_)
    have := h.gates g (mem_range.1 hg)
    generalize C.gate i g = G at this ⊢
    unfold gatePoly
    rcases this with ⟨ht, _⟩ | ht | ⟨ht, _⟩ | ⟨ht, _⟩ | ⟨ht, _⟩ | ⟨hz, _⟩ | ⟨hz, _⟩
    · rcases ht with ht | ht | ht | ht | ht <;> simp [ht] <;> ring
    · simp [ht]
    · simp [ht]
    · rcases ht with ht | ht | ht <;> simp [ht] <;> ring
    · simp [ht]; ring
    · simp at hz
    · simp at hz
  rw [hps]
  simp only [sum_add_distrib, ← sum_mul, pred2_eq, sumGate_eq]
  ring

/-! ## phase 1 -/

theorem phase1Init_tmpG (var : Variant) (C : Circuit) (P : Prover F)
    (h0 : ∀ j < P.lengthG, P.omr0 j = 1 - P.r0 j) (h1 : ∀ j < P.lengthG, P.omr1 j = 1 - P.r1 j)
    (g : ℕ) (hg : g < 2 ^ P.lengthG) :
    (P.phase1Init var C).tmpG g = comb P.lengthG P.alpha P.beta P.r0 P.r1 g := by
  rw [Prover.tmpG, comb]
  simp only [Prover.phase1Init]
  rw [halves_doubling h0 g hg, halves_doubling h1 g hg]
  ring

/-- state of the prover after `k` rounds that started in `P` -/
structure RoundInv (n : ℕ) (r A V B : ℕ → F) (P : Prover F) (k : ℕ) (Q : Prover F) : Prop where
  eq : Q = { P with tabs := Q.tabs, totalUv := 2 ^ (n - k) }
  holdsA : Holds n r k A Q.tabs.addMultSum
  holdsV : Holds n r k V Q.tabs.vMultAdd
  holdsB : Holds n r k B Q.tabs.addVArray

theorem RoundInv.update {n k : ℕ} {r A V B : ℕ → F} {P Q : Prover F}
    (h : RoundInv n r A V B P k Q) (hk : k < n) (prev : F) (hp : ∀ j, k = j + 1 → prev = r j) :
    RoundInv n r A V B P (k + 1) (Q.update prev k).1 ∧
    ∀ x, (Q.update prev k).2.eval x = polyAt n r A V B k x := by
  have htot : Q.totalUv = 2 ^ (n - k) := by rw [h.eq]
  have := Tabs.round_spec hk h.holdsA h.holdsV h.holdsB prev hp
  obtain ⟨a1, a2, a3, a4⟩ := this
  have e : Q.update prev k = ({ Q with
      tabs := (Q.tabs.round (k == 0) prev (2 ^ (n - k) >>> 1)).1, totalUv := 2 ^ (n - (k + 1)) },
      (Q.tabs.round (k == 0) prev (2 ^ (n - k) >>> 1)).2) := by
    rw [Prover.update, htot]; simp only [pow_half hk]
  rw [e]
  refine ⟨⟨?_, a1, a2, a3⟩, a4⟩
  dsimp only
  rw [h.eq]

theorem prevOf_spec (r : ℕ → F) (k j : ℕ) (h : k = j + 1) : prevOf r k = r j := by
  subst h; simp [prevOf]

/-- the value tables of the prover -/
def tabA (P : Prover F) (x : ℕ) : F := (P.tabs.addMultSum x).b
def tabB (P : Prover F) (x : ℕ) : F := (P.tabs.addVArray x).b

theorem roundInv {n : ℕ} {V : ℕ → F} {P : Prover F} (ht : P.totalUv = 2 ^ n)
    (hV : ∀ k < 2 ^ n, (P.tabs.vMultAdd k).b = V k) (r : ℕ → F) :
    ∀ k ≤ n, RoundInv n r (tabA P) V (tabB P) P k (roundState P r k) := by
  intro k
  induction k with
  | zero =>
    intro _
    exact ⟨by rw [roundState, Nat.sub_zero, ← ht], fun _ _ => rfl, hV, fun _ _ => rfl⟩
  | succ k ih =>
    intro hk
    exact ((ih (by omega)).update (by omega) _ (prevOf_spec r k)).1

theorem roundMsg_eval {n : ℕ} {V : ℕ → F} {P : Prover F} (ht : P.totalUv = 2 ^ n)
    (hV : ∀ k < 2 ^ n, (P.tabs.vMultAdd k).b = V k) (r : ℕ → F) {k : ℕ} (hk : k < n) (x : F) :
    (roundMsg P r k).eval x = polyAt n r (tabA P) V (tabB P) k x :=
  ((roundInv ht hV r k hk.le).update hk _ (prevOf_spec r k)).2 x

theorem roundState_vV {n : ℕ} {V : ℕ → F} {P : Prover F} (ht : P.totalUv = 2 ^ n)
    (hV : ∀ k < 2 ^ n, (P.tabs.vMultAdd k).b = V k) (r : ℕ → F) :
    ((roundState P r n).tabs.vMultAdd 0).eval (prevOf r n) = mle n V r :=
  holds_final (roundInv ht hV r n le_rfl).holdsV _ (prevOf_spec r n) (fun h => by simp [prevOf, h])

/-- everything the prover state carries besides the tables is unchanged by the rounds -/
theorem roundState_eq {n : ℕ} {V : ℕ → F} {P : Prover F} (ht : P.totalUv = 2 ^ n)
    (hV : ∀ k < 2 ^ n, (P.tabs.vMultAdd k).b = V k) (r : ℕ → F) {k : ℕ} (hk : k ≤ n) :
    roundState P r k = { P with tabs := (roundState P r k).tabs, totalUv := 2 ^ (n - k) } :=
  (roundInv ht hV r k hk).eq

/-! ## one layer -/

/-- the prover just before phase 1 of layer `i` -/
structure Ready (C : Circuit) (i : ℕ) (P : Prover F) : Prop where
  val : ∀ j < C.depth, j < i → ∀ g < 2 ^ C.bl j, P.circuitValue j g = value C j g
  layerId : P.layerId = i
  lengthG : P.lengthG = C.bl i
  lengthU : P.lengthU = C.bl (i - 1)
  om0 : ∀ j < C.bl i, P.omr0 j = 1 - P.r0 j
  om1 : ∀ j < C.bl i, P.omr1 j = 1 - P.r1 j

theorem phase1_ready {var : Variant} {C : Circuit} {i : ℕ} {P : Prover F} (hr : Ready C i P)
    (hl : LayerOk (var = .zk) C i) :
    let Q := P.phase1Init var C
    Q.totalUv = 2 ^ C.bl (i - 1) ∧
    (∀ k < 2 ^ C.bl (i - 1), (Q.tabs.vMultAdd k).b = P.circuitValue (i - 1) k) ∧
    (∀ g < 2 ^ C.bl i, Q.tmpG g = comb (C.bl i) P.alpha P.beta P.r0 P.r1 g) ∧
    ∀ c d, phi (2 ^ C.bl (i - 1)) c d Q.tabs = ∑ g ∈ range (2 ^ C.bl i),
      contrib1 c d (P.circuitValue (i - 1)) (Q.tmpG g) (Q.tmpG (C.gate i g).u.toNat)
        (C.gate i g) := by
  intro Q
  have hg := phase1Init_tmpG var C P (by rw [hr.lengthG]; exact hr.om0) (by rw [hr.lengthG]; exact hr.om1)
  rw [hr.lengthG] at hg
  obtain ⟨a1, a2⟩ := phase1Loop (var := var) (n := C.bl (i - 1)) (N := 2 ^ C.bl i)
    (gates := C.gate i) hl.gates Q.tmpG (P.circuitValue (i - 1)) P.tabs
  have e : Q.tabs = loop (2 ^ C.bl i)
      (fun j T => phase1Gate var Q.tmpG (P.circuitValue (i - 1)) (C.gate i j) j T)
      (P.tabs.init (2 ^ C.bl (i - 1)) (P.circuitValue (i - 1))) := by
    rw [← hr.lengthG, ← hr.layerId]; rfl
  rw [e]
  refine ⟨?_, a1, hg, a2⟩
  rw [← hr.layerId]; rfl

theorem phase2Tables_ready {var : Variant} {C : Circuit} {i : ℕ} {P : Prover F}
    (hl : LayerOk (var = .zk) C i)
    (h1 : P.layerId = i) (h2 : P.lengthU = C.bl (i - 1)) (vU : F) (ru omru : ℕ → F)
    (hom : ∀ j < C.bl (i - 1), omru j = 1 - ru j) :
    ∃ Q, P.phase2Tables var C vU ru omru = .ok Q ∧
    Q = { P with vU := vU, uf := Q.uf, us := Q.us, betaU := Q.betaU,
                 totalUv := 2 ^ C.bl (i - 1), tabs := Q.tabs } ∧
    (∀ k < 2 ^ C.bl (i - 1), (Q.tabs.vMultAdd k).b = P.circuitValue (i - 1) k) ∧
    ∃ tmpU : ℕ → F, (∀ k < 2 ^ C.bl (i - 1), tmpU k = eqPoly (C.bl (i - 1)) ru k) ∧
    (∀ c d, phi (2 ^ C.bl (i - 1)) c d Q.tabs = ∑ g ∈ range (2 ^ C.bl i),
      contrib2 c d tmpU (P.tmpG g) Q.vU (C.gate i g)) ∧
    (i = 1 → Q.tabs = P.tabs.init (2 ^ C.bl (i - 1)) (P.circuitValue (i - 1))) := by
  subst h1
  set tmpU := halves (P.lengthU >>> 1) (doubling ru omru 0 (P.lengthU >>> 1) (setZero P.uf 1))
    (doubling ru omru (P.lengthU >>> 1) (P.lengthU - P.lengthU >>> 1) (setZero P.us 1)) with htu
  obtain ⟨T', e, a1, a2⟩ := phase2Loop (var := var) (n := C.bl (P.layerId - 1))
    (N := 2 ^ C.bl P.layerId)
    (gates := C.gate P.layerId) hl.gates hl.v0 P.tmpG tmpU
    (P.circuitValue (P.layerId - 1)) vU P.tabs
  refine ⟨_, by rw [Prover.phase2Tables, ← htu, e]; rfl, rfl, a1, tmpU, ?_, a2, ?_⟩
  · intro k hk
    rw [htu, halves_doubling (by rw [h2]; exact hom) k (by rw [h2]; exact hk), h2]
    ring
  · intro h1
    have := loopM_eq_ok e (fun _ T => T = P.tabs.init (2 ^ C.bl (P.layerId - 1))
      (P.circuitValue (P.layerId - 1))) rfl (fun g hg T T' hT hs => by
        rw [h1, (hl.relay h1).2 g (by rw [← h1]; exact hg)] at hs
        simp [phase2Gate] at hs
        rw [← hs, hT])
    exact this

theorem phase2_ready {C : Circuit} {i : ℕ} {P : Prover F} (hl : LayerOk false C i)
    (h1 : P.layerId = i) (h2 : P.lengthU = C.bl (i - 1)) (prev : F) (ru omru : ℕ → F)
    (hom : ∀ j < C.bl (i - 1), omru j = 1 - ru j) :
    ∃ Q, P.phase2Init C prev ru omru = .ok Q ∧
    Q = { P with vU := (P.tabs.vMultAdd 0).eval prev, uf := Q.uf, us := Q.us, betaU := Q.betaU,
                 totalUv := 2 ^ C.bl (i - 1), tabs := Q.tabs } ∧
    (∀ k < 2 ^ C.bl (i - 1), (Q.tabs.vMultAdd k).b = P.circuitValue (i - 1) k) ∧
    ∃ tmpU : ℕ → F, (∀ k < 2 ^ C.bl (i - 1), tmpU k = eqPoly (C.bl (i - 1)) ru k) ∧
    (∀ c d, phi (2 ^ C.bl (i - 1)) c d Q.tabs = ∑ g ∈ range (2 ^ C.bl i),
      contrib2 c d tmpU (P.tmpG g) Q.vU (C.gate i g)) ∧
    (i = 1 → Q.tabs = P.tabs.init (2 ^ C.bl (i - 1)) (P.circuitValue (i - 1))) :=
  phase2Tables_ready (var := .fastTrack) hl h1 h2 _ ru omru hom

/-- the claim at the end of phase 1 of layer `i` -/
theorem phase1_final {var : Variant} {C : Circuit} {i : ℕ} {P : Prover F} (hr : Ready C i P)
    (hl : LayerOk (var = .zk) C i) (x : ℕ → F) (a : F) :
    mle (C.bl (i - 1)) (tabA (P.phase1Init var C)) x * a + mle (C.bl (i - 1)) (tabB (P.phase1Init var C)) x =
      halfSum C i (comb (C.bl i) P.alpha P.beta P.r0 P.r1) (eqPoly (C.bl (i - 1)) x) a
        (P.circuitValue (i - 1)) +
      relayCoef C i (comb (C.bl i) P.alpha P.beta P.r0 P.r1) (eqPoly (C.bl (i - 1)) x) * a := by
  obtain ⟨_, _, hw, hphi⟩ := phase1_ready hr hl
  have := phi_point (C.bl (i - 1)) x a (P.phase1Init var C).tabs
  rw [hphi, sum_contrib1_half hl hw] at this
  exact this.symm

theorem phase1_start {var : Variant} {C : Circuit} {i : ℕ} (hi : 1 ≤ i) {P : Prover F} (hr : Ready C i P)
    (hd : i < C.depth) (hl : LayerOk (var = .zk) C i) :
    ∑ x ∈ range (2 ^ C.bl (i - 1)), (tabA (P.phase1Init var C) x * P.circuitValue (i - 1) x +
      tabB (P.phase1Init var C) x) =
      P.alpha * mle (C.bl i) (value C i) P.r0 + P.beta * mle (C.bl i) (value C i) P.r1 := by
  obtain ⟨_, _, hw, hphi⟩ := phase1_ready hr hl
  have := phi_claim (C.bl (i - 1)) (P.circuitValue (i - 1)) (P.phase1Init var C).tabs
  rw [hphi, sum_contrib1_value hl hi (hr.val (i - 1) (by omega) (by omega)) hw, sum_comb_value] at this
  exact this.symm

variable [DecidableEq F]

theorem rounds1 {n : ℕ} {V : ℕ → F} {P : Prover F} (C : Circuit) (junk : Prover F)
    (ht : P.totalUv = 2 ^ n) (hV : ∀ k < 2 ^ n, (P.tabs.vMultAdd k).b = V k) (r : ℕ → F) :
    ∀ k ≤ n, loopM k (round1 (honest C junk) r)
      (P, ∑ x ∈ range (2 ^ n), (tabA P x * V x + tabB P x), 0) =
      .ok (roundState P r k, claimAt n r (tabA P) V (tabB P) k, prevOf r k) := by
  intro k
  induction k with
  | zero => intro _; rfl
  | succ k ih =>
    intro hk
    rw [loopM_succ, ih (by omega), Outcome.bind_ok, round1]
    have he := fun x => roundMsg_eval ht hV r (k := k) (by omega) x
    have hc : (roundMsg P r k).eval 0 + (roundMsg P r k).eval 1 =
        claimAt n r (tabA P) V (tabB P) k := by
      rw [he, he, polyAt_sum (by omega)]
    simp only [honest]
    change (do Outcome.check ((roundMsg P r k).eval 0 + (roundMsg P r k).eval 1 == _); _) = _
    rw [hc, beq_self_eq_true, Outcome.check_true, Outcome.ok_bind]
    change Outcome.ok (_, (roundMsg P r k).eval (r k), r k) = _
    rw [he, polyAt_next]
    rfl

theorem rounds2 {n : ℕ} {V : ℕ → F} {P : Prover F} (fixed : Bool) (C : Circuit) (junk : Prover F)
    (i : ℕ) (ht : P.totalUv = 2 ^ n) (hV : ∀ k < 2 ^ n, (P.tabs.vMultAdd k).b = V k) (rv : ℕ → F)
    (relay : F) (r : ℕ → F) (hr : ∀ j, r j = if i = 1 then 0 else rv j)
    (hz : i = 1 → ∀ k < n, roundMsg P r k = ⟨0, 0, 0⟩) :
    ∀ k ≤ n, loopM k (round2 fixed (honest C junk) i rv relay)
      (P, ∑ x ∈ range (2 ^ n), (tabA P x * V x + tabB P x) + relay * P.vU, 0) =
      .ok (roundState P r k, claimAt n r (tabA P) V (tabB P) k + relay * P.vU, prevOf r k) := by
  intro k
  induction k with
  | zero => intro _; rfl
  | succ k ih =>
    intro hk
    rw [loopM_succ, ih (by omega), Outcome.bind_ok, round2]
    have he := fun x => roundMsg_eval ht hV r (k := k) (by omega) x
    have hc : (roundMsg P r k).eval 0 + (roundMsg P r k).eval 1 =
        claimAt n r (tabA P) V (tabB P) k := by
      rw [he, he, polyAt_sum (by omega)]
    have hu : (roundState P r (k + 1)).vU = P.vU := by rw [roundState_eq ht hV r hk]
    simp only [honest, ← hr]
    change (do
      Outcome.check ((roundMsg P r k).eval 0 + (roundMsg P r k).eval 1 +
        relay * (roundState P r (k + 1)).vU == _)
      Outcome.check (!fixed || i != 1 || roundMsg P r k == (⟨0, 0, 0⟩ : QuadraticPoly F))
      pure (roundState P r (k + 1), (roundMsg P r k).eval (r k) +
        relay * (roundState P r (k + 1)).vU, r k)) = _
    rw [hc, hu, beq_self_eq_true, Outcome.check_true, Outcome.ok_bind]
    have h2 : (!fixed || i != 1 || roundMsg P r k == (⟨0, 0, 0⟩ : QuadraticPoly F)) = true := by
      by_cases h1 : i = 1
      · rw [hz h1 k (by omega)]; simp
      · simp [h1]
    rw [h2, Outcome.check_true, Outcome.ok_bind, he, polyAt_next]
    rfl


omit [DecidableEq F] in
/-- tables of zeros give zero messages -/
theorem round_zero {T : Tabs F} (first : Bool) (r : F) (m : ℕ)
    (hA : ∀ i < 2 * m, T.addMultSum i = ⟨0, 0⟩) (hB : ∀ i < 2 * m, T.addVArray i = ⟨0, 0⟩) :
    (T.round first r m).2 = ⟨0, 0, 0⟩ ∧ (∀ i < m, (T.round first r m).1.addMultSum i = ⟨0, 0⟩) ∧
      ∀ i < m, (T.round first r m).1.addVArray i = ⟨0, 0⟩ := by
  have hb : bindF first r (⟨0, 0⟩ : LinearPoly F) ⟨0, 0⟩ = ⟨0, 0⟩ := by
    cases first <;> simp [bindF, LinearPoly.eval]
  have e1 := (Tabs.round_eq first r m T).1
  refine ⟨?_, fun i hi => ?_, fun i hi => ?_⟩
  · have key : ∀ k ≤ m, ∀ s, s = loop k (fun i (s : Tabs F × QuadraticPoly F) =>
        let V := bindStep first r i s.1.vMultAdd
        let B := bindStep first r i s.1.addVArray
        let A := bindStep first r i s.1.addMultSum
        ((⟨V, B, A⟩ : Tabs F), accumulate (A i) (V i) (B i) s.2)) (T, ⟨0, 0, 0⟩) →
        s.2 = ⟨0, 0, 0⟩ ∧ s.1.addMultSum = loop k (bindStep first r) T.addMultSum ∧
        s.1.addVArray = loop k (bindStep first r) T.addVArray := by
      intro k
      induction k with
      | zero => rintro _ s rfl; exact ⟨rfl, rfl, rfl⟩
      | succ k ih =>
        rintro hk s rfl
        obtain ⟨h1, h2, h3⟩ := ih (by omega) _ rfl
        rw [loop_succ]
        dsimp only
        refine ⟨?_, by rw [h2]; rfl, by rw [h3]; rfl⟩
        have ha : bindStep first r k (loop k (bindStep first r) T.addMultSum) k = ⟨0, 0⟩ := by
          have := bindLoop first r T.addMultSum (k + 1) k
          rw [loop_succ, if_pos (by omega), hA _ (by omega), hA _ (by omega), hb] at this
          exact this
        have hb' : bindStep first r k (loop k (bindStep first r) T.addVArray) k = ⟨0, 0⟩ := by
          have := bindLoop first r T.addVArray (k + 1) k
          rw [loop_succ, if_pos (by omega), hB _ (by omega), hB _ (by omega), hb] at this
          exact this
        rw [h1, h2, h3, ha, hb', accumulate]
        simp
    exact (key m le_rfl _ rfl).1
  · rw [e1]; dsimp only
    rw [bindLoop, if_pos hi, hA _ (by omega), hA _ (by omega), hb]
  · rw [e1]; dsimp only
    rw [bindLoop, if_pos hi, hB _ (by omega), hB _ (by omega), hb]

omit [DecidableEq F] in
theorem roundMsg_zero {n : ℕ} {P : Prover F} (ht : P.totalUv = 2 ^ n)
    (hA : ∀ i < 2 ^ n, P.tabs.addMultSum i = ⟨0, 0⟩)
    (hB : ∀ i < 2 ^ n, P.tabs.addVArray i = ⟨0, 0⟩) (r : ℕ → F) (k : ℕ) (hk : k < n) :
    roundMsg P r k = ⟨0, 0, 0⟩ := by
  have key : ∀ k ≤ n, (roundState P r k).totalUv = 2 ^ (n - k) ∧
      (∀ i < 2 ^ (n - k), (roundState P r k).tabs.addMultSum i = ⟨0, 0⟩) ∧
      ∀ i < 2 ^ (n - k), (roundState P r k).tabs.addVArray i = ⟨0, 0⟩ := by
    intro k
    induction k with
    | zero => intro _; exact ⟨ht, hA, hB⟩
    | succ k ih =>
      intro hk
      obtain ⟨h1, h2, h3⟩ := ih (by omega)
      have hp := pow_sub_succ (n := n) (k := k) (by omega)
      have := round_zero (T := (roundState P r k).tabs) (k == 0) (prevOf r k)
        (2 ^ (n - (k + 1))) (by rw [← hp]; exact h2) (by rw [← hp]; exact h3)
      simp only [roundState, Prover.update, h1, pow_half (show k < n by omega)]
      exact ⟨trivial, this.2⟩
  obtain ⟨h1, h2, h3⟩ := key k hk.le
  have hp := pow_sub_succ hk
  simp only [roundMsg, Prover.update, h1, pow_half hk]
  exact (round_zero (T := (roundState P r k).tabs) (k == 0) (prevOf r k)
        (2 ^ (n - (k + 1))) (by rw [← hp]; exact h2) (by rw [← hp]; exact h3)).1

omit [DecidableEq F] in
theorem phase2_final {zk : Bool} {C : Circuit} {i : ℕ} (hl : LayerOk zk C i) {w tmpG tmpU : ℕ → F}
    {ru : ℕ → F} (hw : ∀ g < 2 ^ C.bl i, tmpG g = w g)
    (hU : ∀ k < 2 ^ C.bl (i - 1), tmpU k = eqPoly (C.bl (i - 1)) ru k) {Q : Prover F}
    (hphi : ∀ c d, phi (2 ^ C.bl (i - 1)) c d Q.tabs = ∑ g ∈ range (2 ^ C.bl i),
      contrib2 c d tmpU (tmpG g) Q.vU (C.gate i g)) (y : ℕ → F) (b : F) :
    mle (C.bl (i - 1)) (tabA Q) y * b + mle (C.bl (i - 1)) (tabB Q) y =
      polySum C i w (eqPoly (C.bl (i - 1)) ru) (eqPoly (C.bl (i - 1)) y) Q.vU b := by
  have := phi_point (C.bl (i - 1)) y b Q.tabs
  rw [hphi, sum_contrib2_poly hl hw] at this
  refine this.symm.trans (sum_congr rfl (fun g hg => ?_))
  have hg := mem_range.1 hg
  rw [gatePoly_congr (hl.gates g hg) (hl.v0 g hg) hU (fun _ _ => rfl)]

omit [DecidableEq F] in
theorem phase2_start {zk : Bool} {C : Circuit} {i : ℕ} (hl : LayerOk zk C i) {w tmpG tmpU : ℕ → F}
    {ru : ℕ → F} (hw : ∀ g < 2 ^ C.bl i, tmpG g = w g)
    (hU : ∀ k < 2 ^ C.bl (i - 1), tmpU k = eqPoly (C.bl (i - 1)) ru k) {Q : Prover F}
    (hphi : ∀ c d, phi (2 ^ C.bl (i - 1)) c d Q.tabs = ∑ g ∈ range (2 ^ C.bl i),
      contrib2 c d tmpU (tmpG g) Q.vU (C.gate i g)) (V : ℕ → F) :
    ∑ x ∈ range (2 ^ C.bl (i - 1)), (tabA Q x * V x + tabB Q x) =
      halfSum C i w (eqPoly (C.bl (i - 1)) ru) Q.vU V := by
  have := phi_claim (C.bl (i - 1)) V Q.tabs
  rw [hphi, sum_contrib2_half hl hw] at this
  refine this.symm.trans (sum_congr rfl (fun g hg => ?_))
  have hg := mem_range.1 hg
  rw [gateHalf_congr (hl.gates g hg) hU (fun _ _ => rfl)]

omit [DecidableEq F] in
/-- layer 1 has only direct relays, which are not part of the second phase -/
theorem polySum_one {zk : Bool} {C : Circuit} {i : ℕ} (hl : LayerOk zk C i) (h1 : i = 1) (w ex ey : ℕ → F)
    (a b : F) : polySum C i w ex ey a b = 0 := by
  subst h1
  refine sum_eq_zero (fun g hg => ?_)
  rw [(hl.relay rfl).2 g (mem_range.1 hg)]
  simp [gatePoly]

omit [DecidableEq F] in
/-- the beta tables of the verifier -/
theorem betaInit_spec (C : Circuit) (old : BetaTables F) (i : ℕ) (α β : F)
    (r0 r1 ru rv omr0 omr1 omru omrv : ℕ → F)
    (h0 : ∀ j < C.bl i, omr0 j = 1 - r0 j) (h1 : ∀ j < C.bl i, omr1 j = 1 - r1 j)
    (hu : ∀ j < C.bl (i - 1), omru j = 1 - ru j) :
    let T := betaInit C old i α β r0 r1 ru rv omr0 omr1 omru omrv
    (∀ g < 2 ^ C.bl i, T.g0 g + T.g1 g = comb (C.bl i) α β r0 r1 g) ∧
    (∀ k < 2 ^ C.bl (i - 1), T.u k = eqPoly (C.bl (i - 1)) ru k) ∧
    ((∀ j < C.bl (i - 1), omrv j = 1 - rv j) →
      ∀ k < 2 ^ C.bl (i - 1), T.v k = eqPoly (C.bl (i - 1)) rv k) := by
  refine ⟨fun g hg => ?_, fun k hk => ?_, fun hv k hk => ?_⟩
  · simp only [betaInit]
    rw [doubling2_spec _ _ _ _ _ h0 g hg, doubling2_spec _ _ _ _ _ h1 g hg]
    simp [setZero, comb]
  · simp only [betaInit]
    rw [doubling2_spec _ _ _ _ _ hu k hk]; simp [setZero]
  · simp only [betaInit]
    rw [doubling2_spec _ _ _ _ _ hv k hk]; simp [setZero]

omit [DecidableEq F] in
/-- the sum of the verifier's final check -/
theorem polySum_tables {zk : Bool} {C : Circuit} {i : ℕ} (hl : LayerOk zk C i) {w w' ex ex' ey ey' : ℕ → F}
    (hw : ∀ g < 2 ^ C.bl i, w g = w' g) (hx : ∀ k < 2 ^ C.bl (i - 1), ex k = ex' k)
    (hy : i ≠ 1 → ∀ k < 2 ^ C.bl (i - 1), ey k = ey' k) (a b : F) :
    polySum C i w ex ey a b = polySum C i w' ex' ey' a b := by
  by_cases h1 : i = 1
  · rw [polySum_one hl h1, polySum_one hl h1]
  · refine sum_congr rfl (fun g hg => ?_)
    have hg := mem_range.1 hg
    rw [hw g hg, gatePoly_congr (hl.gates g hg) (hl.v0 g hg) hx (hy h1)]

end Libra.FastTrack
