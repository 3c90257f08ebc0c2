import Verif.Proofs.ZkSound
import Verif.Spec.ZkView

/-!
# The record of one layer
-/

namespace Libra.Zk
open Libra Spec Finset FastTrack
variable {F : Type} [CommRing F] {G1 G2 : Type} {σ : Type}

/-- any prover after `k` of the `n` rounds of phase 1 with challenges `r` -/
def runA1 (A : ProverApi σ F G1 G2) (n : ℕ) (r : ℕ → F) (q : σ) : ℕ → σ
  | 0 => q
  | k + 1 => if k + 1 = n then (A.phase1Last (runA1 A n r q k) (prevOf r k) k).1
    else (A.phase1Update (runA1 A n r q k) (prevOf r k) k).1

/-- the message of round `k` of phase 1 -/
def logA1 (A : ProverApi σ F G1 G2) (n : ℕ) (r : ℕ → F) (q : σ) (k : ℕ) : Msg F G1 G2 :=
  if k + 1 = n then .poly (A.phase1Last (runA1 A n r q k) (prevOf r k) k).2
  else .quad (A.phase1Update (runA1 A n r q k) (prevOf r k) k).2

@[inherit_doc runA1]
def runA2 (A : ProverApi σ F G1 G2) (n : ℕ) (r : ℕ → F) (q : σ) : ℕ → σ
  | 0 => q
  | k + 1 => if k + 1 = n then (A.phase2Last (runA2 A n r q k) (prevOf r k) k).1
    else (A.phase2Update (runA2 A n r q k) (prevOf r k) k).1

@[inherit_doc logA1]
def logA2 (A : ProverApi σ F G1 G2) (n : ℕ) (r : ℕ → F) (q : σ) (k : ℕ) : Msg F G1 G2 :=
  if k + 1 = n then .poly (A.phase2Last (runA2 A n r q k) (prevOf r k) k).2
  else .quad (A.phase2Update (runA2 A n r q k) (prevOf r k) k).2

theorem logged_finalize (full : Bool) (m : ℕ) (A : ProverApi σ F G1 G2) (S : WithRecord σ F G1 G2) (prev : F) :
    (logged full m A).finalize S prev = (S.step (A.finalize S.inner prev).1 (.number (A.finalize S.inner prev).2.1 ::
      if full ∨ S.layer ≠ 1 then [.number (A.finalize S.inner prev).2.2] else []), (A.finalize S.inner prev).2) := rfl

theorem logged_finalround (full : Bool) (m : ℕ) (A : ProverApi σ F G1 G2) (S : WithRecord σ F G1 G2) (prev : F) (c : ℕ)
    (g : F) : (logged full m A).finalround S prev c g = (S.step (A.finalround S.inner prev c g).1
      [.quad (A.finalround S.inner prev c g).2, .number (A.vU (A.finalround S.inner prev c g).1),
        .number (A.prepreu1 (A.finalround S.inner prev c g).1), .number (A.preprev1 (A.finalround S.inner prev c g).1),
        .number (A.Iuv (A.finalround S.inner prev c g).1), .number (A.preZu (A.finalround S.inner prev c g).1),
        .number (A.preZv (A.finalround S.inner prev c g).1)], (A.finalround S.inner prev c g).2) := rfl

theorem bind_of_ok {α β : Type} {x : Outcome α} {f : α → Outcome β} {a : α} {y : Outcome β} (h : x = .ok a)
    (h2 : f a = y) : (x >>= f) = y := by rw [h, Outcome.ok_bind, h2]

theorem prevOf_succ' (r : ℕ → F) (k : ℕ) : prevOf r (k + 1) = r k := by simp [prevOf]

variable [DecidableEq F]

theorem loop1_log (full : Bool) (m : ℕ) (A : ProverApi σ F G1 G2) (n : ℕ) (ru : ℕ → F) (q : σ) (sum : F) (l : ℕ)
    (L : List (Msg F G1 G2)) : ∀ k q' sum' prev, loopM k (round1 A n ru) (q, sum, 0) = .ok (q', sum', prev) →
      q' = runA1 A n ru q k ∧ prev = prevOf ru k ∧
      loopM k (round1 (logged full m A) n ru) (⟨q, l, L⟩, sum, 0) =
        .ok (⟨q', l, L ++ (List.range k).map (logA1 A n ru q)⟩, sum', prev) := by
  intro k
  induction k with
  | zero =>
    intro q' sum' prev h
    cases h
    exact ⟨rfl, rfl, by simp [loopM]⟩
  | succ k ih =>
    intro q' sum' prev h
    obtain ⟨⟨q1, s1, pr1⟩, e1, e2⟩ := Outcome.bind_eq_ok h
    obtain ⟨rfl, rfl, e3⟩ := ih _ _ _ e1
    rw [loopM, e3]
    change _ ∧ _ ∧ round1 (logged full m A) n ru k _ = _
    rw [round1] at e2 ⊢
    rw [runA1, prevOf_succ', List.range_succ, List.map_append]
    simp only [List.map_cons, List.map_nil, logA1]
    split_ifs at e2 ⊢ with hk
    all_goals
      obtain ⟨_, c1, e2⟩ := Outcome.bind_eq_ok' e2
      cases e2
      refine ⟨rfl, rfl, ?_⟩
      refine bind_of_ok c1 ?_
      simp [WithRecord.step, logged]

theorem loop2_log (full : Bool) (m : ℕ) (A : ProverApi σ F G1 G2) (n i : ℕ) (rv : ℕ → F) (relay : F) (q : σ) (sum : F)
    (l : ℕ) (L : List (Msg F G1 G2)) : ∀ k q' sum' prev,
      loopM k (round2 A n i rv relay) (q, sum, 0) = .ok (q', sum', prev) →
      q' = runA2 A n (fun j => if i = 1 then 0 else rv j) q k ∧ prev = prevOf (fun j => if i = 1 then 0 else rv j) k ∧
      loopM k (round2 (logged full m A) n i rv relay) (⟨q, l, L⟩, sum, 0) =
        .ok (⟨q', l, L ++ (List.range k).map (logA2 A n (fun j => if i = 1 then 0 else rv j) q)⟩, sum', prev) := by
  intro k
  induction k with
  | zero =>
    intro q' sum' prev h
    cases h
    exact ⟨rfl, rfl, by simp [loopM]⟩
  | succ k ih =>
    intro q' sum' prev h
    obtain ⟨⟨q1, s1, pr1⟩, e1, e2⟩ := Outcome.bind_eq_ok h
    obtain ⟨rfl, rfl, e3⟩ := ih _ _ _ e1
    rw [loopM, e3]
    change _ ∧ _ ∧ round2 (logged full m A) n i rv relay k _ = _
    rw [round2] at e2 ⊢
    rw [runA2, prevOf_succ', List.range_succ, List.map_append]
    simp only [List.map_cons, List.map_nil, logA2]
    by_cases hk : k + 1 = n
    · simp only [if_pos hk] at e2 ⊢
      obtain ⟨_, c1, e2⟩ := Outcome.bind_eq_ok' e2
      cases e2
      refine ⟨rfl, rfl, ?_⟩
      refine bind_of_ok c1 ?_
      simp [WithRecord.step, logged]
    · simp only [if_neg hk] at e2 ⊢
      obtain ⟨_, c1, e2⟩ := Outcome.bind_eq_ok' e2
      cases e2
      refine ⟨rfl, rfl, ?_⟩
      refine bind_of_ok c1 ?_
      simp [WithRecord.step, logged]

/-- the state of the verifier with a recorded prover -/
def withLog (s : VState σ F) (l : ℕ) (L : List (Msg F G1 G2)) : VState (WithRecord σ F G1 G2) F :=
  { prover := ⟨s.prover, l, L⟩, alpha := s.alpha, beta := s.beta, sum := s.sum, r0 := s.r0, r1 := s.r1,
    omr0 := s.omr0, omr1 := s.omr1, tables := s.tables }

variable {GT : Type} [AddCommGroup G1] [AddCommGroup G2] [AddCommGroup GT]
  [Module (ZMod p) G1] [Module (ZMod p) G2] [Module (ZMod p) GT] [Gmp F] [DecidableEq GT]

/-- the calls of an iteration of the layer loop that succeeds, and what the verifier gets -/
theorem layerStep_log (full : Bool) (m : ℕ) {E : Pairing G1 G2 GT} {C : Circuit} {A : ProverApi σ F G1 G2}
    {ch : Challenges F} {i : ℕ} {s s' : VState σ F} (h : layerStep E C A ch i s = .ok s') :
    ∃ n, n = C.bl (i - 1) ∧ ∃ ru, ru = ch.ru i ∧ ∃ rv : ℕ → F, rv = (fun j => if i = 1 then 0 else ch.rv i j) ∧
    ∃ rc : F, rc = (if i = 1 then 0 else ch.rc i) ∧
    ∃ p1 dR, A.sumcheckInit s.prover i (C.bl i) n n s.alpha s.beta s.r0 s.r1 s.omr0 s.omr1 = .ok (p1, dR) ∧
    ∃ p2 dM, A.maskPreRho p1 (n * 2 + 1) = .ok (p2, dM) ∧
    ∃ p3, p3 = A.maskAfterRho (A.setRho p2 (ch.rho i)) (n * 2 + 1) ∧
    ∃ p4, A.phase2Init (runA1 A n ru (A.phase1Init p3) n) (prevOf ru n) ru (oneMinus ru) = .ok p4 ∧
    ∃ p5 vu vv, A.finalize (runA2 A n rv p4 n) (prevOf rv n) = (p5, vu, vv) ∧
    ∃ pv, predicates C (betaInit C s.tables i s.alpha s.beta s.r0 s.r1 ru rv s.omr0 s.omr1 (oneMinus ru)
        (oneMinus (ch.rv i))) i s.r0 s.r1 ru rv = .ok pv ∧
    ∃ p6 f, A.finalround p5 (prevOf rv n) (n <<< 1) (general pv vu vv) = (p6, f) ∧
    ∃ p7 o1, A.proveR p6 (fun k => if k = 0 then Gmp.toMpz (A.prepreu1 p6) else Gmp.toMpz rc) = .ok (p7, o1) ∧
    ∃ p8 o2, A.proveR p7 (fun k => if k = 0 then Gmp.toMpz (A.preprev1 p7) else Gmp.toMpz rc) = .ok (p8, o2) ∧
    ∃ p9 o3, A.proveMask p8 (fun k => if k < n then Gmp.toMpz (ru k)
        else if k < n + n then Gmp.toMpz (rv (k - n)) else Gmp.toMpz rc) = .ok (p9, o3) ∧
    (let relay := s.alpha * FastTrack.directRelay C i s.r0 ru + s.beta * FastTrack.directRelay C i s.r1 ru
     f.eval rc + relay * A.vU p6 = rc * general pv vu vv + s.alpha * A.Iuv p9 * A.preZu p9 * (o1.ans : F)
      + s.beta * A.Iuv p9 * A.preZv p9 * (o2.ans : F) + ch.rho i * (o3.ans : F) + relay * vu) ∧
    s'.prover = p9 ∧ s'.sum = (if i ≠ 1 then ch.alpha i * vu + ch.beta i * vv else vu) ∧
    ∀ l L, layerStep E C (logged full m A) ch i (withLog s l L) = .ok (withLog s' i (L ++
      ([.key (A.keyR p1), .digest dR, .key (A.keyMask p2), .digest dM, .number (A.sumc p3)] ++
        (List.range n).map (logA1 A n ru (A.phase1Init p3)) ++ [.number (A.vU p4)] ++
        (List.range n).map (logA2 A n rv p4) ++ (.number vu :: if full ∨ i ≠ 1 then [.number vv] else []) ++
        [.quad f, .number (A.vU p6), .number (A.prepreu1 p6), .number (A.preprev1 p6), .number (A.Iuv p6),
          .number (A.preZu p6), .number (A.preZv p6), .opened 3 o1, .opened 3 o2,
          .opened ((A.keyMask p9).numOfVar + 1) o3]))) := by
  rw [layerStep] at h
  obtain ⟨⟨p1, dR⟩, e1, h⟩ := Outcome.bind_eq_ok' h
  obtain ⟨⟨p2, dM⟩, e2, h⟩ := Outcome.bind_eq_ok' h
  obtain ⟨⟨t1, t2, t3⟩, e4, h⟩ := Outcome.bind_eq_ok' h
  obtain ⟨p4, e5, h⟩ := Outcome.bind_eq_ok' h
  obtain ⟨⟨q1, q2, q3⟩, e6, h⟩ := Outcome.bind_eq_ok' h
  obtain ⟨pv, e8, h⟩ := Outcome.bind_eq_ok' h
  obtain ⟨_, e9, h⟩ := Outcome.bind_eq_ok' h
  obtain ⟨⟨p7, o1⟩, e12, h⟩ := Outcome.bind_eq_ok' h
  obtain ⟨v1, e13, h⟩ := Outcome.bind_eq_ok' h
  obtain ⟨⟨p8, o2⟩, e16, h⟩ := Outcome.bind_eq_ok' h
  obtain ⟨v2, e17, h⟩ := Outcome.bind_eq_ok' h
  obtain ⟨_, e18, h⟩ := Outcome.bind_eq_ok' h
  obtain ⟨⟨p9, o3⟩, e20, h⟩ := Outcome.bind_eq_ok' h
  obtain ⟨v3, e21, h⟩ := Outcome.bind_eq_ok' h
  obtain ⟨_, e22, h⟩ := Outcome.bind_eq_ok' h
  obtain ⟨_, e23, h⟩ := Outcome.bind_eq_ok' h
  cases h
  have c23 := Outcome.check_ok_iff.1 e23
  rw [beq_iff_eq] at c23
  set p3 := A.maskAfterRho (A.setRho p2 (ch.rho i)) (C.bl (i - 1) * 2 + 1) with hp3
  obtain ⟨rfl, rfl, -⟩ := loop1_log full m A (C.bl (i - 1)) (ch.ru i) (A.phase1Init p3) _ 0 [] _ _ _ _ e4
  obtain ⟨rfl, rfl, -⟩ := loop2_log full m A (C.bl (i - 1)) i (ch.rv i) _ p4 _ 0 [] _ _ _ _ e6
  set rv : ℕ → F := fun j => if i = 1 then 0 else ch.rv i j with hrv
  obtain ⟨p5, vu, vv, e7⟩ : ∃ p5 vu vv, A.finalize (runA2 A (C.bl (i - 1)) rv p4 (C.bl (i - 1)))
    (prevOf rv (C.bl (i - 1))) = (p5, vu, vv) := ⟨_, _, _, rfl⟩
  simp only [e7] at e8 e9 e12 e13 e16 e17 e20 e21 e23 c23 ⊢
  obtain ⟨p6, f, e10⟩ : ∃ p6 f, A.finalround p5 (prevOf rv (C.bl (i - 1))) (C.bl (i - 1) <<< 1) (general pv vu vv) =
    (p6, f) := ⟨_, _, rfl⟩
  simp only [e10] at e9 e12 e13 e16 e17 e20 e21 e23 c23 ⊢
  refine ⟨_, rfl, _, rfl, _, rfl, _, rfl, p1, dR, e1, p2, dM, e2, _, rfl, p4, e5, p5, vu, vv, e7, pv, e8, p6, f, e10,
    p7, o1, e12, p8, o2, e16, p9, o3, e20, c23, rfl, rfl, ?_⟩
  intro l L
  set L1 := L ++ [.key (A.keyR p1), .digest dR] with hL1
  set L2 := L1 ++ [.key (A.keyMask p2), .digest dM] with hL2
  set L3 := L2 ++ [] ++ [.number (A.sumc p3)] ++ [] with hL3
  obtain ⟨-, -, l4⟩ := loop1_log full m A (C.bl (i - 1)) (ch.ru i) (A.phase1Init p3) _ i L3 _ _ _ _ e4
  set L4 := L3 ++ (List.range (C.bl (i - 1))).map (logA1 A (C.bl (i - 1)) (ch.ru i) (A.phase1Init p3)) with hL4
  set L5 := L4 ++ [.number (A.vU p4)] with hL5
  obtain ⟨-, -, l6⟩ := loop2_log full m A (C.bl (i - 1)) i (ch.rv i) _ p4 _ i L5 _ _ _ _ e6
  set L6 := L5 ++ (List.range (C.bl (i - 1))).map (logA2 A (C.bl (i - 1)) rv p4) with hL6
  set L7 := L6 ++ (.number vu :: if full ∨ i ≠ 1 then [.number vv] else []) with hL7
  set L8 := L7 ++ [.quad f, .number (A.vU p6), .number (A.prepreu1 p6), .number (A.preprev1 p6), .number (A.Iuv p6),
          .number (A.preZu p6), .number (A.preZv p6)] with hL8
  have k1 : (logged full m A).sumcheckInit (withLog s l L).prover i (C.bl i) (C.bl (i - 1)) (C.bl (i - 1)) s.alpha s.beta
      s.r0 s.r1 s.omr0 s.omr1 = .ok (⟨p1, i, L1⟩, dR) := by
    change (A.sumcheckInit s.prover i (C.bl i) (C.bl (i - 1)) (C.bl (i - 1)) s.alpha s.beta
      s.r0 s.r1 s.omr0 s.omr1 >>= _) = _
    rw [e1]; rfl
  have k2 : (logged full m A).maskPreRho ⟨p1, i, L1⟩ (C.bl (i - 1) * 2 + 1) = .ok (⟨p2, i, L2⟩, dM) := by
    change (A.maskPreRho p1 (C.bl (i - 1) * 2 + 1) >>= _) = _
    rw [e2]; rfl
  have k5 : (logged full m A).phase2Init ⟨runA1 A (C.bl (i - 1)) (ch.ru i) (A.phase1Init p3) (C.bl (i - 1)), i, L4⟩
      (prevOf (ch.ru i) (C.bl (i - 1))) (ch.ru i) (oneMinus (ch.ru i)) = .ok ⟨p4, i, L5⟩ := by
    change (A.phase2Init (runA1 A (C.bl (i - 1)) (ch.ru i) (A.phase1Init p3) (C.bl (i - 1)))
      (prevOf (ch.ru i) (C.bl (i - 1))) (ch.ru i) (oneMinus (ch.ru i)) >>= _) = _
    rw [e5]; rfl
  have k7 : (logged full m A).finalize ⟨runA2 A (C.bl (i - 1)) rv p4 (C.bl (i - 1)), i, L6⟩
      (prevOf rv (C.bl (i - 1))) = (⟨p5, i, L7⟩, vu, vv) := by
    rw [logged_finalize, e7]; rfl
  have k10 : (logged full m A).finalround ⟨p5, i, L7⟩ (prevOf rv (C.bl (i - 1))) (C.bl (i - 1) <<< 1)
      (general pv vu vv) = (⟨p6, i, L8⟩, f) := by
    rw [logged_finalround, e10]; rfl
  have k12 : (logged full m A).proveR ⟨p6, i, L8⟩ (fun k => if k = 0 then Gmp.toMpz (A.prepreu1 p6) else
      Gmp.toMpz (if i = 1 then 0 else ch.rc i)) = .ok (⟨p7, i, L8 ++ [.opened 3 o1]⟩, o1) := by
    change (A.proveR p6 (fun k => if k = 0 then Gmp.toMpz (A.prepreu1 p6) else
      Gmp.toMpz (if i = 1 then 0 else ch.rc i)) >>= _) = _
    rw [e12]; rfl
  have k16 : (logged full m A).proveR ⟨p7, i, L8 ++ [.opened 3 o1]⟩ (fun k => if k = 0 then Gmp.toMpz (A.preprev1 p7) else
      Gmp.toMpz (if i = 1 then 0 else ch.rc i)) = .ok (⟨p8, i, L8 ++ [.opened 3 o1] ++ [.opened 3 o2]⟩, o2) := by
    change (A.proveR p7 (fun k => if k = 0 then Gmp.toMpz (A.preprev1 p7) else
      Gmp.toMpz (if i = 1 then 0 else ch.rc i)) >>= _) = _
    rw [e16]; rfl
  have k20 : (logged full m A).proveMask ⟨p8, i, L8 ++ [.opened 3 o1] ++ [.opened 3 o2]⟩
      (fun k => if k < C.bl (i - 1) then Gmp.toMpz (ch.ru i k)
        else if k < C.bl (i - 1) + C.bl (i - 1) then Gmp.toMpz (rv (k - C.bl (i - 1))) else
      Gmp.toMpz (if i = 1 then 0 else ch.rc i)) =
      .ok (⟨p9, i, L8 ++ [.opened 3 o1] ++ [.opened 3 o2] ++ [.opened ((A.keyMask p9).numOfVar + 1) o3]⟩, o3) := by
    change (A.proveMask p8 (fun k => if k < C.bl (i - 1) then Gmp.toMpz (ch.ru i k)
        else if k < C.bl (i - 1) + C.bl (i - 1) then Gmp.toMpz (rv (k - C.bl (i - 1))) else
      Gmp.toMpz (if i = 1 then 0 else ch.rc i)) >>= _) = _
    rw [e20]; rfl
  have hlist : L ++ ([.key (A.keyR p1), .digest dR, .key (A.keyMask p2), .digest dM, .number (A.sumc p3)] ++
        (List.range (C.bl (i - 1))).map (logA1 A (C.bl (i - 1)) (ch.ru i) (A.phase1Init p3)) ++ [.number (A.vU p4)] ++
        (List.range (C.bl (i - 1))).map (logA2 A (C.bl (i - 1)) rv p4) ++ (.number vu :: if full ∨ i ≠ 1 then [.number vv] else []) ++
        [.quad f, .number (A.vU p6), .number (A.prepreu1 p6), .number (A.preprev1 p6), .number (A.Iuv p6),
          .number (A.preZu p6), .number (A.preZv p6), .opened 3 o1, .opened 3 o2,
          .opened ((A.keyMask p9).numOfVar + 1) o3]) =
      L8 ++ [.opened 3 o1] ++ [.opened 3 o2] ++ [.opened ((A.keyMask p9).numOfVar + 1) o3] := by
    simp only [hL8, hL7, hL6, hL5, hL4, hL3, hL2, hL1, List.append_assoc, List.cons_append, List.nil_append, List.append_nil]
  rw [hlist, layerStep]
  refine bind_of_ok k1 ?_
  refine bind_of_ok k2 ?_
  refine bind_of_ok l4 ?_
  refine bind_of_ok k5 ?_
  refine bind_of_ok l6 ?_
  simp only [k7]
  refine bind_of_ok e8 ?_
  simp only [k10]
  refine bind_of_ok e9 ?_
  refine bind_of_ok k12 ?_
  refine bind_of_ok e13 ?_
  refine bind_of_ok k16 ?_
  refine bind_of_ok e17 ?_
  refine bind_of_ok e18 ?_
  refine bind_of_ok k20 ?_
  refine bind_of_ok e21 ?_
  refine bind_of_ok e22 ?_
  refine bind_of_ok e23 ?_
  rfl

end Libra.Zk
