import Verif.Proofs.BlockedComplete
import Mathlib.Tactic.FieldSimp

/-!
# The verifier of the blocked protocol reads `beta_blk_val` from the prover

A prover that sends constant polynomials and answers with the value of `beta_blk_val` that makes the
check at the end of the layer pass.
-/

namespace Libra.Blocked
open Libra Spec Finset FastTrack Cmt
variable {F : Type} [Field F]

/-- the state of the cheating prover: the current claim, what `sumcheck_init` announced, the
challenges seen so far and the values for the end of the layer -/
structure Cheat (F : Type) where
  s : F
  layer : ℕ
  alpha : F
  beta : F
  r0 : ℕ → F
  r1 : ℕ → F
  rb : ℕ → F
  ru : ℕ → F
  rv : ℕ → F
  vu : F
  vv : F
  bval : F

/-- remember the challenge that answers the previous round -/
def record (f : ℕ → F) (bit : ℕ) (prev : F) : ℕ → F :=
  if bit = 0 then f else Function.update f (bit - 1) prev

/-- the cheating prover for the output `fake`; `h` is one half -/
def cheat (B : BlockedCircuit) (fake : ℕ → F) (h : F) : ProverApi (Cheat F) F where
  start := ⟨0, 0, 0, 0, fun _ => 0, fun _ => 0, fun _ => 0, fun _ => 0, fun _ => 0, 0, 0, 0⟩
  evaluate p := .ok (p, fake)
  vRes _ omr r omrb rb result rSize rbSize outputSize :=
    foldBlocked omr r omrb rb result rSize rbSize outputSize
  sumcheckInit p layerId blk g _ _ a b rb0 r0 r1 omrb0 omr0 _ :=
    { p with layer := layerId, alpha := a, beta := b, r0 := r0, r1 := r1,
             s := if layerId = (B.blocks 0).depth - 1
               then foldBlocked omr0 r0 omrb0 rb0 fake g blk (2 ^ (g + blk))
               else a * p.vu + b * p.vv }
  phase0Init p := p
  phase0Update p prev bit :=
    .ok ({ p with s := p.s * h, rb := record p.rb bit prev }, ⟨0, 0, 0, p.s * h⟩)
  phase1Init p prev := .ok { p with rb := record p.rb B.log prev }
  phase1Update p prev bit :=
    .ok ({ p with s := p.s * h, ru := record p.ru bit prev }, ⟨0, 0, p.s * h⟩)
  phase2Init p prev :=
    .ok { p with ru := record p.ru ((B.blocks 0).bl (p.layer - 1)) prev }
  phase2Update p prev bit :=
    .ok ({ p with s := p.s * h, rv := record p.rv bit prev }, ⟨0, 0, p.s * h⟩)
  finalize p prev :=
    let C := B.blocks 0
    let n := C.bl (p.layer - 1)
    let rv := record p.rv n prev
    let V : ℕ → ℕ → F := blockValue B (p.layer - 1)
    let vu := blockMle B.log n V p.rb p.ru
    let vv := blockMle B.log n V p.rb rv
    ({ p with vu := vu, vv := vv,
              bval := p.s / endClaim C p.layer (comb (C.bl p.layer) p.alpha p.beta p.r0 p.r1)
                (eqPoly n p.ru) (eqPoly n rv) vu vv }, (vu, vv))
  betaBlkVal p := p.bval

theorem record_zero (f : ℕ → F) (x : F) : record f 0 x = f := rfl

/-- after a phase of `j` rounds and the next message the challenges are known -/
theorem record_all {f r : ℕ → F} {j : ℕ} {x : F} (h : ∀ t, t + 1 < j → f t = r t)
    (hx : 0 < j → x = r (j - 1)) : ∀ t < j, record f j x t = r t := by
  intro t ht
  rw [record, if_neg (by omega)]
  by_cases e : t = j - 1
  · subst e; rw [Function.update_self, hx (by omega)]
  · rw [Function.update_of_ne e, h t (by omega)]

variable [DecidableEq F]

theorem half_add {h : F} (h2 : 2 * h = 1) (s : F) : s * h + s * h = s := by
  rw [← mul_two, mul_assoc, mul_comm h, h2, mul_one]

theorem cheat_rounds0 {h : F} (h2 : 2 * h = 1) (B : BlockedCircuit) (fake : ℕ → F) (r : ℕ → F)
    (P : Cheat F) : ∀ j, ∃ g : ℕ → F,
    loopM j (round0 (cheat B fake h).phase0Update r) (P, P.s, 0) =
      .ok ({ P with s := P.s * h ^ j, rb := g }, P.s * h ^ j, prevOf r j) ∧
      ∀ t, t + 1 < j → g t = r t := by
  intro j
  induction j with
  | zero => exact ⟨P.rb, by simp [prevOf], fun t ht => by omega⟩
  | succ j ih =>
    obtain ⟨g, e, hg⟩ := ih
    refine ⟨record g j (prevOf r j), ?_, fun t ht => ?_⟩
    · rw [loopM_succ, e, Outcome.bind_ok, round0]
      simp only [cheat, Outcome.ok_bind]
      have e0 : ∀ c x : F, (⟨0, 0, 0, c⟩ : CubicPoly F).eval x = c := by
        intro c x; simp [CubicPoly.eval]
      rw [e0, e0, e0, half_add h2, beq_self_eq_true, Outcome.check_true, Outcome.ok_bind]
      simp [prevOf, pow_succ, mul_assoc]
    · exact record_all hg (fun hj => by rw [prevOf, if_neg (by omega)]) t (by omega)

theorem cheat_rounds1 {h : F} (h2 : 2 * h = 1) (B : BlockedCircuit) (fake : ℕ → F) (r : ℕ → F)
    (P : Cheat F) (q : F) : ∀ j, ∃ g : ℕ → F, ∃ q' : F,
    loopM j (Cmt.round (cheat B fake h).phase1Update r) (P, P.s, q) =
      .ok ({ P with s := P.s * h ^ j, ru := g }, P.s * h ^ j, q') ∧
      (0 < j → q' = r (j - 1)) ∧ ∀ t, t + 1 < j → g t = r t := by
  intro j
  induction j with
  | zero => exact ⟨P.ru, q, by simp, fun h => by omega, fun t ht => by omega⟩
  | succ j ih =>
    obtain ⟨g, q', e, hq, hg⟩ := ih
    refine ⟨record g j q', r j, ?_, fun _ => rfl, fun t ht => ?_⟩
    · rw [loopM_succ, e, Outcome.bind_ok, Cmt.round]
      simp only [cheat, Outcome.ok_bind]
      have e0 : ∀ c x : F, (⟨0, 0, c⟩ : QuadraticPoly F).eval x = c := by
        intro c x; simp [QuadraticPoly.eval]
      rw [e0, e0, e0, half_add h2, beq_self_eq_true, Outcome.check_true, Outcome.ok_bind]
      simp [pow_succ, mul_assoc]
    · exact record_all hg hq t (by omega)

theorem cheat_rounds2 {h : F} (h2 : 2 * h = 1) (B : BlockedCircuit) (fake : ℕ → F) (r : ℕ → F)
    (P : Cheat F) (q : F) : ∀ j, ∃ g : ℕ → F, ∃ q' : F,
    loopM j (Cmt.round (cheat B fake h).phase2Update r) (P, P.s, q) =
      .ok ({ P with s := P.s * h ^ j, rv := g }, P.s * h ^ j, q') ∧
      (0 < j → q' = r (j - 1)) ∧ ∀ t, t + 1 < j → g t = r t := by
  intro j
  induction j with
  | zero => exact ⟨P.rv, q, by simp, fun h => by omega, fun t ht => by omega⟩
  | succ j ih =>
    obtain ⟨g, q', e, hq, hg⟩ := ih
    refine ⟨record g j q', r j, ?_, fun _ => rfl, fun t ht => ?_⟩
    · rw [loopM_succ, e, Outcome.bind_ok, Cmt.round]
      simp only [cheat, Outcome.ok_bind]
      have e0 : ∀ c x : F, (⟨0, 0, c⟩ : QuadraticPoly F).eval x = c := by
        intro c x; simp [QuadraticPoly.eval]
      rw [e0, e0, e0, half_add h2, beq_self_eq_true, Outcome.check_true, Outcome.ok_bind]
      simp [pow_succ, mul_assoc]
    · exact record_all hg hq t (by omega)

/-- The value the verifier multiplies `beta_blk_val` with at the end of layer `i`, for the true values
of the layer below. -/
def predValue (B : BlockedCircuit) (ch : BlockChallenges F) (i : ℕ) (α β : F) (r0 r1 : ℕ → F) : F :=
  let C := B.blocks 0
  let n := C.bl (i - 1)
  endClaim C i (comb (C.bl i) α β r0 r1) (eqPoly n (ch.ru i)) (eqPoly n (ch.rv i))
    (blockMle B.log n (blockValue B (i - 1)) (ch.rb i) (ch.ru i))
    (blockMle B.log n (blockValue B (i - 1)) (ch.rb i) (ch.rv i))

/-- invariant of the layer loop with the cheating prover: in the top layer the claim is that of the
false output, below it is true -/
structure CheatInv (B : BlockedCircuit) (fake : ℕ → F) (i : ℕ) (s : BState (Cheat F) F) : Prop where
  om0 : ∀ j < (B.blocks 0).bl i, s.omr0 j = 1 - s.r0 j
  om1 : ∀ j < (B.blocks 0).bl i, s.omr1 j = 1 - s.r1 j
  omb : ∀ j < B.log, s.omrb j = 1 - s.rb j
  top : i = (B.blocks 0).depth - 1 → s.sum = foldBlocked s.omr0 s.r0 s.omrb s.rb fake
    ((B.blocks 0).bl i) B.log (2 ^ ((B.blocks 0).bl i + B.log))
  low : i ≠ (B.blocks 0).depth - 1 → s.sum = s.alpha * s.prover.vu + s.beta * s.prover.vv ∧
    s.prover.vu = blockMle B.log ((B.blocks 0).bl i) (blockValue B i) s.rb s.r0 ∧
    s.prover.vv = blockMle B.log ((B.blocks 0).bl i) (blockValue B i) s.rb s.r1

theorem blockMle_congr_r {k n : ℕ} {V : ℕ → ℕ → F} {rb rb' r r' : ℕ → F}
    (hb : ∀ j < k, rb j = rb' j) (h : ∀ j < n, r j = r' j) :
    blockMle k n V rb r = blockMle k n V rb' r' :=
  mle_congr (fun _ _ => mle_congr (fun _ _ => rfl) h) hb

theorem cheat_layer {h : F} (h2 : 2 * h = 1) {B : BlockedCircuit} (hB : Repeats B) (fake : ℕ → F)
    (ch : BlockChallenges F) {i : ℕ} (h1 : 1 ≤ i) (hd : i < (B.blocks 0).depth)
    {s : BState (Cheat F) F} (hs : CheatInv B fake i s)
    (hne : predValue B ch i s.alpha s.beta s.r0 s.r1 ≠ 0) :
    ∃ s', layerStep B (cheat B fake h) ch i s = .ok s' ∧ CheatInv B fake (i - 1) s' ∧
      s'.alpha = ch.alpha i ∧ s'.beta = ch.beta i ∧ s'.r0 = ch.ru i ∧ s'.r1 = ch.rv i := by
  obtain ⟨hl, -⟩ := layer_facts hB h1 hd
  rw [predValue] at hne
  set C := B.blocks 0 with hC
  set n := C.bl (i - 1) with hn
  set K := B.log with hK
  have hK1 : 1 ≤ K := hB.log
  have hn1 : 1 ≤ n := hl.wide
  set P : Cheat F := (cheat B fake h).sumcheckInit s.prover i K (C.bl i) n n s.alpha s.beta s.rb s.r0
    s.r1 s.omrb s.omr0 s.omr1 with hP
  have hsum : s.sum = P.s := by
    change s.sum = if i = C.depth - 1 then foldBlocked s.omr0 s.r0 s.omrb s.rb fake (C.bl i) K
      (2 ^ (C.bl i + K)) else s.alpha * s.prover.vu + s.beta * s.prover.vv
    by_cases e : i = C.depth - 1
    · rw [if_pos e, hs.top e]
    · rw [if_neg e, (hs.low e).1]
  obtain ⟨gb, e0, hgb⟩ := cheat_rounds0 h2 B fake (ch.rb i) P K
  have hgb' := record_all (x := prevOf (ch.rb i) K) hgb
    (fun hj => by rw [prevOf, if_neg (by omega)])
  set fb := record gb K (prevOf (ch.rb i) K) with hfb
  set P1 : Cheat F := { P with s := P.s * h ^ K, rb := fb } with hP1
  obtain ⟨gu, qu, e1, hqu, hgu⟩ := cheat_rounds1 h2 B fake (ch.ru i) P1 (prevOf (ch.rb i) K) n
  have hgu' := record_all (x := qu) hgu hqu
  set fu := record gu n qu with hfu
  set P2 : Cheat F := { P1 with s := P1.s * h ^ n, ru := fu } with hP2
  obtain ⟨gv, qv, e2, hqv, hgv⟩ := cheat_rounds2 h2 B fake (ch.rv i) P2 0 n
  have hgv' := record_all (x := qv) hgv hqv
  set fv := record gv n qv with hfv
  set V : ℕ → ℕ → F := blockValue B (i - 1) with hV
  set vu := blockMle K n V fb fu with hvu
  set vv := blockMle K n V fb fv with hvv
  have hvu' : vu = blockMle K n V (ch.rb i) (ch.ru i) := blockMle_congr_r hgb' hgu'
  have hvv' : vv = blockMle K n V (ch.rb i) (ch.rv i) := blockMle_congr_r hgb' hgv'
  set c := comb (C.bl i) s.alpha s.beta s.r0 s.r1 with hc
  set T' := betaInit C s.tables i s.alpha s.beta s.r0 s.r1 (ch.ru i) (ch.rv i) s.omr0 s.omr1
    (oneMinus (ch.ru i)) (oneMinus (ch.rv i)) with hT'
  obtain ⟨b1, b2, b3⟩ := betaInit_spec C s.tables i s.alpha s.beta s.r0 s.r1 (ch.ru i) (ch.rv i)
    s.omr0 s.omr1 (oneMinus (ch.ru i)) (oneMinus (ch.rv i)) hs.om0 hs.om1 (fun _ _ => rfl)
  have hend := endClaim_congr hl b1 b2 (b3 (fun _ _ => rfl)) vu vv
  have hend' : endClaim C i c (eqPoly n fu) (eqPoly n fv) vu vv =
      endClaim C i c (eqPoly n (ch.ru i)) (eqPoly n (ch.rv i)) vu vv :=
    endClaim_congr hl (fun _ _ => rfl) (fun k _ => eqPoly_congr_r k hgu')
      (fun k _ => eqPoly_congr_r k hgv') vu vv
  rw [← hvu', ← hvv'] at hne
  set P3 : Cheat F := { P2 with
    s := P2.s * h ^ n, rv := gv, vu := vu, vv := vv
    bval := P2.s * h ^ n / endClaim C i c (eqPoly n fu) (eqPoly n fv) vu vv } with hP3
  refine ⟨{ prover := P3, alpha := ch.alpha i, beta := ch.beta i,
            sum := ch.alpha i * vu + ch.beta i * vv,
            r0 := ch.ru i, r1 := ch.rv i, omr0 := oneMinus (ch.ru i), omr1 := oneMinus (ch.rv i),
            tables := T', rb := ch.rb i, omrb := oneMinus (ch.rb i) }, ?_, ?_, rfl, rfl, rfl, rfl⟩
  · rw [layerStep]
    change (loopM K (round0 (cheat B fake h).phase0Update (ch.rb i)) (P, s.sum, 0) >>= _) = _
    rw [hsum, e0, Outcome.ok_bind]
    change (Outcome.ok P1 >>= _) = _
    rw [Outcome.ok_bind]
    change (loopM n (Cmt.round (cheat B fake h).phase1Update (ch.ru i))
      (P1, P1.s, prevOf (ch.rb i) K) >>= _) = _
    rw [e1, Outcome.ok_bind]
    change (Outcome.ok P2 >>= _) = _
    rw [Outcome.ok_bind]
    change (loopM n (Cmt.round (cheat B fake h).phase2Update (ch.rv i)) (P2, P2.s, 0) >>= _) = _
    rw [e2, Outcome.ok_bind]
    change (Outcome.check (P2.s * h ^ n == P2.s * h ^ n /
        endClaim C i c (eqPoly n fu) (eqPoly n fv) vu vv *
        (pred2 C T' i 0 * (vu + vv) + pred2 C T' i 1 * vu * vv)) >>= fun _ =>
      Outcome.ok (BState.mk (VState.mk P3
        (ch.alpha i) (ch.beta i) (ch.alpha i * vu + ch.beta i * vv)
        (ch.ru i) (ch.rv i) (oneMinus (ch.ru i)) (oneMinus (ch.rv i)) T') (ch.rb i)
        (oneMinus (ch.rb i)))) = _
    rw [pred_end, hend, hend', div_mul_cancel₀ _ hne, beq_self_eq_true, Outcome.check_true,
      Outcome.ok_bind]
  · refine ⟨fun _ _ => rfl, fun _ _ => rfl, fun _ _ => rfl, fun e => ?_, fun _ => ⟨rfl, hvu', hvv'⟩⟩
    rw [← hC] at e
    omega

/-- the point and the coefficients of the claim on layer `i` -/
def claimOf (B : BlockedCircuit) (ch : BlockChallenges F) (i : ℕ) : F × F × (ℕ → F) × (ℕ → F) :=
  if i = (B.blocks 0).depth - 1 then (1, 0, ch.r0, ch.r1)
  else (ch.alpha (i + 1), ch.beta (i + 1), ch.ru (i + 1), ch.rv (i + 1))

theorem cheat_accepted {h : F} (h2 : 2 * h = 1) {B : BlockedCircuit} (hB : Repeats B)
    (hdeep : 2 ≤ (B.blocks 0).depth) (fake : ℕ → F) (tables : BetaTables F) (ch : BlockChallenges F)
    (hne : ∀ i, 1 ≤ i → i < (B.blocks 0).depth → predValue B ch i (claimOf B ch i).1
      (claimOf B ch i).2.1 (claimOf B ch i).2.2.1 (claimOf B ch i).2.2.2 ≠ 0) :
    verify B (cheat B fake h) tables ch = .ok () := by
  rw [verify]
  change (Outcome.ok ((cheat B fake h).start, fake) >>= _) = _
  rw [Outcome.ok_bind]
  dsimp only
  have hle := hB.count
  rw [if_neg (by omega)]
  change (Outcome.ok _ >>= _) = _
  rw [Outcome.ok_bind]
  set top := (B.blocks 0).depth - 1 with htop
  obtain ⟨s', e, hs', -⟩ := loopDownM_ok (n := top) (b := layerStep B (cheat B fake h) ch)
    (s := {
      prover := (cheat B fake h).start, alpha := 1, beta := 0,
      sum := 1 * (cheat B fake h).vRes (cheat B fake h).start (oneMinus ch.r0) ch.r0
        (oneMinus ch.rb0) ch.rb0 fake ((B.blocks 0).bl top) B.log (2 ^ ((B.blocks 0).bl top + B.log)),
      r0 := ch.r0, r1 := ch.r1, omr0 := oneMinus ch.r0, omr1 := oneMinus ch.r1,
      tables := tables, rb := ch.rb0, omrb := oneMinus ch.rb0 })
    (fun i s => CheatInv B fake i s ∧ (s.alpha, s.beta, s.r0, s.r1) = claimOf B ch i)
    ⟨⟨fun _ _ => rfl, fun _ _ => rfl, fun _ _ => rfl, fun _ => one_mul _,
      fun h => absurd rfl h⟩, by rw [claimOf, if_pos rfl]⟩
    (fun i hi hn s hs => by
      have hd : i < (B.blocks 0).depth := by omega
      have := hne i hi hd
      rw [← hs.2] at this
      obtain ⟨s', e, h3, ha, hb, h0, h1'⟩ := cheat_layer h2 hB fake ch hi hd hs.1 this
      refine ⟨s', e, h3, ?_⟩
      rw [claimOf, if_neg (by omega), ha, hb, h0, h1', Nat.sub_add_cancel hi])
  obtain ⟨T, hT, hTv⟩ := verifierInput_ok (F := F) hB
  obtain ⟨l1, l2, l3⟩ := hs'.low (by omega)
  rw [e, Outcome.ok_bind, hT, Outcome.ok_bind, foldBlocked_spec _ _ _ _ _ _ _ hs'.om0 hs'.omb,
    foldBlocked_spec _ _ _ _ _ _ _ hs'.om1 hs'.omb, l1, l2, l3,
    blockMle_congr _ _ (fun b hb g hg => hTv b (lt_of_lt_of_le hb hB.count) g hg),
    blockMle_congr _ _ (fun b hb g hg => hTv b (lt_of_lt_of_le hb hB.count) g hg),
    mul_comm (blockMle _ _ _ _ s'.r0), mul_comm (blockMle _ _ _ _ s'.r1),
    beq_self_eq_true, Outcome.check_true]

end Libra.Blocked
