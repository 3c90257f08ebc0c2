import Verif.Proofs.CmtComplete
import Verif.Proofs.Splice
import Verif.Props.Examples
import Verif.Model.Fp

/-!
# C38: the `O(S log S)` prover of `traditional_gkr`
-/

namespace Libra.Props
open Libra Spec Finset FastTrack Cmt
variable {F : Type} [CommRing F]

/-- Four inputs, a layer with an addition, a multiplication and dummies whose operands are no wires,
and an output layer with two gates. -/
def addMultCircuit : Circuit := ⟨[
  { gates := [some ⟨3, 5, 0⟩, some ⟨3, 7, 0⟩, some ⟨2, 0, 0⟩, some ⟨3, 2147483647, 0⟩], bitLength := 2 },
  { gates := [some ⟨0, 0, 1⟩, some ⟨1, 1, 3⟩, some ⟨2, 900, 900⟩, some ⟨1, 3, 3⟩], bitLength := 2 },
  { gates := [some ⟨0, 3, 1⟩, some ⟨1, 0, 1⟩], bitLength := 1 }]⟩

theorem addMultCircuit_wf : AddMult addMultCircuit where
  nonempty := by decide
  shallow := by decide
  full := by
    have : ∀ i < addMultCircuit.depth, (addMultCircuit.layer i).gates.length = 2 ^ addMultCircuit.bl i ∧
      ∀ g < 2 ^ addMultCircuit.bl i,
        (addMultCircuit.layer i).gates[g]? = some (some (addMultCircuit.gate i g)) := by decide +kernel
    exact this
  inputs := by decide +kernel
  gates := fun i hi => by
    have : ∀ i < addMultCircuit.depth - 1, ∀ g < 2 ^ addMultCircuit.bl (i + 1),
      GateOk false (addMultCircuit.bl i) (addMultCircuit.gate (i + 1) g) := by decide +kernel
    exact this i (by omega)
  types := fun i hi => by
    have : ∀ i < addMultCircuit.depth - 1, ∀ g < 2 ^ addMultCircuit.bl (i + 1),
      (addMultCircuit.gate (i + 1) g).ty = 0 ∨ (addMultCircuit.gate (i + 1) g).ty = 1 ∨
        (addMultCircuit.gate (i + 1) g).ty = 2 := by decide +kernel
    exact this i (by omega)
  wide := fun i hi => by
    have : ∀ i < addMultCircuit.depth - 1, 1 ≤ addMultCircuit.bl i := by decide +kernel
    exact this i (by omega)
  small := by decide

/-- The decimal constant `inv_2` of the prover is the inverse of 2 in the code's field. -/
theorem C38_inv2 : (2 : Fp) * inv2 = 1 := by decide +kernel

/-- `verify()` returns true: for every add/mult circuit, every content of the uninitialised members
and tables, and every sequence of challenges. -/
theorem C38_complete (C : Circuit) (hwf : AddMult C) (junk : Cmt.Prover Fp) (tables : BetaTables Fp)
    (ch : Challenges Fp) : Cmt.verify C (Cmt.honest C junk) tables ch = .ok () :=
  Cmt.complete C38_inv2 hwf junk tables ch

example (junk : Cmt.Prover Fp) (tables : BetaTables Fp) (ch : Challenges Fp) :
    Cmt.verify addMultCircuit (Cmt.honest addMultCircuit junk) tables ch = .ok () :=
  C38_complete addMultCircuit addMultCircuit_wf junk tables ch

/-- Over any commutative ring the same holds as soon as the constant is the inverse of 2. -/
theorem C38_complete_ring [DecidableEq F] (h2 : (2 : F) * inv2 = 1) (C : Circuit) (hwf : AddMult C)
    (junk : Cmt.Prover F) (tables : BetaTables F) (ch : Challenges F) :
    Cmt.verify C (Cmt.honest C junk) tables ch = .ok () :=
  Cmt.complete h2 hwf junk tables ch

/-- The values `evaluate()` computes are those of the circuit. -/
theorem C38_evaluate (C : Circuit) (hwf : AddMult C) :
    ∃ vals : List (List F), Cmt.evaluate C = .ok vals ∧
      ∀ i < C.depth, ∀ g < 2 ^ C.bl i, valueFn vals i g = value C i g :=
  ⟨_, Cmt.evaluate_ok hwf, fun _ hi _ hg => valueFn_allValues C hi hg⟩

/-! ## the messages -/

/-- the prover after `k` calls of an update function with the challenges `r` -/
def rounds (upd : Cmt.Prover F → F → ℕ → Outcome (Cmt.Prover F × QuadraticPoly F)) (r : ℕ → F)
    (k : ℕ) (P : Cmt.Prover F) : Outcome (Cmt.Prover F) :=
  loopM k (fun j P => do let s ← upd P (if j = 0 then 0 else r (j - 1)) j; return s.1) P

/-- the prover after `evaluate()` and `sumcheck_init` for layer `i` -/
def cmtInitialised (C : Circuit) (junk : Cmt.Prover F) (vals : List (List F)) (i : ℕ) (α β : F)
    (r0 r1 : ℕ → F) : Cmt.Prover F :=
  Cmt.Prover.sumcheckInit { junk with circuitValue := valueFn vals } i (C.bl i) (C.bl (i - 1))
    (C.bl (i - 1)) α β r0 r1 (fun j => 1 - r0 j) (fun j => 1 - r1 j)

theorem rounds_ok (h2 : (2 : F) * inv2 = 1) {ty : ℕ → ℤ} {w : ℕ → ℕ} {c o V r : ℕ → F} {N n : ℕ}
    (hty : ∀ g < N, ty g = 0 ∨ ty g = 1 ∨ ty g = 2) (hw : ∀ g < N, ty g ≠ 2 → w g < 2 ^ n)
    {P : Cmt.Prover F} (upd : Cmt.Prover F → F → ℕ → Outcome (Cmt.Prover F × QuadraticPoly F))
    (hupd : ∀ K prev bit, upd { P with core := K } prev bit =
      (K.update ty w o N (2 ^ n) prev bit >>= fun s => .ok ({ P with core := s.1 }, s.2)))
    (hP : HoldsAt n N w c V r 0 P.core) : ∀ j ≤ n,
    ∃ K, rounds upd r j P = .ok { P with core := K } ∧ HoldsAt n N w c V r (j - 1) K := by
  intro j
  induction j with
  | zero => intro _; exact ⟨P.core, rfl, hP⟩
  | succ j ih =>
    intro hj
    obtain ⟨K, e, hK⟩ := ih (by omega)
    obtain ⟨K', msg, e', hK', hm⟩ := holds_update h2 (o := o) hty hw (show j < n by omega) hK
    refine ⟨K', ?_, by simpa using hK'⟩
    rw [rounds] at e ⊢
    rw [loopM_succ, e, Outcome.bind_ok, show (if j = 0 then (0 : F) else r (j - 1)) = prevOf r j from rfl, hupd, e', Outcome.ok_bind,
      Outcome.ok_bind]
    rfl

theorem layerPoly_opOf {C : Circuit} {i : ℕ} (hl : LayerAM C i) (α β : F) (r0 r1 V x y : ℕ → F) :
    layerPoly C i α β r0 r1 V x y = endClaim C i (comb (C.bl i) α β r0 r1) (eqPoly (C.bl (i - 1)) x)
      (eqPoly (C.bl (i - 1)) y) (mle (C.bl (i - 1)) V x) (mle (C.bl (i - 1)) V y) := by
  refine sum_congr rfl (fun g hg => ?_)
  rw [gatePoly_opOf hl (mem_range.1 hg)]
  ring

theorem midClaim_sum {C : Circuit} {i : ℕ} (hl : LayerAM C i) (α β : F) (r0 r1 V x : ℕ → F) :
    midClaim C i (comb (C.bl i) α β r0 r1) (eqPoly (C.bl (i - 1)) x) (mle (C.bl (i - 1)) V x) V =
      ∑ y ∈ range (2 ^ C.bl (i - 1)), layerPoly C i α β r0 r1 V x (corner y) := by
  simp only [layerPoly_opOf hl, endClaim, midClaim]
  rw [sum_comm]
  refine sum_congr rfl (fun g hg => ?_)
  have hg := mem_range.1 hg
  by_cases h2 : tyOf C i g = 2
  · simp [opOf, h2]
  · have hv := hl.v g hg h2
    rw [sum_eq_single (vOf C i g)]
    · rw [mle_corner _ _ _ hv, eqPoly_corner _ _ _ hv hv, if_pos rfl, mul_one]
    · intro y hy hne
      rw [eqPoly_corner _ _ _ hv (mem_range.1 hy), if_neg (Ne.symm hne), mul_zero, zero_mul]
    · exact fun h => absurd (mem_range.2 hv) h

/-- Phase 1, round `k`: the message at `x` is the sum over the remaining variables of the first
operand and all variables of the second. -/
theorem C38_phase1 (h2 : (2 : F) * inv2 = 1) (C : Circuit) (hwf : AddMult C) (junk : Cmt.Prover F)
    (vals : List (List F)) (hv : Cmt.evaluate C = .ok vals) (i : ℕ) (hi : 1 ≤ i) (hd : i < C.depth)
    (α β : F) (r0 r1 ru : ℕ → F) (k : ℕ) (hk : k < C.bl (i - 1)) :
    ∃ P P' msg, rounds (Cmt.Prover.phase1Update C) ru k
        ((cmtInitialised C junk vals i α β r0 r1).phase1Init C) = .ok P ∧
      P.phase1Update C (if k = 0 then 0 else ru (k - 1)) k = .ok (P', msg) ∧
      ∀ x, msg.eval x = ∑ b ∈ range (2 ^ (C.bl (i - 1) - (k + 1))),
        ∑ y ∈ range (2 ^ C.bl (i - 1)),
          layerPoly C i α β r0 r1 (value C (i - 1)) (splice ru k x b) (corner y) := by
  have hl := layerAM hwf.toAddMultGates hi hd
  rw [Cmt.evaluate_ok hwf] at hv
  cases hv
  have hr : Cmt.Ready C i (cmtInitialised C junk (allValues C C.depth) i α β r0 r1) :=
    ⟨fun j hj g hg => valueFn_allValues C hj hg, rfl, rfl, fun _ _ => rfl, fun _ _ => rfl⟩
  have hcv : ∀ g < 2 ^ C.bl i, tyOf C i g ≠ 2 →
      valueFn (allValues C C.depth) (i - 1) (vOf C i g) = (value C (i - 1) (vOf C i g) : F) :=
    fun g hg h2 => valueFn_allValues C (by omega) (hl.v g hg h2)
  have hupd : ∀ K prev bit, Cmt.Prover.phase1Update C
      { (cmtInitialised C junk (allValues C C.depth) i α β r0 r1).phase1Init C with core := K } prev bit =
      (K.update (tyOf C i) (uOf C i) (fun g => value C (i - 1) (vOf C i g)) (2 ^ C.bl i)
        (2 ^ C.bl (i - 1)) prev bit >>= fun s => .ok ({ (cmtInitialised C junk (allValues C C.depth)
          i α β r0 r1).phase1Init C with core := s.1 }, s.2)) := fun K prev bit => by
    rw [← update_congr hcv]; rfl
  obtain ⟨K, e, hK⟩ := rounds_ok h2 hl.ty hl.u _ hupd (phase1_holds hr (by omega) ru) k (by omega)
  obtain ⟨K', msg, e', hK', hm⟩ := holds_update h2 (o := fun g => value C (i - 1) (vOf C i g))
    hl.ty hl.u hk hK
  refine ⟨_, { (cmtInitialised C junk (allValues C C.depth) i α β r0 r1).phase1Init C with core := K' },
    msg, e, ?_, fun x => ?_⟩
  · rw [hupd, show (if k = 0 then (0 : F) else ru (k - 1)) = prevOf ru k from rfl, e', Outcome.ok_bind]
  · rw [hm, polyAt_splice hk]
    refine sum_congr rfl (fun b _ => ?_)
    rw [tab_last hl.u, ← midClaim_sum hl]
    rfl

example : (1 : ℕ) < addMultCircuit.bl 0 ∧ (2 : Fp) * inv2 = 1 ∧ AddMult addMultCircuit :=
  ⟨by decide, C38_inv2, addMultCircuit_wf⟩

/-- Phase 2, after a phase 1 with the challenges `ru`. The message of round `k` at `x` is the sum over
the remaining variables of the second operand, with the first operand at `ru`. After all rounds
`sumcheck_finalize` returns the values of the extension of the previous layer at `ru` and `rv`. -/
theorem C38_phase2 (h2 : (2 : F) * inv2 = 1) (C : Circuit) (hwf : AddMult C) (junk : Cmt.Prover F)
    (vals : List (List F)) (hv : Cmt.evaluate C = .ok vals) (i : ℕ) (hi : 1 ≤ i) (hd : i < C.depth)
    (α β : F) (r0 r1 ru rv : ℕ → F) :
    ∃ P Q, rounds (Cmt.Prover.phase1Update C) ru (C.bl (i - 1))
        ((cmtInitialised C junk vals i α β r0 r1).phase1Init C) = .ok P ∧
      P.phase2Init C (ru (C.bl (i - 1) - 1)) = .ok Q ∧
      (∀ k < C.bl (i - 1), ∃ Q' Q'' msg, rounds (Cmt.Prover.phase2Update C) rv k Q = .ok Q' ∧
        Q'.phase2Update C (if k = 0 then 0 else rv (k - 1)) k = .ok (Q'', msg) ∧
        ∀ x, msg.eval x = ∑ b ∈ range (2 ^ (C.bl (i - 1) - (k + 1))),
          layerPoly C i α β r0 r1 (value C (i - 1)) ru (splice rv k x b)) ∧
      ∃ R, rounds (Cmt.Prover.phase2Update C) rv (C.bl (i - 1)) Q = .ok R ∧
        (R.finalize (rv (C.bl (i - 1) - 1))).2 =
          (mle (C.bl (i - 1)) (value C (i - 1)) ru, mle (C.bl (i - 1)) (value C (i - 1)) rv) := by
  have hl := layerAM hwf.toAddMultGates hi hd
  rw [Cmt.evaluate_ok hwf] at hv
  cases hv
  set P1 := (cmtInitialised C junk (allValues C C.depth) i α β r0 r1).phase1Init C with hP1
  have hr : Cmt.Ready C i (cmtInitialised C junk (allValues C C.depth) i α β r0 r1) :=
    ⟨fun j hj g hg => valueFn_allValues C hj hg, rfl, rfl, fun _ _ => rfl, fun _ _ => rfl⟩
  have hcv : ∀ g < 2 ^ C.bl i, tyOf C i g ≠ 2 →
      valueFn (allValues C C.depth) (i - 1) (vOf C i g) = (value C (i - 1) (vOf C i g) : F) :=
    fun g hg h2 => valueFn_allValues C (by omega) (hl.v g hg h2)
  have hupd : ∀ K prev bit, Cmt.Prover.phase1Update C { P1 with core := K } prev bit =
      (K.update (tyOf C i) (uOf C i) (fun g => value C (i - 1) (vOf C i g)) (2 ^ C.bl i)
        (2 ^ C.bl (i - 1)) prev bit >>= fun s => .ok ({ P1 with core := s.1 }, s.2)) :=
    fun K prev bit => by rw [← update_congr hcv]; rfl
  obtain ⟨K1, e, hK1⟩ := rounds_ok h2 hl.ty hl.u _ hupd (phase1_holds hr (by omega) ru)
    (C.bl (i - 1)) le_rfl
  have hwide := hl.wide
  have hlast := fun (r : ℕ → F) => show prevOf r (C.bl (i - 1)) = r (C.bl (i - 1) - 1) from
    if_neg (by omega)
  have hvu := holds_last hl.wide hK1
  set vu := mle (C.bl (i - 1)) (value C (i - 1) : ℕ → F) ru with hvudef
  set w := comb (C.bl i) α β r0 r1 with hw
  set P3 : Cmt.Prover F := { P1 with
    vU := vu
    core := { K1 with
      V := copyV (2 ^ C.bl (i - 1)) (valueFn (allValues C C.depth) (i - 1)) K1.V
      bgs := bindBeta (uOf C i) (prevOf ru (C.bl (i - 1))) (C.bl (i - 1) - 1) (2 ^ C.bl i) K1.bgs } }
    with hP3
  have e2 : Cmt.Prover.phase2Init C { P1 with core := K1 } (ru (C.bl (i - 1) - 1)) = .ok P3 := by
    rw [← hlast ru, Cmt.Prover.phase2Init]
    change (if C.bl (i - 1) = 0 then Outcome.undefined else _) = _
    rw [if_neg (by omega), hP3, ← hvu]
    rfl
  have hold2 : HoldsAt (C.bl (i - 1)) (2 ^ C.bl i) (vOf C i)
      (fun g => w g * eqPoly (C.bl (i - 1)) ru (uOf C i g)) (value C (i - 1)) rv 0 P3.core := by
    refine ⟨fun k hk => ?_, fun g hg => ?_⟩
    · rw [Nat.sub_zero] at hk
      change copyV (2 ^ C.bl (i - 1)) _ K1.V k = value C (i - 1) k
      rw [copyV_eq, if_pos hk, valueFn_allValues C (by omega) hk]
    · change bindBeta (uOf C i) (prevOf ru (C.bl (i - 1))) (C.bl (i - 1) - 1) (2 ^ C.bl i) K1.bgs g = _
      rw [bindBeta_eq, if_pos hg, hK1.bgs g hg, eqPoly_zero, mul_one]
      obtain ⟨m, hm⟩ : ∃ m, C.bl (i - 1) = m + 1 := ⟨C.bl (i - 1) - 1, by omega⟩
      rw [hm, Nat.add_sub_cancel, eqPoly_succ, bitF, prevOf, if_neg (Nat.succ_ne_zero m),
        Nat.add_sub_cancel, mul_assoc]
      rfl
  have hupd2 : ∀ K prev bit, Cmt.Prover.phase2Update C { P3 with core := K } prev bit =
      (K.update (tyOf C i) (vOf C i) (fun _ => vu) (2 ^ C.bl i)
        (2 ^ C.bl (i - 1)) prev bit >>= fun s => .ok ({ P3 with core := s.1 }, s.2)) :=
    fun K prev bit => rfl
  refine ⟨_, P3, e, e2, fun k hk => ?_, ?_⟩
  · obtain ⟨K, e, hK⟩ := rounds_ok h2 hl.ty hl.v _ hupd2 hold2 k (by omega)
    obtain ⟨K', msg, e', hK', hm⟩ := holds_update h2 (o := fun _ => vu) hl.ty hl.v hk hK
    refine ⟨_, { P3 with core := K' }, msg, e, ?_, fun x => ?_⟩
    · rw [hupd2, show (if k = 0 then (0 : F) else rv (k - 1)) = prevOf rv k from rfl, e',
        Outcome.ok_bind]
    · rw [hm, polyAt_splice hk]
      refine sum_congr rfl (fun b _ => ?_)
      rw [tab_last hl.v, layerPoly_opOf hl, endClaim]
      exact sum_congr rfl (fun g _ => by rw [opOf_comm])
  · obtain ⟨K, e, hK⟩ := rounds_ok h2 hl.ty hl.v _ hupd2 hold2 (C.bl (i - 1)) le_rfl
    refine ⟨_, e, ?_⟩
    have := holds_last hl.wide hK
    rw [← hlast rv, ← this]
    rfl

end Libra.Props
