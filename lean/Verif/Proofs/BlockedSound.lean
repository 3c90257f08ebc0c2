import Verif.Proofs.BlockedComplete
import Verif.Proofs.CmtSound
import Verif.Spec.BlockCoins

/-!
# Soundness of the blocked protocol, given the right `beta_blk_val`
-/

namespace Libra.Counting
open Finset

/-- two different cubics agree in at most three points -/
theorem cubic_agree {F : Type} [CommRing F] [IsDomain F] [DecidableEq F]
    (p q : CubicPoly F) (h : p ≠ q) :
    ∃ S : Finset F, S.card ≤ 3 ∧ ∀ x, p.eval x = q.eval x → x ∈ S := by
  open Polynomial in
  let f : F[X] := C (p.a - q.a) * X ^ 3 + C (p.b - q.b) * X ^ 2 + C (p.c - q.c) * X + C (p.d - q.d)
  have hf : f ≠ 0 := by
    intro h0
    apply h
    have h3 := congrArg (fun g => g.coeff 3) h0
    have h2 := congrArg (fun g => g.coeff 2) h0
    have h1 := congrArg (fun g => g.coeff 1) h0
    have hc := congrArg (fun g => g.coeff 0) h0
    simp only [f, Polynomial.coeff_add, Polynomial.coeff_C_mul, Polynomial.coeff_X, Polynomial.coeff_C,
      Polynomial.coeff_X_pow, Polynomial.coeff_zero] at h3 h2 h1 hc
    norm_num at h3 h2 h1 hc
    exact CubicPoly.ext (sub_eq_zero.1 h3) (sub_eq_zero.1 h2) (sub_eq_zero.1 h1) (sub_eq_zero.1 hc)
  refine ⟨f.roots.toFinset, ?_, fun x hx => ?_⟩
  · refine (Multiset.toFinset_card_le _).trans ((Polynomial.card_roots' f).trans ?_)
    exact Polynomial.natDegree_cubic_le
  · rw [Multiset.mem_toFinset, Polynomial.mem_roots hf]
    simp only [CubicPoly.eval] at hx
    simp only [Polynomial.IsRoot, f, Polynomial.eval_add, Polynomial.eval_mul, Polynomial.eval_C,
      Polynomial.eval_pow, Polynomial.eval_X]
    linear_combination hx

end Libra.Counting

namespace Libra.Blocked
open Libra Spec Finset FastTrack Cmt Counting
variable {F : Type} [CommRing F]

/-! ## the equality of two points -/

theorem eqAt_mle (k : ℕ) (x y : ℕ → F) : mle k (eqPoly k x) y = eqAt k x y := by
  induction k generalizing x y with
  | zero => simp [mle, eqPoly_zero, eqAt]
  | succ k ih =>
    have e : foldT (y 0) (eqPoly (k + 1) x) =
        fun i => (x 0 * y 0 + (1 - x 0) * (1 - y 0)) * eqPoly k (fun j => x (j + 1)) i := by
      funext i
      rw [foldT, eqPoly_even, eqPoly_odd]; ring
    rw [mle_succ, e, mle_smul, ih, eqAt, eqAt, prod_range_succ', mul_comm]

theorem eqAt_congr {k : ℕ} {x y y' : ℕ → F} (h : ∀ j < k, y j = y' j) : eqAt k x y = eqAt k x y' :=
  prod_congr rfl (fun j hj => by rw [h j (mem_range.1 hj)])

/-! ## tables -/

/-- The error table `E` becomes zero when variable `j` is bound. -/
def LuckyTab (n : ℕ) (E : ℕ → F) (j : ℕ) (r : ℕ → F) : Prop :=
  (∃ b < 2 ^ (n - j), foldK r j E b ≠ 0) ∧ ∀ b < 2 ^ (n - (j + 1)), foldK r (j + 1) E b = 0

theorem tab_sound (n : ℕ) (E r : ℕ → F) (h : ∃ g < 2 ^ n, E g ≠ 0) :
    mle n E r ≠ 0 ∨ ∃ j < n, LuckyTab n E j r := by
  have key : ∀ m ≤ n, (∃ b < 2 ^ (n - m), foldK r m E b ≠ 0) ∨ ∃ j < m, LuckyTab n E j r := by
    intro m
    induction m with
    | zero => intro _; exact .inl h
    | succ m ih =>
      intro hm
      rcases ih (by omega) with h | ⟨j, hj, hl⟩
      · by_cases hz : ∃ b < 2 ^ (n - (m + 1)), foldK r (m + 1) E b ≠ 0
        · exact .inl hz
        · right
          refine ⟨m, by omega, h, fun b hb => ?_⟩
          by_contra hne
          exact hz ⟨b, hb, hne⟩
      · exact .inr ⟨j, by omega, hl⟩
  rcases key n le_rfl with ⟨b, hb, hne⟩ | h
  · left
    have : b = 0 := by simpa using hb
    subst this
    rwa [foldK_mle] at hne
  · exact .inr h

theorem tab_root [IsDomain F] [DecidableEq F] {n j : ℕ} (hj : j < n) {E r0 : ℕ → F}
    (h : LuckyTab n E j r0) :
    ∃ S : Finset F, S.card ≤ 1 ∧ ∀ r : ℕ → F, (∀ k < j, r k = r0 k) → LuckyTab n E j r → r j ∈ S := by
  obtain ⟨⟨b, hb, hne⟩, -⟩ := h
  set T := foldK r0 j E with hT
  have hpow := pow_sub_succ hj
  obtain ⟨S, hS, hr⟩ := Counting.line_root (T (2 * (b / 2) + 1) - T (2 * (b / 2))) (T (2 * (b / 2)))
    (by
      by_contra hcon
      simp only [not_or, not_not] at hcon
      have h1 : T (2 * (b / 2)) = 0 := hcon.2
      have h2 : T (2 * (b / 2) + 1) = 0 := by have := hcon.1; rwa [h1, sub_zero] at this
      rcases Nat.mod_two_eq_zero_or_one b with h | h
      · exact hne (by rw [show b = 2 * (b / 2) by omega]; exact h1)
      · exact hne (by rw [show b = 2 * (b / 2) + 1 by omega]; exact h2))
  refine ⟨S, hS, fun r hk hx => hr _ ?_⟩
  have h2 := hx.2 (b / 2) (by omega)
  rw [foldK, foldK_congr E hk, ← hT, foldT] at h2
  linear_combination h2

/-! ## the true message of phase 0 -/

/-- the sum of quadratic polynomials -/
def sumQ (m : ℕ) (f : ℕ → QuadraticPoly F) : QuadraticPoly F :=
  ⟨∑ g ∈ range m, (f g).a, ∑ g ∈ range m, (f g).b, ∑ g ∈ range m, (f g).c⟩

theorem sumQ_eval (m : ℕ) (f : ℕ → QuadraticPoly F) (x : F) :
    (sumQ m f).eval x = ∑ g ∈ range m, (f g).eval x := by
  simp only [sumQ, QuadraticPoly.eval, sum_mul, add_mul, ← sum_add_distrib]

/-- the sum of cubic polynomials -/
def sumC (m : ℕ) (f : ℕ → CubicPoly F) : CubicPoly F :=
  ⟨∑ g ∈ range m, (f g).a, ∑ g ∈ range m, (f g).b, ∑ g ∈ range m, (f g).c, ∑ g ∈ range m, (f g).d⟩

theorem sumC_eval (m : ℕ) (f : ℕ → CubicPoly F) (x : F) :
    (sumC m f).eval x = ∑ g ∈ range m, (f g).eval x := by
  simp only [sumC, CubicPoly.eval, sum_mul, add_mul, ← sum_add_distrib]

/-- the line through two consecutive entries -/
def lineAt (T : ℕ → F) (b : ℕ) : LinearPoly F := ⟨T (2 * b + 1) - T (2 * b), T (2 * b)⟩

theorem lineAt_eval (T : ℕ → F) (b : ℕ) (x : F) : (lineAt T b).eval x = foldT x T b := by
  rw [lineAt, LinearPoly.eval, foldT]; ring

/-- a gate applied to two lines -/
def opLine (ty : ℤ) (c : F) (p q : LinearPoly F) : QuadraticPoly F :=
  if ty = 0 then ⟨0, c * (p.a + q.a), c * (p.b + q.b)⟩
  else if ty = 1 then ⟨c * (p.a * q.a), c * (p.a * q.b + q.a * p.b), c * (p.b * q.b)⟩
  else ⟨0, 0, 0⟩

theorem opLine_eval (ty : ℤ) (c : F) (p q : LinearPoly F) (x : F) :
    (opLine ty c p q).eval x = c * opOf ty (p.eval x) (q.eval x) := by
  unfold opLine opOf
  split_ifs <;> simp only [QuadraticPoly.eval, LinearPoly.eval] <;> ring

/-- the true message of round `k` of phase 0 -/
def truth0 (C : Circuit) (i K : ℕ) (c rb β : ℕ → F) (V : ℕ → ℕ → F) (k : ℕ) : CubicPoly F :=
  sumC (2 ^ (K - (k + 1))) (fun b =>
    (sumQ (2 ^ C.bl i) (fun g => opLine (tyOf C i g) (c g)
      (lineAt (foldK rb k (fun b => V b (uOf C i g))) b)
      (lineAt (foldK rb k (fun b => V b (vOf C i g))) b))).mul (lineAt (foldK rb k β) b))

theorem truth0_eval (C : Circuit) (i K : ℕ) (c rb β : ℕ → F) (V : ℕ → ℕ → F) (k : ℕ) (x : F) :
    (truth0 C i K c rb β V k).eval x = blockPoly C i K c rb β V k x := by
  rw [truth0, sumC_eval, blockPoly]
  refine sum_congr rfl (fun b _ => ?_)
  have e : ∀ (q : QuadraticPoly F) (l : LinearPoly F), (q.mul l).eval x = l.eval x * q.eval x := by
    intro q l
    simp only [QuadraticPoly.mul, CubicPoly.eval, QuadraticPoly.eval, LinearPoly.eval]
    ring
  rw [e, lineAt_eval, sumQ_eval, gsum]
  congr 1
  refine sum_congr rfl (fun g _ => ?_)
  rw [opLine_eval, lineAt_eval, lineAt_eval]

theorem truth0_congr (C : Circuit) (i K : ℕ) (c β : ℕ → F) (V : ℕ → ℕ → F) {rb rb' : ℕ → F} {k : ℕ}
    (h : ∀ j < k, rb j = rb' j) : truth0 C i K c rb β V k = truth0 C i K c rb' β V k := by
  simp only [truth0, foldK_congr _ h]

/-! ## one phase -/

variable [DecidableEq F] {σ : Type}

/-- The prover is lucky with the challenge of round `k` of phase 0. -/
def LuckyRound0 (upd : σ → F → ℕ → Outcome (σ × CubicPoly F)) (r : ℕ → F)
    (q : ℕ → CubicPoly F) (s0 : σ × F × F) (k : ℕ) : Prop :=
  ∃ st p m, loopM k (round0 upd r) s0 = .ok st ∧ upd st.1 st.2.2 k = .ok (p, m) ∧ m ≠ q k ∧
    m.eval (r k) = (q k).eval (r k)

theorem phase0_sound (upd : σ → F → ℕ → Outcome (σ × CubicPoly F)) {n : ℕ} {r : ℕ → F}
    {q : ℕ → CubicPoly F} {c : ℕ → F} (hsum : ∀ k < n, (q k).eval 0 + (q k).eval 1 = c k)
    (hnext : ∀ k < n, (q k).eval (r k) = c (k + 1)) {p : σ} {sum : F} {z : F} {t : σ × F × F}
    (h : loopM n (round0 upd r) (p, sum, z) = .ok t) (hne : sum ≠ c 0) :
    t.2.1 ≠ c n ∨ ∃ k < n, LuckyRound0 upd r q (p, sum, z) k := by
  have key : ∀ m ≤ n, ∀ t, loopM m (round0 upd r) (p, sum, z) = .ok t →
      t.2.1 ≠ c m ∨ ∃ k < m, LuckyRound0 upd r q (p, sum, z) k := by
    intro m
    induction m with
    | zero => intro _ t ht; cases ht; exact .inl hne
    | succ m ih =>
      intro hm t ht
      obtain ⟨s, e1, e2⟩ := Outcome.bind_eq_ok ht
      rcases ih (by omega) s e1 with hs | ⟨k, hk, hst⟩
      · rw [round0] at e2
        obtain ⟨⟨p', msg⟩, e0, e2⟩ := Outcome.bind_eq_ok' e2
        obtain ⟨_, e3, e4⟩ := Outcome.bind_eq_ok' e2
        cases e4
        have e3 := Outcome.check_ok_iff.1 e3
        rw [beq_iff_eq] at e3
        have hpq : msg ≠ q m := by
          intro hh
          rw [hh, hsum m (by omega)] at e3
          exact hs e3.symm
        by_cases hh : msg.eval (r m) = (q m).eval (r m)
        · exact .inr ⟨m, by omega, s, p', msg, e1, e0, hpq, hh⟩
        · left
          dsimp only
          rw [← hnext m (by omega)]; exact hh
      · exact .inr ⟨k, by omega, hst⟩
  exact key n le_rfl t h

theorem round0_congr (upd : σ → F → ℕ → Outcome (σ × CubicPoly F)) {r r' : ℕ → F} {n : ℕ}
    (h : ∀ j < n, r j = r' j) (s : σ × F × F) :
    loopM n (round0 upd r) s = loopM n (round0 upd r') s :=
  loopM_congr_inv (fun _ => True) trivial (fun _ _ _ _ _ _ => trivial)
    (fun j hj s _ => by rw [round0, round0, h j hj])

omit [DecidableEq F] in
theorem honest_scale {n : ℕ} {r : ℕ → F} {q : ℕ → QuadraticPoly F} {c : ℕ → F} (h : Honest n r q c)
    (b : F) : Honest n r (fun k => scale b (q k)) (fun k => b * c k) where
  sum k hk := by rw [scale_eval, scale_eval, ← mul_add, h.sum k hk]
  next k hk := by rw [scale_eval, h.next k hk]

/-! ## one layer -/

/-- the prover and the claim before phase 0 -/
def pre0 (B : BlockedCircuit) (A : ProverApi σ F) (i : ℕ) (s : BState σ F) : σ × F × F :=
  let C := B.blocks 0
  (A.phase0Init (A.sumcheckInit s.prover i B.log (C.bl i) (C.bl (i - 1)) (C.bl (i - 1)) s.alpha s.beta
    s.rb s.r0 s.r1 s.omrb s.omr0 s.omr1), s.sum, 0)

/-- phase 0 and the initialisation of phase 1 -/
def pre1 (B : BlockedCircuit) (A : ProverApi σ F) (i : ℕ) (rb : ℕ → F) (s : BState σ F) :
    Outcome (σ × F × F) := do
  let t ← loopM B.log (round0 A.phase0Update rb) (pre0 B A i s)
  let p ← A.phase1Init t.1 t.2.2
  return (p, t.2.1, t.2.2)

/-- phase 1 and the initialisation of phase 2 -/
def pre2 (B : BlockedCircuit) (A : ProverApi σ F) (i : ℕ) (rb ru : ℕ → F) (s : BState σ F) :
    Outcome (σ × F × F) := do
  let a ← pre1 B A i rb s
  let t ← loopM ((B.blocks 0).bl (i - 1)) (Cmt.round A.phase1Update ru) a
  let p ← A.phase2Init t.1 t.2.2
  return (p, t.2.1, 0)

/-- the combination of the two claims about layer `i` -/
def combOf (B : BlockedCircuit) (i : ℕ) (s : BState σ F) : ℕ → F :=
  comb ((B.blocks 0).bl i) s.alpha s.beta s.r0 s.r1

/-- the values of layer `i` with the block index bound -/
def boundValue (B : BlockedCircuit) (i : ℕ) (rb : ℕ → F) (u : ℕ) : F :=
  mle B.log (fun b => blockValue B i b u) rb

/-- the true messages of phase 0 -/
def msg0 (B : BlockedCircuit) (i : ℕ) (s : BState σ F) (rb : ℕ → F) : ℕ → CubicPoly F :=
  truth0 (B.blocks 0) i B.log (combOf B i s) rb (eqPoly B.log s.rb) (blockValue B (i - 1))

/-- the true messages of phase 1 -/
def msg1 (B : BlockedCircuit) (i : ℕ) (s : BState σ F) (rb ru : ℕ → F) (k : ℕ) : QuadraticPoly F :=
  scale (eqAt B.log s.rb rb) (truthQ ((B.blocks 0).bl (i - 1))
    (A1 (B.blocks 0) i (combOf B i s) (boundValue B (i - 1) rb)) (boundValue B (i - 1) rb)
    (B1 (B.blocks 0) i (combOf B i s) (boundValue B (i - 1) rb)) ru k)

/-- the true messages of phase 2 -/
def msg2 (B : BlockedCircuit) (i : ℕ) (s : BState σ F) (rb ru rv : ℕ → F) (k : ℕ) :
    QuadraticPoly F :=
  let n := (B.blocks 0).bl (i - 1)
  scale (eqAt B.log s.rb rb) (truthQ n
    (A2 (B.blocks 0) i (combOf B i s) (eqPoly n ru) (mle n (boundValue B (i - 1) rb) ru))
    (boundValue B (i - 1) rb)
    (B2 (B.blocks 0) i (combOf B i s) (eqPoly n ru) (mle n (boundValue B (i - 1) rb) ru)) rv k)

theorem layerStep_ok {B : BlockedCircuit} {A : ProverApi σ F} {ch : BlockChallenges F} {i : ℕ}
    {s s' : BState σ F} (h : layerStep B A ch i s = .ok s') :
    ∃ b st, pre2 B A i (ch.rb i) (ch.ru i) s = .ok b ∧
      loopM ((B.blocks 0).bl (i - 1)) (Cmt.round A.phase2Update (ch.rv i)) b = .ok st ∧
      let vu := (A.finalize st.1 st.2.2).2.1
      let vv := (A.finalize st.1 st.2.2).2.2
      let T := betaInit (B.blocks 0) s.tables i s.alpha s.beta s.r0 s.r1 (ch.ru i) (ch.rv i) s.omr0
        s.omr1 (oneMinus (ch.ru i)) (oneMinus (ch.rv i))
      st.2.1 = A.betaBlkVal (A.finalize st.1 st.2.2).1 *
        endClaim (B.blocks 0) i (fun g => T.g0 g + T.g1 g) T.u T.v vu vv ∧
      s'.alpha = ch.alpha i ∧ s'.beta = ch.beta i ∧ s'.r0 = ch.ru i ∧ s'.r1 = ch.rv i ∧
      s'.omr0 = oneMinus (ch.ru i) ∧ s'.omr1 = oneMinus (ch.rv i) ∧ s'.rb = ch.rb i ∧
      s'.omrb = oneMinus (ch.rb i) ∧
      s'.sum = ch.alpha i * vu + ch.beta i * vv := by
  rw [layerStep] at h
  obtain ⟨⟨a1, a2, a3⟩, e0, h⟩ := Outcome.bind_eq_ok' h
  obtain ⟨p0, e0', h⟩ := Outcome.bind_eq_ok' h
  obtain ⟨⟨t1, t2, t3⟩, e1, h⟩ := Outcome.bind_eq_ok' h
  obtain ⟨p, e2, h⟩ := Outcome.bind_eq_ok' h
  obtain ⟨⟨q1, q2, q3⟩, e3, h⟩ := Outcome.bind_eq_ok' h
  refine ⟨(p, t2, 0), (q1, q2, q3), ?_, e3, ?_⟩
  · have e : pre1 B A i (ch.rb i) s = .ok (p0, a2, a3) := by
      rw [pre1]
      rw [pre0, e0, Outcome.ok_bind]
      change (A.phase1Init a1 a3 >>= _) = _
      rw [e0', Outcome.ok_bind]
      rfl
    rw [pre2, e, Outcome.ok_bind, e1, Outcome.ok_bind]
    change (A.phase2Init t1 t3 >>= _) = _
    rw [e2, Outcome.ok_bind]
    rfl
  intro vu vv T
  obtain ⟨_, hc, h⟩ := Outcome.bind_eq_ok' h
  have hc := Outcome.check_ok_iff.1 hc
  rw [beq_iff_eq] at hc
  cases h
  refine ⟨?_, rfl, rfl, rfl, rfl, rfl, rfl, rfl, rfl, rfl⟩
  rw [← pred_end]
  exact hc

/-! ## the value of `beta_blk_val` -/

theorem track0 (B : BlockedCircuit) (A : ProverApi σ F) (r : ℕ → F) {s : Tracked σ F} {sum : F} :
    ∀ j {t}, loopM j (round0 (withBeta B A).phase0Update r) (s, sum, 0) = .ok t →
      t.1.rb0 = s.rb0 ∧ (∀ k, k + 1 < j → t.1.rb k = r k) ∧ (0 < j → t.2.2 = r (j - 1)) := by
  intro j
  induction j with
  | zero => intro t ht; cases ht; exact ⟨rfl, fun _ h => by omega, fun h => by omega⟩
  | succ j ih =>
    intro t ht
    obtain ⟨⟨s1, s2, s3⟩, e1, e2⟩ := Outcome.bind_eq_ok ht
    obtain ⟨i1, i2, i3⟩ := ih e1
    rw [round0] at e2
    obtain ⟨⟨p', msg⟩, e0, e2⟩ := Outcome.bind_eq_ok' e2
    obtain ⟨_, e3, e4⟩ := Outcome.bind_eq_ok' e2
    cases e4
    obtain ⟨⟨p1, m1⟩, f1, f2⟩ := Outcome.bind_eq_ok' e0
    cases f2
    refine ⟨i1, fun k hk => ?_, fun _ => rfl⟩
    dsimp only at i2 i3 ⊢
    rw [if_neg (by omega)]
    by_cases e : k = j - 1
    · subst e; rw [Function.update_self, i3 (by omega)]
    · rw [Function.update_of_ne e, i2 k (by omega)]

theorem track1 (B : BlockedCircuit) (A : ProverApi σ F) (r : ℕ → F) {s : Tracked σ F × F × F} :
    ∀ j {t}, loopM j (Cmt.round (withBeta B A).phase1Update r) s = .ok t →
      t.1.rb0 = s.1.rb0 ∧ t.1.rb = s.1.rb := by
  intro j
  induction j with
  | zero => intro t ht; cases ht; exact ⟨rfl, rfl⟩
  | succ j ih =>
    intro t ht
    obtain ⟨⟨s1, s2, s3⟩, e1, e2⟩ := Outcome.bind_eq_ok ht
    obtain ⟨i1, i2⟩ := ih e1
    rw [Cmt.round] at e2
    obtain ⟨⟨p', msg⟩, e0, e2⟩ := Outcome.bind_eq_ok' e2
    obtain ⟨_, e3, e4⟩ := Outcome.bind_eq_ok' e2
    cases e4
    obtain ⟨⟨p1, m1⟩, f1, f2⟩ := Outcome.bind_eq_ok' e0
    cases f2
    exact ⟨i1, i2⟩

theorem track2 (B : BlockedCircuit) (A : ProverApi σ F) (r : ℕ → F) {s : Tracked σ F × F × F} :
    ∀ j {t}, loopM j (Cmt.round (withBeta B A).phase2Update r) s = .ok t →
      t.1.rb0 = s.1.rb0 ∧ t.1.rb = s.1.rb := by
  intro j
  induction j with
  | zero => intro t ht; cases ht; exact ⟨rfl, rfl⟩
  | succ j ih =>
    intro t ht
    obtain ⟨⟨s1, s2, s3⟩, e1, e2⟩ := Outcome.bind_eq_ok ht
    obtain ⟨i1, i2⟩ := ih e1
    rw [Cmt.round] at e2
    obtain ⟨⟨p', msg⟩, e0, e2⟩ := Outcome.bind_eq_ok' e2
    obtain ⟨_, e3, e4⟩ := Outcome.bind_eq_ok' e2
    cases e4
    obtain ⟨⟨p1, m1⟩, f1, f2⟩ := Outcome.bind_eq_ok' e0
    cases f2
    exact ⟨i1, i2⟩

theorem track_pre2 {B : BlockedCircuit} (hK : 1 ≤ B.log) {A : ProverApi σ F} {i : ℕ} {rb ru : ℕ → F}
    {s : BState (Tracked σ F) F} {b} (h : pre2 B (withBeta B A) i rb ru s = .ok b) :
    b.1.rb0 = s.rb ∧ ∀ j < B.log, b.1.rb j = rb j := by
  rw [pre2] at h
  obtain ⟨a, e1, h⟩ := Outcome.bind_eq_ok' h
  obtain ⟨t, e2, h⟩ := Outcome.bind_eq_ok' h
  obtain ⟨p, e3, h⟩ := Outcome.bind_eq_ok' h
  cases h
  obtain ⟨p1, f1, f2⟩ := Outcome.bind_eq_ok' e3
  cases f2
  obtain ⟨h1, h2⟩ := track1 B A ru _ e2
  rw [pre1] at e1
  obtain ⟨t0, g1, e1⟩ := Outcome.bind_eq_ok' e1
  obtain ⟨p0, g2, e1⟩ := Outcome.bind_eq_ok' e1
  cases e1
  obtain ⟨p2, f3, f4⟩ := Outcome.bind_eq_ok' g2
  cases f4
  obtain ⟨k1, k2, k3⟩ := track0 B A rb _ g1
  dsimp only at h1 h2 ⊢
  refine ⟨by rw [h1, k1]; rfl, fun j hj => ?_⟩
  rw [h2]
  by_cases e : j = B.log - 1
  · subst e; rw [Function.update_self, k3 (by omega)]
  · rw [Function.update_of_ne e, k2 j (by omega)]

/-- the verifier gets the right value -/
theorem track_layer {B : BlockedCircuit} (hK : 1 ≤ B.log) {A : ProverApi σ F} {i n : ℕ}
    {rb ru rv : ℕ → F} {s : BState (Tracked σ F) F} {b st}
    (h : pre2 B (withBeta B A) i rb ru s = .ok b)
    (h2 : loopM n (Cmt.round (withBeta B A).phase2Update rv) b = .ok st) :
    (withBeta B A).betaBlkVal ((withBeta B A).finalize st.1 st.2.2).1 = eqAt B.log s.rb rb := by
  obtain ⟨a1, a2⟩ := track_pre2 hK h
  obtain ⟨b1, b2⟩ := track2 B A rv _ h2
  change eqAt B.log st.1.rb0 st.1.rb = _
  rw [b1, b2, a1]
  exact eqAt_congr a2

/-! ## the honest prover sends the right `beta_blk_val` -/

theorem lift0 (B : BlockedCircuit) (A : ProverApi σ F) (r : ℕ → F) {p : σ} {sum z : F} (a : ℕ → F) :
    ∀ j {t} (b : ℕ → F), loopM j (round0 A.phase0Update r) (p, sum, z) = .ok t →
      ∃ b', loopM j (round0 (withBeta B A).phase0Update r) (⟨p, a, b⟩, sum, z) =
        .ok (⟨t.1, a, b'⟩, t.2) := by
  intro j
  induction j with
  | zero => intro t b ht; cases ht; exact ⟨b, rfl⟩
  | succ j ih =>
    intro t b ht
    obtain ⟨⟨s1, s2, s3⟩, e1, e2⟩ := Outcome.bind_eq_ok ht
    obtain ⟨b', e⟩ := ih b e1
    rw [round0] at e2
    obtain ⟨⟨p', msg⟩, e0, e2⟩ := Outcome.bind_eq_ok' e2
    obtain ⟨_, e3, e4⟩ := Outcome.bind_eq_ok' e2
    cases e4
    refine ⟨if j = 0 then b' else Function.update b' (j - 1) s3, ?_⟩
    rw [loopM_succ, e, Outcome.bind_ok, round0]
    have e5 : (withBeta B A).phase0Update ⟨s1, a, b'⟩ s3 j =
        .ok (⟨p', a, if j = 0 then b' else Function.update b' (j - 1) s3⟩, msg) := by
      change (A.phase0Update s1 s3 j >>= _) = _
      rw [e0]; rfl
    dsimp only at e3 ⊢
    rw [e5, Outcome.ok_bind]
    dsimp only
    rw [e3]
    rfl

theorem lift1 (B : BlockedCircuit) (A : ProverApi σ F) (r : ℕ → F) {p : σ} {q : F × F} (a b : ℕ → F) :
    ∀ j {t}, loopM j (Cmt.round A.phase1Update r) (p, q) = .ok t →
      loopM j (Cmt.round (withBeta B A).phase1Update r) (⟨p, a, b⟩, q) = .ok (⟨t.1, a, b⟩, t.2) := by
  intro j
  induction j with
  | zero => intro t ht; cases ht; rfl
  | succ j ih =>
    intro t ht
    obtain ⟨⟨s1, s2, s3⟩, e1, e2⟩ := Outcome.bind_eq_ok ht
    have e := ih e1
    rw [Cmt.round] at e2
    obtain ⟨⟨p', msg⟩, e0, e2⟩ := Outcome.bind_eq_ok' e2
    obtain ⟨_, e3, e4⟩ := Outcome.bind_eq_ok' e2
    cases e4
    rw [loopM_succ, e, Outcome.bind_ok, Cmt.round]
    have e5 : (withBeta B A).phase1Update ⟨s1, a, b⟩ s3 j = .ok (⟨p', a, b⟩, msg) := by
      change (A.phase1Update s1 s3 j >>= _) = _
      rw [e0]; rfl
    dsimp only at e3 ⊢
    rw [e5, Outcome.ok_bind]
    dsimp only
    rw [e3]
    rfl

theorem lift2 (B : BlockedCircuit) (A : ProverApi σ F) (r : ℕ → F) {p : σ} {q : F × F} (a b : ℕ → F) :
    ∀ j {t}, loopM j (Cmt.round A.phase2Update r) (p, q) = .ok t →
      loopM j (Cmt.round (withBeta B A).phase2Update r) (⟨p, a, b⟩, q) = .ok (⟨t.1, a, b⟩, t.2) := by
  intro j
  induction j with
  | zero => intro t ht; cases ht; rfl
  | succ j ih =>
    intro t ht
    obtain ⟨⟨s1, s2, s3⟩, e1, e2⟩ := Outcome.bind_eq_ok ht
    have e := ih e1
    rw [Cmt.round] at e2
    obtain ⟨⟨p', msg⟩, e0, e2⟩ := Outcome.bind_eq_ok' e2
    obtain ⟨_, e3, e4⟩ := Outcome.bind_eq_ok' e2
    cases e4
    rw [loopM_succ, e, Outcome.bind_ok, Cmt.round]
    have e5 : (withBeta B A).phase2Update ⟨s1, a, b⟩ s3 j = .ok (⟨p', a, b⟩, msg) := by
      change (A.phase2Update s1 s3 j >>= _) = _
      rw [e0]; rfl
    dsimp only at e3 ⊢
    rw [e5, Outcome.ok_bind]
    dsimp only
    rw [e3]
    rfl

/-- the state with the recorded challenges -/
def liftState (s : BState σ F) (a b : ℕ → F) : BState (Tracked σ F) F :=
  { prover := ⟨s.prover, a, b⟩, alpha := s.alpha, beta := s.beta, sum := s.sum, r0 := s.r0, r1 := s.r1,
    omr0 := s.omr0, omr1 := s.omr1, tables := s.tables, rb := s.rb, omrb := s.omrb }

/-- a layer with the right `beta_blk_val` passes with the recorded one too -/
theorem lift_layer {B : BlockedCircuit} (hK : 1 ≤ B.log) {A : ProverApi σ F} {ch : BlockChallenges F}
    {i : ℕ} {s s' : BState σ F} (h : layerStep B A ch i s = .ok s')
    (hb : A.betaBlkVal s'.prover = eqAt B.log s.rb (ch.rb i)) (a b : ℕ → F) :
    ∃ a' b', layerStep B (withBeta B A) ch i (liftState s a b) = .ok (liftState s' a' b') := by
  rw [layerStep] at h
  obtain ⟨⟨a1, a2, a3⟩, e0, h⟩ := Outcome.bind_eq_ok' h
  obtain ⟨p0, e0', h⟩ := Outcome.bind_eq_ok' h
  obtain ⟨⟨t1, t2, t3⟩, e1, h⟩ := Outcome.bind_eq_ok' h
  obtain ⟨p, e2, h⟩ := Outcome.bind_eq_ok' h
  obtain ⟨⟨q1, q2, q3⟩, e3, h⟩ := Outcome.bind_eq_ok' h
  obtain ⟨_, hc, h⟩ := Outcome.bind_eq_ok' h
  cases h
  dsimp only at hb
  obtain ⟨b', l0⟩ := lift0 B A (ch.rb i) s.rb _ b e0
  have l0' : (withBeta B A).phase1Init ⟨a1, s.rb, b'⟩ a3 =
      .ok ⟨p0, s.rb, Function.update b' (B.log - 1) a3⟩ := by
    change (A.phase1Init a1 a3 >>= _) = _
    rw [e0']; rfl
  have l1 := lift1 B A (ch.ru i) s.rb (Function.update b' (B.log - 1) a3) _ e1
  have l2 : (withBeta B A).phase2Init ⟨t1, s.rb, Function.update b' (B.log - 1) a3⟩ t3 =
      .ok ⟨p, s.rb, Function.update b' (B.log - 1) a3⟩ := by
    change (A.phase2Init t1 t3 >>= _) = _
    rw [e2]; rfl
  have l3 := lift2 B A (ch.rv i) s.rb (Function.update b' (B.log - 1) a3) _ e3
  have hval : eqAt B.log s.rb (Function.update b' (B.log - 1) a3) = eqAt B.log s.rb (ch.rb i) := by
    obtain ⟨-, k2, k3⟩ := track0 B A (ch.rb i) _ l0
    refine eqAt_congr (fun j hj => ?_)
    by_cases e : j = B.log - 1
    · subst e; rw [Function.update_self]; exact k3 (by omega)
    · rw [Function.update_of_ne e]; exact k2 j (by omega)
  refine ⟨s.rb, Function.update b' (B.log - 1) a3, ?_⟩
  rw [layerStep]
  change (loopM B.log (round0 (withBeta B A).phase0Update (ch.rb i))
    ((⟨A.phase0Init (A.sumcheckInit s.prover i B.log _ _ _ s.alpha s.beta s.rb s.r0 s.r1 s.omrb s.omr0
      s.omr1), s.rb, b⟩ : Tracked σ F), s.sum, 0) >>= _) = _
  rw [l0, Outcome.ok_bind]
  dsimp only
  rw [l0', Outcome.ok_bind, l1, Outcome.ok_bind]
  dsimp only
  rw [l2, Outcome.ok_bind, l3, Outcome.ok_bind]
  dsimp only
  rw [hb] at hc
  rw [← hval] at hc
  change (Outcome.check _ >>= fun _ => _) = _
  exact (congrArg (fun o => o >>= _) hc).trans rfl

/-- the honest prover is accepted with the recorded `beta_blk_val` -/
theorem honest_withBeta (h2 : (2 : F) * inv2 = 1) {B : BlockedCircuit} (hB : Repeats B)
    (junk : Prover F) (tables : BetaTables F) (ch : BlockChallenges F) :
    verify B (withBeta B (honest B junk)) tables ch = .ok () := by
  have hev := evaluate_ok (F := F) hB
  have hd := (hB.circuit 0 (total_pos hB)).nonempty
  have he : (honest B junk).evaluate (honest B junk).start =
      .ok ({ junk with circuitValue := blockFn (allBlocks B) },
        resultOf B (blockFn (allBlocks B))) := by
    simp [honest, hev]
  have he' : (withBeta B (honest B junk)).evaluate (withBeta B (honest B junk)).start =
      .ok ((⟨{ junk with circuitValue := blockFn (allBlocks B) }, fun _ => 0, fun _ => 0⟩ :
        Tracked (Prover F) F), resultOf B (blockFn (allBlocks B))) := by
    change ((honest B junk).evaluate (honest B junk).start >>= _) = _
    rw [he]; rfl
  have hle := hB.count
  rw [verify, he', Outcome.ok_bind]
  dsimp only
  rw [if_neg (by omega)]
  change (Outcome.ok _ >>= _) = _
  rw [Outcome.ok_bind]
  have hv := fun {b i g} (hb : b < 2 ^ B.log) (hi : i < (B.blocks 0).depth)
    (hg : g < 2 ^ (B.blocks 0).bl i) =>
    blockFn_allBlocks (F := F) hB (lt_of_lt_of_le hb hB.count) hi hg
  set top := (B.blocks 0).depth - 1 with htop
  set P0 : Prover F := { junk with circuitValue := blockFn (allBlocks B) } with hP0
  set s0 : BState (Prover F) F :=
    { prover := P0, alpha := 1, beta := 0,
      sum := 1 * (honest B junk).vRes P0 (oneMinus ch.r0) ch.r0 (oneMinus ch.rb0) ch.rb0
        (resultOf B (blockFn (allBlocks B))) ((B.blocks 0).bl top) B.log
        (2 ^ ((B.blocks 0).bl top + B.log)),
      r0 := ch.r0, r1 := ch.r1, omr0 := oneMinus ch.r0, omr1 := oneMinus ch.r1,
      tables := tables, rb := ch.rb0, omrb := oneMinus ch.rb0 } with hs0
  have hinv : LayerInv B top s0 := by
    refine ⟨fun b hb j hj g hg => hv hb hj hg, fun _ _ => rfl, fun _ _ => rfl, fun _ _ => rfl, ?_⟩
    change 1 * foldBlocked (oneMinus ch.r0) ch.r0 (oneMinus ch.rb0) ch.rb0 _ _ _ _ =
      1 * blockMle _ _ _ _ _ + 0 * _
    rw [foldBlocked_spec (oneMinus ch.r0) _ (oneMinus ch.rb0) _ _ _ _ (fun _ _ => rfl)
      (fun _ _ => rfl), zero_mul, add_zero]
    congr 1
    refine blockMle_congr _ _ (fun b hb g hg => ?_)
    rw [resultOf_eq _ (by omega) hg, hv hb (by omega) hg]
  obtain ⟨t, e, s', a', b', rfl, hs'⟩ := loopDownM_ok (n := top)
    (b := layerStep B (withBeta B (honest B junk)) ch) (s := liftState s0 (fun _ => 0) (fun _ => 0))
    (fun i t => ∃ s a b, t = liftState s a b ∧ LayerInv B i s) ⟨s0, _, _, rfl, hinv⟩
    (by
      rintro i hi hn t ⟨s, a, b, rfl, hs⟩
      obtain ⟨s', e, h, hb⟩ := honest_layer h2 hB junk ch hi (by omega) hs
      obtain ⟨a', b', e'⟩ := lift_layer hB.log e (hb.trans (eqAt_mle _ _ _)) a b
      exact ⟨_, e', s', a', b', rfl, h⟩)
  obtain ⟨T, hT, hTv⟩ := verifierInput_ok (F := F) hB
  refine (congrArg (fun o => o >>= _) e).trans ?_
  rw [Outcome.ok_bind, hT, Outcome.ok_bind]
  dsimp only [liftState]
  rw [foldBlocked_spec _ _ _ _ _ _ _ hs'.om0 hs'.omb,
    foldBlocked_spec _ _ _ _ _ _ _ hs'.om1 hs'.omb, hs'.sum,
    blockMle_congr _ _ (fun b hb g hg => hTv b (lt_of_lt_of_le hb hB.count) g hg),
    blockMle_congr _ _ (fun b hb g hg => hTv b (lt_of_lt_of_le hb hB.count) g hg),
    mul_comm (blockMle _ _ _ _ s'.r0), mul_comm (blockMle _ _ _ _ s'.r1),
    beq_self_eq_true, Outcome.check_true]

/-- what the verifier keeps about its own variables before layer `i` -/
structure BInv (B : BlockedCircuit) (i : ℕ) (s : BState σ F) : Prop where
  om0 : ∀ j < (B.blocks 0).bl i, s.omr0 j = 1 - s.r0 j
  om1 : ∀ j < (B.blocks 0).bl i, s.omr1 j = 1 - s.r1 j
  omb : ∀ j < B.log, s.omrb j = 1 - s.rb j

/-- the true value of the claim about layer `i` -/
def trueClaim (B : BlockedCircuit) (i : ℕ) (s : BState σ F) : F :=
  s.alpha * blockMle B.log ((B.blocks 0).bl i) (blockValue B i) s.rb s.r0 +
    s.beta * blockMle B.log ((B.blocks 0).bl i) (blockValue B i) s.rb s.r1

def Lucky0 (B : BlockedCircuit) (A : ProverApi σ F) (i k : ℕ) (rb : ℕ → F) (s : BState σ F) : Prop :=
  LuckyRound0 A.phase0Update rb (msg0 B i s rb) (pre0 B A i s) k

def Lucky1 (B : BlockedCircuit) (A : ProverApi σ F) (i k : ℕ) (rb ru : ℕ → F) (s : BState σ F) :
    Prop :=
  ∃ b, pre1 B A i rb s = .ok b ∧ LuckyRound A.phase1Update ru (msg1 B i s rb ru) b k

def Lucky2 (B : BlockedCircuit) (A : ProverApi σ F) (i k : ℕ) (rb ru rv : ℕ → F) (s : BState σ F) :
    Prop :=
  ∃ b, pre2 B A i rb ru s = .ok b ∧ LuckyRound A.phase2Update rv (msg2 B i s rb ru rv) b k

/-- The two claims at the end of the layer: their errors. -/
def errors (B : BlockedCircuit) (A : ProverApi σ F) (i : ℕ) (rb ru rv : ℕ → F) (s : BState σ F) :
    Outcome (F × F) := do
  let n := (B.blocks 0).bl (i - 1)
  let b ← pre2 B A i rb ru s
  let st ← loopM n (Cmt.round A.phase2Update rv) b
  return ((A.finalize st.1 st.2.2).2.1 - mle n (boundValue B (i - 1) rb) ru,
    (A.finalize st.1 st.2.2).2.2 - mle n (boundValue B (i - 1) rb) rv)

def LuckyA (B : BlockedCircuit) (A : ProverApi σ F) (i : ℕ) (rb ru rv : ℕ → F) (α β : F)
    (s : BState σ F) : Prop :=
  ∃ e, errors B A i rb ru rv s = .ok e ∧ e.1 ≠ 0 ∧ α * e.1 + β * e.2 = 0

def LuckyB (B : BlockedCircuit) (A : ProverApi σ F) (i : ℕ) (rb ru rv : ℕ → F) (β : F)
    (s : BState σ F) : Prop :=
  ∃ e, errors B A i rb ru rv s = .ok e ∧ e.2 ≠ 0 ∧ β * e.2 = 0

theorem layer_inv {B : BlockedCircuit} {A : ProverApi σ F} {ch : BlockChallenges F} {i : ℕ}
    {s s' : BState σ F} (h : layerStep B A ch i s = .ok s') : BInv B (i - 1) s' := by
  obtain ⟨b, st, e1, e2, hfin, -, -, a3, a4, a5, a6, a7, a8, -⟩ := layerStep_ok h
  exact ⟨fun j _ => by rw [a5, a3]; rfl, fun j _ => by rw [a6, a4]; rfl,
    fun j _ => by rw [a8, a7]; rfl⟩

/-- a false claim stays false, or the prover is lucky -/
theorem layer_sound {B : BlockedCircuit} (hB : Repeats B) {A : ProverApi σ F}
    {ch : BlockChallenges F} {i : ℕ} (h1 : 1 ≤ i) (hd : i < (B.blocks 0).depth)
    {s s' : BState (Tracked σ F) F} (hs : BInv B i s)
    (h : layerStep B (withBeta B A) ch i s = .ok s') (hne : s.sum ≠ trueClaim B i s) :
    s'.sum ≠ trueClaim B (i - 1) s' ∨
    (∃ k < B.log, Lucky0 B (withBeta B A) i k (ch.rb i) s) ∨
    (∃ k < (B.blocks 0).bl (i - 1), Lucky1 B (withBeta B A) i k (ch.rb i) (ch.ru i) s) ∨
    (∃ k < (B.blocks 0).bl (i - 1), Lucky2 B (withBeta B A) i k (ch.rb i) (ch.ru i) (ch.rv i) s) ∨
    LuckyA B (withBeta B A) i (ch.rb i) (ch.ru i) (ch.rv i) (ch.alpha i) (ch.beta i) s ∨
    LuckyB B (withBeta B A) i (ch.rb i) (ch.ru i) (ch.rv i) (ch.beta i) s := by
  obtain ⟨hl, -⟩ := layer_facts hB h1 hd
  obtain ⟨b, st, e1, e2, hfin, a1, a2, a3, a4, a5, a6, a7, a8, a9⟩ := layerStep_ok h
  rw [track_layer hB.log e1 e2] at hfin
  have e1' := e1
  rw [pre2] at e1'
  obtain ⟨a, f0, e1'⟩ := Outcome.bind_eq_ok' e1'
  obtain ⟨t, f1, e1'⟩ := Outcome.bind_eq_ok' e1'
  obtain ⟨p, f2, e1'⟩ := Outcome.bind_eq_ok' e1'
  cases e1'
  have f0' := f0
  rw [pre1] at f0'
  obtain ⟨t0, g1, f0'⟩ := Outcome.bind_eq_ok' f0'
  obtain ⟨p0, g2, f0'⟩ := Outcome.bind_eq_ok' f0'
  cases f0'
  set C := B.blocks 0 with hC
  set n := C.bl (i - 1) with hn
  set K := B.log with hK
  set X := boundValue (F := F) B (i - 1) (ch.rb i) with hX
  set w := combOf B i s with hw
  set e := eqAt K s.rb (ch.rb i) with he
  rcases phase0_sound (withBeta B A).phase0Update (q := msg0 B i s (ch.rb i))
    (c := blockClaim C i K w (ch.rb i) (eqPoly K s.rb) (blockValue B (i - 1)))
    (fun k hk => by rw [msg0, truth0_eval, truth0_eval]; exact blockPoly_sum _ _ hk _ _ _ _)
    (fun k hk => by rw [msg0, truth0_eval]; exact blockPoly_next _ _ _ _ _ _ _ _) g1
    (by rw [hw, combOf, hC, hK, blockClaim_zero hB h1 hd]; exact hne) with ht0 | hk
  swap
  · exact .inr (.inl hk)
  rw [blockClaim_last, eqAt_mle] at ht0
  change t0.2.1 ≠ e * gsum C i w X at ht0
  rw [← gsum_claim hl w X (ch.ru i)] at ht0
  rcases phase_sound (withBeta B A).phase1Update
    (honest_scale (truthQ_honest n (A1 C i w X) X (B1 C i w X) (ch.ru i)) e) f1 ht0 with ht | ⟨k, hk, hL⟩
  swap
  · exact .inr (.inr (.inl ⟨k, hk, _, f0, hL⟩))
  rw [claim1_last hl, ← claim2_zero hl _ _ _ (ch.rv i)] at ht
  rcases phase_sound (withBeta B A).phase2Update
    (honest_scale (truthQ_honest n (A2 C i w (eqPoly n (ch.ru i)) (mle n X (ch.ru i))) X
      (B2 C i w (eqPoly n (ch.ru i)) (mle n X (ch.ru i))) (ch.rv i)) e) e2 ht with hq | ⟨k, hk, hL⟩
  swap
  · exact .inr (.inr (.inr (.inl ⟨k, hk, _, e1, hL⟩)))
  rw [claim2_last hl] at hq
  set eu := ((withBeta B A).finalize st.1 st.2.2).2.1 - mle n X (ch.ru i) with heu
  set ev := ((withBeta B A).finalize st.1 st.2.2).2.2 - mle n X (ch.rv i) with hev
  have herr : errors B (withBeta B A) i (ch.rb i) (ch.ru i) (ch.rv i) s = .ok (eu, ev) := by
    rw [errors, e1, Outcome.ok_bind, e2, Outcome.ok_bind]; rfl
  have hne2 : eu ≠ 0 ∨ ev ≠ 0 := by
    by_contra hcon
    simp only [not_or, not_not] at hcon
    have h3 := sub_eq_zero.1 hcon.1
    have h4 := sub_eq_zero.1 hcon.2
    apply hq
    rw [hfin, h3, h4]
    obtain ⟨b1, b2, b3⟩ := betaInit_spec C s.tables i s.alpha s.beta s.r0 s.r1 (ch.ru i)
      (ch.rv i) s.omr0 s.omr1
      (oneMinus (ch.ru i)) (oneMinus (ch.rv i)) hs.om0 hs.om1 (fun _ _ => rfl)
    rw [endClaim_congr hl b1 b2 (b3 (fun _ _ => rfl))]
    rfl
  have hdiff : s'.sum - trueClaim B (i - 1) s' = ch.alpha i * eu + ch.beta i * ev := by
    rw [a9, trueClaim, a1, a2, a3, a4, a7, heu, hev, blockMle_swap, blockMle_swap, hX]
    change _ - (_ * mle n (boundValue B (i - 1) (ch.rb i)) _ +
      _ * mle n (boundValue B (i - 1) (ch.rb i)) _) = _
    ring
  by_cases hz : ch.alpha i * eu + ch.beta i * ev = 0
  · right; right; right; right
    by_cases h0 : eu = 0
    · right
      refine ⟨_, herr, ?_, ?_⟩
      · rcases hne2 with h | h
        · exact absurd h0 h
        · exact h
      · rw [h0, mul_zero, zero_add] at hz; exact hz
    · exact .inl ⟨_, herr, h0, hz⟩
  · left
    intro hcon
    exact hz (by rw [← hdiff, hcon, sub_self])

/-! ## the whole protocol -/

/-- the state before layer `i`, when the layers `top, …, i+1` have been processed -/
def runTo (B : BlockedCircuit) (A : ProverApi σ F) (ch : BlockChallenges F) (s0 : BState σ F)
    (top i : ℕ) : Outcome (BState σ F) :=
  loopDownM (top - i) (fun k => layerStep B A ch (k + i)) s0

theorem runTo_succ {B : BlockedCircuit} {A : ProverApi σ F} {ch : BlockChallenges F}
    {s0 : BState σ F} {top i : ℕ} (hi : i < top) :
    runTo B A ch s0 top i = (runTo B A ch s0 top (i + 1)).bind (layerStep B A ch (i + 1)) := by
  rw [runTo, runTo, loopDownM_split (by omega)]
  have : (fun k => layerStep B A ch (k + 1 + i)) = fun k => layerStep B A ch (k + (i + 1)) := by
    funext k; rw [show k + 1 + i = k + (i + 1) by omega]
  rw [this, show top - i - 1 = top - (i + 1) by omega, show (1 + i) = i + 1 by omega]

theorem runTo_congr {B : BlockedCircuit} {A : ProverApi σ F} {ch ch' : BlockChallenges F}
    {s0 : BState σ F} {top i : ℕ}
    (h : ∀ k, i < k → ch.ru k = ch'.ru k ∧ ch.rv k = ch'.rv k ∧ ch.alpha k = ch'.alpha k ∧
      ch.beta k = ch'.beta k ∧ ch.rb k = ch'.rb k) :
    runTo B A ch s0 top i = runTo B A ch' s0 top i := by
  refine loopDownM_congr (fun k hk _ s => ?_)
  obtain ⟨a1, a2, a3, a4, a5⟩ := h (k + i) (by omega)
  simp only [layerStep, a1, a2, a3, a4, a5]

/-- entry `g` of block `b` of the claimed output -/
def claimed (B : BlockedCircuit) (result : ℕ → F) (b g : ℕ) : F :=
  result (b * 2 ^ (B.blocks 0).bl ((B.blocks 0).depth - 1) + g)

/-- the claimed output minus the true one -/
def outputError (B : BlockedCircuit) (result : ℕ → F) (b g : ℕ) : F :=
  claimed B result b g - blockValue B ((B.blocks 0).depth - 1) b g

/-- the initial state of the layer loop -/
def startState (B : BlockedCircuit) (p : σ) (result : ℕ → F) (tables : BetaTables F)
    (ch : BlockChallenges F) : BState σ F :=
  { prover := p, alpha := 1, beta := 0,
    sum := blockMle B.log ((B.blocks 0).bl ((B.blocks 0).depth - 1)) (claimed B result) ch.rb0 ch.r0
    r0 := ch.r0, r1 := ch.r1, omr0 := oneMinus ch.r0, omr1 := oneMinus ch.r1, tables := tables,
    rb := ch.rb0, omrb := oneMinus ch.rb0 }

/-- For every coin, the event that the prover is lucky with it; `row` is a block with a wrong output. -/
def Event (B : BlockedCircuit) (A : ProverApi σ F) (p : σ) (result : ℕ → F) (row : ℕ)
    (tables : BetaTables F) (c : BlockCoin B) (ω : BlockCoin B → F) : Prop :=
  let C := B.blocks 0
  let ch := blockChallenges B ω
  let run := runTo B A ch (startState B p result tables ch) (C.depth - 1)
  match c with
  | .inl (.inl j) => LuckyTab (C.bl (C.depth - 1)) (outputError B result row) j ch.r0
  | .inl (.inr (.inl _)) => False
  | .inl (.inr (.inr (.inl ⟨i, k⟩))) =>
    i.1 ≠ 0 ∧ ∃ s, run i = .ok s ∧ Lucky1 B A i k (ch.rb i) (ch.ru i) s
  | .inl (.inr (.inr (.inr (.inl ⟨i, k⟩)))) =>
    i.1 ≠ 0 ∧ ∃ s, run i = .ok s ∧ Lucky2 B A i k (ch.rb i) (ch.ru i) (ch.rv i) s
  | .inl (.inr (.inr (.inr (.inr (.inl i))))) => i.1 ≠ 0 ∧ ∃ s, run i = .ok s ∧
      LuckyA B A i (ch.rb i) (ch.ru i) (ch.rv i) (ch.alpha i) (ch.beta i) s
  | .inl (.inr (.inr (.inr (.inr (.inr i))))) => i.1 ≠ 0 ∧ ∃ s, run i = .ok s ∧
      LuckyB B A i (ch.rb i) (ch.ru i) (ch.rv i) (ch.beta i) s
  | .inr (.inl j) => LuckyTab B.log
      (fun b => mle (C.bl (C.depth - 1)) (outputError B result b) ch.r0) j ch.rb0
  | .inr (.inr (i, k)) => i.1 ≠ 0 ∧ ∃ s, run i = .ok s ∧ Lucky0 B A i k (ch.rb i) s

/-- how many values of the coin can be lucky -/
def degree (B : BlockedCircuit) : BlockCoin B → ℕ
  | .inl c => Cmt.degree (B.blocks 0) c
  | .inr (.inl _) => 1
  | .inr (.inr (i, _)) => if i.1 = 0 then 0 else 3

theorem sum_degree (B : BlockedCircuit) : ∑ c : BlockCoin B, degree B c = blockSoundnessError B := by
  have e : ∑ c : BlockCoin B, degree B c = ∑ c, degree B (.inl c) +
      (∑ j, degree B (.inr (.inl j)) + ∑ q, degree B (.inr (.inr q))) := by
    rw [Fintype.sum_sum_type (α₁ := Coin (B.blocks 0)), Fintype.sum_sum_type (α₁ := Fin B.log)]
  rw [e, Fintype.sum_prod_type]
  have := Cmt.sum_degree (B.blocks 0)
  simp only [degree, sum_const, card_univ, Fintype.card_fin, smul_eq_mul, mul_one]
  rw [blockSoundnessError, ← this,
    ← Fin.sum_univ_eq_sum_range (fun i => if i = 0 then 0 else 3 * B.log) (B.blocks 0).depth, add_assoc]
  congr 2
  refine sum_congr rfl (fun i _ => ?_)
  by_cases h0 : i.1 = 0
  · simp [h0]
  · simp [h0]; omega

omit [CommRing F] [DecidableEq F] in
theorem comp_update_base (B : BlockedCircuit) (ω : BlockCoin B → F) (c : Coin (B.blocks 0)) (x : F) :
    (fun d => Function.update ω (.base c) x (.base d)) =
      Function.update (fun d => ω (.base d)) c x := by
  funext d
  by_cases h : d = c
  · subst h; simp
  · rw [Function.update_of_ne h, Function.update_of_ne (by simpa using h)]

omit [CommRing F] [DecidableEq F] in
theorem comp_update_inr (B : BlockedCircuit) (ω : BlockCoin B → F)
    (c : Fin B.log ⊕ (Fin (B.blocks 0).depth × Fin B.log)) (x : F) :
    (fun d => Function.update ω (.inr c) x (.base d)) = fun d => ω (.base d) := by
  funext d
  rw [Function.update_of_ne (by simp)]

/-- which challenges do not change when one coin is changed -/
theorem block_update (B : BlockedCircuit) (ω : BlockCoin B → F) (c : BlockCoin B) (x y : F) :
    let ch := blockChallenges B (Function.update ω c x)
    let ch' := blockChallenges B (Function.update ω c y)
    ((∀ j, c ≠ .base (.inl j)) → ch.r0 = ch'.r0) ∧
    ((∀ j, c ≠ .base (.inr (.inl j))) → ch.r1 = ch'.r1) ∧
    (∀ i j, (∀ hi hj, c ≠ .base (.ru ⟨i, hi⟩ ⟨j, hj⟩)) → ch.ru i j = ch'.ru i j) ∧
    (∀ i j, (∀ hi hj, c ≠ .base (.rv ⟨i, hi⟩ ⟨j, hj⟩)) → ch.rv i j = ch'.rv i j) ∧
    (∀ i, (∀ hi, c ≠ .base (.alpha ⟨i, hi⟩)) → ch.alpha i = ch'.alpha i) ∧
    (∀ i, (∀ hi, c ≠ .base (.beta ⟨i, hi⟩)) → ch.beta i = ch'.beta i) ∧
    (∀ j, (∀ hj, c ≠ .rb0 ⟨j, hj⟩) → ch.rb0 j = ch'.rb0 j) ∧
    (∀ i j, (∀ hi hj, c ≠ .rb ⟨i, hi⟩ ⟨j, hj⟩) → ch.rb i j = ch'.rb i j) := by
  intro ch ch'
  have e7 : ∀ j, (∀ hj, c ≠ .rb0 ⟨j, hj⟩) → ch.rb0 j = ch'.rb0 j := by
    intro j h
    simp only [ch, ch', blockChallenges]
    split_ifs with hj
    · rw [Function.update_of_ne (h _).symm, Function.update_of_ne (h _).symm]
    · rfl
  have e8 : ∀ i j, (∀ hi hj, c ≠ .rb ⟨i, hi⟩ ⟨j, hj⟩) → ch.rb i j = ch'.rb i j := by
    intro i j h
    simp only [ch, ch', blockChallenges]
    split_ifs with hi hj
    · rw [Function.update_of_ne (h _ _).symm, Function.update_of_ne (h _ _).symm]
    · rfl
    · rfl
  rcases c with c | c
  · have k1 : ch.toChallenges =
        challenges (B.blocks 0) (Function.update (fun d => ω (.base d)) c x) := by
      simp only [ch, blockChallenges, ← comp_update_base]
    have k2 : ch'.toChallenges =
        challenges (B.blocks 0) (Function.update (fun d => ω (.base d)) c y) := by
      simp only [ch', blockChallenges, ← comp_update_base]
    obtain ⟨h0, h1, h2, h3, h4, h5⟩ := challenges_update (fun d => ω (.base d)) c x y
    rw [k1, k2]
    refine ⟨fun h => h0 (fun j hj => h j (by rw [hj])), fun h => h1 (fun j hj => h j (by rw [hj])),
      fun i j h => h2 i j (fun hi hj hc => h hi hj (by rw [hc])),
      fun i j h => h3 i j (fun hi hj hc => h hi hj (by rw [hc])),
      fun i h => h4 i (fun hi hc => h hi (by rw [hc])),
      fun i h => h5 i (fun hi hc => h hi (by rw [hc])), e7, e8⟩
  · have k : ch.toChallenges = ch'.toChallenges := by
      simp only [ch, ch', blockChallenges, comp_update_inr]
    rw [k]
    exact ⟨fun _ => rfl, fun _ => rfl, fun _ _ _ => rfl, fun _ _ _ => rfl, fun _ _ => rfl,
      fun _ _ => rfl, e7, e8⟩

/-- the coins of layer `i` -/
def OfLayer (B : BlockedCircuit) (i : Fin (B.blocks 0).depth) (c : BlockCoin B) : Prop :=
  (∃ k, c = .base (.ru i k)) ∨ (∃ k, c = .base (.rv i k)) ∨ c = .base (.alpha i) ∨
    c = .base (.beta i) ∨ ∃ k, c = .rb i k

theorem run_update (B : BlockedCircuit) (A : ProverApi σ F) (p : σ) (result : ℕ → F)
    (tables : BetaTables F) (ω : BlockCoin B → F) (i : Fin (B.blocks 0).depth) (c : BlockCoin B)
    (hc : OfLayer B i c) (x y : F) :
    runTo B A (blockChallenges B (Function.update ω c x)) (startState B p result tables
      (blockChallenges B (Function.update ω c x))) ((B.blocks 0).depth - 1) i =
    runTo B A (blockChallenges B (Function.update ω c y)) (startState B p result tables
      (blockChallenges B (Function.update ω c y))) ((B.blocks 0).depth - 1) i := by
  obtain ⟨h0, h1, h2, h3, h4, h5, h6, h7⟩ := block_update B ω c x y
  have e0 := h0 (fun j hj => by rcases hc with ⟨k, rfl⟩ | ⟨k, rfl⟩ | rfl | rfl | ⟨k, rfl⟩ <;> simp at hj)
  have e1 := h1 (fun j hj => by rcases hc with ⟨k, rfl⟩ | ⟨k, rfl⟩ | rfl | rfl | ⟨k, rfl⟩ <;> simp at hj)
  have e6 : (blockChallenges B (Function.update ω c x)).rb0 =
      (blockChallenges B (Function.update ω c y)).rb0 := by
    funext j
    exact h6 j (fun hj h => by
      rcases hc with ⟨k, rfl⟩ | ⟨k, rfl⟩ | rfl | rfl | ⟨k, rfl⟩ <;> simp at h)
  have es : startState B p result tables (blockChallenges B (Function.update ω c x)) =
      startState B p result tables (blockChallenges B (Function.update ω c y)) := by
    rw [startState, startState, e0, e1, e6]
  rw [es]
  refine runTo_congr (fun k hk => ⟨?_, ?_, ?_, ?_, ?_⟩)
  · funext j
    refine h2 k j (fun hi hj hcon => ?_)
    rcases hc with ⟨k', rfl⟩ | ⟨k', rfl⟩ | rfl | rfl | ⟨k', rfl⟩ <;> simp [Coin.ru] at hcon
    have := hcon.1; subst this; simp at hk
  · funext j
    refine h3 k j (fun hi hj hcon => ?_)
    rcases hc with ⟨k', rfl⟩ | ⟨k', rfl⟩ | rfl | rfl | ⟨k', rfl⟩ <;> simp [Coin.rv] at hcon
    have := hcon.1; subst this; simp at hk
  · refine h4 k (fun hi hcon => ?_)
    rcases hc with ⟨k', rfl⟩ | ⟨k', rfl⟩ | rfl | rfl | ⟨k', rfl⟩ <;> simp [Coin.alpha] at hcon
    subst hcon; simp at hk
  · refine h5 k (fun hi hcon => ?_)
    rcases hc with ⟨k', rfl⟩ | ⟨k', rfl⟩ | rfl | rfl | ⟨k', rfl⟩ <;> simp [Coin.beta] at hcon
    subst hcon; simp at hk
  · funext j
    refine h7 k j (fun hi hj hcon => ?_)
    rcases hc with ⟨k', rfl⟩ | ⟨k', rfl⟩ | rfl | rfl | ⟨k', rfl⟩ <;> simp [BlockCoin.rb] at hcon
    have := hcon.1; subst this; simp at hk

variable [IsDomain F] [Fintype F]

theorem event_bound (B : BlockedCircuit) (A : ProverApi σ F) (p : σ) (result : ℕ → F) (row : ℕ)
    (tables : BetaTables F) (c : BlockCoin B) :
    FiberBound (Event B A p result row tables c) c (degree B c) := by
  apply fiberBound_of
  intro ω x0 hx0
  match c with
  | .inl (.inl j) =>
    obtain ⟨S, hS, hr⟩ := tab_root j.2 hx0
    refine ⟨S, hS, fun x hx => ?_⟩
    have := hr _ (fun k hk => ?_) hx
    · simpa [blockChallenges, challenges] using this
    · simp only [blockChallenges, challenges]
      split_ifs with h
      · rw [Function.update_of_ne, Function.update_of_ne]
        · simp [Coin.r0]; intro h; rw [← h] at hk; simp at hk
        · simp [Coin.r0]; intro h; rw [← h] at hk; simp at hk
      · rfl
  | .inl (.inr (.inl _)) => exact hx0.elim
  | .inr (.inl j) =>
    obtain ⟨S, hS, hr⟩ := tab_root j.2 hx0
    refine ⟨S, hS, fun x hx => ?_⟩
    obtain ⟨h0, -, -, -, -, -, h6, -⟩ := block_update B ω (.inr (.inl j)) x x0
    have e0 := h0 (fun j hj => by simp at hj)
    change LuckyTab _ _ _ _ at hx
    rw [e0] at hx
    have := hr _ (fun k hk => h6 k (fun hj hc => ?_)) hx
    · simpa [blockChallenges] using this
    · simp at hc
      rw [hc] at hk; simp at hk
  | .inr (.inr (i, k)) =>
    obtain ⟨hi0, s, hs, st, p1, m, h1, hm, h2, -⟩ := hx0
    obtain ⟨S, hS, hr⟩ := Counting.cubic_agree _ _ h2
    refine ⟨S, by simpa [degree, hi0] using hS, fun x hx => hr x ?_⟩
    obtain ⟨-, s', hs', st', p1', m', g1, gm, -, g3⟩ := hx
    have hrun := run_update B A p result tables ω i (.rb i k)
      (.inr (.inr (.inr (.inr ⟨k, rfl⟩)))) x x0
    rw [hs, hs'] at hrun
    cases hrun
    obtain ⟨-, -, -, -, -, -, -, hrb⟩ := block_update B ω (.rb i k) x x0
    have hcong : ∀ j < k.1, (blockChallenges B (Function.update ω (.rb i k) x)).rb i j =
        (blockChallenges B (Function.update ω (.rb i k) x0)).rb i j := by
      intro j hj
      refine hrb i j (fun hi hj' hcon => ?_)
      simp [BlockCoin.rb] at hcon
      rw [hcon] at hj; simp at hj
    rw [round0_congr A.phase0Update hcong, h1] at g1
    cases g1
    rw [hm] at gm
    cases gm
    have hval : (blockChallenges B (Function.update ω (.rb i k) x)).rb i k = x := by
      simp [blockChallenges, BlockCoin.rb]
    rw [hval, msg0, truth0_congr _ _ _ _ _ _ hcong] at g3
    exact g3
  | .inl (.inr (.inr (.inl ⟨i, k⟩))) =>
    obtain ⟨hi0, s, hs, b, hb, st, p1, m, h1, hm, h2, -⟩ := hx0
    obtain ⟨S, hS, hr⟩ := Counting.quadratic_agree _ _ h2
    refine ⟨S, by simpa [degree, Cmt.degree, hi0] using hS, fun x hx => hr x ?_⟩
    obtain ⟨-, s', hs', b', hb', st', p1', m', g1, gm, -, g3⟩ := hx
    have hrun := run_update B A p result tables ω i (.base (.ru i k)) (.inl ⟨k, rfl⟩) x x0
    rw [hs, hs'] at hrun
    cases hrun
    obtain ⟨-, -, hru, -, -, -, -, hrb⟩ := block_update B ω (.base (.ru i k)) x x0
    have hw : (blockChallenges B (Function.update ω (.base (.ru i k)) x)).rb i =
        (blockChallenges B (Function.update ω (.base (.ru i k)) x0)).rb i := by
      funext j; exact hrb i j (fun _ _ => by simp)
    have hcong : ∀ j < k.1, (blockChallenges B (Function.update ω (.base (.ru i k)) x)).ru i j =
        (blockChallenges B (Function.update ω (.base (.ru i k)) x0)).ru i j := by
      intro j hj
      refine hru i j (fun hi hj' hcon => ?_)
      simp [Coin.ru] at hcon
      rw [hcon] at hj; simp at hj
    rw [hw, hb] at hb'
    cases hb'
    rw [round_congr A.phase1Update hcong, h1] at g1
    cases g1
    rw [hm] at gm
    cases gm
    have hval : (blockChallenges B (Function.update ω (.base (.ru i k)) x)).ru i k = x := by
      simp [blockChallenges, challenges, Coin.ru]
    rw [hval, hw, msg1, truthQ_congr _ _ _ _ hcong] at g3
    exact g3
  | .inl (.inr (.inr (.inr (.inl ⟨i, k⟩)))) =>
    obtain ⟨hi2, s, hs, b, hb, st, p1, m, h1, hm, h2, -⟩ := hx0
    obtain ⟨S, hS, hr⟩ := Counting.quadratic_agree _ _ h2
    refine ⟨S, by simpa [degree, Cmt.degree, hi2] using hS, fun x hx => hr x ?_⟩
    obtain ⟨-, s', hs', b', hb', st', p1', m', g1, gm, -, g3⟩ := hx
    have hrun := run_update B A p result tables ω i (.base (.rv i k)) (.inr (.inl ⟨k, rfl⟩)) x x0
    rw [hs, hs'] at hrun
    cases hrun
    obtain ⟨-, -, hru, hrv, -, -, -, hrb⟩ := block_update B ω (.base (.rv i k)) x x0
    have hw : (blockChallenges B (Function.update ω (.base (.rv i k)) x)).rb i =
        (blockChallenges B (Function.update ω (.base (.rv i k)) x0)).rb i := by
      funext j; exact hrb i j (fun _ _ => by simp)
    have hu : (blockChallenges B (Function.update ω (.base (.rv i k)) x)).ru i =
        (blockChallenges B (Function.update ω (.base (.rv i k)) x0)).ru i := by
      funext j; exact hru i j (fun _ _ => by simp [Coin.ru])
    have hcong : ∀ j < k.1, (blockChallenges B (Function.update ω (.base (.rv i k)) x)).rv i j =
        (blockChallenges B (Function.update ω (.base (.rv i k)) x0)).rv i j := by
      intro j hj
      refine hrv i j (fun hi hj' hcon => ?_)
      simp [Coin.rv] at hcon
      rw [hcon] at hj; simp at hj
    rw [hw, hu, hb] at hb'
    cases hb'
    rw [round_congr A.phase2Update hcong, h1] at g1
    cases g1
    rw [hm] at gm
    cases gm
    have hval : (blockChallenges B (Function.update ω (.base (.rv i k)) x)).rv i k = x := by
      simp [blockChallenges, challenges, Coin.rv]
    rw [hval, hw, hu, msg2, truthQ_congr _ _ _ _ hcong] at g3
    exact g3
  | .inl (.inr (.inr (.inr (.inr (.inl i))))) =>
    obtain ⟨hi2, s, hs, e, he, hne, -⟩ := hx0
    obtain ⟨S, hS, hr⟩ := Counting.line_root e.1
      ((blockChallenges B (Function.update ω (.base (.alpha i)) x0)).beta i * e.2) (.inl hne)
    refine ⟨S, by simpa [degree, Cmt.degree, hi2] using hS, fun x hx => hr x ?_⟩
    obtain ⟨-, s', hs', e', he', -, g3⟩ := hx
    have hrun := run_update B A p result tables ω i (.base (.alpha i)) (.inr (.inr (.inl rfl))) x x0
    rw [hs, hs'] at hrun
    cases hrun
    obtain ⟨-, -, hru, hrv, -, hbe, -, hrb⟩ := block_update B ω (.base (.alpha i)) x x0
    have hw : (blockChallenges B (Function.update ω (.base (.alpha i)) x)).rb i =
        (blockChallenges B (Function.update ω (.base (.alpha i)) x0)).rb i := by
      funext j; exact hrb i j (fun _ _ => by simp)
    have hu : (blockChallenges B (Function.update ω (.base (.alpha i)) x)).ru i =
        (blockChallenges B (Function.update ω (.base (.alpha i)) x0)).ru i := by
      funext j; exact hru i j (fun _ _ => by simp [Coin.ru])
    have hv : (blockChallenges B (Function.update ω (.base (.alpha i)) x)).rv i =
        (blockChallenges B (Function.update ω (.base (.alpha i)) x0)).rv i := by
      funext j; exact hrv i j (fun _ _ => by simp [Coin.rv])
    have hb := hbe i (fun _ => by simp [Coin.beta])
    rw [hw, hu, hv, he] at he'
    cases he'
    have hval : (blockChallenges B (Function.update ω (.base (.alpha i)) x)).alpha i = x := by
      simp [blockChallenges, challenges, Coin.alpha]
    rw [hval, hb] at g3
    rw [mul_comm]; exact g3
  | .inl (.inr (.inr (.inr (.inr (.inr i))))) =>
    obtain ⟨hi2, s, hs, e, he, hne, -⟩ := hx0
    obtain ⟨S, hS, hr⟩ := Counting.line_root e.2 0 (.inl hne)
    refine ⟨S, by simpa [degree, Cmt.degree, hi2] using hS, fun x hx => hr x ?_⟩
    obtain ⟨-, s', hs', e', he', -, g3⟩ := hx
    have hrun := run_update B A p result tables ω i (.base (.beta i))
      (.inr (.inr (.inr (.inl rfl)))) x x0
    rw [hs, hs'] at hrun
    cases hrun
    obtain ⟨-, -, hru, hrv, -, -, -, hrb⟩ := block_update B ω (.base (.beta i)) x x0
    have hw : (blockChallenges B (Function.update ω (.base (.beta i)) x)).rb i =
        (blockChallenges B (Function.update ω (.base (.beta i)) x0)).rb i := by
      funext j; exact hrb i j (fun _ _ => by simp)
    have hu : (blockChallenges B (Function.update ω (.base (.beta i)) x)).ru i =
        (blockChallenges B (Function.update ω (.base (.beta i)) x0)).ru i := by
      funext j; exact hru i j (fun _ _ => by simp [Coin.ru])
    have hv : (blockChallenges B (Function.update ω (.base (.beta i)) x)).rv i =
        (blockChallenges B (Function.update ω (.base (.beta i)) x0)).rv i := by
      funext j; exact hrv i j (fun _ _ => by simp [Coin.rv])
    rw [hw, hu, hv, he] at he'
    cases he'
    have hval : (blockChallenges B (Function.update ω (.base (.beta i)) x)).beta i = x := by
      simp [blockChallenges, challenges, Coin.beta]
    rw [hval] at g3
    rw [mul_comm, add_zero]; exact g3

omit [IsDomain F] [Fintype F] [DecidableEq F] in
/-- a wrong output gives a wrong first claim, or the prover is lucky -/
theorem output_sound (B : BlockedCircuit) (result : ℕ → F) (r rb : ℕ → F) {row : ℕ}
    (hrow : row < 2 ^ B.log)
    (h : ∃ g < 2 ^ (B.blocks 0).bl ((B.blocks 0).depth - 1), outputError B result row g ≠ 0) :
    let n := (B.blocks 0).bl ((B.blocks 0).depth - 1)
    blockMle B.log n (claimed B result) rb r ≠
      blockMle B.log n (blockValue B ((B.blocks 0).depth - 1)) rb r ∨
    (∃ j < n, LuckyTab n (outputError B result row) j r) ∨
    ∃ j < B.log, LuckyTab B.log (fun b => mle n (outputError B result b) r) j rb := by
  intro n
  rcases tab_sound n (outputError B result row) r h with h | h
  swap
  · exact .inr (.inl h)
  rcases tab_sound B.log (fun b => mle n (outputError B result b) r) rb ⟨row, hrow, h⟩ with h | h
  swap
  · exact .inr (.inr h)
  left
  intro hcon
  apply h
  have e : ∀ b, mle n (outputError B result b) r = mle n (claimed B result b) r +
      (-1) * mle n (blockValue B ((B.blocks 0).depth - 1) b) r := by
    intro b
    rw [← mle_smul, ← mle_add]
    congr 1
    funext g
    rw [outputError]; ring
  simp only [e]
  rw [mle_add, mle_smul]
  change blockMle _ _ _ _ _ + -1 * blockMle _ _ _ _ _ = 0
  rw [hcon]; ring

omit [IsDomain F] [Fintype F] in
theorem reach_sound {B : BlockedCircuit} (hB : Repeats B) (A : ProverApi σ F) (p : Tracked σ F)
    (result : ℕ → F) (tables : BetaTables F) {row : ℕ} (hrow : row < 2 ^ B.log)
    (hbad : ∃ g < 2 ^ (B.blocks 0).bl ((B.blocks 0).depth - 1), outputError B result row g ≠ 0)
    (ω : BlockCoin B → F) :
    let ch := blockChallenges B ω
    let d := (B.blocks 0).depth
    ∀ m i, i = d - 1 - m → m ≤ d - 1 → ∀ s,
      runTo B (withBeta B A) ch (startState B p result tables ch) (d - 1) i = .ok s →
      (BInv B i s ∧ s.sum ≠ trueClaim B i s) ∨
        ∃ c, Event B (withBeta B A) p result row tables c ω := by
  intro ch d m
  have hd : 0 < d := (hB.circuit 0 (total_pos hB)).nonempty
  induction m with
  | zero =>
    rintro i rfl _ s hs
    rw [runTo, Nat.sub_zero, Nat.sub_self] at hs
    cases hs
    rcases output_sound B result ch.r0 ch.rb0 hrow hbad with h | ⟨j, hj, h⟩ | ⟨j, hj, h⟩
    · left
      refine ⟨⟨fun _ _ => rfl, fun _ _ => rfl, fun _ _ => rfl⟩, ?_⟩
      simp only [startState, trueClaim, one_mul, zero_mul, add_zero, Nat.sub_zero]
      exact h
    · exact .inr ⟨.inl (.inl ⟨j, hj⟩), h⟩
    · exact .inr ⟨.inr (.inl ⟨j, hj⟩), h⟩
  | succ m ih =>
    rintro i hi hm s hs
    rw [runTo_succ (by omega)] at hs
    obtain ⟨s1, e1, e2⟩ := Outcome.bind_eq_ok hs
    rcases ih (i + 1) (by omega) (by omega) s1 e1 with ⟨hv, hne⟩ | h
    · have hlt : i + 1 < d := by omega
      rcases layer_sound hB (by omega) hlt hv e2 hne with
        h | ⟨k, hk, h⟩ | ⟨k, hk, h⟩ | ⟨k, hk, h⟩ | h | h
      · exact .inl ⟨layer_inv e2, h⟩
      · exact .inr ⟨.rb ⟨i + 1, hlt⟩ ⟨k, hk⟩, by simp, s1, e1, h⟩
      · exact .inr ⟨.base (.ru ⟨i + 1, hlt⟩ ⟨k, hk⟩), by simp, s1, e1, h⟩
      · exact .inr ⟨.base (.rv ⟨i + 1, hlt⟩ ⟨k, hk⟩), by simp, s1, e1, h⟩
      · exact .inr ⟨.base (.alpha ⟨i + 1, hlt⟩), by simp, s1, e1, h⟩
      · exact .inr ⟨.base (.beta ⟨i + 1, hlt⟩), by simp, s1, e1, h⟩
    · exact .inr h

omit [IsDomain F] [Fintype F] in
theorem accept_event {B : BlockedCircuit} (hB : Repeats B) {A : ProverApi σ F}
    {p : σ} {result : ℕ → F} (hA : A.evaluate A.start = .ok (p, result))
    (hres : ∀ omr r omrb rb n k N, A.vRes p omr r omrb rb result n k N =
      foldBlocked omr r omrb rb result n k N)
    {row : ℕ} (hrow : row < 2 ^ B.log)
    (hbad : ∃ g < 2 ^ (B.blocks 0).bl ((B.blocks 0).depth - 1), outputError B result row g ≠ 0)
    {tables : BetaTables F} {ω : BlockCoin B → F}
    (h : verify B (withBeta B A) tables (blockChallenges B ω) = .ok ()) :
    ∃ c, Event B (withBeta B A) ⟨p, fun _ => 0, fun _ => 0⟩ result row tables c ω := by
  have hle := hB.count
  have hev : (withBeta B A).evaluate (withBeta B A).start =
      .ok ((⟨p, fun _ => 0, fun _ => 0⟩ : Tracked σ F), result) := by
    change (A.evaluate A.start >>= _) = _
    rw [hA]; rfl
  rw [verify, hev, Outcome.ok_bind] at h
  dsimp only at h
  rw [if_neg (by omega)] at h
  change (Outcome.ok _ >>= _) = _ at h
  rw [Outcome.ok_bind] at h
  obtain ⟨s, e1, h⟩ := Outcome.bind_eq_ok' h
  obtain ⟨T, e2, h⟩ := Outcome.bind_eq_ok' h
  obtain ⟨T', hT', hTv⟩ := verifierInput_ok (F := F) hB
  have : T = T' := by
    have := e2.symm.trans hT'
    cases this; rfl
  subst this
  have h := Outcome.check_ok_iff.1 h
  rw [beq_iff_eq] at h
  have hrun : runTo B (withBeta B A) (blockChallenges B ω) (startState B ⟨p, fun _ => 0, fun _ => 0⟩
      result tables (blockChallenges B ω)) ((B.blocks 0).depth - 1) 0 = .ok s := by
    rw [runTo, startState, ← e1]
    simp only [Nat.add_zero, Nat.sub_zero]
    congr 1
    have e : (withBeta B A).vRes (⟨p, fun _ => 0, fun _ => 0⟩ : Tracked σ F) = A.vRes p := rfl
    rw [e, hres, one_mul, foldBlocked_spec (oneMinus (blockChallenges B ω).r0) _
      (oneMinus (blockChallenges B ω).rb0) _ _ _ _ (fun _ _ => rfl) (fun _ _ => rfl)]
    rfl
  rcases reach_sound hB A _ result tables hrow hbad ω ((B.blocks 0).depth - 1) 0 (by omega) le_rfl s
    hrun with ⟨hv, hne⟩ | h
  · refine absurd ?_ hne
    rw [h, foldBlocked_spec _ _ _ _ _ _ _ hv.om0 hv.omb, foldBlocked_spec _ _ _ _ _ _ _ hv.om1 hv.omb,
      trueClaim, blockMle_congr _ _ (fun b hb g hg => hTv b (lt_of_lt_of_le hb hB.count) g hg),
      blockMle_congr _ _ (fun b hb g hg => hTv b (lt_of_lt_of_le hb hB.count) g hg)]
    ring
  · exact h

theorem soundness {B : BlockedCircuit} (hB : Repeats B) {A : ProverApi σ F}
    {p : σ} {result : ℕ → F} (hA : A.evaluate A.start = .ok (p, result))
    (hres : ∀ omr r omrb rb n k N, A.vRes p omr r omrb rb result n k N =
      foldBlocked omr r omrb rb result n k N)
    (hbad : ∃ b < 2 ^ B.log, ∃ g < 2 ^ (B.blocks 0).bl ((B.blocks 0).depth - 1),
      result (b * 2 ^ (B.blocks 0).bl ((B.blocks 0).depth - 1) + g) ≠
        blockValue B ((B.blocks 0).depth - 1) b g)
    (tables : BetaTables F) :
    (univ.filter (fun ω : BlockCoin B → F =>
      verify B (withBeta B A) tables (blockChallenges B ω) = .ok ())).card * Fintype.card F ≤
      blockSoundnessError B * Fintype.card (BlockCoin B → F) := by
  obtain ⟨row, hrow, g, hg, hne⟩ := hbad
  rw [← sum_degree]
  exact card_union univ (Event B (withBeta B A) ⟨p, fun _ => 0, fun _ => 0⟩ result row tables) id
    (degree B) (fun c _ => event_bound B _ _ result row tables c) _
    (fun ω h => by
      obtain ⟨c, hc⟩ := accept_event hB hA hres hrow ⟨g, hg, sub_ne_zero.2 hne⟩ h
      exact ⟨c, mem_univ _, hc⟩)

end Libra.Blocked
