import Verif.Model.Cmt
import Verif.Spec.Cmt
import Verif.Proofs.Splice
import Mathlib.Tactic.LinearCombination

/-!
# Rounds of the CMT prover
-/

namespace Libra.Cmt
open Libra Spec Finset FastTrack
variable {F : Type} [CommRing F]

theorem loop_each {α : Type} (f : ℕ → α → α) (T : ℕ → α) :
    ∀ m, ∀ k, loop m (fun j T => Function.update T j (f j (T j))) T k =
      if k < m then f k (T k) else T k := by
  intro m
  induction m with
  | zero => intro k; rw [loop_zero, if_neg (by omega)]
  | succ m ih =>
    intro k
    rw [loop_succ]
    by_cases hk : k = m
    · subst hk; rw [Function.update_self, ih, if_neg (by omega), if_pos (by omega)]
    · rw [Function.update_of_ne hk, ih]
      split_ifs <;> first | rfl | omega

theorem bindV_eq (prev : F) (m : ℕ) (V : ℕ → F) (k : ℕ) :
    bindV prev m V k = if k < m then foldT prev V k else V k := by
  rw [bindV]
  refine Eq.trans ?_ (loop_halve (fun x y => x * (1 - prev) + y * prev) V m k)
  exact congrFun (loop_congr (fun i _ s => by rw [shl_one_or, shl_one])) k

theorem and_one_eq_zero (w bit : ℕ) : (w >>> bit) &&& 1 = 0 ↔ w.testBit bit = false := by
  rw [Nat.testBit, Nat.and_comm]; simp

/-- the factor of one variable of `eqPoly` -/
def bitF (b : Bool) (x : F) : F := if b then x else 1 - x

theorem bindBeta_eq (w : ℕ → ℕ) (prev : F) (bit m : ℕ) (B : ℕ → F) (k : ℕ) :
    bindBeta w prev bit m B k = if k < m then B k * bitF ((w k).testBit bit) prev else B k := by
  rw [bindBeta, ← loop_each (fun k b => b * bitF ((w k).testBit bit) prev) B m k]
  refine congrFun (loop_congr (fun i _ s => ?_)) k
  simp only [and_one_eq_zero, bitF]
  cases (w i).testBit bit <;> simp

/-! ## the contribution of a gate -/

/-- the operation of a gate of type `ty` -/
def opOf (ty : ℤ) (a o : F) : F := if ty = 0 then a + o else if ty = 1 then a * o else 0

/-- contribution of a gate to the message at `x` -/
def gateAt (bit : ℕ) (ty : ℤ) (w : ℕ) (V : ℕ → F) (o β x : F) : F :=
  β * bitF (w.testBit bit) x * opOf ty (foldT x V (w >>> (bit + 1))) o

/-- sums of the entries of both arrays -/
def sumC (m : ℕ) (T : Lins F) : F := ∑ i ∈ range m, ((T.add i).c + (T.mult i).c)
def sumB (m : ℕ) (T : Lins F) : F := ∑ i ∈ range m, ((T.add i).b + (T.mult i).b)
def sumA (m : ℕ) (T : Lins F) : F := ∑ i ∈ range m, ((T.add i).a + (T.mult i).a)

theorem sum_update (m t : ℕ) (ht : t < m) (f : ℕ → F) (x : F) :
    ∑ i ∈ range m, (Function.update f t x) i = ∑ i ∈ range m, f i + (x - f t) := by
  rw [sum_update_of_mem (mem_range.2 ht), ← sum_sdiff (s₁ := {t}) (s₂ := range m)
    (by simpa using ht), sum_singleton]
  ring

theorem sums_add {m t : ℕ} (ht : t < m) (T : Lins F) (q : QuadraticPoly F) :
    sumC m { T with add := Function.update T.add t q } = sumC m T + (q.c - (T.add t).c) ∧
    sumB m { T with add := Function.update T.add t q } = sumB m T + (q.b - (T.add t).b) ∧
    sumA m { T with add := Function.update T.add t q } = sumA m T + (q.a - (T.add t).a) := by
  have key (f : QuadraticPoly F → F) :
      ∑ i ∈ range m, f (Function.update T.add t q i) =
        ∑ i ∈ range m, f (T.add i) + (f q - f (T.add t)) := by
    rw [← sum_update m t ht (fun i => f (T.add i)) (f q)]
    refine sum_congr rfl (fun i _ => ?_)
    by_cases h : i = t
    · subst h; simp
    · simp [Function.update_of_ne h]
  simp only [sumC, sumB, sumA, sum_add_distrib]
  refine ⟨?_, ?_, ?_⟩
  · rw [key (·.c)]; ring
  · rw [key (·.b)]; ring
  · rw [key (·.a)]; ring

theorem sums_mult {m t : ℕ} (ht : t < m) (T : Lins F) (q : QuadraticPoly F) :
    sumC m { T with mult := Function.update T.mult t q } = sumC m T + (q.c - (T.mult t).c) ∧
    sumB m { T with mult := Function.update T.mult t q } = sumB m T + (q.b - (T.mult t).b) ∧
    sumA m { T with mult := Function.update T.mult t q } = sumA m T + (q.a - (T.mult t).a) := by
  have key (f : QuadraticPoly F → F) :
      ∑ i ∈ range m, f (Function.update T.mult t q i) =
        ∑ i ∈ range m, f (T.mult i) + (f q - f (T.mult t)) := by
    rw [← sum_update m t ht (fun i => f (T.mult i)) (f q)]
    refine sum_congr rfl (fun i _ => ?_)
    by_cases h : i = t
    · subst h; simp
    · simp [Function.update_of_ne h]
  simp only [sumC, sumB, sumA, sum_add_distrib]
  refine ⟨?_, ?_, ?_⟩
  · rw [key (·.c)]; ring
  · rw [key (·.b)]; ring
  · rw [key (·.a)]; ring

theorem xor_one_even (t : ℕ) : (2 * t) ^^^ 1 = 2 * t + 1 := by
  apply Nat.eq_of_testBit_eq
  intro i
  cases i with
  | zero => simp
  | succ i => simp [Nat.testBit_succ]

theorem xor_one_odd (t : ℕ) : (2 * t + 1) ^^^ 1 = 2 * t := by
  rw [← xor_one_even, Nat.xor_assoc, Nat.xor_self, Nat.xor_zero]

theorem shift_even {w bit : ℕ} (h : w.testBit bit = false) :
    w >>> bit = 2 * (w >>> (bit + 1)) := by
  rw [Nat.testBit_eq_decide_div_mod_eq, decide_eq_false_iff_not] at h
  rw [Nat.shiftRight_eq_div_pow, Nat.shiftRight_eq_div_pow, pow_succ, ← Nat.div_div_eq_div_mul]
  omega

theorem shift_odd {w bit : ℕ} (h : w.testBit bit = true) :
    w >>> bit = 2 * (w >>> (bit + 1)) + 1 := by
  rw [Nat.testBit_eq_decide_div_mod_eq, decide_eq_true_iff] at h
  rw [Nat.shiftRight_eq_div_pow, Nat.shiftRight_eq_div_pow, pow_succ, ← Nat.div_div_eq_div_mul]
  omega

theorem gateMsg_ok {bit : ℕ} {ty : ℤ} {w m : ℕ} (V : ℕ → F) (o β : F) (T : Lins F)
    (hty : ty = 0 ∨ ty = 1 ∨ ty = 2) (hw : ty ≠ 2 → w >>> (bit + 1) < m) :
    ∃ T', gateMsg bit ty w V o β T = .ok T' ∧
      sumC m T' = sumC m T + gateAt bit ty w V o β 0 ∧
      sumB m T' = sumB m T + gateAt bit ty w V o β 1 ∧
      sumA m T' = sumA m T + gateAt bit ty w V o β 2 := by
  unfold gateMsg gateAt opOf
  simp only [and_one_eq_zero]
  cases hb : w.testBit bit with
  | false =>
    rw [shift_even hb]
    generalize w >>> (bit + 1) = t at hw ⊢
    rw [xor_one_even]
    rcases hty with rfl | rfl | rfl
    · have hw := hw (by decide)
      refine ⟨_, by simp only [if_true]; rfl, ?_⟩
      obtain ⟨h1, h2, h3⟩ := sums_add hw T { T.add t with
        c := (T.add t).c + β * (V (2 * t) + o), a := (T.add t).a + (0 - β) * (o - V (2 * t) + 2 * V (2 * t + 1)) }
      refine ⟨h1.trans ?_, h2.trans ?_, h3.trans ?_⟩ <;> simp [bitF, foldT] <;> ring
    · have hw := hw (by decide)
      refine ⟨_, by rw [if_neg (by decide), if_pos rfl]; simp only [if_true, Bool.true_eq_false, if_false]; rfl, ?_⟩
      obtain ⟨h1, h2, h3⟩ := sums_mult hw T { T.mult t with
        c := (T.mult t).c + β * (V (2 * t) * o),
        a := (T.mult t).a + (0 - β) * o * (V (2 * t + 1) + V (2 * t + 1) - V (2 * t)) }
      refine ⟨h1.trans ?_, h2.trans ?_, h3.trans ?_⟩ <;> simp [bitF, foldT] <;> ring
    · refine ⟨_, by norm_num; rfl, ?_, ?_, ?_⟩ <;> simp
  | true =>
    rw [shift_odd hb]
    generalize w >>> (bit + 1) = t at hw ⊢
    rw [xor_one_odd]
    rcases hty with rfl | rfl | rfl
    · have hw := hw (by decide)
      refine ⟨_, by simp only [if_true]; rfl, ?_⟩
      obtain ⟨h1, h2, h3⟩ := sums_add hw T { T.add t with
        b := (T.add t).b + β * (V (2 * t + 1) + o),
        a := (T.add t).a + (β + β) * (o + V (2 * t + 1) + V (2 * t + 1) - V (2 * t)) }
      refine ⟨h1.trans ?_, h2.trans ?_, h3.trans ?_⟩ <;> simp [bitF, foldT] <;> ring
    · have hw := hw (by decide)
      refine ⟨_, by rw [if_neg (by decide), if_pos rfl]; simp only [if_true, Bool.true_eq_false, if_false]; rfl, ?_⟩
      obtain ⟨h1, h2, h3⟩ := sums_mult hw T { T.mult t with
        b := (T.mult t).b + β * V (2 * t + 1) * o,
        a := (T.mult t).a + (β + β) * o * (V (2 * t + 1) + V (2 * t + 1) - V (2 * t)) }
      refine ⟨h1.trans ?_, h2.trans ?_, h3.trans ?_⟩ <;> simp [bitF, foldT] <;> ring
    · refine ⟨_, by norm_num; rfl, ?_, ?_, ?_⟩ <;> simp

/-! ## one update -/

/-- the final loop -/
theorem final_loop (m : ℕ) (T : Lins F) :
    (loop m (fun i (s : Lins F × QuadraticPoly F) =>
      let add := Function.update s.1.add i (interp (s.1.add i))
      let mult := Function.update s.1.mult i (interp (s.1.mult i))
      (⟨add, mult⟩, (s.2.add (add i)).add (mult i))) (T, ⟨0, 0, 0⟩)).2 =
      interp ⟨sumA m T, sumB m T, sumC m T⟩ := by
  have key := loop_inv (n := m) (b := fun i (s : Lins F × QuadraticPoly F) =>
      let add := Function.update s.1.add i (interp (s.1.add i))
      let mult := Function.update s.1.mult i (interp (s.1.mult i))
      (⟨add, mult⟩, (s.2.add (add i)).add (mult i))) (s := (T, ⟨0, 0, 0⟩))
    (fun k s => s.2 = interp ⟨sumA k T, sumB k T, sumC k T⟩ ∧
      ∀ j ≥ k, s.1.add j = T.add j ∧ s.1.mult j = T.mult j)
    ⟨by simp [interp, sumA, sumB, sumC], fun j _ => ⟨rfl, rfl⟩⟩ (by
      rintro i _ s ⟨h1, h2⟩
      refine ⟨?_, fun j hj => ?_⟩
      · dsimp only
        rw [Function.update_self, Function.update_self, h1, (h2 i le_rfl).1, (h2 i le_rfl).2]
        simp only [interp, QuadraticPoly.add, sumA, sumB, sumC, sum_range_succ]
        ext <;> dsimp only <;> ring
      · dsimp only
        rw [Function.update_of_ne (by omega), Function.update_of_ne (by omega)]
        exact h2 j (by omega))
  exact key.1

/-- values at 0, 1, 2 determine a quadratic -/
theorem interp_eval (h2 : (2 : F) * inv2 = 1) (q : QuadraticPoly F) (x : F) :
    (interp q).eval x = q.c * ((1 - x) * (2 - x) * inv2) + q.b * (x * (2 - x)) +
      q.a * (x * (x - 1) * inv2) := by
  simp only [interp, QuadraticPoly.eval]
  linear_combination (q.c * (-x ^ 2 + 2 * x - 1)) * h2

theorem gateAt_quadratic (bit : ℕ) (ty : ℤ) (w : ℕ) (V : ℕ → F) (o β : F) :
    ∃ g0 g1 g2 : F, ∀ x, gateAt bit ty w V o β x = g0 + g1 * x + g2 * x ^ 2 := by
  unfold gateAt opOf foldT bitF
  generalize V (2 * w >>> (bit + 1)) = a
  generalize V (2 * w >>> (bit + 1) + 1) = b
  cases w.testBit bit <;> by_cases h0 : ty = 0 <;> by_cases h1 : ty = 1 <;>
    simp only [h0, h1, if_true, if_false, Bool.false_eq_true]
  · exact ⟨β * (a + o), β * (b - a) - β * (a + o), -(β * (b - a)), fun x => by ring⟩
  · exact ⟨β * (a + o), β * (b - a) - β * (a + o), -(β * (b - a)), fun x => by ring⟩
  · exact ⟨β * (a * o), β * (b - a) * o - β * (a * o), -(β * (b - a) * o), fun x => by norm_num; ring⟩
  · exact ⟨0, 0, 0, fun x => by ring⟩
  · exact ⟨0, β * (a + o), β * (b - a), fun x => by ring⟩
  · exact ⟨0, β * (a + o), β * (b - a), fun x => by ring⟩
  · exact ⟨0, β * (a * o), β * (b - a) * o, fun x => by norm_num; ring⟩
  · exact ⟨0, 0, 0, fun x => by ring⟩

theorem gateAt_interp (h2 : (2 : F) * inv2 = 1) (bit : ℕ) (ty : ℤ) (w : ℕ) (V : ℕ → F) (o β x : F) :
    gateAt bit ty w V o β 0 * ((1 - x) * (2 - x) * inv2) + gateAt bit ty w V o β 1 * (x * (2 - x)) +
      gateAt bit ty w V o β 2 * (x * (x - 1) * inv2) = gateAt bit ty w V o β x := by
  obtain ⟨g0, g1, g2, h⟩ := gateAt_quadratic bit ty w V o β
  rw [h 0, h 1, h 2, h x]
  linear_combination (g0 * (1 - 2 * x + x ^ 2) + g1 * (x ^ 2 - x) + 2 * g2 * (x ^ 2 - x)) * h2

theorem sums_zero (m : ℕ) (T : Lins F) :
    let T' := loop m (fun i (T : Lins F) =>
      ⟨Function.update T.add i ⟨0, 0, 0⟩, Function.update T.mult i ⟨0, 0, 0⟩⟩) T
    sumC m T' = 0 ∧ sumB m T' = 0 ∧ sumA m T' = 0 := by
  intro T'
  have h1 : T'.add = loop m (fun i A => Function.update A i ⟨0, 0, 0⟩) T.add :=
    loop_map (fun T : Lins F => T.add) (fun _ _ _ => rfl)
  have h2 : T'.mult = loop m (fun i A => Function.update A i ⟨0, 0, 0⟩) T.mult :=
    loop_map (fun T : Lins F => T.mult) (fun _ _ _ => rfl)
  refine ⟨sum_eq_zero fun i hi => ?_, sum_eq_zero fun i hi => ?_, sum_eq_zero fun i hi => ?_⟩ <;>
  · rw [h1, h2, loop_write (fun _ => (⟨0, 0, 0⟩ : QuadraticPoly F)),
      loop_write (fun _ => (⟨0, 0, 0⟩ : QuadraticPoly F)), if_pos (mem_range.1 hi),
      if_pos (mem_range.1 hi)]
    simp

/-- One update: the arrays are bound to the previous challenge, and the message takes the value of
the sum of the contributions of the gates at every point. -/
theorem update_ok (h2 : (2 : F) * inv2 = 1) {ty : ℕ → ℤ} {w : ℕ → ℕ} {o : ℕ → F} {N n : ℕ}
    (hty : ∀ g < N, ty g = 0 ∨ ty g = 1 ∨ ty g = 2) (hw : ∀ g < N, ty g ≠ 2 → w g < 2 ^ n) (K : Core F)
    (prev : F) {bit : ℕ} (hbit : bit < n) :
    ∃ K' msg, K.update ty w o N (2 ^ n) prev bit = .ok (K', msg) ∧
      K'.V = (if bit = 0 then K.V else bindV prev (2 ^ (n - bit)) K.V) ∧
      K'.bgs = (if bit = 0 then K.bgs else bindBeta w prev (bit - 1) N K.bgs) ∧
      ∀ x, msg.eval x = ∑ g ∈ range N, gateAt bit (ty g) (w g) K'.V (o g) (K'.bgs g) x := by
  have hsh : ∀ b ≤ n, (2 ^ n) >>> b = 2 ^ (n - b) := fun b hb => by
    rw [Nat.shiftRight_eq_div_pow, Nat.pow_div hb (by norm_num)]
  rw [Core.update]
  simp only [hsh bit hbit.le, hsh (bit + 1) hbit]
  generalize hV : (if bit = 0 then K.V else bindV prev (2 ^ (n - bit)) K.V : ℕ → F) = V
  generalize hB : (if bit = 0 then K.bgs else bindBeta w prev (bit - 1) N K.bgs : ℕ → F) = B
  set m := 2 ^ (n - (bit + 1)) with hm
  obtain ⟨z1, z2, z3⟩ := sums_zero m K.lins
  set L0 := loop m (fun i (T : Lins F) =>
      ⟨Function.update T.add i ⟨0, 0, 0⟩, Function.update T.mult i ⟨0, 0, 0⟩⟩) K.lins with hL0
  obtain ⟨L, hL, s1, s2, s3⟩ := loopM_ok (n := N)
    (b := fun i T => gateMsg bit (ty i) (w i) V (o i) (B i) T) (s := L0)
    (fun k T => sumC m T = ∑ g ∈ range k, gateAt bit (ty g) (w g) V (o g) (B g) 0 ∧
      sumB m T = ∑ g ∈ range k, gateAt bit (ty g) (w g) V (o g) (B g) 1 ∧
      sumA m T = ∑ g ∈ range k, gateAt bit (ty g) (w g) V (o g) (B g) 2)
    (by simp [z1, z2, z3]) (by
      rintro g hg T ⟨t1, t2, t3⟩
      have : ty g ≠ 2 → w g >>> (bit + 1) < m := fun h => by
        rw [Nat.shiftRight_eq_div_pow, Nat.div_lt_iff_lt_mul (by positivity), hm, ← pow_add,
          show n - (bit + 1) + (bit + 1) = n by omega]
        exact hw g hg h
      obtain ⟨T', e, a1, a2, a3⟩ := gateMsg_ok V (o g) (B g) T (hty g hg) this
      exact ⟨T', e, by rw [a1, t1, sum_range_succ], by rw [a2, t2, sum_range_succ],
        by rw [a3, t3, sum_range_succ]⟩)
  rw [hL, Outcome.ok_bind]
  refine ⟨_, _, rfl, rfl, rfl, fun x => ?_⟩
  rw [final_loop, interp_eval h2, s1, s2, s3]
  dsimp only
  rw [sum_mul, sum_mul, sum_mul, ← sum_add_distrib, ← sum_add_distrib]
  exact sum_congr rfl (fun g _ => gateAt_interp h2 _ _ _ _ _ _ _)

/-! ## the tables behind a round -/

/-- the table with `c g * f g` added at position `w g` -/
def tab (N : ℕ) (c : ℕ → F) (w : ℕ → ℕ) (f : ℕ → F) (x : ℕ) : F :=
  ∑ g ∈ range N, if w g = x then c g * f g else 0

theorem sum_tab {n N : ℕ} {w : ℕ → ℕ} (c e : ℕ → F) {f : ℕ → F}
    (hw : ∀ g < N, w g < 2 ^ n ∨ f g = 0) :
    ∑ x ∈ range (2 ^ n), e x * tab N c w f x = ∑ g ∈ range N, c g * f g * e (w g) := by
  simp only [tab, mul_sum]
  rw [sum_comm]
  refine sum_congr rfl (fun g hg => ?_)
  rw [sum_eq_single (w g)]
  · rw [if_pos rfl]; ring
  · intro x _ hx; rw [if_neg (Ne.symm hx), mul_zero]
  · intro h
    rcases hw g (mem_range.1 hg) with h' | h'
    · exact absurd (mem_range.2 h') h
    · rw [if_pos rfl, h']; ring

/-- coefficient of the bound operand, and constant, of a gate -/
def lin (ty : ℤ) (o : F) : F := if ty = 0 then 1 else if ty = 1 then o else 0
def con (ty : ℤ) (o : F) : F := if ty = 0 then o else 0

theorem opOf_eq (ty : ℤ) (a o : F) : opOf ty a o = lin ty o * a + con ty o := by
  unfold opOf lin con
  split_ifs <;> ring

def tabA (N : ℕ) (ty : ℕ → ℤ) (c : ℕ → F) (w : ℕ → ℕ) (o : ℕ → F) : ℕ → F :=
  tab N c w (fun g => lin (ty g) (o g))
def tabB (N : ℕ) (ty : ℕ → ℤ) (c : ℕ → F) (w : ℕ → ℕ) (o : ℕ → F) : ℕ → F :=
  tab N c w (fun g => con (ty g) (o g))

theorem wire_or {n N : ℕ} {ty : ℕ → ℤ} {w : ℕ → ℕ} (hw : ∀ g < N, ty g ≠ 2 → w g < 2 ^ n)
    (o : ℕ → F) : (∀ g < N, w g < 2 ^ n ∨ lin (ty g) (o g) = 0) ∧
      ∀ g < N, w g < 2 ^ n ∨ con (ty g) (o g) = 0 := by
  constructor <;> intro g hg <;> by_cases h : ty g = 2
  · right; simp [lin, h]
  · exact .inl (hw g hg h)
  · right; simp [con, h]
  · exact .inl (hw g hg h)

theorem tab_claim {n N : ℕ} {ty : ℕ → ℤ} {w : ℕ → ℕ} (hw : ∀ g < N, ty g ≠ 2 → w g < 2 ^ n) (c o V : ℕ → F) :
    ∑ x ∈ range (2 ^ n), (tabA N ty c w o x * V x + tabB N ty c w o x) =
      ∑ g ∈ range N, c g * opOf (ty g) (V (w g)) (o g) := by
  have h1 := sum_tab c V (wire_or hw o).1
  have h2 := sum_tab c (fun _ => 1) (wire_or hw o).2
  rw [sum_add_distrib]
  calc _ = ∑ x ∈ range (2 ^ n), V x * tab N c w (fun g => lin (ty g) (o g)) x +
        ∑ x ∈ range (2 ^ n), 1 * tab N c w (fun g => con (ty g) (o g)) x := by
        congr 1 <;> exact sum_congr rfl (fun x _ => by simp only [tabA, tabB]; ring)
    _ = _ := by
        rw [h1, h2, ← sum_add_distrib]
        exact sum_congr rfl (fun g _ => by rw [opOf_eq]; ring)

theorem tab_last {n N : ℕ} {ty : ℕ → ℤ} {w : ℕ → ℕ} (hw : ∀ g < N, ty g ≠ 2 → w g < 2 ^ n) (c o r : ℕ → F)
    (a : F) :
    mle n (tabA N ty c w o) r * a + mle n (tabB N ty c w o) r =
      ∑ g ∈ range N, c g * eqPoly n r (w g) * opOf (ty g) a (o g) := by
  rw [mle, mle, tabA, tabB, sum_tab _ _ (wire_or hw o).1, sum_tab _ _ (wire_or hw o).2, sum_mul, ← sum_add_distrib]
  exact sum_congr rfl (fun g _ => by rw [opOf_eq]; ring)

/-- `eqPoly` at a spliced point -/
theorem eqPoly_splice {n k : ℕ} (hk : k < n) (r : ℕ → F) (x : F) {b w : ℕ} (hb : b < 2 ^ (n - (k + 1)))
    (hw : w < 2 ^ n) :
    eqPoly n (splice r k x b) w =
      if w >>> (k + 1) = b then eqPoly k r w * bitF (w.testBit k) x else 0 := by
  obtain ⟨m, rfl⟩ : ∃ m, n = (k + 1) + m := ⟨n - (k + 1), by omega⟩
  rw [Nat.add_sub_cancel_left] at hb
  rw [eqPoly_split, eqPoly_mod, eqPoly_succ]
  have hlt : w / 2 ^ (k + 1) < 2 ^ m := by
    rw [Nat.div_lt_iff_lt_mul (by positivity), ← pow_add, Nat.add_comm]; exact hw
  have h1 : eqPoly m (fun j => splice r k x b (k + 1 + j)) (w / 2 ^ (k + 1)) =
      if w / 2 ^ (k + 1) = b then 1 else 0 := by
    rw [← eqPoly_corner m _ b hlt hb]
    exact eqPoly_congr_r _ (fun j _ => by
      simp only [splice]
      rw [if_neg (by omega), if_neg (by omega), Nat.add_sub_cancel_left])
  have h2 : eqPoly k (splice r k x b) w = eqPoly k r w :=
    eqPoly_congr_r _ (fun j hj => by rw [splice, if_pos hj])
  have h3 : splice r k x b k = x := by simp [splice]
  rw [h1, h2, h3, Nat.shiftRight_eq_div_pow]
  unfold bitF
  split_ifs <;> ring

/-- the sum over the gates is the sum-check polynomial of the tables -/
theorem sum_gateAt {n N k : ℕ} {ty : ℕ → ℤ} {w : ℕ → ℕ} (hk : k < n) (hw : ∀ g < N, ty g ≠ 2 → w g < 2 ^ n)
    (c o V r : ℕ → F) (x : F) :
    ∑ g ∈ range N, gateAt k (ty g) (w g) (foldK r k V) (o g) (c g * eqPoly k r (w g)) x =
      polyAt n r (tabA N ty c w o) V (tabB N ty c w o) k x := by
  rw [polyAt_splice hk]
  have : ∀ b ∈ range (2 ^ (n - (k + 1))),
      mle n (tabA N ty c w o) (splice r k x b) * mle n V (splice r k x b) +
        mle n (tabB N ty c w o) (splice r k x b) =
      ∑ g ∈ range N, if w g >>> (k + 1) = b then
        gateAt k (ty g) (w g) (foldK r k V) (o g) (c g * eqPoly k r (w g)) x else 0 := by
    intro b hb
    have hb := mem_range.1 hb
    rw [tab_last hw, ← fold_splice hk r x V b hb]
    refine sum_congr rfl (fun g hg => ?_)
    by_cases h2 : ty g = 2
    · simp [gateAt, opOf, h2]
    rw [eqPoly_splice hk r x hb (hw g (mem_range.1 hg) h2), gateAt]
    by_cases h : w g >>> (k + 1) = b
    · rw [if_pos h, if_pos h, h]; ring
    · rw [if_neg h, if_neg h]; ring
  rw [sum_congr rfl this, sum_comm]
  refine sum_congr rfl (fun g hg => ?_)
  by_cases h2 : ty g = 2
  · simp [gateAt, opOf, h2]
  have : w g >>> (k + 1) < 2 ^ (n - (k + 1)) := by
    rw [Nat.shiftRight_eq_div_pow, Nat.div_lt_iff_lt_mul (by positivity), ← pow_add,
      show n - (k + 1) + (k + 1) = n by omega]
    exact hw g (mem_range.1 hg) h2
  rw [sum_ite_eq (range _), if_pos (mem_range.2 this)]

/-! ## the invariant of a phase -/

/-- The arrays after the challenges `r_0 .. r_{k-1}` have been bound. -/
structure HoldsAt (n N : ℕ) (w : ℕ → ℕ) (c V r : ℕ → F) (k : ℕ) (K : Core F) : Prop where
  V : ∀ i < 2 ^ (n - k), K.V i = foldK r k V i
  bgs : ∀ g < N, K.bgs g = c g * eqPoly k r (w g)

theorem gateAt_congr {bit : ℕ} {ty : ℤ} {w m : ℕ} {V V' : ℕ → F} (hw : w >>> (bit + 1) < m)
    (h : ∀ i < 2 * m, V i = V' i) (o β x : F) :
    gateAt bit ty w V o β x = gateAt bit ty w V' o β x := by
  unfold gateAt foldT
  rw [h _ (by omega), h _ (by omega)]

/-- round `k` -/
theorem holds_update (h2 : (2 : F) * inv2 = 1) {ty : ℕ → ℤ} {w : ℕ → ℕ} {c o V r : ℕ → F} {N n : ℕ}
    (hty : ∀ g < N, ty g = 0 ∨ ty g = 1 ∨ ty g = 2) (hw : ∀ g < N, ty g ≠ 2 → w g < 2 ^ n) {K : Core F}
    {k : ℕ} (hk : k < n) (hK : HoldsAt n N w c V r (k - 1) K) :
    ∃ K' msg, K.update ty w o N (2 ^ n) (prevOf r k) k = .ok (K', msg) ∧
      HoldsAt n N w c V r k K' ∧
      ∀ x, msg.eval x = polyAt n r (tabA N ty c w o) V (tabB N ty c w o) k x := by
  obtain ⟨K', msg, e, hV, hB, hm⟩ := update_ok h2 (o := o) hty hw K (prevOf r k) hk
  have hold : HoldsAt n N w c V r k K' := by
    rcases k with _ | k
    · rw [if_pos rfl] at hV hB
      exact ⟨fun i hi => by rw [hV]; exact hK.V i hi, fun g hg => by rw [hB]; exact hK.bgs g hg⟩
    · rw [if_neg (by omega)] at hV hB
      simp only [Nat.add_sub_cancel] at hK hB
      have hp : prevOf r (k + 1) = r k := by simp [prevOf]
      rw [hp] at hV hB
      have hpow := pow_sub_succ (show k < n by omega)
      refine ⟨fun i hi => ?_, fun g hg => ?_⟩
      · rw [hV, bindV_eq, if_pos hi, foldK, foldT, foldT, hK.V _ (by omega), hK.V _ (by omega)]
      · rw [hB, bindBeta_eq, if_pos hg, hK.bgs g hg, eqPoly_succ, bitF, mul_assoc]
  refine ⟨K', msg, e, hold, fun x => ?_⟩
  rw [hm, ← sum_gateAt hk hw]
  refine sum_congr rfl (fun g hg => ?_)
  rw [hold.bgs g (mem_range.1 hg)]
  by_cases h2 : ty g = 2
  · simp [gateAt, opOf, h2]
  refine gateAt_congr (m := 2 ^ (n - (k + 1))) ?_ ?_ _ _ _
  · rw [Nat.shiftRight_eq_div_pow, Nat.div_lt_iff_lt_mul (by positivity), ← pow_add,
      show n - (k + 1) + (k + 1) = n by omega]
    exact hw g (mem_range.1 hg) h2
  · intro i hi
    rw [← pow_sub_succ hk] at hi
    exact hold.V i hi

/-- the last challenge of a phase -/
theorem holds_last {w : ℕ → ℕ} {c V r : ℕ → F} {N n : ℕ} (hn : 1 ≤ n) {K : Core F}
    (hK : HoldsAt n N w c V r (n - 1) K) :
    K.V 0 * (1 - prevOf r n) + K.V 1 * prevOf r n = mle n V r := by
  obtain ⟨n, rfl⟩ : ∃ k, n = k + 1 := ⟨n - 1, by omega⟩
  simp only [Nat.add_sub_cancel] at hK
  have hp : prevOf r (n + 1) = r n := by simp [prevOf]
  rw [hp, ← foldK_mle, foldK, foldT, hK.V 0 (by simp), hK.V 1 (by simp)]

/-! ## the rounds with the verifier -/

variable [DecidableEq F]

/-- `j` rounds with an honest prover -/
theorem rounds (h2 : (2 : F) * inv2 = 1) {ty : ℕ → ℤ} {w : ℕ → ℕ} {c o V r : ℕ → F} {N n : ℕ}
    (hty : ∀ g < N, ty g = 0 ∨ ty g = 1 ∨ ty g = 2) (hw : ∀ g < N, ty g ≠ 2 → w g < 2 ^ n) {P : Prover F}
    (upd : Prover F → F → ℕ → Outcome (Prover F × QuadraticPoly F))
    (hupd : ∀ K prev bit, upd { P with core := K } prev bit =
      (K.update ty w o N (2 ^ n) prev bit >>= fun s => .ok ({ P with core := s.1 }, s.2)))
    (hP : HoldsAt n N w c V r 0 P.core) : ∀ j ≤ n,
    ∃ K, loopM j (round upd r) (P, claimAt n r (tabA N ty c w o) V (tabB N ty c w o) 0, 0) =
      .ok ({ P with core := K }, claimAt n r (tabA N ty c w o) V (tabB N ty c w o) j, prevOf r j) ∧
      HoldsAt n N w c V r (j - 1) K := by
  intro j
  induction j with
  | zero => intro _; exact ⟨P.core, rfl, hP⟩
  | succ j ih =>
    intro hj
    obtain ⟨K, e, hK⟩ := ih (by omega)
    obtain ⟨K', msg, e', hK', hm⟩ := holds_update h2 (o := o) hty hw (show j < n by omega) hK
    refine ⟨K', ?_, by simpa using hK'⟩
    rw [loopM_succ, e, Outcome.bind_ok, round]
    dsimp only
    rw [hupd, e', Outcome.ok_bind, Outcome.ok_bind]
    dsimp only
    rw [hm, hm, hm, polyAt_sum (by omega), beq_self_eq_true, Outcome.check_true, Outcome.ok_bind,
      polyAt_next]
    simp [prevOf]

end Libra.Cmt
