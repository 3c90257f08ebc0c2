import Verif.Props.ZkRounds
import Verif.Proofs.Counting
import Verif.Proofs.Soundness
import Verif.Spec.ZkRepair

/-!
# The true messages of a layer of the zero-knowledge protocol
-/

namespace Libra.Zk
open Libra Spec Finset FastTrack Props
variable {F : Type} [CommRing F]

/-! ## partial sums -/

theorem splice_advance (r : ℕ → F) (k b x : ℕ) (hx : x < 2) :
    splice r k (r k) (x + 2 * b) = splice r (k + 1) (x : F) b := by
  funext j
  simp only [splice]
  rcases Nat.lt_trichotomy j k with h | h | h
  · rw [if_pos h, if_pos (by omega)]
  · subst h; simp
  · rw [if_neg (by omega), if_neg (by omega), if_neg (by omega)]
    by_cases h2 : j = k + 1
    · subst h2
      rw [if_pos rfl]
      have h1 : (x + 2 * b).testBit (k + 1 - (k + 1)) = decide (x = 1) := by
        rw [Nat.sub_self, Nat.testBit_zero]; congr 1; exact propext ⟨fun _ => by omega, fun _ => by omega⟩
      simp only [corner, h1]
      interval_cases x <;> simp
    · rw [if_neg h2]
      have h1 : (x + 2 * b).testBit (j - (k + 1)) = b.testBit (j - (k + 1 + 1)) := by
        rw [show j - (k + 1) = j - (k + 1 + 1) + 1 by omega, Nat.testBit_succ]
        congr 1; omega
      simp only [corner, h1]

theorem splice_first (r : ℕ → F) (b x : ℕ) (hx : x < 2) :
    corner (x + 2 * b) = splice r 0 (x : F) b := by
  funext j
  simp only [splice]
  rcases Nat.eq_zero_or_pos j with h | h
  · subst h
    rw [if_neg (by omega), if_pos rfl]
    have h1 : (x + 2 * b).testBit 0 = decide (x = 1) := by
      rw [Nat.testBit_zero]; congr 1; exact propext ⟨fun _ => by omega, fun _ => by omega⟩
    simp only [corner, h1]
    interval_cases x <;> simp
  · rw [if_neg (by omega), if_neg (by omega)]
    have h1 : (x + 2 * b).testBit j = b.testBit (j - (0 + 1)) := by
      rw [show j = j - (0 + 1) + 1 by omega, Nat.testBit_succ]
      congr 1; omega
    simp only [corner, h1]

/-- the value of a partial sum at the challenge is the sum of the next one -/
theorem partial_next (f : (ℕ → F) → F) (r : ℕ → F) (m k : ℕ) :
    ∑ b ∈ range (2 ^ (m + 1)), f (splice r k (r k) b) =
      ∑ b ∈ range (2 ^ m), f (splice r (k + 1) 0 b) + ∑ b ∈ range (2 ^ m), f (splice r (k + 1) 1 b) := by
  rw [pow_succ', sum_range_mul_pow, ← sum_add_distrib]
  refine sum_congr rfl (fun b _ => ?_)
  rw [sum_range_succ, sum_range_one, splice_advance r k b 0 (by omega), splice_advance r k b 1 (by omega)]
  simp

theorem partial_first (f : (ℕ → F) → F) (r : ℕ → F) (m : ℕ) :
    ∑ b ∈ range (2 ^ (m + 1)), f (corner b) =
      ∑ b ∈ range (2 ^ m), f (splice r 0 0 b) + ∑ b ∈ range (2 ^ m), f (splice r 0 1 b) := by
  rw [pow_succ', sum_range_mul_pow, ← sum_add_distrib]
  refine sum_congr rfl (fun b _ => ?_)
  rw [sum_range_succ, sum_range_one, splice_first r b 0 (by omega), splice_first r b 1 (by omega)]
  simp

theorem splice_last (r : ℕ → F) {n : ℕ} (hn : 1 ≤ n) (b : ℕ) :
    ∀ j < n, splice r (n - 1) (r (n - 1)) b j = r j := by
  intro j hj
  rw [splice]
  split_ifs with h1 h2
  · rfl
  · rw [h2]
  · omega

theorem splice_congr {r r' : ℕ → F} {k : ℕ} (h : ∀ j < k, r j = r' j) (x : F) (b : ℕ) :
    splice r k x b = splice r' k x b := by
  funext j
  simp only [splice]
  split_ifs with h1 h2
  · exact h j h1
  · rfl
  · rfl

/-! ## the polynomial depends on the coordinates in use only -/

theorem maskedValue_congr {n : ℕ} (hn : 1 ≤ n) (V : ℕ → F) (M : Masks F) {u u' : ℕ → F}
    (h : ∀ j < n, u j = u' j) : maskedValue n V M u = maskedValue n V M u' := by
  rw [maskedValue, maskedValue, mle_congr (fun _ _ => rfl) h, h (n - 1) (by omega),
    prod_congr rfl (fun j hj => by rw [h j (mem_range.1 hj)])]

theorem layerPolyAt_congr (C : Circuit) (i : ℕ) (α β : F) (r0 r1 : ℕ → F) {u u' v v' : ℕ → F}
    (h : ∀ j < C.bl (i - 1), u j = u' j) (h' : ∀ j < C.bl (i - 1), v j = v' j) (a b : F) :
    layerPolyAt C i α β r0 r1 u v a b = layerPolyAt C i α β r0 r1 u' v' a b := by
  have e : eqPoly (C.bl (i - 1)) u = eqPoly (C.bl (i - 1)) u' := funext (fun k => eqPoly_congr_r k h)
  have e' : eqPoly (C.bl (i - 1)) v = eqPoly (C.bl (i - 1)) v' := funext (fun k => eqPoly_congr_r k h')
  rw [layerPolyAt, layerPolyAt, e, e']

theorem maskedPoly_congr {C : Circuit} {i : ℕ} (hn : 1 ≤ C.bl (i - 1)) (α β : F) (r0 r1 V : ℕ → F)
    (M : Masks F) {u u' v v' : ℕ → F}
    (h : ∀ j < C.bl (i - 1), u j = u' j) (h' : ∀ j < C.bl (i - 1), v j = v' j) (c : F) :
    maskedPoly C i α β r0 r1 V M u v c = maskedPoly C i α β r0 r1 V M u' v' c := by
  simp only [maskedPoly]
  rw [maskedValue_congr hn V M h, maskedValue_congr hn V M h', layerPolyAt_congr C i α β r0 r1 h h',
    prod_congr rfl (fun j hj => by rw [h j (mem_range.1 hj)] : ∀ j ∈ range (C.bl (i - 1)), 1 - u j = 1 - u' j),
    prod_congr rfl (fun j hj => by rw [h' j (mem_range.1 hj)] : ∀ j ∈ range (C.bl (i - 1)), 1 - v j = 1 - v' j)]
  congr 2
  refine sumMaskPoly_congr (by omega) (fun _ _ => rfl) (fun j _ => ?_)
  simp only [joinPoint]
  split_ifs with h1 h2
  · exact h j h1
  · exact h' _ (by omega)
  · rfl

theorem relayPolyAt_congr (C : Circuit) {i : ℕ} (α β : F) (r0 r1 : ℕ → F) {u u' : ℕ → F}
    (h : ∀ j < C.bl (i - 1), u j = u' j) (a : F) :
    relayPolyAt C i α β r0 r1 u a = relayPolyAt C i α β r0 r1 u' a := by
  unfold relayPolyAt
  split_ifs with h1
  · subst h1
    have e : eqPoly (C.bl 0) u = eqPoly (C.bl 0) u' := funext (fun k => eqPoly_congr_r k h)
    rw [e]
  · rfl

/-! ## the true messages -/

/-- what is summed over the second operand and the extra variable in phase 1 -/
def inner1 (C : Circuit) (i : ℕ) (α β : F) (r0 r1 : ℕ → F) (M : Masks F) (u : ℕ → F) : F :=
  ∑ y ∈ range (2 ^ C.bl (i - 1)), ∑ c ∈ range 2,
      maskedPoly C i α β r0 r1 (value C (i - 1)) M u (corner y) (c : F) +
    relayPolyAt C i α β r0 r1 u (maskedValue (C.bl (i - 1)) (value C (i - 1)) M u)

/-- the true message of round `k` of phase 1 -/
def T1 (C : Circuit) (i : ℕ) (α β : F) (r0 r1 : ℕ → F) (M : Masks F) (ru : ℕ → F) (k : ℕ) (x : F) : F :=
  ∑ b ∈ range (2 ^ (C.bl (i - 1) - (k + 1))), inner1 C i α β r0 r1 M (splice ru k x b)

def inner2 (C : Circuit) (i : ℕ) (α β : F) (r0 r1 : ℕ → F) (M : Masks F) (ru v : ℕ → F) : F :=
  ∑ c ∈ range 2, maskedPoly C i α β r0 r1 (value C (i - 1)) M ru v (c : F)

/-- the true message of round `k` of phase 2 -/
def T2 (C : Circuit) (i : ℕ) (α β : F) (r0 r1 : ℕ → F) (M : Masks F) (ru rv : ℕ → F) (k : ℕ) (x : F) : F :=
  ∑ b ∈ range (2 ^ (C.bl (i - 1) - (k + 1))), inner2 C i α β r0 r1 M ru (splice rv k x b)

theorem T1_next {C : Circuit} {i : ℕ} (α β : F) (r0 r1 : ℕ → F) (M : Masks F) (ru : ℕ → F) {k : ℕ}
    (hk : k + 1 < C.bl (i - 1)) : T1 C i α β r0 r1 M ru k (ru k) =
      T1 C i α β r0 r1 M ru (k + 1) 0 + T1 C i α β r0 r1 M ru (k + 1) 1 := by
  rw [T1, T1, T1, show C.bl (i - 1) - (k + 1) = C.bl (i - 1) - (k + 1 + 1) + 1 by omega, partial_next]

theorem T2_next {C : Circuit} {i : ℕ} (α β : F) (r0 r1 : ℕ → F) (M : Masks F) (ru rv : ℕ → F) {k : ℕ}
    (hk : k + 1 < C.bl (i - 1)) : T2 C i α β r0 r1 M ru rv k (rv k) =
      T2 C i α β r0 r1 M ru rv (k + 1) 0 + T2 C i α β r0 r1 M ru rv (k + 1) 1 := by
  rw [T2, T2, T2, show C.bl (i - 1) - (k + 1) = C.bl (i - 1) - (k + 1 + 1) + 1 by omega, partial_next]

theorem T1_last {C : Circuit} {i : ℕ} (hn : 1 ≤ C.bl (i - 1)) (α β : F) (r0 r1 : ℕ → F) (M : Masks F)
    (ru rv : ℕ → F) : T1 C i α β r0 r1 M ru (C.bl (i - 1) - 1) (ru (C.bl (i - 1) - 1)) =
      T2 C i α β r0 r1 M ru rv 0 0 + T2 C i α β r0 r1 M ru rv 0 1 +
      relayPolyAt C i α β r0 r1 ru (maskedValue (C.bl (i - 1)) (value C (i - 1)) M ru) := by
  have h := splice_last ru hn 0
  rw [T1, show C.bl (i - 1) - (C.bl (i - 1) - 1 + 1) = 0 by omega, pow_zero, sum_range_one, inner1]
  rw [relayPolyAt_congr C α β r0 r1 h, maskedValue_congr hn _ M h]
  congr 1
  rw [T2, T2, ← partial_first, show C.bl (i - 1) - (0 + 1) + 1 = C.bl (i - 1) by omega]
  refine sum_congr rfl (fun y _ => sum_congr rfl (fun c _ => ?_))
  exact maskedPoly_congr hn α β r0 r1 _ M h (fun _ _ => rfl) _

theorem T2_last {C : Circuit} {i : ℕ} (hn : 1 ≤ C.bl (i - 1)) (α β : F) (r0 r1 : ℕ → F) (M : Masks F)
    (ru rv : ℕ → F) : T2 C i α β r0 r1 M ru rv (C.bl (i - 1) - 1) (rv (C.bl (i - 1) - 1)) =
      maskedPoly C i α β r0 r1 (value C (i - 1)) M ru rv 0 +
      maskedPoly C i α β r0 r1 (value C (i - 1)) M ru rv 1 := by
  have h := splice_last rv hn 0
  rw [T2, show C.bl (i - 1) - (C.bl (i - 1) - 1 + 1) = 0 by omega, pow_zero, sum_range_one, inner2,
    sum_range_succ, sum_range_one]
  rw [maskedPoly_congr hn α β r0 r1 _ M (fun _ _ => rfl) h, maskedPoly_congr hn α β r0 r1 _ M (fun _ _ => rfl) h]
  simp

theorem T1_congr {C : Circuit} {i : ℕ} (α β : F) (r0 r1 : ℕ → F) (M : Masks F) {ru ru' : ℕ → F} {k : ℕ}
    (h : ∀ j < k, ru j = ru' j) : T1 C i α β r0 r1 M ru k = T1 C i α β r0 r1 M ru' k := by
  funext x
  simp only [T1, splice_congr h]

theorem T2_congr {C : Circuit} {i : ℕ} (α β : F) (r0 r1 : ℕ → F) (M : Masks F) (ru : ℕ → F) {rv rv' : ℕ → F}
    {k : ℕ} (h : ∀ j < k, rv j = rv' j) : T2 C i α β r0 r1 M ru rv k = T2 C i α β r0 r1 M ru rv' k := by
  funext x
  simp only [T2, splice_congr h]

/-- `f` is a polynomial function of degree at most 2, or 5 -/
def Deg2 (f : F → F) : Prop := ∃ q : QuadraticPoly F, ∀ x, f x = q.eval x
@[inherit_doc Deg2]
def Deg5 (f : F → F) : Prop := ∃ q : QuintuplePoly F, ∀ x, f x = q.eval x

variable {G1 G2 GT : Type} [AddCommGroup G1] [AddCommGroup G2] [AddCommGroup GT]
  [Module (ZMod p) G1] [Module (ZMod p) G2] [Module (ZMod p) GT] [Gmp F] [LawfulGmp F]

/-- a prover object with given masks -/
def maskedProver (M : Masks F) (V : ℕ → ℕ → F) (im : ℕ → F) : Zk.Prover F G1 G2 :=
  let z : ℕ → F := fun _ => 0
  let n : ℕ → ℕ := fun _ => 0
  let k : VpdKey G1 G2 := ⟨0, 0, fun _ => 0, fun _ => 0, 0, fun _ => 0, fun _ => 0⟩
  ⟨{ zeroProver with circuitValue := V }, z, n, 0, 0, 0, M.R, z, 0, 0, 0, 0, 0, 0, 0, 0, M.Z0, M.Z1, M.x0, M.x1,
    0, 0, 0, ⟨0, 0, 0⟩, ⟨0, 0, 0⟩, ⟨0, 0, 0⟩, n, n, im, k, k, ⟨k, fun _ _ => 0⟩, 0⟩

/-- The mask of the layer below has one of the two forms. -/
def MaskForm (i : ℕ) (M : Masks F) : Prop :=
  ∃ im R' : ℕ → F, ∀ x, M.S x = if i = 1 then im 0 + im 1 * x else maskRPoly R' x 0 + maskRPoly R' x 1

/-- everything about the true messages -/
theorem truth (E : Pairing G1 G2 GT) {C : Circuit} (hwf : WellFormed true C) {i : ℕ}
    (h1 : 1 ≤ i) (hd : i < C.depth) (hn1 : 1 ≤ C.bl (i - 1)) {M : Masks F} (hM : MaskForm i M)
    (α β : F) (r0 r1 ru rv : ℕ → F) :
    (∀ k, k + 1 < C.bl (i - 1) → Deg2 (T1 C i α β r0 r1 M ru k)) ∧
    Deg5 (T1 C i α β r0 r1 M ru (C.bl (i - 1) - 1)) ∧
    T1 C i α β r0 r1 M ru 0 0 + T1 C i α β r0 r1 M ru 0 1 =
      α * (mle (C.bl i) (value C i) r0 + M.Z0 * sr M.R M.x0) +
      β * (mle (C.bl i) (value C i) r1 + M.Z1 * sr M.R M.x1) +
      ∑ b ∈ range (2 ^ (2 * C.bl (i - 1) + 1)), M.rho * sumMaskPoly (2 * C.bl (i - 1) + 1) M.g (corner b) ∧
    (∀ k, k + 1 < C.bl (i - 1) → Deg2 (T2 C i α β r0 r1 M ru rv k)) ∧
    Deg5 (T2 C i α β r0 r1 M ru rv (C.bl (i - 1) - 1)) ∧
    Deg2 (maskedPoly C i α β r0 r1 (value C (i - 1)) M ru rv) := by
  obtain ⟨im, R', hS⟩ := hM
  set P : Zk.Prover F G1 G2 := maskedProver M (valueFn (allValues C C.depth)) im with hP
  let coins : Coins F := ⟨im, 0, fun _ => 0, 0, 0, fun _ => 0,
    fun _ => ⟨R', M.g, 0, fun _ => 0, 0, fun _ _ => 0, 0, fun _ => 0, 0, fun _ => 0⟩⟩
  have hm : masksOf coins P i M.rho = M := by
    cases M
    simp only [masksOf, hP, maskedProver, coins, Masks.mk.injEq, true_and, and_true]
    funext x
    exact (hS x).symm
  have hpos : 0 < p := by decide +kernel
  obtain ⟨Q, Q2, -, hsum, hm1, hst, -, hm2, Q3, -, hfin⟩ := zk_layer E hwf coins h1 hd hn1
    (fun _ _ => hpos) (fun _ _ => hpos) P
    (evaluate_ok (F := F) (var := .zk) (C := C) (by simpa using hwf.toEvaluable)) rfl α β r0 r1 ru rv M.rho
  rw [hm] at hm1 hm2 hfin
  have e1 : ∀ k < C.bl (i - 1), ∀ x, msg1 (C.bl (i - 1)) Q ru k x = T1 C i α β r0 r1 M ru k x := hm1
  have e2 : ∀ k < C.bl (i - 1), ∀ x, msg2 (C.bl (i - 1)) Q2 rv k x = T2 C i α β r0 r1 M ru rv k x := hm2
  refine ⟨fun k hk => ?_, ?_, ?_, fun k hk => ?_, ?_, ⟨_, fun x => (hfin x).symm⟩⟩
  · exact ⟨_, fun x => by rw [← e1 k (by omega), msg1, if_neg (by omega)]⟩
  · exact ⟨_, fun x => by rw [← e1 _ (by omega), msg1, if_pos (by omega)]⟩
  · rw [← e1 0 (by omega), ← e1 0 (by omega), hst, hsum]
    rfl
  · exact ⟨_, fun x => by rw [← e2 k (by omega), msg2, if_neg (by omega)]⟩
  · exact ⟨_, fun x => by rw [← e2 _ (by omega), msg2, if_pos (by omega)]⟩

end Libra.Zk
