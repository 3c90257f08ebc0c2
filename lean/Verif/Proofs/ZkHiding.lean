import Verif.Proofs.ZkMasked

/-!
# The mask coefficients and the round messages determine each other
-/

namespace Libra.Zk
open Spec Finset

section ring
variable {F : Type} [CommRing F]

theorem inv120 (hp : ((p : ℕ) : F) = 0) : ∃ c : F, 120 * c = 1 := by
  have h : ∃ u v : ℕ, 120 * u = 1 + p * v := by
    have hc : Nat.Coprime 120 p := by decide +kernel
    obtain ⟨u, hu⟩ := Nat.exists_mul_mod_eq_one_of_coprime hc (by decide +kernel)
    refine ⟨u, 120 * u / p, ?_⟩
    have := Nat.div_add_mod (120 * u) p
    rw [hu.2] at this
    omega
  obtain ⟨u, v, h⟩ := h
  refine ⟨(u : F), ?_⟩
  have := congrArg (fun n : ℕ => (n : F)) h
  simp only [Nat.cast_mul, Nat.cast_add, hp, zero_mul, add_zero, Nat.cast_one] at this
  exact_mod_cast this

/-- a polynomial of degree at most 5 that vanishes everywhere is zero -/
theorem quint_zero (hp : ((p : ℕ) : F) = 0) (q : QuintuplePoly F) (h : ∀ x, q.eval x = 0) :
    q = ⟨0, 0, 0, 0, 0, 0⟩ := by
  obtain ⟨w, hw⟩ := inv120 hp
  obtain ⟨a, b, c, d, e, f⟩ := q
  simp only [QuintuplePoly.eval] at h
  have h0 := h 0
  have h1 := h 1
  have h2 := h (-1)
  have h3 := h 2
  have h4 := h (-2)
  have h5 := h 3
  have hf : f = 0 := by linear_combination h0
  subst hf
  have hb : b = 0 := by
    have : 24 * b = 0 := by linear_combination h3 + h4 - 4 * h1 - 4 * h2
    linear_combination 5 * w * this - b * hw
  subst hb
  have hd : d = 0 := by
    have : 2 * d = 0 := by linear_combination h1 + h2
    linear_combination 60 * w * this - d * hw
  subst hd
  have ha : a = 0 := by
    have : 120 * a = 0 := by linear_combination h5 - 4 * h3 + 5 * h1
    linear_combination w * this - a * hw
  subst ha
  have hc : c = 0 := by
    have : 6 * c = 0 := by linear_combination h3 - 2 * h1
    linear_combination 20 * w * this - c * hw
  subst hc
  have he : e = 0 := by linear_combination h1
  subst he
  rfl

theorem quint_ext (hp : ((p : ℕ) : F) = 0) {q q' : QuintuplePoly F} (h : ∀ x, q.eval x = q'.eval x) :
    q = q' := by
  have := quint_zero hp ⟨q.a - q'.a, q.b - q'.b, q.c - q'.c, q.d - q'.d, q.e - q'.e, q.f - q'.f⟩
    (fun x => by have := h x; simp only [QuintuplePoly.eval] at this ⊢; linear_combination this)
  simp only [QuintuplePoly.mk.injEq, sub_eq_zero] at this
  exact QuintuplePoly.ext this.1 this.2.1 this.2.2.1 this.2.2.2.1 this.2.2.2.2.1 this.2.2.2.2.2

/-- sums over the last variables of the hypercube -/
def sp (r : ℕ → F) (k b : ℕ) : ℕ → F := fun j => if j < k then r j else corner b (j - k)

theorem sp_zero (r : ℕ → F) (b : ℕ) : sp r 0 b = corner b := by
  funext j; simp [sp]

theorem splice_bit (r : ℕ → F) (k b : ℕ) :
    splice r k 0 b = sp r k (2 * b) ∧ splice r k 1 b = sp r k (2 * b + 1) := by
  constructor <;>
  · funext j
    simp only [splice, sp]
    split_ifs with h1 h2
    · rfl
    · subst h2; simp [corner]
    · obtain ⟨m, rfl⟩ : ∃ m, j = k + 1 + m := ⟨j - (k + 1), by omega⟩
      rw [show k + 1 + m - (k + 1) = m by omega, show k + 1 + m - k = m + 1 by omega]
      simp only [corner, Nat.testBit_succ]
      congr 3
      omega

theorem splice_next (r : ℕ → F) (k b : ℕ) : splice r k (r k) b = sp r (k + 1) b := by
  funext j
  simp only [splice, sp]
  by_cases h1 : j < k
  · rw [if_pos h1, if_pos (by omega)]
  · by_cases h2 : j = k
    · subst h2; simp
    · rw [if_neg h1, if_neg h2, if_neg (by omega)]

theorem sum_pairs (f : ℕ → F) (m : ℕ) : ∑ b ∈ range m, (f (2 * b) + f (2 * b + 1)) = ∑ b ∈ range (2 * m), f b := by
  induction m with
  | zero => simp
  | succ m ih =>
    rw [sum_range_succ, ih, show 2 * (m + 1) = 2 * m + 1 + 1 by ring, sum_range_succ, sum_range_succ]
    ring

theorem splice_sum (f : (ℕ → F) → F) {n k : ℕ} (hk : k < n) (r : ℕ → F) :
    ∑ b ∈ range (2 ^ (n - (k + 1))), f (splice r k 0 b) + ∑ b ∈ range (2 ^ (n - (k + 1))), f (splice r k 1 b) =
      ∑ b ∈ range (2 ^ (n - k)), f (sp r k b) := by
  rw [← sum_add_distrib, show n - k = (n - (k + 1)) + 1 by omega, pow_succ', ← sum_pairs]
  exact sum_congr rfl (fun b _ => by rw [(splice_bit r k b).1, (splice_bit r k b).2])

end ring

/-- the mask coefficients as an array, with zeros after the end -/
def maskArr {F : Type} [Zero F] {N : ℕ} (g : Fin N → F) : ℕ → F := fun j => if h : j < N then g ⟨j, h⟩ else 0

variable {F : Type} [Field F]

theorem qAt_sub (n : ℕ) (a a' : ℕ → F) (k : ℕ) (x : F) :
    qAt n (fun j => a j - a' j) k x = qAt n a k x - qAt n a' k x := by
  simp only [qAt, lo, hi]; split_ifs <;> ring

/-- `qAt` as a polynomial -/
def qPoly (n : ℕ) (a : ℕ → F) (k : ℕ) : QuintuplePoly F where
  a := (if k + 1 = n then a (2 * (2 * n + 1) + 1) else 0) + if k + 1 = n + n then a (2 * (2 * n + 1) + 4) else 0
  b := (if k + 1 = n then a (2 * (2 * n + 1) + 2) else 0) + if k + 1 = n + n then a (2 * (2 * n + 1) + 5) else 0
  c := (if k + 1 = n then a (2 * (2 * n + 1) + 3) else 0) + if k + 1 = n + n then a (2 * (2 * n + 1) + 6) else 0
  d := a (2 * k)
  e := a (2 * k + 1)
  f := 0

theorem qPoly_eval (n : ℕ) (a : ℕ → F) (k : ℕ) (x : F) : (qPoly n a k).eval x = qAt n a k x := by
  simp only [qPoly, QuintuplePoly.eval, qAt, lo, hi]; split_ifs <;> ring

/-- if the mask contributes nothing to the messages, it is zero -/
theorem mask_injective (hp : ((p : ℕ) : F) = 0) {n : ℕ} (hn : 1 ≤ n) {a : ℕ → F} (pt : ℕ → F)
    (hS : SAt n a 0 = 0) (hm : ∀ k < 2 * n + 1, ∀ x, mAt n a pt k x = 0) :
    ∀ j < 2 * (2 * n + 1) + 7, a j = 0 := by
  have h2 : (2 : F) ≠ 0 := fun h => by have := two_inv2 (F := F) hp; rw [h, zero_mul] at this; exact zero_ne_one this
  have hq : ∀ k < 2 * n + 1, ∀ x, qAt n a k x = 0 := by
    intro k hk x
    have e1 := hm k hk x
    have e0 := hm k hk 0
    rw [mAt] at e1 e0
    rw [qAt_zero] at e0
    have : (2 : F) ^ (2 * n - k) * qAt n a k x = 0 := by linear_combination e1 - e0
    exact (mul_eq_zero.1 this).resolve_left (pow_ne_zero _ h2)
  have hc : ∀ k < 2 * n + 1, qPoly n a k = ⟨0, 0, 0, 0, 0, 0⟩ := fun k hk =>
    quint_zero hp _ (fun x => by rw [qPoly_eval, hq k hk])
  have hlast : a (2 * (2 * n + 1)) = 0 := by
    rw [SAt_zero hp, sum_congr rfl (fun j hj => hq j (mem_range.1 hj) 1), sum_const_zero, add_zero] at hS
    exact (mul_eq_zero.1 ((mul_eq_zero.1 hS).resolve_left (pow_ne_zero _ h2))).resolve_left h2
  have hA := hc (n - 1) (by omega)
  have hB := hc (2 * n - 1) (by omega)
  rw [qPoly, QuintuplePoly.mk.injEq, if_pos (by omega), if_neg (by omega), if_pos (by omega), if_neg (by omega),
    if_pos (by omega), if_neg (by omega)] at hA
  rw [qPoly, QuintuplePoly.mk.injEq, if_neg (by omega), if_pos (by omega), if_neg (by omega), if_pos (by omega),
    if_neg (by omega), if_pos (by omega)] at hB
  simp only [add_zero, zero_add] at hA hB
  intro j hj
  by_cases hj1 : j < 2 * (2 * n + 1)
  · have hk := hc (j / 2) (by omega)
    rw [qPoly, QuintuplePoly.mk.injEq] at hk
    rcases Nat.even_or_odd' j with ⟨m, rfl | rfl⟩
    · have := hk.2.2.2.1
      rwa [show 2 * m / 2 = m by omega] at this
    · have := hk.2.2.2.2.1
      rwa [show (2 * m + 1) / 2 = m by omega] at this
  · obtain ⟨c, rfl⟩ : ∃ c, j = 2 * (2 * n + 1) + c := ⟨j - 2 * (2 * n + 1), by omega⟩
    have : c < 7 := by omega
    interval_cases c
    · exact hlast
    · exact hA.1
    · exact hA.2.1
    · exact hA.2.2.1
    · exact hB.1
    · exact hB.2.1
    · exact hB.2.2.1

/-- every chain of polynomials of the right degrees is the contribution of some mask -/
theorem mask_surjective (hp : ((p : ℕ) : F) = 0) {n : ℕ} (hn : 1 ≤ n) {rho : F} (hrho : rho ≠ 0) (pt : ℕ → F)
    (S : F) (D : ℕ → QuintuplePoly F)
    (hdeg : ∀ k < 2 * n + 1, k + 1 ≠ n → k + 1 ≠ 2 * n → (D k).a = 0 ∧ (D k).b = 0 ∧ (D k).c = 0)
    (h0 : (D 0).eval 0 + (D 0).eval 1 = S)
    (hnext : ∀ k, k + 1 < 2 * n + 1 → (D (k + 1)).eval 0 + (D (k + 1)).eval 1 = (D k).eval (pt k)) :
    ∃ a : ℕ → F, rho * SAt n a 0 = S ∧ ∀ k < 2 * n + 1, ∀ x, rho * mAt n a pt k x = (D k).eval x := by
  have h2 : (2 : F) ≠ 0 := fun h => by have := two_inv2 (F := F) hp; rw [h, zero_mul] at this; exact zero_ne_one this
  let w (k : ℕ) : F := (rho * 2 ^ (2 * n - k))⁻¹
  have hw : ∀ k c, rho * 2 ^ (2 * n - k) * (c * w k) = c := fun k c => by
    have : rho * 2 ^ (2 * n - k) ≠ 0 := mul_ne_zero hrho (pow_ne_zero _ h2)
    simp only [w]; field_simp
  let a0 (z : F) : ℕ → F := fun j =>
    if j < 2 * (2 * n + 1) then (if j % 2 = 0 then (D (j / 2)).d else (D (j / 2)).e) * w (j / 2)
    else if j = 2 * (2 * n + 1) then z
    else if j = 2 * (2 * n + 1) + 1 then (D (n - 1)).a * w (n - 1)
    else if j = 2 * (2 * n + 1) + 2 then (D (n - 1)).b * w (n - 1)
    else if j = 2 * (2 * n + 1) + 3 then (D (n - 1)).c * w (n - 1)
    else if j = 2 * (2 * n + 1) + 4 then (D (2 * n - 1)).a * w (2 * n - 1)
    else if j = 2 * (2 * n + 1) + 5 then (D (2 * n - 1)).b * w (2 * n - 1)
    else (D (2 * n - 1)).c * w (2 * n - 1)
  have hq : ∀ z, ∀ k < 2 * n + 1, ∀ x, rho * 2 ^ (2 * n - k) * qAt n (a0 z) k x = (D k).eval x - (D k).eval 0 := by
    intro z k hk x
    have ed : a0 z (2 * k) = (D k).d * w k := by
      simp only [a0]
      rw [if_pos (by omega), if_pos (by omega), show 2 * k / 2 = k by omega]
    have ee : a0 z (2 * k + 1) = (D k).e * w k := by
      simp only [a0]
      rw [if_pos (by omega), if_neg (by omega), show (2 * k + 1) / 2 = k by omega]
    have e1 : a0 z (2 * (2 * n + 1) + 1) = (D (n - 1)).a * w (n - 1) := by simp [a0]
    have e2 : a0 z (2 * (2 * n + 1) + 2) = (D (n - 1)).b * w (n - 1) := by simp [a0]
    have e3 : a0 z (2 * (2 * n + 1) + 3) = (D (n - 1)).c * w (n - 1) := by simp [a0]
    have e4 : a0 z (2 * (2 * n + 1) + 4) = (D (2 * n - 1)).a * w (2 * n - 1) := by simp [a0]
    have e5 : a0 z (2 * (2 * n + 1) + 5) = (D (2 * n - 1)).b * w (2 * n - 1) := by simp [a0]
    have e6 : a0 z (2 * (2 * n + 1) + 6) = (D (2 * n - 1)).c * w (2 * n - 1) := by simp [a0]
    rw [qAt, lo, hi, ed, ee, e1, e2, e3, e4, e5, e6]
    have hwk := hw k
    simp only [QuintuplePoly.eval]
    by_cases hA : k + 1 = n
    · obtain rfl : k = n - 1 := by omega
      rw [if_pos (by omega), if_neg (by omega)]
      linear_combination x ^ 2 * hwk (D (n - 1)).d + x * hwk (D (n - 1)).e + x ^ 5 * hwk (D (n - 1)).a
        + x ^ 4 * hwk (D (n - 1)).b + x ^ 3 * hwk (D (n - 1)).c
    · by_cases hB : k + 1 = 2 * n
      · obtain rfl : k = 2 * n - 1 := by omega
        rw [if_neg (by omega), if_pos (by omega)]
        linear_combination x ^ 2 * hwk (D (2 * n - 1)).d + x * hwk (D (2 * n - 1)).e + x ^ 5 * hwk (D (2 * n - 1)).a
          + x ^ 4 * hwk (D (2 * n - 1)).b + x ^ 3 * hwk (D (2 * n - 1)).c
      · rw [if_neg (by omega), if_neg (by omega), (hdeg k hk hA hB).1, (hdeg k hk hA hB).2.1, (hdeg k hk hA hB).2.2]
        linear_combination x ^ 2 * hwk (D k).d + x * hwk (D k).e
  have hz : ∃ z, rho * SAt n (a0 z) 0 = S := by
    have hs : ∀ z, SAt n (a0 z) 0 = 2 ^ (2 * n) * (2 * z + ∑ j ∈ range (2 * n + 1), qAt n (a0 0) j 1) := by
      intro z
      rw [SAt_zero hp]
      have e0 : a0 z (2 * (2 * n + 1)) = z := by simp [a0]
      rw [e0]
      congr 2
      refine sum_congr rfl (fun j hj => ?_)
      have := (hq z j (mem_range.1 hj) 1).trans (hq 0 j (mem_range.1 hj) 1).symm
      exact mul_left_cancel₀ (mul_ne_zero hrho (pow_ne_zero _ h2)) this
    refine ⟨(S * (rho * 2 ^ (2 * n))⁻¹ - ∑ j ∈ range (2 * n + 1), qAt n (a0 0) j 1) * 2⁻¹, ?_⟩
    rw [hs]
    have : rho * 2 ^ (2 * n) ≠ 0 := mul_ne_zero hrho (pow_ne_zero _ h2)
    field_simp
    ring
  obtain ⟨z, hz⟩ := hz
  refine ⟨a0 z, hz, ?_⟩
  have key : ∀ k < 2 * n + 1, ∀ c, rho * (SAt n (a0 z) k + 2 ^ (2 * n + 1 - k) * RAt n (a0 z) pt k) = c →
      (D k).eval 0 + (D k).eval 1 = c → ∀ x, rho * mAt n (a0 z) pt k x = (D k).eval x := by
    intro k hk c hc1 hc2 x
    rw [← mAt_sum hp n (a0 z) pt hk] at hc1
    have d1 : ∀ x, rho * mAt n (a0 z) pt k x - rho * mAt n (a0 z) pt k 0 = (D k).eval x - (D k).eval 0 := by
      intro x
      rw [← hq z k hk x, mAt, mAt, qAt_zero]; ring
    have h20 : 2 * (rho * mAt n (a0 z) pt k 0) = 2 * (D k).eval 0 := by
      linear_combination hc1 - hc2 - d1 1
    have := mul_left_cancel₀ h2 h20
    linear_combination d1 x + this
  intro k
  induction k with
  | zero =>
    intro hk
    refine key 0 hk S ?_ h0
    rw [RAt, range_zero, sum_empty, mul_zero, add_zero, hz]
  | succ k ih =>
    intro hk
    refine key (k + 1) hk _ ?_ (hnext k hk)
    rw [← mAt_next, ih (by omega)]

end Libra.Zk
