import Verif.Proofs.Mle
import Verif.Model.Tables

namespace Libra
open Spec Finset
variable {F : Type} [CommRing F]

theorem or_two_pow {i j : ℕ} (h : j < 2 ^ i) : j ||| 2 ^ i = j + 2 ^ i := by
  have := Nat.two_pow_add_eq_or_of_lt h 1
  rw [Nat.mul_one] at this
  rw [Nat.or_comm, ← this]; omega

/-- inner loop of `doubling` -/
theorem doubling_inner (a b : F) (i : ℕ) (T : ℕ → F) :
    ∀ m ≤ 2 ^ i, ∀ k,
      loop m (fun j T =>
        let T := Function.update T (j ||| 2 ^ i) (T j * a)
        Function.update T j (T j * b)) T k =
      if k < m then T k * b
      else if 2 ^ i ≤ k ∧ k < 2 ^ i + m then T (k - 2 ^ i) * a else T k := by
  intro m
  induction m with
  | zero => intro _ k; rw [loop_zero, if_neg (by omega), if_neg (by omega)]
  | succ m ih =>
    intro hm k
    have ih := ih (by omega)
    rw [loop_succ]
    generalize hL : loop m _ T = L at ih ⊢
    rw [or_two_pow (by omega)]
    have h1 : L m = T m := by rw [ih m, if_neg (by omega), if_neg (by omega)]
    by_cases hk : k = m
    · subst hk
      rw [Function.update_self, Function.update_of_ne (by omega), h1, if_pos (by omega)]
    · rw [Function.update_of_ne hk]
      by_cases hk2 : k = m + 2 ^ i
      · subst hk2
        rw [Function.update_self, h1, if_neg (by omega), if_pos (by omega),
          Nat.add_sub_cancel]
      · rw [Function.update_of_ne hk2, ih k]
        split_ifs <;> first | rfl | omega

theorem doubling_spec (r omr : ℕ → F) (off n : ℕ) (T : ℕ → F)
    (h : ∀ j < n, omr (j + off) = 1 - r (j + off)) :
    ∀ k < 2 ^ n, doubling r omr off n T k = T 0 * eqPoly n (fun j => r (j + off)) k := by
  induction n with
  | zero => intro k hk; simp at hk; subst hk; simp [doubling, eqPoly_zero]
  | succ n ih =>
    intro k hk
    have ih := ih (fun j hj => h j (by omega))
    rw [doubling, loop_succ]
    rw [show loop n _ T = doubling r omr off n T from rfl,
      doubling_inner _ _ n _ _ le_rfl, h n (by omega)]
    rw [pow_succ] at hk
    by_cases hk2 : k < 2 ^ n
    · rw [if_pos hk2, ih k hk2, eqPoly_lt n _ k hk2]; ring
    · rw [if_neg hk2, if_pos (by omega), ih _ (by omega)]
      conv_rhs => rw [show k = k - 2 ^ n + 2 ^ n by omega]
      rw [eqPoly_ge n _ _ (by omega)]; ring

/-- first pass of `doubling2` -/
theorem doubling2_pass1 (a : F) (i : ℕ) (T : ℕ → F) :
    ∀ m ≤ 2 ^ i, ∀ k,
      loop m (fun j T => Function.update T (j ||| 2 ^ i) (T j * a)) T k =
      if 2 ^ i ≤ k ∧ k < 2 ^ i + m then T (k - 2 ^ i) * a else T k := by
  intro m
  induction m with
  | zero => intro _ k; rw [loop_zero, if_neg (by omega)]
  | succ m ih =>
    intro hm k
    have ih := ih (by omega)
    rw [loop_succ]
    generalize hL : loop m _ T = L at ih ⊢
    rw [or_two_pow (by omega)]
    have h1 : L m = T m := by rw [ih m, if_neg (by omega)]
    by_cases hk2 : k = m + 2 ^ i
    · subst hk2
      rw [Function.update_self, h1, if_pos (by omega), Nat.add_sub_cancel]
    · rw [Function.update_of_ne hk2, ih k]
      split_ifs <;> first | rfl | omega

theorem loop_scale (b : F) (T : ℕ → F) :
    ∀ m, ∀ k, loop m (fun j T => Function.update T j (T j * b)) T k =
      if k < m then T k * b else T k := by
  intro m
  induction m with
  | zero => intro k; rw [loop_zero, if_neg (by omega)]
  | succ m ih =>
    intro k
    rw [loop_succ]
    by_cases hk : k = m
    · subst hk
      rw [Function.update_self, ih, if_neg (by omega), if_pos (by omega)]
    · rw [Function.update_of_ne hk, ih k]
      split_ifs <;> first | rfl | omega

/-- writing a table that does not read itself -/
theorem loop_write {α : Type} (f : ℕ → α) (T : ℕ → α) :
    ∀ m, ∀ k, loop m (fun j T => Function.update T j (f j)) T k = if k < m then f k else T k := by
  intro m
  induction m with
  | zero => intro k; rw [loop_zero, if_neg (by omega)]
  | succ m ih =>
    intro k
    rw [loop_succ]
    by_cases hk : k = m
    · subst hk
      rw [Function.update_self, if_pos (by omega)]
    · rw [Function.update_of_ne hk, ih k]
      split_ifs <;> first | rfl | omega

theorem doubling2_spec (r omr : ℕ → F) (off n : ℕ) (T : ℕ → F)
    (h : ∀ j < n, omr (j + off) = 1 - r (j + off)) :
    ∀ k < 2 ^ n, doubling2 r omr off n T k = T 0 * eqPoly n (fun j => r (j + off)) k := by
  induction n with
  | zero => intro k hk; simp at hk; subst hk; simp [doubling2, eqPoly_zero]
  | succ n ih =>
    intro k hk
    have ih := ih (fun j hj => h j (by omega))
    rw [doubling2, loop_succ]
    rw [show loop n _ T = doubling2 r omr off n T from rfl]
    rw [loop_scale, h n (by omega)]
    rw [pow_succ] at hk
    by_cases hk2 : k < 2 ^ n
    · rw [if_pos hk2, doubling2_pass1 _ n _ _ le_rfl, if_neg (by omega), ih k hk2,
        eqPoly_lt n _ k hk2]; ring
    · rw [if_neg hk2, doubling2_pass1 _ n _ _ le_rfl, if_pos (by omega), ih _ (by omega)]
      conv_rhs => rw [show k = k - 2 ^ n + 2 ^ n by omega]
      rw [eqPoly_ge n _ _ (by omega)]; ring

/-- what `doubling2` leaves when `one_minus_r` is unrelated to `r` and `r` is zero: only entry 0 -/
theorem doubling2_zero (r omr : ℕ → F) (off n : ℕ) (T : ℕ → F) (h : ∀ j < n, r (j + off) = 0) :
    ∀ k < 2 ^ n, k ≠ 0 → doubling2 r omr off n T k = 0 := by
  induction n with
  | zero => intro k hk h0; simp at hk; exact absurd hk h0
  | succ n ih =>
    intro k hk h0
    have ih := ih (fun j hj => h j (by omega))
    rw [doubling2, loop_succ, show loop n _ T = doubling2 r omr off n T from rfl]
    rw [loop_scale, h n (by omega)]
    rw [pow_succ] at hk
    by_cases hk2 : k < 2 ^ n
    · rw [if_pos hk2, doubling2_pass1 _ n _ _ le_rfl, if_neg (by omega), ih k hk2 h0, zero_mul]
    · rw [if_neg hk2, doubling2_pass1 _ n _ _ le_rfl, if_pos (by omega), mul_zero]

/-- half tables multiply to the full equality polynomial -/
theorem halves_spec {r : ℕ → F} {c d : F} {n first : ℕ} {f s : ℕ → F} (hf : first ≤ n)
    (h1 : ∀ k < 2 ^ first, f k = c * eqPoly first r k)
    (h2 : ∀ k < 2 ^ (n - first), s k = d * eqPoly (n - first) (fun j => r (j + first)) k)
    (i : ℕ) (hi : i < 2 ^ n) : halves first f s i = c * d * eqPoly n r i := by
  have hlt : i % 2 ^ first < 2 ^ first := Nat.mod_lt _ (by positivity)
  have hlt2 : i / 2 ^ first < 2 ^ (n - first) := by
    rw [Nat.div_lt_iff_lt_mul (by positivity), ← pow_add, Nat.sub_add_cancel hf]; exact hi
  rw [halves, Nat.and_two_pow_sub_one_eq_mod, Nat.shiftRight_eq_div_pow, h1 _ hlt, h2 _ hlt2]
  conv_rhs => rw [show n = first + (n - first) by omega, eqPoly_split]
  simp only [Nat.add_comm first]
  ring

/-- the tables built by the provers -/
theorem halves_doubling {r omr : ℕ → F} {n : ℕ} {T1 T2 : ℕ → F} {c d : F}
    (h : ∀ j < n, omr j = 1 - r j) (i : ℕ) (hi : i < 2 ^ n) :
    halves (n >>> 1) (doubling r omr 0 (n >>> 1) (setZero T1 c))
      (doubling r omr (n >>> 1) (n - n >>> 1) (setZero T2 d)) i = c * d * eqPoly n r i := by
  have hn : n >>> 1 ≤ n := by rw [Nat.shiftRight_eq_div_pow]; omega
  refine halves_spec hn (fun k hk => ?_) (fun k hk => ?_) i hi
  · rw [doubling_spec _ _ _ _ _ (fun j hj => h _ (by omega)) k hk, setZero, Function.update_self]
    rfl
  · rw [doubling_spec _ _ _ _ _ (fun j hj => h _ (by omega)) k hk, setZero, Function.update_self]

/-! ## `V_res`, `V_in` -/

/-- an in-place halving pass -/
theorem loop_halve {α : Type} (f : α → α → α) (T : ℕ → α) :
    ∀ m, ∀ k, loop m (fun j T => Function.update T j (f (T (2 * j)) (T (2 * j + 1)))) T k =
      if k < m then f (T (2 * k)) (T (2 * k + 1)) else T k := by
  intro m
  induction m with
  | zero => intro k; rw [loop_zero, if_neg (by omega)]
  | succ m ih =>
    intro k
    rw [loop_succ]
    by_cases hk : k = m
    · subst hk
      rw [Function.update_self, if_pos (by omega), ih (2 * k + 1), if_neg (by omega), ih (2 * k),
        if_neg (by omega)]
    · rw [Function.update_of_ne hk, ih k]
      split_ifs <;> first | rfl | omega

theorem shl_one (j : ℕ) : j <<< 1 = 2 * j := by rw [Nat.shiftLeft_eq]; omega

theorem shl_one_or (j : ℕ) : j <<< 1 ||| 1 = 2 * j + 1 := by
  rw [Nat.shiftLeft_eq]
  have := Nat.two_pow_add_eq_or_of_lt (i := 1) (b := 1) (by norm_num) j
  rw [Nat.mul_comm j] at *
  rw [← this]

theorem two_mul_or_one (j : ℕ) : 2 * j ||| 1 = 2 * j + 1 := by
  rw [← shl_one, shl_one_or, shl_one]

theorem foldOutput_spec (omr r : ℕ → F) (raw : ℕ → F) (n : ℕ) (h : ∀ j < n, omr j = 1 - r j) :
    foldOutput omr r raw n (2 ^ n) = mle n raw r := by
  rw [foldOutput, ← foldK_mle]
  have key : ∀ k ≤ n, ∀ s, s = loop k (fun i (s : (ℕ → F) × ℕ) =>
      (loop (s.2 >>> 1) (fun j out =>
        Function.update out j (out (j <<< 1) * omr i + out (j <<< 1 ||| 1) * r i)) s.1, s.2 >>> 1))
      (raw, 2 ^ n) → s.2 = 2 ^ (n - k) ∧ ∀ i < 2 ^ (n - k), s.1 i = foldK r k raw i := by
    intro k
    induction k with
    | zero => rintro - s rfl; exact ⟨rfl, fun i _ => rfl⟩
    | succ k ih =>
      rintro hk s rfl
      obtain ⟨h1, h2⟩ := ih (by omega) _ rfl
      rw [loop_succ]
      generalize loop k _ (raw, 2 ^ n) = s at h1 h2 ⊢
      have e : s.2 >>> 1 = 2 ^ (n - (k + 1)) := by
        rw [h1, show n - k = n - (k + 1) + 1 by omega, pow_succ, Nat.shiftRight_eq_div_pow]
        simp
      refine ⟨e, fun i hi => ?_⟩
      dsimp only
      simp only [shl_one, two_mul_or_one]
      rw [e, loop_halve (fun x y => x * omr k + y * r k), if_pos hi]
      have : 2 ^ (n - k) = 2 * 2 ^ (n - (k + 1)) := by
        rw [← pow_succ']; congr 1; omega
      rw [h2 _ (by omega), h2 _ (by omega), h k (by omega)]
      rfl
  exact (key n le_rfl _ rfl).2 0 (by simp)

end Libra
