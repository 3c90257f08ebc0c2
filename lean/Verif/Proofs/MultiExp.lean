import Verif.Proofs.PreInput

namespace Libra
open Spec Finset Vpd

namespace InputVpd
section
variable {G : Type} [AddCommGroup G]

theorem row_eq (x : G) (old : ℕ → G) (m j : ℕ) (hj : j ≤ m) :
    loop m (fun k (row : ℕ → G) => Function.update row (1 + k) (row (1 + k - 1) + x))
      (Function.update old 0 0) j = j • x := by
  induction m generalizing j with
  | zero => obtain rfl : j = 0 := by omega
            simp
  | succ m ih =>
    rw [loop_succ]
    rcases Nat.lt_or_ge m j with h | h
    · obtain rfl : j = m + 1 := by omega
      rw [Nat.add_comm 1 m, Function.update_self, Nat.add_sub_cancel, ih m le_rfl, succ_nsmul]
    · rw [Function.update_of_ne (by omega), ih j h]

theorem babySteps_eq (g : G) (i j : ℕ) (hi : i < 256 / 15 + 1) (hj : j < 2 ^ 15) :
    babySteps g i j = (j * 2 ^ (15 * i)) • g := by
  have h : ∀ m, ∀ s : (ℕ → ℕ → G) × G, s = loop m (fun i (s : (ℕ → ℕ → G) × G) =>
      let row := loopFrom 1 (2 ^ 15) (fun j row => Function.update row j (row (j - 1) + s.2))
        (Function.update (s.1 i) 0 0)
      (Function.update s.1 i row, 2 ^ 15 • s.2)) (fun _ _ => 0, g) →
      s.2 = 2 ^ (15 * m) • g ∧ ∀ i < m, ∀ j < 2 ^ 15, s.1 i j = (j * 2 ^ (15 * i)) • g := by
    intro m
    induction m with
    | zero => rintro s rfl; exact ⟨by simp, fun i hi => absurd hi (Nat.not_lt_zero i)⟩
    | succ m ih =>
      rintro s rfl
      rw [loop_succ]
      generalize hs : loop m (fun i (s : (ℕ → ℕ → G) × G) =>
        let row := loopFrom 1 (2 ^ 15) (fun j row => Function.update row j (row (j - 1) + s.2))
          (Function.update (s.1 i) 0 0)
        (Function.update s.1 i row, 2 ^ 15 • s.2)) (fun _ _ => 0, g) = s'
      obtain ⟨h1, h2⟩ := ih s' hs.symm
      refine ⟨?_, ?_⟩
      · show 2 ^ 15 • s'.2 = _
        rw [h1, ← mul_nsmul', ← pow_add]; congr 2; ring
      · intro i hi j hj
        show Function.update s'.1 m _ i j = _
        rcases Nat.lt_or_ge i m with h | h
        · rw [Function.update_of_ne (by omega), h2 i h j hj]
        · obtain rfl : i = m := by omega
          rw [Function.update_self, loopFrom, row_eq s'.2 (s'.1 i) (2 ^ 15 - 1) j (by omega), h1,
            ← mul_nsmul']
  exact (h _ _ rfl).2 i hi j hj

theorem window_sum (a m : ℕ) :
    ∑ i ∈ range m, ((a >>> (i * 15)) &&& (2 ^ 15 - 1)) * 2 ^ (15 * i) = a % 2 ^ (15 * m) := by
  induction m with
  | zero => simp [Nat.mod_one]
  | succ m ih =>
    rw [sum_range_succ, ih, Nat.and_two_pow_sub_one_eq_mod, Nat.shiftRight_eq_div_pow,
      show 2 ^ (15 * (m + 1)) = 2 ^ (15 * m) * 2 ^ 15 by rw [← pow_add, Nat.mul_succ],
      Nat.mod_mul, Nat.mul_comm m 15]
    ring

theorem g1Exp_eq (g : G) (a : ℕ) (ha : a < 2 ^ 269) : g1Exp (babySteps g) a = .ok (a • g) := by
  have hs : sizeInBase2 a ≤ 269 := sizeInBase2_le (by decide) ha
  unfold g1Exp
  rw [loopM_pure (b' := fun i ret =>
    ret + (((a >>> (i * 15)) &&& (2 ^ 15 - 1)) * 2 ^ (15 * i)) • g)]
  · rw [loop_add_sum, zero_add, ← sum_smul, window_sum, Nat.mod_eq_of_lt]
    exact lt_of_lt_of_le (lt_sizeInBase2 a) (Nat.pow_le_pow_right (by decide) (by omega))
  · intro i hi s
    simp only []
    rw [if_pos (by omega), babySteps_eq g _ _ (by omega)]
    rw [Nat.and_two_pow_sub_one_eq_mod]
    exact Nat.mod_lt _ (by decide)

theorem monomial_lt {R : Type} [CommRing R] (n j : ℕ) (hj : j < 2 ^ n) (x : ℕ → R) :
    monomial (n + 1) j x = monomial n j x := by
  rw [monomial, prod_range_succ, Nat.testBit_lt_two_pow hj, if_neg (by decide), mul_one]; rfl

theorem monomial_ge {R : Type} [CommRing R] (n j : ℕ) (hj : j < 2 ^ n) (x : ℕ → R) :
    monomial (n + 1) (2 ^ n + j) x = x n * monomial n j x := by
  rw [monomial, prod_range_succ, Nat.testBit_two_pow_add_eq, Nat.testBit_lt_two_pow hj,
    if_pos (by decide), mul_comm]
  congr 1
  exact prod_congr rfl (fun i hi => by rw [Nat.testBit_two_pow_add_gt (mem_range.1 hi)])

theorem monomial_two_pow {R : Type} [CommRing R] (n k : ℕ) (hk : k < n) (x : ℕ → R) :
    monomial n (2 ^ k) x = x k := by
  rw [monomial, prod_eq_single k]
  · rw [Nat.testBit_two_pow_self, if_pos rfl]
  · intro b _ hb
    rw [Nat.testBit_two_pow_of_ne (Ne.symm hb), if_neg (by decide)]
  · intro h; exact absurd (mem_range.2 hk) h

theorem monomial_zero {R : Type} [CommRing R] (n : ℕ) (x : ℕ → R) : monomial n 0 x = 1 := by
  rw [monomial]
  exact prod_eq_one (fun i _ => by rw [Nat.zero_testBit, if_neg (by decide)])

theorem coeffPoly_succ {R : Type} [CommRing R] (n : ℕ) (c x : ℕ → R) :
    coeffPoly (n + 1) c x = coeffPoly n c x + x n * coeffPoly n (fun j => c (2 ^ n + j)) x := by
  unfold coeffPoly
  rw [pow_succ, Nat.mul_two, sum_range_add, mul_sum]
  congr 1
  · exact sum_congr rfl (fun j hj => by rw [monomial_lt n j (mem_range.1 hj)])
  · exact sum_congr rfl (fun j hj => by rw [monomial_ge n j (mem_range.1 hj)]; ring)

/-! ## subset tables -/

theorem loop_fill {α : Type} (f : ℕ → α) (old : ℕ → α) (m j : ℕ) (hj : j < m) :
    loop m (fun j s => Function.update s j (f j)) old j = f j := by
  induction m with
  | zero => omega
  | succ m ih =>
    rw [loop_succ]
    rcases Nat.lt_or_ge j m with h | h
    · rw [Function.update_of_ne (by omega), ih h]
    · obtain rfl : j = m := by omega
      rw [Function.update_self]

theorem shift_and_one (j k : ℕ) : ((j >>> k) &&& 1 = 1) ↔ j.testBit k = true := by
  rw [Nat.testBit_eq_decide_div_mod_eq, Nat.shiftRight_eq_div_pow, Nat.and_one_is_mod,
    decide_eq_true_iff]

/-- the public element number `k` of group `i`, cut off at `2 ^ d` -/
def member (d : ℕ) (pub : ℕ → G) (i k : ℕ) : G := if i * w + k ≥ 2 ^ d then 0 else pub (i * w + k)

theorem multiScalarTable_eq (d : ℕ) (pub : ℕ → G) (i c : ℕ) (h3 : 3 ≤ c) (hc : c < 2 ^ w) :
    multiScalarTable d pub i (c - 3) =
      ∑ k ∈ range w, if c.testBit k then member d pub i k else 0 := by
  unfold multiScalarTable
  simp only []
  set sc := loop w (fun j s => Function.update s j
    (if i * w + j ≥ 2 ^ d then 0 else pub (i * w + j))) (fun _ => (0 : G)) with hsc
  have hs : ∀ k < w, sc k = member d pub i k := fun k hk => loop_fill _ _ _ _ hk
  have hl := loop_fill (fun j => loop w (fun k x => if ((3 + j) >>> k) &&& 1 = 1 then x + sc k
    else x) 0) (fun _ => (0 : G)) (2 ^ w - 3) (c - 3) (by omega)
  have : ∀ k, 3 + k - 3 = k := fun k => by omega
  simp only [loopFrom, this]
  rw [hl, show 3 + (c - 3) = c by omega, loop_congr (b' := fun k x => x +
    (if c.testBit k then member d pub i k else 0)), loop_add_sum, zero_add]
  intro k hk s
  simp only [shift_and_one, hs k hk]
  split_ifs <;> simp

theorem current_testBit (b : ℕ → Bool) (m q : ℕ) :
    (loop m (fun k c => c ||| (b k).toNat <<< k) 0).testBit q = (decide (q < m) && b q) := by
  induction m with
  | zero => simp
  | succ m ih =>
    rw [loop_succ, Nat.testBit_or, ih, Nat.testBit_shiftLeft]
    rcases Nat.lt_trichotomy q m with h | h | h
    · rw [decide_eq_true h, decide_eq_true (show q < m + 1 by omega),
        decide_eq_false (show ¬ q ≥ m by omega)]; simp
    · subst h
      simp only [lt_irrefl, decide_false, Bool.false_and, Nat.lt_succ_self, decide_true,
        Bool.true_and, Bool.false_or, ge_iff_le, le_refl, Nat.sub_self]
      cases b q <;> rfl
    · rw [decide_eq_false (show ¬ q < m by omega), decide_eq_false (show ¬ q < m + 1 by omega),
        decide_eq_true (show q ≥ m by omega)]
      have : ((b m).toNat).testBit (q - m) = false := by
        apply Nat.testBit_lt_two_pow
        have : (1 : ℕ) < 2 ^ (q - m) := Nat.one_lt_two_pow (by omega)
        exact lt_of_le_of_lt (Bool.toNat_le (b m)) this
      simp [this]

theorem loop_max_le (f : ℕ → ℕ) (m k : ℕ) (hk : k < m) :
    f k ≤ loop m (fun j s => max s (f j)) 0 := by
  induction m with
  | zero => omega
  | succ m ih =>
    rw [loop_succ]
    rcases Nat.lt_or_ge k m with h | h
    · exact le_trans (ih h) (le_max_left _ _)
    · obtain rfl : k = m := by omega
      exact le_max_right _ _

theorem half_step (q : ℕ) (x : G) :
    2 • (q / 2) • x + (if decide (q % 2 = 1) = true then x else 0) = q • x := by
  rw [← mul_nsmul']
  rcases Nat.mod_two_eq_zero_or_one q with h | h
  · rw [if_neg (by simp [h]), add_zero, show 2 * (q / 2) = q by omega]
  · rw [if_pos (by simp [h]), ← succ_nsmul, show 2 * (q / 2) + 1 = q by omega]

theorem multiScalarCalc_eq {G2 : Type} (K : Key G G2) (d index len : ℕ) (sp : ℕ → ℕ)
    (hms : ∀ c, 3 ≤ c → c < 2 ^ w → K.multiScalar index (c - 3) =
      ∑ k ∈ range w, if c.testBit k then member d K.pubG1 index k else 0)
    (hlen : len ≤ 2 ^ d) (hsp : ∀ k < w, len ≤ index * w + k → sp k = 0) :
    multiScalarCalc K index len sp = ∑ k ∈ range w, sp k • member d K.pubG1 index k := by
  unfold multiScalarCalc
  simp only []
  set L := loop w (fun j m => max m (sizeInBase2 (sp j))) 0 with hL
  have hlt : ∀ k < w, sp k < 2 ^ L := fun k hk =>
    lt_of_lt_of_le (lt_sizeInBase2 _) (Nat.pow_le_pow_right (by decide)
      (loop_max_le (fun j => sizeInBase2 (sp j)) w k hk))
  have key := loop_inv (n := L) (s := (0 : G)) (b := fun t ret =>
    let j := L - 1 - t
    let current := loop w (fun k c => c ||| ((sp k).testBit j).toNat <<< k) 0
    let ret := 2 • ret
    if current = 0 then ret
    else if current = 1 then (if index * w < len then ret + K.pubG1 (index * w) else ret)
    else if current = 2 then (if index * w + 1 < len then ret + K.pubG1 (index * w + 1) else ret)
    else ret + K.multiScalar index (current - 3))
    (fun t ret => ret = ∑ k ∈ range w, (sp k >>> (L - t)) • member d K.pubG1 index k)
    (by
      symm
      apply sum_eq_zero
      intro k hk
      rw [Nat.sub_zero, Nat.shiftRight_eq_div_pow, Nat.div_eq_of_lt (hlt k (mem_range.1 hk)),
        zero_nsmul])
    (by
      intro t ht ret hret
      simp only []
      set c := loop w (fun k c => c ||| ((sp k).testBit (L - 1 - t)).toNat <<< k) 0 with hc
      have hcb : ∀ q < w, c.testBit q = (sp q).testBit (L - 1 - t) := fun q hq => by
        rw [hc, current_testBit (fun k => (sp k).testBit (L - 1 - t)), decide_eq_true hq,
          Bool.true_and]
      have hc256 : c < 2 ^ w := by
        apply Nat.lt_pow_two_of_testBit
        intro i hi
        rw [hc, current_testBit (fun k => (sp k).testBit (L - 1 - t)),
          decide_eq_false (by omega), Bool.false_and]
      -- the step adds the members whose bit is set
      have hstep : (if c = 0 then 2 • ret
          else if c = 1 then (if index * w < len then 2 • ret + K.pubG1 (index * w) else 2 • ret)
          else if c = 2 then (if index * w + 1 < len then 2 • ret + K.pubG1 (index * w + 1)
            else 2 • ret)
          else 2 • ret + K.multiScalar index (c - 3)) =
          2 • ret + ∑ k ∈ range w, if c.testBit k then member d K.pubG1 index k else 0 := by
        have hin : ∀ k < w, c.testBit k = true → index * w + k < len := by
          intro k hk hb
          by_contra hle
          rw [hcb k hk, hsp k hk (by omega), Nat.zero_testBit] at hb
          cases hb
        by_cases h0 : c = 0
        · rw [if_pos h0, h0, sum_eq_zero (fun k _ => by rw [Nat.zero_testBit, if_neg (by decide)]),
            add_zero]
        · by_cases h1 : c = 1
          · have hlt := hin 0 (by decide) (by rw [h1]; decide)
            rw [if_neg h0, if_pos h1, if_pos (by omega), h1, sum_eq_single 0]
            · rw [if_pos (by decide), member, if_neg (by omega), Nat.add_zero]
            · intro b _ hb
              rw [if_neg]
              rw [show (1 : ℕ) = 2 ^ 0 from rfl, Nat.testBit_two_pow_of_ne (Ne.symm hb)]
              decide
            · intro h; exact absurd (mem_range.2 (by decide)) h
          · by_cases h2 : c = 2
            · have hlt := hin 1 (by decide) (by rw [h2]; decide)
              rw [if_neg h0, if_neg h1, if_pos h2, if_pos (by omega), h2, sum_eq_single 1]
              · rw [if_pos (by decide), member, if_neg (by omega)]
              · intro b _ hb
                rw [if_neg]
                rw [show (2 : ℕ) = 2 ^ 1 from rfl, Nat.testBit_two_pow_of_ne (Ne.symm hb)]
                decide
              · intro h; exact absurd (mem_range.2 (by decide)) h
            · rw [if_neg h0, if_neg h1, if_neg h2, hms c (by omega) hc256]
      rw [hstep, hret, smul_sum, ← sum_add_distrib]
      refine sum_congr rfl (fun k hk => ?_)
      have hk := mem_range.1 hk
      rw [hcb k hk, show L - t = (L - (t + 1)) + 1 by omega, show L - 1 - t = L - (t + 1) by omega,
        Nat.testBit_eq_decide_div_mod_eq, Nat.shiftRight_eq_div_pow, Nat.shiftRight_eq_div_pow,
        pow_succ, ← Nat.div_div_eq_div_mul]
      exact half_step _ _)
  rw [key]
  refine sum_congr rfl (fun k _ => ?_)
  rw [Nat.sub_self, Nat.shiftRight_zero]

theorem scalarPow_eq (c : ℕ → ℕ) (off len i : ℕ) (old : ℕ → ℕ) (j : ℕ) (hj : j < w) :
    scalarPow c off len i old j = if i * w + j ≥ len then 0 else c (i * w + j + off) :=
  loop_fill (fun j => if i * w + j ≥ len then 0 else c (i * w + j + off)) _ _ _ hj

/-- all groups together -/
theorem groups_sum (d len : ℕ) (hlen : len ≤ 2 ^ d) (pub : ℕ → G) (c : ℕ → ℕ) (off : ℕ) :
    ∑ i ∈ range (len / w + 1), ∑ k ∈ range w,
      (if i * w + k ≥ len then 0 else c (i * w + k + off)) • member d pub i k =
    ∑ j ∈ range len, c (j + off) • pub j := by
  have h := sum_blocks w (len / w + 1)
    (fun j => if j ≥ len then (0 : G) else c (j + off) • pub j)
  have hle : len ≤ w * (len / w + 1) := by
    have := Nat.div_add_mod len w
    have h2 := Nat.mod_lt len (show 0 < w by decide)
    rw [Nat.mul_succ]; omega
  rw [← sum_subset (s₁ := range len) (fun j hj => mem_range.2 (lt_of_lt_of_le (mem_range.1 hj) hle))
    (fun j _ hj => if_pos (by rw [mem_range] at hj; omega))] at h
  rw [sum_congr rfl (fun j hj => if_neg (by have := mem_range.1 hj; omega))] at h
  rw [h]
  refine sum_congr rfl (fun i _ => sum_congr rfl (fun k _ => ?_))
  rw [Nat.mul_comm w i]
  split_ifs with h1
  · rw [zero_nsmul]
  · rw [member, if_neg (by omega)]

end
end InputVpd
end Libra
