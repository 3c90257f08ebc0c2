import Verif.Model.Vpd
import Verif.Spec.Vpd
import Verif.Proofs.Mle
import Verif.Proofs.Outcome
import Verif.Proofs.Prime
import Mathlib.Tactic.Module
import Mathlib.Tactic.Abel

namespace Libra
open Spec Finset

namespace Vpd
section
variable {G : Type} [AddCommGroup G]

theorem precompute_eq (g : G) (i : ℕ) (hi : i < P) : precompute g i = 2 ^ i • g := by
  have h : ∀ m, m ≤ P - 1 → ∀ i ≤ m, loop m (fun k (pre : ℕ → G) =>
      Function.update pre (1 + k) (pre (1 + k - 1) + pre (1 + k - 1)))
      (Function.update (fun _ => 0) 0 g) i = 2 ^ i • g := by
    intro m
    induction m with
    | zero => intro _ i hi; obtain rfl : i = 0 := by omega
              simp
    | succ m ih =>
      intro hm i hi
      rw [loop_succ]
      rcases Nat.lt_or_ge m i with h | h
      · obtain rfl : i = m + 1 := by omega
        rw [Nat.add_comm 1 m, Function.update_self, Nat.add_sub_cancel, ih (by omega) m le_rfl,
          ← two_nsmul, ← mul_nsmul, pow_succ]
      · rw [Function.update_of_ne (by omega), ih (by omega) i h]
  exact h (P - 1) le_rfl i (by omega)

theorem mod_two_pow_eq_sum (n k : ℕ) :
    n % 2 ^ k = ∑ i ∈ range k, if n.testBit i then 2 ^ i else 0 := by
  induction k with
  | zero => simp [Nat.mod_one]
  | succ k ih =>
    rw [sum_range_succ, ← ih, pow_succ, Nat.mod_mul, Nat.testBit_eq_decide_div_mod_eq]
    rcases Nat.mod_two_eq_zero_or_one (n / 2 ^ k) with h | h <;> simp [h]

theorem lt_sizeInBase2 (n : ℕ) : n < 2 ^ sizeInBase2 n := by
  unfold sizeInBase2
  split_ifs with h
  · subst h; decide
  · exact Nat.lt_size_self n

theorem sizeInBase2_le {n k : ℕ} (hk : 1 ≤ k) (h : n < 2 ^ k) : sizeInBase2 n ≤ k := by
  unfold sizeInBase2
  split_ifs with h0
  · exact hk
  · exact Nat.size_le.2 h

theorem preExp_eq (g : G) (n : ℕ) (hn : n < 2 ^ P) : preExp (precompute g) n = .ok (n • g) := by
  have hs : sizeInBase2 n ≤ P := sizeInBase2_le (by decide) hn
  unfold preExp
  rw [loopM_pure (b' := fun i temp => temp + (if n.testBit i then 2 ^ i else 0) • g)]
  · rw [loop_add_sum, zero_add, ← Finset.sum_smul, ← mod_two_pow_eq_sum,
      Nat.mod_eq_of_lt (lt_sizeInBase2 n)]
  · intro i hi s
    split_ifs with h
    · rw [readPre, if_pos (by omega), Outcome.ok_bind, precompute_eq g i (by omega)]
      rfl
    · simp

/-- beyond 512 bits the table is read out of bounds -/
theorem preExp_undefined (g : G) (n : ℕ) (hn : 2 ^ P ≤ n) : preExp (precompute g) n = .undefined := by
  have hn0 : n ≠ 0 := by
    rintro rfl; exact absurd hn (not_le.2 (Nat.two_pow_pos P))
  have hsz : sizeInBase2 n = n.size := if_neg hn0
  have hs : P < n.size := Nat.lt_size.2 hn
  have hb : ∀ m, n.size ≤ m → loopM m (fun i temp =>
    if n.testBit i then do
      let x ← readPre (precompute g) i
      pure (temp + x)
    else (pure temp : Outcome G)) 0 = .undefined := by
    intro m hm
    induction m with
    | zero => omega
    | succ m ih =>
      rw [loopM_succ]
      rcases Nat.lt_or_ge m n.size with h | h
      · have hm' : m = n.size - 1 := by omega
        have htop : n.testBit m = true := by
          have h1 : 2 ^ m ≤ n := Nat.lt_size.1 h
          have h2 : n < 2 ^ (m + 1) := by
            have := Nat.lt_size_self n
            rwa [show n.size = m + 1 by omega] at this
          rw [Nat.testBit_eq_decide_div_mod_eq]
          have : n / 2 ^ m = 1 := by
            apply Nat.div_eq_of_lt_le
            · simpa using h1
            · rw [pow_succ] at h2; omega
          rw [this]; rfl
        cases hl : loopM m (fun i temp =>
          if n.testBit i then do
            let x ← readPre (precompute g) i
            pure (temp + x)
          else (pure temp : Outcome G)) 0 with
        | ok x =>
          rw [Outcome.bind_ok, if_pos htop, readPre, if_neg (by omega)]; rfl
        | undefined => rfl
        | _ =>
          exfalso
          have : ∀ k, (∃ x, loopM k (fun i temp =>
            if n.testBit i then do
              let x ← readPre (precompute g) i
              pure (temp + x)
            else (pure temp : Outcome G)) 0 = .ok x) ∨ loopM k (fun i temp =>
            if n.testBit i then do
              let x ← readPre (precompute g) i
              pure (temp + x)
            else (pure temp : Outcome G)) 0 = .undefined := by
            intro k
            induction k with
            | zero => exact Or.inl ⟨0, rfl⟩
            | succ k ih =>
              rw [loopM_succ]
              rcases ih with ⟨x, e⟩ | e
              · rw [e, Outcome.bind_ok]
                split_ifs
                · unfold readPre
                  split_ifs
                  · exact Or.inl ⟨_, rfl⟩
                  · exact Or.inr rfl
                · exact Or.inl ⟨_, rfl⟩
              · rw [e]; exact Or.inr rfl
          rcases this m with ⟨x, e⟩ | e <;> rw [e] at hl <;> cases hl
      · rw [ih h]; rfl
  unfold preExp
  rw [hsz]
  exact hb _ le_rfl

end

theorem p_lt : p < 2 ^ 254 := by decide +kernel

theorem lt_P {n : ℕ} (h : n < p) : n < 2 ^ P :=
  lt_trans (lt_trans h p_lt) (by decide +kernel)

theorem mod_lt_P (n : ℕ) : n % p < 2 ^ P := lt_P (Nat.mod_lt _ (by decide +kernel))

variable {G1 G2 GT : Type} [AddCommGroup G1] [AddCommGroup G2] [AddCommGroup GT]
  [Module (ZMod p) G1] [Module (ZMod p) G2] [Module (ZMod p) GT]

/-- The relation checked by `finalCheck`. -/
def FinalEq (E : Pairing G1 G2 GT) (K : VpdKey G1 G2) (idx : ℕ → ℕ) (n : ℕ)
    (r : ℕ → ℕ) (lhs : G1) (ans : ℕ) (witness : ℕ → G1) : Prop :=
  E.e E.g2 (lhs - ans • E.g1) =
    ∑ i ∈ range n, E.e (K.pubG2 (idx i) - r i • E.g2) (witness i)
      + E.e (K.pubG2 (idx n)) (witness n)

theorem finalCheck_eq [DecidableEq GT] (E : Pairing G1 G2 GT) (K : VpdKey G1 G2) (idx : ℕ → ℕ)
    (n : ℕ) (r : ℕ → ℕ) (lhs : G1) (ans : ℕ) (witness : ℕ → G1)
    (h1 : K.g1Pre = precompute E.g1) (h2 : K.g2Pre = precompute E.g2)
    (hr : ∀ i < n, r i < 2 ^ P) (ha : ans < 2 ^ P) :
    ∃ b, finalCheck E K idx n r lhs ans witness = .ok b ∧
      (b = true ↔ FinalEq E K idx n r lhs ans witness) := by
  unfold finalCheck
  rw [h1, h2, preExp_eq E.g1 ans ha, Outcome.ok_bind,
    loopM_pure (b' := fun i ea4 => ea4 + (if i < n then
      E.e (K.pubG2 (idx i) - r i • E.g2) (witness i) else E.e (K.pubG2 (idx i)) (witness i)))]
  · refine ⟨_, rfl, ?_⟩
    rw [loop_add_sum, zero_add, sum_range_succ, if_neg (lt_irrefl n), beq_iff_eq,
      sum_congr rfl (fun i hi => if_pos (mem_range.1 hi))]
    rfl
  · intro i hi s
    split_ifs with h
    · rw [preExp_eq _ _ (hr i h)]; rfl
    · rfl

theorem knowledgeCheck_iff [DecidableEq GT] (E : Pairing G1 G2 GT) (K : VpdKey G1 G2) (m : ℕ)
    (witness witnessa : ℕ → G1) : knowledgeCheck E K m witness witnessa = true ↔
      ∀ i < m, E.e E.g2 (witnessa i) = E.e K.g2a (witness i) := by
  unfold knowledgeCheck
  induction m with
  | zero => simp
  | succ m ih =>
    rw [loop_succ]
    constructor
    · intro h i hi
      split_ifs at h with h1
      rcases Nat.lt_or_ge i m with hm | hm
      · exact ih.1 h i hm
      · obtain rfl : i = m := by omega
        exact beq_iff_eq.1 h1
    · intro h
      rw [if_pos (beq_iff_eq.2 (h m (Nat.lt_succ_self m)))]
      exact ih.2 (fun i hi => h i (Nat.lt_succ_of_lt hi))

theorem nsmul_eq {G : Type} [AddCommGroup G] [Module (ZMod p) G] (n : ℕ) (x : G) :
    n • x = (n : ZMod p) • x := (Nat.cast_smul_eq_nsmul (ZMod p) n x).symm

/-- honest multiples pass the knowledge check -/
theorem knowledge_honest (E : Pairing G1 G2 GT) (a : ℕ) (x : G1) :
    E.e E.g2 (a • x) = E.e (a • E.g2) x := by
  rw [nsmul_eq, nsmul_eq, map_smul, map_smul, LinearMap.smul_apply]

/-- the final equation when everything is a multiple of the generators -/
theorem finalEq_scalars (E : Pairing G1 G2 GT) (K : VpdKey G1 G2) (idx : ℕ → ℕ) (n : ℕ)
    (r : ℕ → ℕ) (lhs : G1) (ans : ℕ) (witness : ℕ → G1) (s ω : ℕ → ZMod p) (c : ZMod p)
    (hpub : ∀ i ≤ n, K.pubG2 (idx i) = s i • E.g2) (hw : ∀ i ≤ n, witness i = ω i • E.g1)
    (hl : lhs = c • E.g1)
    (h : c - ans = ∑ i ∈ range n, (s i - r i) * ω i + s n * ω n) :
    FinalEq E K idx n r lhs ans witness := by
  unfold FinalEq
  rw [hl, nsmul_eq, ← sub_smul, map_smul, h, hpub n le_rfl, hw n le_rfl, add_smul, sum_smul]
  congr 1
  · refine sum_congr rfl (fun i hi => ?_)
    have hi := (mem_range.1 hi).le
    rw [hpub i hi, hw i hi, nsmul_eq, ← sub_smul, map_smul, map_smul, LinearMap.smul_apply,
      smul_smul, mul_comm]
  · rw [map_smul, map_smul, LinearMap.smul_apply, smul_smul, mul_comm]

end Vpd
end Libra
