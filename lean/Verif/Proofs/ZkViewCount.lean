import Verif.Proofs.ZkSoundBound
import Verif.Spec.ZkView

/-!
# How many challenges are not generic
-/

namespace Libra.Zk
open Libra Spec Finset Libra.FastTrack Counting
variable {F : Type} [Field F] [DecidableEq F] [Fintype F]

/-- the ways in which challenges can fail to be generic -/
abbrev NotGeneric (C : Circuit) : Type := Σ i : Fin C.depth, Fin (C.bl (i - 1)) ⊕ Fin (C.bl (i - 1)) ⊕ Fin 3

/-- what happens in each of the ways -/
def NotGeneric.holds {C : Circuit} (ch : Zk.Challenges F) : NotGeneric C → Prop
  | ⟨i, .inl j⟩ => (i : ℕ) ≠ 0 ∧ (ch.ru i j = 0 ∨ ch.ru i j = 1)
  | ⟨i, .inr (.inl j)⟩ => 2 ≤ (i : ℕ) ∧ (ch.rv i j = 0 ∨ ch.rv i j = 1)
  | ⟨i, .inr (.inr 0)⟩ => (i : ℕ) ≠ 0 ∧ ch.rho i = 0
  | ⟨i, .inr (.inr 1)⟩ => 2 ≤ (i : ℕ) ∧ 2 * ch.rc i = 1
  | ⟨i, .inr (.inr 2)⟩ => 2 ≤ (i : ℕ) ∧ ch.ru i (C.bl (i - 1) - 1) = ch.rv i (C.bl (i - 1) - 1)

/-- for how many values of its coin -/
def NotGeneric.bound {C : Circuit} : NotGeneric C → ℕ
  | ⟨i, .inl _⟩ => if (i : ℕ) = 0 then 0 else 2
  | ⟨i, .inr (.inl _)⟩ => if (i : ℕ) ≤ 1 then 0 else 2
  | ⟨i, .inr (.inr 0)⟩ => if (i : ℕ) = 0 then 0 else 1
  | ⟨i, .inr (.inr 1)⟩ => if (i : ℕ) ≤ 1 then 0 else 1
  | ⟨i, .inr (.inr 2)⟩ => if (i : ℕ) ≤ 1 then 0 else 1

/-- its coin -/
def NotGeneric.coin {C : Circuit} : NotGeneric C → ZkCoin C
  | ⟨i, .inl j⟩ => .inl (.ru i j)
  | ⟨i, .inr (.inl j)⟩ => .inl (.rv i j)
  | ⟨i, .inr (.inr 0)⟩ => .inr (.inl i)
  | ⟨i, .inr (.inr 1)⟩ => .inr (.inr i)
  | ⟨i, .inr (.inr 2)⟩ => if h : 0 < C.bl (i - 1) then .inl (.rv i ⟨C.bl (i - 1) - 1, by omega⟩) else .inr (.inl i)

theorem NotGeneric.sum_bound (C : Circuit) : ∑ k : NotGeneric C, k.bound =
    ∑ i ∈ range C.depth, if i = 0 then 0 else 2 * C.bl (i - 1) + 1 + if i = 1 then 0 else 2 * C.bl (i - 1) + 2 := by
  rw [Fintype.sum_sigma, ← Fin.sum_univ_eq_sum_range
    (fun i => if i = 0 then 0 else 2 * C.bl (i - 1) + 1 + if i = 1 then 0 else 2 * C.bl (i - 1) + 2)]
  refine sum_congr rfl (fun i _ => ?_)
  rw [Fintype.sum_sum_type, Fintype.sum_sum_type, Fin.sum_univ_three]
  simp only [bound, sum_const, card_univ, Fintype.card_fin, smul_eq_mul]
  split_ifs <;> omega

theorem NotGeneric.fiber {C : Circuit} (hlen : ∀ i, i + 1 < C.depth → 1 ≤ C.bl i) (k : NotGeneric C) :
    FiberBound (fun ω : ZkCoin C → F => k.holds (zkChallenges C ω)) k.coin k.bound := by
  intro ω
  match k with
  | ⟨i, .inl j⟩ =>
    by_cases hi : (i : ℕ) = 0
    · exact ⟨∅, by simp, fun x hx => absurd hi hx.1⟩
    refine ⟨{0, 1}, by rw [bound, if_neg hi]; exact card_le_two, fun x hx => ?_⟩
    have e : (zkChallenges C (Function.update ω (.inl (.ru i j)) x)).ru i j = x := by
      simp only [zkChallenges, challenges]
      rw [dif_pos i.2, dif_pos j.2]
      exact Function.update_self _ _ _
    simpa [coin, holds, e, hi] using hx
  | ⟨i, .inr (.inl j)⟩ =>
    by_cases hi : (i : ℕ) ≤ 1
    · exact ⟨∅, by simp, fun x hx => absurd hx.1 (by omega)⟩
    refine ⟨{0, 1}, by rw [bound, if_neg hi]; exact card_le_two, fun x hx => ?_⟩
    have e : (zkChallenges C (Function.update ω (.inl (.rv i j)) x)).rv i j = x := by
      simp only [zkChallenges, challenges]
      rw [dif_pos i.2, dif_pos j.2]
      exact Function.update_self _ _ _
    have hx := hx.2
    simpa [coin, e] using hx
  | ⟨i, .inr (.inr 0)⟩ =>
    by_cases hi : (i : ℕ) = 0
    · exact ⟨∅, by simp, fun x hx => absurd hi hx.1⟩
    refine ⟨{0}, by rw [bound, if_neg hi]; simp, fun x hx => ?_⟩
    have e : (zkChallenges C (Function.update ω (.inr (.inl i)) x)).rho i = x := by
      simp only [zkChallenges]
      rw [dif_pos i.2]
      exact Function.update_self _ _ _
    simpa [coin, e] using hx.2
  | ⟨i, .inr (.inr 1)⟩ =>
    by_cases hi : (i : ℕ) ≤ 1
    · exact ⟨∅, by simp, fun x hx => absurd hx.1 (by omega)⟩
    refine ⟨{2⁻¹}, by rw [bound, if_neg hi]; simp, fun x hx => ?_⟩
    have e : (zkChallenges C (Function.update ω (.inr (.inr i)) x)).rc i = x := by
      simp only [zkChallenges]
      rw [dif_pos i.2]
      exact Function.update_self _ _ _
    have h2 : 2 * x = 1 := by simpa [coin, e] using hx.2
    rw [mem_singleton]
    exact eq_inv_of_mul_eq_one_right h2
  | ⟨i, .inr (.inr 2)⟩ =>
    by_cases hi : (i : ℕ) ≤ 1
    · exact ⟨∅, by simp, fun x hx => absurd hx.1 (by omega)⟩
    have hn : 0 < C.bl (i - 1) := hlen _ (by omega)
    have hc : NotGeneric.coin (C := C) ⟨i, .inr (.inr 2)⟩ = .inl (.rv i ⟨C.bl (i - 1) - 1, by omega⟩) := dif_pos hn
    refine ⟨{(zkChallenges C (Function.update ω (NotGeneric.coin ⟨i, .inr (.inr 2)⟩) 0)).ru i (C.bl (i - 1) - 1)},
      by rw [bound, if_neg hi]; simp, fun x hx => ?_⟩
    rw [hc] at hx ⊢
    obtain ⟨-, -, hru, -⟩ := zkChallenges_update (F := F) ω (.inl (.rv i ⟨C.bl (i - 1) - 1, by omega⟩)) x 0
    have e : (zkChallenges C (Function.update ω (.inl (.rv i ⟨C.bl (i - 1) - 1, by omega⟩)) x)).rv i (C.bl (i - 1) - 1) = x := by
      simp only [zkChallenges, challenges]
      rw [dif_pos i.2, dif_pos (show C.bl (i - 1) - 1 < C.bl (i - 1) by omega)]
      exact Function.update_self _ _ _
    have hx := hx.2
    rw [e, hru _ _ (by simp [Coin.ru, Coin.rv])] at hx
    rw [mem_singleton, hx]

/-- the challenges that are not generic -/
theorem generic_count {C : Circuit} (hlen : ∀ i, i + 1 < C.depth → 1 ≤ C.bl i)
    [DecidablePred fun ω : ZkCoin C → F => ¬ Generic C (zkChallenges C ω)] :
    (univ.filter (fun ω : ZkCoin C → F => ¬ Generic C (zkChallenges C ω))).card * Fintype.card F ≤
      genericError C * Fintype.card (ZkCoin C → F) := by
  rw [genericError, ← NotGeneric.sum_bound C]
  refine card_union univ (fun k ω => NotGeneric.holds (zkChallenges C ω) k) NotGeneric.coin _
    (fun k _ => NotGeneric.fiber hlen k) _ (fun ω h => ?_)
  by_contra hno
  push Not at hno
  refine h ⟨fun i h1 hi e => ?_, fun i h1 hi j hj => ?_, fun i h1 hi j hj => ?_, fun i h1 hi e => ?_, fun i h1 hi e => ?_⟩
  · exact hno ⟨⟨i, hi⟩, .inr (.inr 0)⟩ (mem_univ _) ⟨by dsimp; omega, e⟩
  · have := hno ⟨⟨i, hi⟩, .inl ⟨j, hj⟩⟩ (mem_univ _)
    exact ⟨fun e => this ⟨by dsimp; omega, .inl e⟩, fun e => this ⟨by dsimp; omega, .inr e⟩⟩
  · have := hno ⟨⟨i, hi⟩, .inr (.inl ⟨j, hj⟩)⟩ (mem_univ _)
    exact ⟨fun e => this ⟨h1, .inl e⟩, fun e => this ⟨h1, .inr e⟩⟩
  · exact hno ⟨⟨i, hi⟩, .inr (.inr 2)⟩ (mem_univ _) ⟨h1, e⟩
  · exact hno ⟨⟨i, hi⟩, .inr (.inr 1)⟩ (mem_univ _) ⟨h1, e⟩

/-! ## The choices of the prover are finitely many -/

instance {n : ℕ} : Finite (LayerRand F n) :=
  Finite.of_injective (fun w : LayerRand F n => (w.R, w.g, w.rfR, w.tR, w.rfM, w.tM)) fun a b h => by
    simp only [Prod.mk.injEq] at h
    exact LayerRand.ext h.1 h.2.1 h.2.2.1 h.2.2.2.1 h.2.2.2.2.1 h.2.2.2.2.2

instance {C : Circuit} : Finite (Rand F C) :=
  Finite.of_injective (fun w : Rand F C => (w.layer, w.r, w.rf, w.rf2, w.t)) fun a b h => by
    simp only [Prod.mk.injEq] at h
    exact Rand.ext h.1 h.2.1 h.2.2.1 h.2.2.2.1 h.2.2.2.2

/-- two events whose fibres have the same size except over some bad points -/
theorem card_diff {α β : Type} [Fintype α] [Finite β] (bad : Finset α) (P Q : α → β → Prop)
    (h : ∀ a ∉ bad, Nat.card {b // P a b} = Nat.card {b // Q a b}) :
    |(Nat.card {x : α × β // P x.1 x.2} : ℚ) - Nat.card {x : α × β // Q x.1 x.2}| ≤ bad.card * Nat.card β := by
  classical
  have := Fintype.ofFinite β
  have key : ∀ P : α → β → Prop, (Nat.card {x : α × β // P x.1 x.2} : ℚ) = ∑ a, (Nat.card {b // P a b} : ℚ) := by
    intro P
    rw [Nat.card_congr (α := {x : α × β // P x.1 x.2}) (β := Σ a, {b // P a b})
      ⟨fun x => ⟨x.1.1, x.1.2, x.2⟩, fun y => ⟨(y.1, y.2.1), y.2.2⟩, fun _ => rfl, fun _ => rfl⟩, Nat.card_sigma]
    push_cast; rfl
  have le : ∀ (P : α → β → Prop) a, (Nat.card {b // P a b} : ℚ) ≤ Nat.card β := fun P a => by
    exact_mod_cast Nat.card_le_card_of_injective _ Subtype.val_injective
  rw [key, key, ← sum_sub_distrib, ← sum_subset (subset_univ bad) (fun a _ ha => by rw [h a ha, sub_self])]
  refine (abs_sum_le_sum_abs _ _).trans ((sum_le_sum fun a _ => ?_).trans_eq (by rw [sum_const, nsmul_eq_mul]))
  rw [abs_sub_le_iff]
  have h1 := le P a
  have h2 := le Q a
  have h3 : (0 : ℚ) ≤ Nat.card {b // P a b} := Nat.cast_nonneg _
  have h4 : (0 : ℚ) ≤ Nat.card {b // Q a b} := Nat.cast_nonneg _
  constructor <;> linarith

end Libra.Zk
