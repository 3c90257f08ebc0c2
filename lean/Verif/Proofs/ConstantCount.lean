import Verif.Proofs.ConstantLayers
import Verif.Proofs.SoundnessBound

/-!
# How often constants go unnoticed
-/

namespace Libra.FastTrack
open Libra Spec Finset Counting
variable {F : Type} [CommRing F] [IsDomain F] [DecidableEq F] [Fintype F]

/-- the table becomes zero with coordinate `j` -/
def Vanishes (n : ℕ) (T : ℕ → F) (r : ℕ → F) (j : ℕ) : Prop :=
  (∃ b < 2 ^ (n - j), foldK r j T b ≠ 0) ∧ ∀ b < 2 ^ (n - (j + 1)), foldK r (j + 1) T b = 0

omit [IsDomain F] [DecidableEq F] [Fintype F] in
theorem vanishes_of {n : ℕ} {T : ℕ → F} (hT : ∃ g < 2 ^ n, T g ≠ 0) {r : ℕ → F} (h0 : mle n T r = 0) : ∃ j < n, Vanishes n T r j := by
  by_contra hcon
  have key : ∀ m ≤ n, ∃ b < 2 ^ (n - m), foldK r m T b ≠ 0 := by
    intro m
    induction m with
    | zero => intro _; obtain ⟨g, hg, hne⟩ := hT; exact ⟨g, by simpa using hg, hne⟩
    | succ m ih =>
      intro hm
      by_contra hz
      refine hcon ⟨m, by omega, ih (by omega), fun b hb => ?_⟩
      by_contra hne
      exact hz ⟨b, hb, hne⟩
  obtain ⟨b, hb, hne⟩ := key n le_rfl
  obtain rfl : b = 0 := by simpa using hb
  rw [foldK_mle] at hne
  exact hne h0

omit [Fintype F] in
theorem vanishes_bound {ι : Type} [DecidableEq ι] {n : ℕ} (T : ℕ → F) (pt : (ι → F) → ℕ → F) (e : Fin n → ι)
    (he : Function.Injective e) (hpt : ∀ ω (j : Fin n), pt ω j = ω (e j)) (j : Fin n) :
    FiberBound (fun ω => Vanishes n T (pt ω) j) (e j) 1 := by
  intro ω
  by_cases hx : ∃ x0, Vanishes n T (pt (Function.update ω (e j) x0)) j
  swap
  · exact ⟨∅, by simp, fun x h => absurd ⟨x, h⟩ hx⟩
  obtain ⟨x0, ⟨b, hb, hne⟩, -⟩ := hx
  set U := foldK (pt (Function.update ω (e j) x0)) j T with hU
  have hpow := pow_sub_succ j.2
  obtain ⟨S, hS, hr⟩ := Counting.line_root (U (2 * (b / 2) + 1) - U (2 * (b / 2))) (U (2 * (b / 2)))
    (by
      by_contra hcon
      simp only [not_or, not_not] at hcon
      have h1 : U (2 * (b / 2)) = 0 := hcon.2
      have h2 : U (2 * (b / 2) + 1) = 0 := by have := hcon.1; rwa [h1, sub_zero] at this
      rcases Nat.mod_two_eq_zero_or_one b with h | h
      · exact hne (by rw [show b = 2 * (b / 2) by omega]; exact h1)
      · exact hne (by rw [show b = 2 * (b / 2) + 1 by omega]; exact h2))
  refine ⟨S, hS, fun x hx => hr x ?_⟩
  have h2 := hx.2 (b / 2) (by omega)
  rw [foldK] at h2
  have hcong : foldK (pt (Function.update ω (e j) x)) j T = U := by
    refine foldK_congr _ (fun k hk => ?_)
    have hkn : k < n := hk.trans j.2
    have hne : e ⟨k, hkn⟩ ≠ e j := fun h => by have := congrArg Fin.val (he h); simp at this; omega
    rw [show pt (Function.update ω (e j) x) k = _ from hpt _ ⟨k, hkn⟩, show pt (Function.update ω (e j) x0) k = _ from hpt _ ⟨k, hkn⟩,
      Function.update_of_ne hne, Function.update_of_ne hne]
  rw [hcong, hpt, Function.update_self, foldT] at h2
  linear_combination h2

/-- challenges for which the constants of a layer have weight zero -/
theorem weight_count {C : Circuit} (acc : (Coin C → F) → Prop) [DecidablePred acc]
    {i : ℕ} (hd : i < C.depth) (hc : ∃ g < 2 ^ C.bl i, (constants C i g : F) ≠ 0)
    (hacc : ∀ ω, acc ω → runWeight C (challenges C ω) i = 0) :
    (univ.filter acc).card * Fintype.card F ≤ (C.bl i + 1) * Fintype.card (Coin C → F) := by
  classical
  by_cases htop : i + 1 = C.depth
  · have ei : C.depth - 1 = i := by omega
    have := card_union (univ : Finset (Fin (C.bl i))) (fun j (ω : Coin C → F) => Vanishes (C.bl i) (constants C i) (challenges C ω).r0 j)
      (fun j => (.r0 (Fin.cast (by rw [ei]) j) : Coin C)) (fun _ => 1)
      (fun j _ => vanishes_bound (constants C i) (fun ω => (challenges C ω).r0) (fun j => (.r0 (Fin.cast (by rw [ei]) j) : Coin C))
        (fun a b hab => by simpa [Coin.r0] using hab) (fun ω j => by simp [challenges, ei]; rfl) j)
      acc
      (fun ω hω => by
        have h0 := hacc ω hω
        rw [runWeight, if_pos htop] at h0
        obtain ⟨j, hj, hv⟩ := vanishes_of hc h0
        exact ⟨⟨j, hj⟩, mem_univ _, hv⟩)
    simp only [sum_const, card_univ, Fintype.card_fin, smul_eq_mul, mul_one] at this
    refine this.trans (Nat.mul_le_mul_right _ (by omega))
  · have hd1 : i + 1 < C.depth := by omega
    set E : Option (Fin (C.bl i)) → (Coin C → F) → Prop := fun k ω => match k with
      | some j => Vanishes (C.bl i) (constants C i) ((challenges C ω).ru (i + 1)) j
      | none => mle (C.bl i) (constants C i) ((challenges C ω).ru (i + 1)) ≠ 0 ∧ runWeight C (challenges C ω) i = 0 with hE
    set c : Option (Fin (C.bl i)) → Coin C := fun k => match k with
      | some j => .ru ⟨i + 1, hd1⟩ j
      | none => .alpha ⟨i + 1, hd1⟩ with hcdef
    have hb : ∀ k ∈ (univ : Finset (Option (Fin (C.bl i)))), FiberBound (E k) (c k) 1 := by
      intro k _
      cases k with
      | some j =>
        exact vanishes_bound (constants C i) (fun ω => (challenges C ω).ru (i + 1)) (fun j => (.ru ⟨i + 1, hd1⟩ j : Coin C))
          (fun a b hab => by simpa [Coin.ru] using hab) (fun ω j => by simp [challenges, hd1]) j
      | none =>
        apply fiberBound_of
        intro ω x0 hx0
        obtain ⟨S, hS, hr⟩ := Counting.line_root
          (mle (C.bl i) (constants C i) ((challenges C (Function.update ω (c none) x0)).ru (i + 1)))
          ((challenges C (Function.update ω (c none) x0)).beta (i + 1) *
            mle (C.bl i) (constants C i) ((challenges C (Function.update ω (c none) x0)).rv (i + 1))) (.inl hx0.1)
        refine ⟨S, hS, fun x hx => hr x ?_⟩
        obtain ⟨-, -, u1, u2, -, u3⟩ := challenges_update ω (c none) x x0
        have e1 : (challenges C (Function.update ω (c none) x)).ru (i + 1) = (challenges C (Function.update ω (c none) x0)).ru (i + 1) :=
          funext (fun j => u1 (i + 1) j (fun _ _ => by simp [hcdef, Coin.ru, Coin.alpha]))
        have e2 : (challenges C (Function.update ω (c none) x)).rv (i + 1) = (challenges C (Function.update ω (c none) x0)).rv (i + 1) :=
          funext (fun j => u2 (i + 1) j (fun _ _ => by simp [hcdef, Coin.rv, Coin.alpha]))
        have e3 : (challenges C (Function.update ω (c none) x)).beta (i + 1) = (challenges C (Function.update ω (c none) x0)).beta (i + 1) :=
          u3 (i + 1) (fun _ => by simp [hcdef, Coin.beta, Coin.alpha])
        have e4 : (challenges C (Function.update ω (c none) x)).alpha (i + 1) = x := by
          simp [challenges, hd1, hcdef]
        have h0 := hx.2
        rw [runWeight, if_neg htop, e1, e2, e3, e4] at h0
        linear_combination h0
    have := card_union univ E c (fun _ => 1) hb
      acc
      (fun ω hω => by
        have h0 := hacc ω hω
        by_cases hz : mle (C.bl i) (constants C i) ((challenges C ω).ru (i + 1)) = 0
        · obtain ⟨j, hj, hv⟩ := vanishes_of hc hz
          exact ⟨some ⟨j, hj⟩, mem_univ _, hv⟩
        · exact ⟨none, mem_univ _, hz, h0⟩)
    simpa only [sum_const, card_univ, Fintype.card_option, Fintype.card_fin, smul_eq_mul, mul_one] using this

/-- accepted runs on a circuit with a constant that is not zero -/
theorem constants_count {C : Circuit} (h : WellFormedUpToConstants false C) (fixed : Bool) (junk : Prover F) (tables : BetaTables F)
    {i : ℕ} (hi : 1 ≤ i) (hd : i < C.depth) (hc : ∃ g < 2 ^ C.bl i, (constants C i g : F) ≠ 0) :
    (univ.filter (fun ω : Coin C → F => verifyWith fixed C (honest C junk) tables (challenges C ω) = .ok ())).card * Fintype.card F ≤
      (C.bl i + 1) * Fintype.card (Coin C → F) := by
  refine weight_count _ hd hc (fun ω hω => ?_)
  rw [constants_run h] at hω
  split_ifs at hω with hall
  exact hall i hd hi

end Libra.FastTrack
