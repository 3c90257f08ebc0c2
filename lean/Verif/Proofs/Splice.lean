import Verif.Proofs.FastTrackComplete

/-!
# Round polynomials as partial hypercube sums
-/

namespace Libra
open Spec Finset
variable {F : Type} [CommRing F]

theorem eqPoly_corner_sum (m b : ℕ) (hb : b < 2 ^ m) (f : ℕ → F) :
    ∑ i ∈ range (2 ^ m), eqPoly m (corner b) i * f i = f b := mle_corner m f b hb

/-- a table folded along `r_0..r_{k-1}, x` is the extension at the spliced point -/
theorem fold_splice {n k : ℕ} (hk : k < n) (r : ℕ → F) (x : F) (T : ℕ → F) (b : ℕ)
    (hb : b < 2 ^ (n - (k + 1))) : foldT x (foldK r k T) b = mle n T (splice r k x b) := by
  obtain ⟨m, rfl⟩ : ∃ m, n = (k + 1) + m := ⟨n - (k + 1), by omega⟩
  rw [Nat.add_sub_cancel_left] at hb
  have h1 : foldT x (foldK r k T) = foldK (splice r k x b) (k + 1) T := by
    have e1 : foldK r k T = foldK (splice r k x b) k T :=
      foldK_congr T (fun j hj => by rw [splice, if_pos hj])
    have e2 : splice r k x b k = x := by simp [splice]
    rw [foldK, ← e1, e2]
  rw [h1, foldK_eq, mle, pow_add 2 (k + 1) m, sum_range_mul_pow]
  have : ∀ i ∈ range (2 ^ m), ∑ z ∈ range (2 ^ (k + 1)),
      eqPoly (k + 1 + m) (splice r k x b) (z + 2 ^ (k + 1) * i) * T (z + 2 ^ (k + 1) * i) =
      eqPoly m (corner b) i * ∑ z ∈ range (2 ^ (k + 1)), eqPoly (k + 1) (splice r k x b) z *
        T (z + 2 ^ (k + 1) * i) := by
    intro i _
    rw [mul_sum]
    refine sum_congr rfl (fun z hz => ?_)
    have hz := mem_range.1 hz
    rw [eqPoly_split, Nat.add_mul_mod_self_left, Nat.mod_eq_of_lt hz,
      Nat.add_mul_div_left _ _ (by positivity), Nat.div_eq_of_lt hz, zero_add]
    have : eqPoly m (fun j => splice r k x b (k + 1 + j)) i = eqPoly m (corner b) i :=
      eqPoly_congr_r i (fun j _ => by
        simp only [splice]
        rw [if_neg (by omega), if_neg (by omega), Nat.add_sub_cancel_left])
    rw [this]; ring
  rw [sum_congr rfl this, eqPoly_corner_sum m b hb]

/-- the round polynomial in terms of the extensions of the tables -/
theorem polyAt_splice {n k : ℕ} (hk : k < n) (r A V B : ℕ → F) (x : F) :
    polyAt n r A V B k x = ∑ b ∈ range (2 ^ (n - (k + 1))),
      (mle n A (splice r k x b) * mle n V (splice r k x b) + mle n B (splice r k x b)) := by
  rw [polyAt, roundValue, tableSum]
  refine sum_congr rfl (fun b hb => ?_)
  have hb := mem_range.1 hb
  rw [fold_splice hk r x A b hb, fold_splice hk r x V b hb, fold_splice hk r x B b hb]

theorem halfSum_eq_sum {zk : Bool} {C : Circuit} {i : ℕ} (hl : LayerOk zk C i) (α β : F)
    (r0 r1 V x : ℕ → F) :
    halfSum C i (comb (C.bl i) α β r0 r1) (eqPoly (C.bl (i - 1)) x) (mle (C.bl (i - 1)) V x) V =
      ∑ y ∈ range (2 ^ C.bl (i - 1)), layerPoly C i α β r0 r1 V x (corner y) := by
  simp only [layerPoly, halfSum]
  rw [sum_comm]
  refine sum_congr rfl (fun g hg => ?_)
  have hg := mem_range.1 hg
  rw [gateHalf_eq_sum (hl.gates g hg) (hl.v0 g hg), mul_sum]
  refine sum_congr rfl (fun y hy => ?_)
  rw [mle_corner _ _ _ (mem_range.1 hy)]

end Libra
