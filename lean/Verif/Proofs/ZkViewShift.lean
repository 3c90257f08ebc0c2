import Verif.Proofs.ZkViewLayer
import Verif.Proofs.VpdForm

/-!
# Moving the values of a layer into its mask
-/

namespace Libra.Zk
open Libra Spec Finset FastTrack Props
variable {F : Type} [Field F]

/-- The coefficients of `(l0 + l1 x) (y - c)`, where `(l0 + l1 x) (1 - 2 c)` is `du / Zu` at `xu` and `dv / Zv`
at `xv`. -/
def dvec (c xu xv Zu Zv du dv : F) : Fin 6 → F :=
  let au := du / (Zu * (1 - 2 * c))
  let av := dv / (Zv * (1 - 2 * c))
  let l1 := (au - av) / (xu - xv)
  let l0 := au - l1 * xu
  ![-(l0 * c), -(l1 * c), 0, l0, 0, l1]

theorem dvec_neg (c xu xv Zu Zv du dv : F) (k : Fin 6) :
    dvec c xu xv Zu Zv (-du) (-dv) k = -dvec c xu xv Zu Zv du dv k := by
  fin_cases k <;> simp [dvec] <;> ring

theorem dvec_u {c xu xv Zu Zv du dv : F} {R R' : Fin 6 → F}
    (h : ∀ k, R' k = R k + dvec c xu xv Zu Zv du dv k) (y : F) :
    maskRPoly (pad R') xu y = maskRPoly (pad R) xu y + du / (Zu * (1 - 2 * c)) * (y - c) := by
  obtain rfl : R' = fun k => R k + dvec c xu xv Zu Zv du dv k := funext h
  simp [maskRPoly, pad, dvec]
  ring

theorem dvec_v {c xu xv Zu Zv du dv : F} {R R' : Fin 6 → F} (hx : xu ≠ xv)
    (h : ∀ k, R' k = R k + dvec c xu xv Zu Zv du dv k) (y : F) :
    maskRPoly (pad R') xv y = maskRPoly (pad R) xv y + dv / (Zv * (1 - 2 * c)) * (y - c) := by
  obtain rfl : R' = fun k => R k + dvec c xu xv Zu Zv du dv k := funext h
  have hx' : xu - xv ≠ 0 := sub_ne_zero.2 hx
  set au := du / (Zu * (1 - 2 * c)) with hau
  set av := dv / (Zv * (1 - 2 * c)) with hav
  have key : au - (au - av) / (xu - xv) * xu + (au - av) / (xu - xv) * xv = av := by
    field_simp
    ring
  simp [maskRPoly, pad, dvec, ← hau, ← hav]
  linear_combination (y - c) * key

/-- what the change of the mask does at one of the two points -/
theorem sr_shift {c x Z d : F} {R R' : ℕ → F}
    (h : ∀ y, maskRPoly R' x y = maskRPoly R x y + d / (Z * (1 - 2 * c)) * (y - c)) (hZ : Z ≠ 0) (hc : 2 * c ≠ 1) :
    maskRPoly R' x c = maskRPoly R x c ∧ Z * sr R' x = Z * sr R x + d := by
  have hc' : 1 - 2 * c ≠ 0 := fun e => hc (by linear_combination -e)
  refine ⟨by rw [h]; ring, ?_⟩
  rw [sr, sr, h, h]
  have : Z * (d / (Z * (1 - 2 * c)) * (1 - 2 * c)) = d := by field_simp
  linear_combination this

theorem ZAt_ne_zero {r : ℕ → F} {n : ℕ} (h : ∀ j < n, r j ≠ 0 ∧ r j ≠ 1) : ZAt r n ≠ 0 := by
  rw [ZAt, prod_ne_zero_iff]
  intro j hj
  obtain ⟨h0, h1⟩ := h j (mem_range.1 hj)
  exact mul_ne_zero (sub_ne_zero.2 h1.symm) h0

variable [Gmp F] [LawfulGmp F]

/-- integers below `p` are determined by the field elements -/
theorem nat_inj {a b : ℕ} (ha : a < p) (hb : b < p) (h : (a : F) = b) : a = b := by
  obtain ⟨q, hq⟩ := CharP.exists F
  have hd : q ∣ p := (CharP.cast_eq_zero_iff F q p).1 LawfulGmp.char
  have hq1 : q ≠ 1 := fun e => by subst e; exact CharP.char_ne_one F 1 rfl
  obtain rfl : q = p := ((Nat.dvd_prime (Fact.out : p.Prime)).1 hd).resolve_left hq1
  exact CharP.natCast_injOn_Iio F p ha hb h

end Libra.Zk
