import Verif.Proofs.RawExpr
import Verif.Model.RawStmts

/-!
# C04 (second half): every raw statement stores the field element it denotes

For canonical operands each raw statement of the code leaves a canonical value, equal to the value
of the corresponding field expression computed with the operators of `field_element`.
The operands are arbitrary canonical elements; `(x : Fp).val` are its limbs.
-/

namespace Libra.RawStmt
open Raw

/-- the operands of a statement, in order of occurrence -/
def operands (l : List Fp) : ℕ → Fp := fun i => l.getD i 0

/-- limbs of the operands -/
def limbsOf (l : List Fp) : ℕ → U512 := fun i => (l.getD i 0).val

theorem s01_stores (a b c d : Fp) :
    s01.run (limbsOf [a, b, c, d]) = (a * b + (c * d) : Fp).val :=
  (run_eq s01 (by decide +kernel) (operands [a, b, c, d])).trans
    (congrArg Fp.val (by simp only [s01, den, operands, List.getD_cons_zero, List.getD_cons_succ, add_zero, Nat.cast_ofNat]))

theorem s02_stores (a b : Fp) :
    s02.run (limbsOf [a, b]) = (a * b : Fp).val :=
  (run_eq s02 (by decide +kernel) (operands [a, b])).trans
    (congrArg Fp.val (by simp only [s02, den, operands, List.getD_cons_zero, List.getD_cons_succ, add_zero, Nat.cast_ofNat]))

theorem s03_stores (a b c : Fp) :
    s03.run (limbsOf [a, b, c]) = (a + (b * c) : Fp).val :=
  (run_eq s03 (by decide +kernel) (operands [a, b, c])).trans
    (congrArg Fp.val (by simp only [s03, den, operands, List.getD_cons_zero, List.getD_cons_succ, add_zero, Nat.cast_ofNat]))

theorem s04_stores (a b : Fp) :
    s04.run (limbsOf [a, b]) = (a + b : Fp).val :=
  (run_eq s04 (by decide +kernel) (operands [a, b])).trans
    (congrArg Fp.val (by simp only [s04, den, operands, List.getD_cons_zero, List.getD_cons_succ, add_zero, Nat.cast_ofNat]))

theorem s05_stores (a b : Fp) :
    s05.run (limbsOf [a, b]) = (a + b : Fp).val :=
  (run_eq s05 (by decide +kernel) (operands [a, b])).trans
    (congrArg Fp.val (by simp only [s05, den, operands, List.getD_cons_zero, List.getD_cons_succ, add_zero, Nat.cast_ofNat]))

theorem s06_stores (a b : Fp) :
    s06.run (limbsOf [a, b]) = (a - b : Fp).val :=
  (run_eq s06 (by decide +kernel) (operands [a, b])).trans
    (congrArg Fp.val (by simp only [s06, den, operands, List.getD_cons_zero, List.getD_cons_succ, add_zero, Nat.cast_ofNat]))

theorem s07_stores (a b c : Fp) :
    s07.run (limbsOf [a, b, c]) = (a - (b * c) : Fp).val :=
  (run_eq s07 (by decide +kernel) (operands [a, b, c])).trans
    (congrArg Fp.val (by simp only [s07, den, operands, List.getD_cons_zero, List.getD_cons_succ, add_zero, Nat.cast_ofNat]))

theorem s08_stores (a b c : Fp) :
    s08.run (limbsOf [a, b, c]) = (a + (b * c) : Fp).val :=
  (run_eq s08 (by decide +kernel) (operands [a, b, c])).trans
    (congrArg Fp.val (by simp only [s08, den, operands, List.getD_cons_zero, List.getD_cons_succ, add_zero, Nat.cast_ofNat]))

theorem s09_stores (a b c : Fp) :
    s09.run (limbsOf [a, b, c]) = (a + b - (2 * c * b) : Fp).val :=
  (run_eq s09 (by decide +kernel) (operands [a, b, c])).trans
    (congrArg Fp.val (by simp only [s09, den, operands, List.getD_cons_zero, List.getD_cons_succ, add_zero, Nat.cast_ofNat]))

theorem s10_stores (a b c : Fp) :
    s10.run (limbsOf [a, b, c]) = (a * b + c : Fp).val :=
  (run_eq s10 (by decide +kernel) (operands [a, b, c])).trans
    (congrArg Fp.val (by simp only [s10, den, operands, List.getD_cons_zero, List.getD_cons_succ, add_zero, Nat.cast_ofNat]))

theorem s11_stores (a b c d : Fp) :
    s11.run (limbsOf [a, b, c, d]) = (a * b + c - d : Fp).val :=
  (run_eq s11 (by decide +kernel) (operands [a, b, c, d])).trans
    (congrArg Fp.val (by simp only [s11, den, operands, List.getD_cons_zero, List.getD_cons_succ, add_zero, Nat.cast_ofNat]))

theorem s12_stores (a b c d e f : Fp) :
    s12.run (limbsOf [a, b, c, d, e, f]) = (a + (b * c) + (d * e) + f : Fp).val :=
  (run_eq s12 (by decide +kernel) (operands [a, b, c, d, e, f])).trans
    (congrArg Fp.val (by simp only [s12, den, operands, List.getD_cons_zero, List.getD_cons_succ, add_zero, Nat.cast_ofNat]))

theorem s13_stores (a b c d : Fp) :
    s13.run (limbsOf [a, b, c, d]) = (a + (b * c) + d : Fp).val :=
  (run_eq s13 (by decide +kernel) (operands [a, b, c, d])).trans
    (congrArg Fp.val (by simp only [s13, den, operands, List.getD_cons_zero, List.getD_cons_succ, add_zero, Nat.cast_ofNat]))

theorem s14_stores (a : Fp) :
    s14.run (limbsOf [a]) = (a : Fp).val :=
  (run_eq s14 (by decide +kernel) (operands [a])).trans
    (congrArg Fp.val (by simp only [s14, den, operands, List.getD_cons_zero, List.getD_cons_succ, add_zero, Nat.cast_ofNat]))

theorem s15_stores (a : Fp) :
    s15.run (limbsOf [a]) = (a : Fp).val :=
  (run_eq s15 (by decide +kernel) (operands [a])).trans
    (congrArg Fp.val (by simp only [s15, den, operands, List.getD_cons_zero, List.getD_cons_succ, add_zero, Nat.cast_ofNat]))

theorem s16_stores (a b c d : Fp) :
    s16.run (limbsOf [a, b, c, d]) = (a + (b * c * d) : Fp).val :=
  (run_eq s16 (by decide +kernel) (operands [a, b, c, d])).trans
    (congrArg Fp.val (by simp only [s16, den, operands, List.getD_cons_zero, List.getD_cons_succ, add_zero, Nat.cast_ofNat]))

theorem s17_stores (a b c d : Fp) :
    s17.run (limbsOf [a, b, c, d]) = (a * b * c + d : Fp).val :=
  (run_eq s17 (by decide +kernel) (operands [a, b, c, d])).trans
    (congrArg Fp.val (by simp only [s17, den, operands, List.getD_cons_zero, List.getD_cons_succ, add_zero, Nat.cast_ofNat]))

theorem s18_stores (a b c d : Fp) :
    s18.run (limbsOf [a, b, c, d]) = (a + (b * c) - (b * c * d) : Fp).val :=
  (run_eq s18 (by decide +kernel) (operands [a, b, c, d])).trans
    (congrArg Fp.val (by simp only [s18, den, operands, List.getD_cons_zero, List.getD_cons_succ, add_zero, Nat.cast_ofNat]))

theorem s19_stores (a b c : Fp) :
    s19.run (limbsOf [a, b, c]) = (a + b - (c * b) : Fp).val :=
  (run_eq s19 (by decide +kernel) (operands [a, b, c])).trans
    (congrArg Fp.val (by simp only [s19, den, operands, List.getD_cons_zero, List.getD_cons_succ, add_zero, Nat.cast_ofNat]))

theorem s20_stores (a b c d : Fp) :
    s20.run (limbsOf [a, b, c, d]) = (a * b + c - d : Fp).val :=
  (run_eq s20 (by decide +kernel) (operands [a, b, c, d])).trans
    (congrArg Fp.val (by simp only [s20, den, operands, List.getD_cons_zero, List.getD_cons_succ, add_zero, Nat.cast_ofNat]))

theorem s21_stores (a b : Fp) :
    s21.run (limbsOf [a, b]) = (a + b : Fp).val :=
  (run_eq s21 (by decide +kernel) (operands [a, b])).trans
    (congrArg Fp.val (by simp only [s21, den, operands, List.getD_cons_zero, List.getD_cons_succ, add_zero, Nat.cast_ofNat]))

theorem s22_stores (a : Fp) :
    s22.run (limbsOf [a]) = (a + a : Fp).val :=
  (run_eq s22 (by decide +kernel) (operands [a])).trans
    (congrArg Fp.val (by simp only [s22, den, operands, List.getD_cons_zero, List.getD_cons_succ, add_zero, Nat.cast_ofNat]))

theorem s23_stores (a b c d e : Fp) :
    s23.run (limbsOf [a, b, c, d, e]) = (a + (b * c + (d * e)) : Fp).val :=
  (run_eq s23 (by decide +kernel) (operands [a, b, c, d, e])).trans
    (congrArg Fp.val (by simp only [s23, den, operands, List.getD_cons_zero, List.getD_cons_succ, add_zero, Nat.cast_ofNat]))

theorem s24_stores (a b : Fp) :
    s24.run (limbsOf [a, b]) = (a - b : Fp).val :=
  (run_eq s24 (by decide +kernel) (operands [a, b])).trans
    (congrArg Fp.val (by simp only [s24, den, operands, List.getD_cons_zero, List.getD_cons_succ, add_zero, Nat.cast_ofNat]))

theorem s25_stores (a b c : Fp) :
    s25.run (limbsOf [a, b, c]) = (a + b - c : Fp).val :=
  (run_eq s25 (by decide +kernel) (operands [a, b, c])).trans
    (congrArg Fp.val (by simp only [s25, den, operands, List.getD_cons_zero, List.getD_cons_succ, add_zero, Nat.cast_ofNat]))

theorem s26_stores (a b c : Fp) :
    s26.run (limbsOf [a, b, c]) = (a - b + c : Fp).val :=
  (run_eq s26 (by decide +kernel) (operands [a, b, c])).trans
    (congrArg Fp.val (by simp only [s26, den, operands, List.getD_cons_zero, List.getD_cons_succ, add_zero, Nat.cast_ofNat]))

theorem s27_stores (a : Fp) :
    s27.run (limbsOf [a]) = (a : Fp).val :=
  (run_eq s27 (by decide +kernel) (operands [a])).trans
    (congrArg Fp.val (by simp only [s27, den, operands, List.getD_cons_zero, List.getD_cons_succ, add_zero, Nat.cast_ofNat]))

theorem s28_stores (a b c : Fp) :
    s28.run (limbsOf [a, b, c]) = (a + b + c : Fp).val :=
  (run_eq s28 (by decide +kernel) (operands [a, b, c])).trans
    (congrArg Fp.val (by simp only [s28, den, operands, List.getD_cons_zero, List.getD_cons_succ, add_zero, Nat.cast_ofNat]))

theorem s29_stores (a b c : Fp) :
    s29.run (limbsOf [a, b, c]) = (a + b - (b * c) : Fp).val :=
  (run_eq s29 (by decide +kernel) (operands [a, b, c])).trans
    (congrArg Fp.val (by simp only [s29, den, operands, List.getD_cons_zero, List.getD_cons_succ, add_zero, Nat.cast_ofNat]))

theorem s30_stores (a b c : Fp) :
    s30.run (limbsOf [a, b, c]) = (a + b - c - c : Fp).val :=
  (run_eq s30 (by decide +kernel) (operands [a, b, c])).trans
    (congrArg Fp.val (by simp only [s30, den, operands, List.getD_cons_zero, List.getD_cons_succ, add_zero, Nat.cast_ofNat]))

theorem s31_stores (a b : Fp) :
    s31.run (limbsOf [a, b]) = (a - b : Fp).val :=
  (run_eq s31 (by decide +kernel) (operands [a, b])).trans
    (congrArg Fp.val (by simp only [s31, den, operands, List.getD_cons_zero, List.getD_cons_succ, add_zero, Nat.cast_ofNat]))

theorem s32_stores (a b c : Fp) :
    s32.run (limbsOf [a, b, c]) = (a + b - (c * b) : Fp).val :=
  (run_eq s32 (by decide +kernel) (operands [a, b, c])).trans
    (congrArg Fp.val (by simp only [s32, den, operands, List.getD_cons_zero, List.getD_cons_succ, add_zero, Nat.cast_ofNat]))

theorem s33_stores (a b c d : Fp) :
    s33.run (limbsOf [a, b, c, d]) = (a * b * (c * d) : Fp).val :=
  (run_eq s33 (by decide +kernel) (operands [a, b, c, d])).trans
    (congrArg Fp.val (by simp only [s33, den, operands, List.getD_cons_zero, List.getD_cons_succ, add_zero, Nat.cast_ofNat]))

theorem s34_stores (a : Fp) :
    s34.run (limbsOf [a]) = (a : Fp).val :=
  (run_eq s34 (by decide +kernel) (operands [a])).trans
    (congrArg Fp.val (by simp only [s34, den, operands, List.getD_cons_zero, List.getD_cons_succ, add_zero, Nat.cast_ofNat]))

theorem s35_stores (a b c d e : Fp) :
    s35.run (limbsOf [a, b, c, d, e]) = (a + (b * c) + (d * e) : Fp).val :=
  (run_eq s35 (by decide +kernel) (operands [a, b, c, d, e])).trans
    (congrArg Fp.val (by simp only [s35, den, operands, List.getD_cons_zero, List.getD_cons_succ, add_zero, Nat.cast_ofNat]))

theorem s36_stores (a b c : Fp) :
    s36.run (limbsOf [a, b, c]) = (a * b * c : Fp).val :=
  (run_eq s36 (by decide +kernel) (operands [a, b, c])).trans
    (congrArg Fp.val (by simp only [s36, den, operands, List.getD_cons_zero, List.getD_cons_succ, add_zero, Nat.cast_ofNat]))

theorem s37_stores (a b c d e f g h i : Fp) :
    s37.run (limbsOf [a, b, c, d, e, f, g, h, i]) = (a + ((b * c + (d * e)) * (f * g) * (h * i)) : Fp).val :=
  (run_eq s37 (by decide +kernel) (operands [a, b, c, d, e, f, g, h, i])).trans
    (congrArg Fp.val (by simp only [s37, den, operands, List.getD_cons_zero, List.getD_cons_succ, add_zero, Nat.cast_ofNat]))

theorem s38_stores (a b c d e f : Fp) :
    s38.run (limbsOf [a, b, c, d, e, f]) = (a + ((b * c + (d * e)) * f) : Fp).val :=
  (run_eq s38 (by decide +kernel) (operands [a, b, c, d, e, f])).trans
    (congrArg Fp.val (by simp only [s38, den, operands, List.getD_cons_zero, List.getD_cons_succ, add_zero, Nat.cast_ofNat]))

/-- No raw statement ever reduces a value outside the range of the Barrett reduction: with
canonical operands every stored value is again canonical. -/
theorem all_canonical (e : Raw) (he : e ∈ all) (env : ℕ → Fp) :
    (e.run (fun i => (env i).val)).toNat < Spec.p := by
  have h : ∀ e ∈ all, e.ok = true := by decide +kernel
  exact (run_ok e (h e he) env).1

end Libra.RawStmt
