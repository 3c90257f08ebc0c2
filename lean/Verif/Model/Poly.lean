import Mathlib.Algebra.Ring.Defs

/-!
# `linear_poly`, `quadratic_poly`, `cubic_poly`, `quadruple_poly`, `quintuple_poly`

Model of `/repo/src/linear_gkr/polynomial.cpp` and `/repo/include/linear_gkr/polynomial.h`, over an
arbitrary commutative ring; at `R = Fp` the operations are the limb operations of the code.
-/

namespace Libra

/-- `class linear_poly` (polynomial.h): `a x + b`. -/
@[ext] structure LinearPoly (R : Type) where
  a : R
  b : R
deriving DecidableEq, Repr

/-- `class quadratic_poly` (polynomial.h): `a x^2 + b x + c`. -/
@[ext] structure QuadraticPoly (R : Type) where
  a : R
  b : R
  c : R
deriving DecidableEq, Repr

/-- `class cubic_poly` (polynomial.h). -/
@[ext] structure CubicPoly (R : Type) where
  a : R
  b : R
  c : R
  d : R
deriving DecidableEq, Repr

/-- `class quadruple_poly` (polynomial.h): degree 4. -/
@[ext] structure QuadruplePoly (R : Type) where
  a : R
  b : R
  c : R
  d : R
  e : R
deriving DecidableEq, Repr

/-- `class quintuple_poly` (polynomial.h): degree 5. -/
@[ext] structure QuintuplePoly (R : Type) where
  a : R
  b : R
  c : R
  d : R
  e : R
  f : R
deriving DecidableEq, Repr

variable {R : Type} [CommRing R]

namespace LinearPoly
/-- `linear_poly::linear_poly(const field_element &x)` (polynomial.cpp:97-101). -/
def ofConst (x : R) : LinearPoly R := ⟨0, x⟩
/-- `linear_poly::operator +` (polynomial.cpp:103-106). -/
def add (p x : LinearPoly R) : LinearPoly R := ⟨p.a + x.a, p.b + x.b⟩
/-- `linear_poly::operator *` (polynomial.cpp:108-111). -/
def mul (p x : LinearPoly R) : QuadraticPoly R := ⟨p.a * x.a, p.a * x.b + p.b * x.a, p.b * x.b⟩
/-- `linear_poly::eval` (polynomial.cpp:113-116). -/
def eval (p : LinearPoly R) (x : R) : R := p.a * x + p.b
end LinearPoly

namespace QuadraticPoly
/-- `quadratic_poly::operator +` (polynomial.cpp:72-75). -/
def add (p x : QuadraticPoly R) : QuadraticPoly R := ⟨p.a + x.a, p.b + x.b, p.c + x.c⟩
/-- `quadratic_poly::operator *` (polynomial.cpp:77-80). -/
def mul (p : QuadraticPoly R) (x : LinearPoly R) : CubicPoly R :=
  ⟨p.a * x.a, p.a * x.b + p.b * x.a, p.b * x.b + p.c * x.a, p.c * x.b⟩
/-- `quadratic_poly::eval` (polynomial.cpp:82-85). -/
def eval (p : QuadraticPoly R) (x : R) : R := (p.a * x + p.b) * x + p.c
end QuadraticPoly

namespace CubicPoly
/-- `cubic_poly::operator +` (polynomial.cpp:53-56). -/
def add (p x : CubicPoly R) : CubicPoly R := ⟨p.a + x.a, p.b + x.b, p.c + x.c, p.d + x.d⟩
/-- `cubic_poly::eval` (polynomial.cpp:58-61). -/
def eval (p : CubicPoly R) (x : R) : R := ((p.a * x + p.b) * x + p.c) * x + p.d
end CubicPoly

namespace QuadruplePoly
/-- `quadruple_poly::operator +` (polynomial.cpp:34-37). -/
def add (p x : QuadruplePoly R) : QuadruplePoly R :=
  ⟨p.a + x.a, p.b + x.b, p.c + x.c, p.d + x.d, p.e + x.e⟩
/-- `quadruple_poly::eval` (polynomial.cpp:39-42). -/
def eval (p : QuadruplePoly R) (x : R) : R :=
  (((p.a * x + p.b) * x + p.c) * x + p.d) * x + p.e
end QuadruplePoly

namespace QuintuplePoly
/-- `quintuple_poly::operator +` (polynomial.cpp:14-17). -/
def add (p x : QuintuplePoly R) : QuintuplePoly R :=
  ⟨p.a + x.a, p.b + x.b, p.c + x.c, p.d + x.d, p.e + x.e, p.f + x.f⟩
/-- `quintuple_poly::eval` (polynomial.cpp:19-22). -/
def eval (p : QuintuplePoly R) (x : R) : R :=
  ((((p.a * x + p.b) * x + p.c) * x + p.d) * x + p.e) * x + p.f
end QuintuplePoly

end Libra
