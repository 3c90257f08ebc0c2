import Verif.Model.U256

/-!
# `u512b` and the prime field

Bit exact model of `/repo/src/linear_gkr/prime_field.cpp` lines 29-39, 249-643.
The global variables set by `prime_field::init` (lines 489-504) are constants here:
`init` is called once, with the modulus string of `main_*.cpp`, before anything else.
-/

namespace Libra

/-- `class u512b` (prime_field.h:57-61). -/
structure U512 where
  lo : U128
  mid : U128
  hi : U256
deriving DecidableEq, Repr

namespace U256

/-- `u256b::u256b(const char*, int, int)` (prime_field.cpp:29-39) on a list of characters:
the loop runs from the last character to the first. `(unsigned long long)(x[i]-'0')` is the
64-bit two's complement of the (possibly negative) difference. -/
def ofDigits (base : Int) (x : List Char) : U256 :=
  (x.foldr (fun c (s : U256 × U256) =>
    (s.1.add (s.2.mul (ofU64 (BitVec.ofInt 64 ((c.toNat : Int) - 48)))),
     s.2.mul (ofU64 (BitVec.ofInt 64 base)))) (ofU64 0, ofU64 1)).1

end U256

namespace U512

/-- The number a `u512b` stands for. -/
def toNat (x : U512) : Nat := x.lo.toNat + 2 ^ 128 * x.mid.toNat + 2 ^ 256 * x.hi.toNat

/-- `u512b::u512b(const u256b &x)` (prime_field.cpp:249-256). -/
def ofU256 (x : U256) : U512 :=
  ⟨(x.mid.setWidth 128 <<< 64) ||| x.lo.setWidth 128, x.hi, ⟨0, 0, 0⟩⟩

/-- `u512b::u512b(const __uint128_t &x)` (prime_field.cpp:257-264). -/
def ofU128 (x : U128) : U512 := ⟨x, 0, ⟨0, 0, 0⟩⟩

/-- `u512b::u512b()` (prime_field.cpp:277). -/
def zero : U512 := ⟨0, 0, ⟨0, 0, 0⟩⟩

/-- `u512b::operator +` (prime_field.cpp:278-291). -/
def add (a x : U512) : U512 :=
  let lo := a.lo + x.lo
  let carry : U128 := U256.ofBool (decide (lo < a.lo))
  let mid := a.mid + x.mid + carry
  let carry2 : U128 :=
    if carry = 0 then U256.ofBool (decide (mid < a.mid)) else U256.ofBool (decide (mid ≤ a.mid))
  ⟨lo, mid, (a.hi.add x.hi).add (U256.ofU128 carry2)⟩

/-- The global `one` after `init` (prime_field.cpp:212, 497), converted to `u512b`. -/
def one : U512 := ofU256 (U256.ofU64 1)

/-- `u512b::operator -` (prime_field.cpp:293-303): two's complement, using the global `one`. -/
def sub (a x : U512) : U512 :=
  let notx : U512 := ⟨~~~x.lo, ~~~x.mid, ⟨~~~x.hi.lo, ~~~x.hi.mid, ~~~x.hi.hi⟩⟩
  let notx := notx.add one
  a.add notx

/-- `u512b::operator *` (prime_field.cpp:322-358): multiplies the low 256 bits only, with
two early returns. -/
def mul (a x : U512) : U512 :=
  if x.mid = 0 ∧ x.lo = 0 then x
  else if a.mid = 0 ∧ a.lo = 0 then a
  else
    let alo := U256.ofU128 a.lo
    let xlo := U256.ofU128 x.lo
    let amid := U256.ofU128 a.mid
    let xmid := U256.ofU128 x.mid
    let lolo := U256.mulNoHi alo xlo
    let lomid1 := U256.mulNoHi amid xlo
    let lomid2 := U256.mulNoHi alo xmid
    let midmid := U256.mulNoHi amid xmid
    let carry : U128 := lolo.hi
    let tmp := (lomid1.add lomid2).add (U256.ofU128 carry)
    let carry2 := ((U256.ofU128 lomid1.hi).add (U256.ofU128 lomid2.hi)).add
      (U256.ofU128 (((U256.ofU128 (lomid1.lo.setWidth 128 ||| (lomid1.mid.setWidth 128 <<< 64))).add
        (U256.ofU128 (lomid2.lo.setWidth 128 ||| (lomid2.mid.setWidth 128 <<< 64)))).add
        (U256.ofU128 carry)).hi)
    ⟨lolo.lo.setWidth 128 ||| (lolo.mid.setWidth 128 <<< 64),
     tmp.lo.setWidth 128 ||| (tmp.mid.setWidth 128 <<< 64),
     midmid.add carry2⟩

/-- `u512b::operator !=` (prime_field.cpp:433-436). -/
def ne (a x : U512) : Bool := a.lo != x.lo || a.mid != x.mid || a.hi.ne x.hi

/-- `u512b::operator >` (prime_field.cpp:437-448). -/
def gt (a x : U512) : Bool :=
  if a.hi.gt x.hi then true
  else if a.hi.lt x.hi then false
  else if a.mid > x.mid then true
  else if a.mid < x.mid then false
  else decide (a.lo > x.lo)

/-- `u512b::operator >=` (prime_field.cpp:450-461). -/
def ge (a x : U512) : Bool :=
  if a.hi.gt x.hi then true
  else if a.hi.lt x.hi then false
  else if a.mid > x.mid then true
  else if a.mid < x.mid then false
  else decide (a.lo ≥ x.lo)

/-- `u512b::operator <` (prime_field.cpp:463-474). -/
def lt (a x : U512) : Bool :=
  if a.hi.lt x.hi then true
  else if a.hi.gt x.hi then false
  else if a.mid < x.mid then true
  else if a.mid > x.mid then false
  else decide (a.lo < x.lo)

/-- `u512b::u512b(const char*, int, int)` (prime_field.cpp:265-275); the base argument is
ignored, 10 is used. -/
def ofDigits (x : List Char) : U512 :=
  (x.foldr (fun c (s : U512 × U512) =>
    (s.1.add (s.2.mul (ofU256 (U256.ofU64 (BitVec.ofInt 64 ((c.toNat : Int) - 48))))),
     s.2.mul (ofU256 (U256.ofU64 10)))) (ofU256 (U256.ofU64 0), ofU256 (U256.ofU64 1))).1

/-- `u512b::random` (prime_field.cpp:475-480); the arguments are the three `rand()` results
(an `int` in `0..RAND_MAX = 2^31-1`). -/
def random (r1 r2 r3 : Nat) : U512 :=
  ⟨BitVec.ofNat 128 r1, BitVec.ofNat 128 r2, U256.ofU64 (BitVec.ofNat 64 r3)⟩

end U512

namespace PrimeField

/-- The decimal string passed to `prime_field::init` by every `main`
(main_zk.cpp, main_fast_track.cpp:12, ClogC.cpp). -/
def modString : String :=
  "16798108731015832284940804142231733909759579603404752749028378864165570215949"

/-- `factor_s` (prime_field.cpp:500). -/
def factorString : String :=
  "49885853761272603568320884710755151782187486770207743353506441985236025007921"

/-- global `mod` after `init` (prime_field.cpp:493). -/
def mod : U256 := U256.ofDigits 10 modString.toList

/-- global `my_factor` after `init` (prime_field.cpp:501). -/
def myFactor : U256 := U256.ofDigits 10 factorString.toList

/-- global `mod_512` after `init` (prime_field.cpp:503). -/
def mod512 : U512 := U512.ofU256 mod

/-- global `minus_mod_512` after `init` (prime_field.cpp:502):
`field_element(0).value - mod`. -/
def minusMod512 : U512 := (U512.ofU256 (U256.ofU64 0)).sub (U512.ofU256 mod)

end PrimeField

open PrimeField in
/-- `u512b::operator %` (prime_field.cpp:362-383): Barrett reduction. The argument is not used
by the code, which reads the globals `mod` and `my_factor`. -/
def U512.mod (a : U512) : U512 :=
  if a.lo = 0 ∧ a.mid = 0 ∧ a.hi.lo = 0 ∧ a.hi.mid = 0 ∧ a.hi.hi = 0 then a
  else
    let hiFactor := (U512.ofU256 a.hi).mul (U512.ofU256 myFactor)
    let lo256bit : U512 := ⟨a.lo, a.mid, U256.ofU64 0⟩
    let loFactor := lo256bit.mul (U512.ofU256 myFactor)
    let res := hiFactor.add (U512.ofU256 loFactor.hi)
    let t : U256 :=
      ⟨((res.hi.lo <<< 4).setWidth 128 ||| (res.mid >>> 124)).setWidth 64,
       res.hi.mid <<< 4 ||| (res.hi.lo >>> 60),
       res.hi.hi <<< 4 ||| (res.hi.mid >>> 60).setWidth 128⟩
    let t512 := U512.ofU256 t
    let t512 := a.sub (t512.mul (U512.ofU256 PrimeField.mod))
    if t512.ge (U512.ofU256 PrimeField.mod) then t512.sub (U512.ofU256 PrimeField.mod) else t512

/-- `class field_element` (prime_field.h:90-94) is its `value`. -/
abbrev FE := U512

namespace FE
open PrimeField

/-- `field_element::field_element()` (prime_field.cpp:508-511). -/
def zero : FE := U512.ofU256 (U256.ofU64 0)

/-- `field_element::field_element(const int x)` (prime_field.cpp:512-515); the `int` is
sign-extended by the cast to `unsigned long long`. -/
def ofInt (x : Int) : FE := U512.ofU256 (U256.ofU64 (BitVec.ofInt 64 x))

/-- `field_element::field_element(const unsigned long long x)` (prime_field.cpp:516-519). -/
def ofU64 (x : U64) : FE := U512.ofU256 (U256.ofU64 x)

/-- `field_element::operator +` (prime_field.cpp:520-527). -/
def add (a b : FE) : FE :=
  let r := U512.add b a
  if U512.ge r mod512 then U512.add r minusMod512 else r

/-- `field_element::mul_non_mod` (prime_field.cpp:528-533). -/
def mulNonMod (a b : FE) : FE := U512.mul b a

/-- `field_element::operator *` (prime_field.cpp:534-539). -/
def mul (a b : FE) : FE := U512.mod (U512.mul b a)

/-- `field_element::operator -` (prime_field.cpp:546-554). -/
def sub (a b : FE) : FE :=
  if U512.ge a b then U512.sub a b else U512.sub (U512.add a mod512) b

/-- `field_element::operator !=` (prime_field.cpp:573-576). -/
def ne (a b : FE) : Bool := U512.ne a b

/-- `field_element::operator ==` (prime_field.cpp:626-629). -/
def eq (a b : FE) : Bool := !(ne a b)

/-- `prime_field::random` (prime_field.cpp:566-572). -/
def random (r1 r2 r3 : Nat) : FE := U512.mod (U512.random r1 r2 r3)

/-- `field_element::bit_stream` (prime_field.cpp:630-643). -/
def bitStream (a : FE) : List Bool :=
  (List.range 128).map (fun i => (a.lo >>> i &&& 1) != 0) ++
  (List.range 128).map (fun i => (a.mid >>> i &&& 1) != 0)

/-- `field_element::to_string` (prime_field.cpp:555-565): the 512 characters written to the
static buffer, whose size is 512 (no terminating zero is stored). -/
def toStringBuf (a : FE) : Ub (List Char) := do
  let hi ← (List.range 256).mapM (fun (i : Nat) => a.hi.bitAt (Int.ofNat i))
  pure ((List.range 128).map (fun i => Char.ofNat ((a.lo >>> i &&& 1).toNat + 48)) ++
    (List.range 128).map (fun i => Char.ofNat ((a.mid >>> i &&& 1).toNat + 48)) ++
    hi.map (fun b => Char.ofNat (b % 2 + 48)))

/-- The 256 characters `field_element::to_gmp_class` (prime_field.cpp:604-625) hands to
`mpz_class(str, 2)`, or `none` if the assertion `value.hi == 0` fails. -/
def toGmpString (a : FE) : Option (List Char) :=
  if a.hi.ne (U256.ofU64 0) then none
  else some (((List.range 128).map (fun i => Char.ofNat ((a.lo >>> i &&& 1).toNat + 48)) ++
    (List.range 128).map (fun i => Char.ofNat ((a.mid >>> i &&& 1).toNat + 48))).reverse)

/-- `field_element::bitLen` (prime_field.cpp:577-603). -/
def bitLen (a : FE) : Ub Int :=
  if a.hi.ne (U256.ofU64 0) then do let b ← a.hi.bitLen; pure (b + 256)
  else if a.mid ≠ 0 then
    let hi : U64 := (a.mid >>> 64).setWidth 64
    let lo : U64 := (a.mid &&& U256.maxUll).setWidth 64
    if hi ≠ 0 then do let c ← U256.clz hi; pure (256 - c)
    else do let c ← U256.clz lo; pure (256 - 64 - c)
  else
    let hi : U64 := (a.lo >>> 64).setWidth 64
    let lo : U64 := (a.lo &&& U256.maxUll).setWidth 64
    if hi ≠ 0 then do let c ← U256.clz hi; pure (128 - c)
    else do let c ← U256.clz lo; pure (64 - c)

end FE
end Libra
