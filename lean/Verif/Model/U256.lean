/-!
# `u256b`: 256-bit integers with two 64-bit limbs and one 128-bit limb

Bit exact model of `/repo/src/linear_gkr/prime_field.cpp` lines 15-207 and
`/repo/include/linear_gkr/prime_field.h` lines 18-50. `unsigned long long` is `BitVec 64`,
`__uint128_t` is `BitVec 128`; the C++ integer conversions are `BitVec.setWidth`.
-/

namespace Libra

/-- `unsigned long long` -/
abbrev U64 := BitVec 64
/-- `__uint128_t` -/
abbrev U128 := BitVec 128

/-- `class u256b` (prime_field.h:18-22). -/
structure U256 where
  lo : U64
  mid : U64
  hi : U128
deriving DecidableEq, Repr

namespace U256

/-- The number a `u256b` stands for. -/
def toNat (x : U256) : Nat := x.lo.toNat + 2 ^ 64 * x.mid.toNat + 2 ^ 128 * x.hi.toNat

/-- `__max_ull` (prime_field.cpp:8): `ULLONG_MAX` as a 128-bit value. -/
def maxUll : U128 := 18446744073709551615#128

/-- A C++ `bool` used in integer arithmetic. -/
def ofBool {n : Nat} (b : Bool) : BitVec n := if b then 1#n else 0#n

/-- `u256b::u256b()` (prime_field.cpp:15). -/
def zero : U256 := ⟨0, 0, 0⟩

/-- `u256b::u256b(const unsigned long long &x)` (prime_field.cpp:16-21). -/
def ofU64 (x : U64) : U256 := ⟨x, 0, 0⟩

/-- `u256b::u256b(const __uint128_t &x)` (prime_field.cpp:22-27). -/
def ofU128 (x : U128) : U256 := ⟨(x &&& maxUll).setWidth 64, (x >>> 64).setWidth 64, 0⟩

/-- `u256b::operator +` (prime_field.cpp:41-54). -/
def add (a x : U256) : U256 :=
  let lo := a.lo + x.lo
  let carry : Bool := decide (lo < a.lo)
  let midd : U128 := a.mid.setWidth 128 + x.mid.setWidth 128
  let midd := if midd = maxUll then midd + ofBool carry else midd
  ⟨lo, a.mid + x.mid + ofBool carry, a.hi + x.hi + (midd >>> 64)⟩

/-- `u256b::operator -` (prime_field.cpp:56-63): adds the one's complement. -/
def sub (a x : U256) : U256 := add a ⟨~~~x.lo, ~~~x.mid, ~~~x.hi⟩

/-- `u256b::operator *` (prime_field.cpp:65-84). -/
def mul (a x : U256) : U256 :=
  let lolo : U128 := a.lo.setWidth 128 * x.lo.setWidth 128
  let lomid1 : U128 := a.mid.setWidth 128 * x.lo.setWidth 128
  let lomid2 : U128 := a.lo.setWidth 128 * x.mid.setWidth 128
  let carry : U128 := lolo >>> 64
  let carry2 : U128 := ((lomid1 >>> 64) + (lomid2 >>> 64)) +
    (((lomid1 &&& maxUll) + (lomid2 &&& maxUll) + carry) >>> 64)
  ⟨lolo.setWidth 64,
   lomid1.setWidth 64 + lomid2.setWidth 64 + carry.setWidth 64,
   a.lo.setWidth 128 * x.hi + a.hi * x.lo.setWidth 128 +
     a.mid.setWidth 128 * x.mid.setWidth 128 +
     ((a.mid.setWidth 128 * x.hi + a.hi * x.mid.setWidth 128) <<< 64) + carry2⟩

/-- `u256b::left_128` (prime_field.cpp:85-92). -/
def left128 (a : U256) : U256 :=
  ⟨0, 0, a.lo.setWidth 128 ||| (a.mid.setWidth 128 <<< 64)⟩

/-- `u256b::operator &` (prime_field.cpp:94-101). -/
def and (a x : U256) : U256 := ⟨a.lo &&& x.lo, a.mid &&& x.mid, a.hi &&& x.hi⟩

/-- `u256b::operator <=` (prime_field.cpp:111-124). -/
def le (a x : U256) : Bool :=
  if a.hi < x.hi then true
  else if a.hi > x.hi then false
  else if a.mid < x.mid then true
  else if a.mid > x.mid then false
  else if a.lo ≤ x.lo then true
  else false

/-- `u256b::operator !=` (prime_field.cpp:125-128). -/
def ne (a x : U256) : Bool := a.hi != x.hi || a.lo != x.lo || a.mid != x.mid

/-- `u256b::operator >` (prime_field.cpp:130-141). -/
def gt (a x : U256) : Bool :=
  if a.hi > x.hi then true
  else if a.hi < x.hi then false
  else if a.mid > x.mid then true
  else if a.mid < x.mid then false
  else decide (a.lo > x.lo)

/-- `u256b::operator <` (prime_field.cpp:142-153). -/
def lt (a x : U256) : Bool :=
  if a.hi < x.hi then true
  else if a.hi > x.hi then false
  else if a.mid < x.mid then true
  else if a.mid > x.mid then false
  else decide (a.lo < x.lo)

/-- `mul_no_hi` (prime_field.cpp:305-321): product of two values below `2^128`. -/
def mulNoHi (a b : U256) : U256 :=
  let lolo : U128 := a.lo.setWidth 128 * b.lo.setWidth 128
  let lomid1 : U128 := a.mid.setWidth 128 * b.lo.setWidth 128
  let lomid2 : U128 := a.lo.setWidth 128 * b.mid.setWidth 128
  let carry : U128 := lolo >>> 64
  let carry2 : U128 := ((lomid1 >>> 64) + (lomid2 >>> 64)) +
    (((lomid1 &&& maxUll) + (lomid2 &&& maxUll) + carry) >>> 64)
  ⟨lolo.setWidth 64,
   lomid1.setWidth 64 + lomid2.setWidth 64 + carry.setWidth 64,
   a.mid.setWidth 128 * b.mid.setWidth 128 + carry2⟩

end U256

/-- Outcome of an operation whose C++ behaviour may be undefined. -/
inductive Ub (α : Type) where
  | ok (a : α)
  | undefined
deriving DecidableEq, Repr

namespace Ub
/-- sequencing: undefined behaviour propagates -/
def bind {α β : Type} : Ub α → (α → Ub β) → Ub β
  | .ok a, f => f a
  | .undefined, _ => .undefined
instance : Monad Ub where
  pure := .ok
  bind := bind
end Ub

namespace U256

/-- `x >> s` on an unsigned type of width `w`: shifting by `w` or more, or by a negative
amount, is undefined in C++. -/
def shr {w : Nat} (x : BitVec w) (s : Int) : Ub (BitVec w) :=
  if 0 ≤ s ∧ s < w then .ok (x >>> s.toNat) else .undefined

/-- `__builtin_clzll`: undefined on 0. -/
def clz (x : U64) : Ub Int :=
  if x = 0 then .undefined else .ok (63 - Nat.log2 x.toNat)

/-- `u256b::bit_at` (prime_field.cpp:102-110). -/
def bitAt (a : U256) (pos : Int) : Ub Nat :=
  if pos < 64 then do let s ← shr a.lo pos; pure (s &&& 1).toNat
  else if pos < 128 then do let s ← shr a.mid (pos - 64); pure (s &&& 1).toNat
  else do let s ← shr a.hi (pos - 128); pure (s &&& 1).toNat

/-- `u256b::testBit` (prime_field.cpp:193-207), with its `<= 64` / `<= 128` boundaries. -/
def testBit (a : U256) (i : Int) : Ub Nat :=
  if i ≤ 64 then do let s ← shr a.lo i; pure (s &&& 1).toNat
  else if i ≤ 128 then do let s ← shr a.mid (i - 64); pure (s &&& 1).toNat
  else do let s ← shr a.hi (i - 128); pure (s &&& 1).toNat

/-- `u256b::bitLen` (prime_field.cpp:170-191). -/
def bitLen (a : U256) : Ub Int :=
  if a.hi ≠ 0 then
    let hihi : U64 := (a.hi >>> 64).setWidth 64
    let hilo : U64 := (a.hi &&& maxUll).setWidth 64
    if hihi ≠ 0 then do let c ← clz hihi; pure (256 - c)
    else do let c ← clz hilo; pure (256 - 64 - c)
  else if a.mid ≠ 0 then do let c ← clz a.mid; pure (128 - c)
  else do let c ← clz a.lo; pure (64 - c)

end U256
end Libra
