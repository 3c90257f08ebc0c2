import Mathlib.Data.Nat.Notation
import Mathlib.Data.BitVec

/-!
# Specification: the compression function of SHA-256 (FIPS 180-4)
-/

namespace Libra.Spec.Sha256

/-- a 32-bit word -/
abbrev Word := BitVec 32

/-- section 4.1.2 -/
def Ch (x y z : Word) : Word := (x &&& y) ^^^ (~~~x &&& z)
/-- section 4.1.2 -/
def Maj (x y z : Word) : Word := (x &&& y) ^^^ (x &&& z) ^^^ (y &&& z)
/-- section 4.1.2, upper case sigma 0 -/
def bigSigma0 (x : Word) : Word := x.rotateRight 2 ^^^ x.rotateRight 13 ^^^ x.rotateRight 22
/-- section 4.1.2, upper case sigma 1 -/
def bigSigma1 (x : Word) : Word := x.rotateRight 6 ^^^ x.rotateRight 11 ^^^ x.rotateRight 25
/-- section 4.1.2, lower case sigma 0 -/
def sigma0 (x : Word) : Word := x.rotateRight 7 ^^^ x.rotateRight 18 ^^^ (x >>> 3)
/-- section 4.1.2, lower case sigma 1 -/
def sigma1 (x : Word) : Word := x.rotateRight 17 ^^^ x.rotateRight 19 ^^^ (x >>> 10)

/-- the message schedule (section 6.2.2, step 1) for the message words `M 0`, ..., `M 15` -/
def schedule (M : ℕ → Word) : ℕ → Word
  | t => if t < 16 then M t
    else sigma1 (schedule M (t - 2)) + schedule M (t - 7) + sigma0 (schedule M (t - 15)) + schedule M (t - 16)
termination_by t => t
decreasing_by all_goals omega

/-- the working variables -/
structure Vars where
  a : Word
  b : Word
  c : Word
  d : Word
  e : Word
  f : Word
  g : Word
  h : Word
deriving DecidableEq

/-- one round (section 6.2.2, step 3) with round constant `k` and schedule word `w` -/
def round (k w : Word) (s : Vars) : Vars :=
  let t1 := s.h + bigSigma1 s.e + Ch s.e s.f s.g + k + w
  let t2 := bigSigma0 s.a + Maj s.a s.b s.c
  ⟨t1 + t2, s.a, s.b, s.c, s.d + t1, s.e, s.f, s.g⟩

/-- the first `n` rounds -/
def rounds (K W : ℕ → Word) (s : Vars) : ℕ → Vars
  | 0 => s
  | n + 1 => round (K n) (W n) (rounds K W s n)

/-- the working variables as a sequence of eight words -/
def Vars.word (s : Vars) : ℕ → Word
  | 0 => s.a
  | 1 => s.b
  | 2 => s.c
  | 3 => s.d
  | 4 => s.e
  | 5 => s.f
  | 6 => s.g
  | _ => s.h

/-- the compression function: the hash value `H` and the block `M` give the next hash value -/
def compress (K M H : ℕ → Word) (i : ℕ) : Word :=
  (rounds K (schedule M) ⟨H 0, H 1, H 2, H 3, H 4, H 5, H 6, H 7⟩ 64).word i + H i

/-- the round constants (section 4.2.2) -/
def roundConstants : List Word := [
  0x428a2f98, 0x71374491, 0xb5c0fbcf, 0xe9b5dba5, 0x3956c25b, 0x59f111f1, 0x923f82a4, 0xab1c5ed5,
  0xd807aa98, 0x12835b01, 0x243185be, 0x550c7dc3, 0x72be5d74, 0x80deb1fe, 0x9bdc06a7, 0xc19bf174,
  0xe49b69c1, 0xefbe4786, 0x0fc19dc6, 0x240ca1cc, 0x2de92c6f, 0x4a7484aa, 0x5cb0a9dc, 0x76f988da,
  0x983e5152, 0xa831c66d, 0xb00327c8, 0xbf597fc7, 0xc6e00bf3, 0xd5a79147, 0x06ca6351, 0x14292967,
  0x27b70a85, 0x2e1b2138, 0x4d2c6dfc, 0x53380d13, 0x650a7354, 0x766a0abb, 0x81c2c92e, 0x92722c85,
  0xa2bfe8a1, 0xa81a664b, 0xc24b8b70, 0xc76c51a3, 0xd192e819, 0xd6990624, 0xf40e3585, 0x106aa070,
  0x19a4c116, 0x1e376c08, 0x2748774c, 0x34b0bcb5, 0x391c0cb3, 0x4ed8aa4a, 0x5b9cca4f, 0x682e6ff3,
  0x748f82ee, 0x78a5636f, 0x84c87814, 0x8cc70208, 0x90befffa, 0xa4506ceb, 0xbef9a3f7, 0xc67178f2]

/-- the initial hash value (section 5.3.3) -/
def initialHash : List Word :=
  [0x6a09e667, 0xbb67ae85, 0x3c6ef372, 0xa54ff53a, 0x510e527f, 0x9b05688c, 0x1f83d9ab, 0x5be0cd19]

end Libra.Spec.Sha256
