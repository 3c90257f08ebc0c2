import Verif.Model.Transcript

/-!
# The block function of the hash

`/repo/include/infrastructure/my_hhash.h`. An `__m128i` is a 128-bit value whose byte `i` holds the bits
`8 i, ..., 8 i + 7`. The intrinsics are modelled after the operation given for each of them in the Intel manual (volume 2:
AESENC, AESENCLAST, AESKEYGENASSIST, PSHUFD, PSLLDQ), with the table of substitutions of the instructions.
-/

namespace Libra
namespace Aes

/-- byte `i` of an `__m128i` -/
def byte (x : BitVec 128) (i : ℕ) : BitVec 8 := x.extractLsb' (8 * i) 8

/-- 32-bit element `j` of an `__m128i` -/
def dword (x : BitVec 128) (j : ℕ) : BitVec 32 := x.extractLsb' (32 * j) 32

/-- the `__m128i` with the bytes `f 0, ..., f 15` -/
def pack (f : ℕ → BitVec 8) : BitVec 128 :=
  f 15 ++ f 14 ++ f 13 ++ f 12 ++ f 11 ++ f 10 ++ f 9 ++ f 8 ++
    f 7 ++ f 6 ++ f 5 ++ f 4 ++ f 3 ++ f 2 ++ f 1 ++ f 0

/-- the `__m128i` with the 32-bit elements `d0`, `d1`, `d2`, `d3` -/
def pack4 (d0 d1 d2 d3 : BitVec 32) : BitVec 128 := d3 ++ d2 ++ d1 ++ d0

/-- the substitution table of the AES instructions -/
def sboxTable : List ℕ :=
  [0x63, 0x7c, 0x77, 0x7b, 0xf2, 0x6b, 0x6f, 0xc5, 0x30, 0x01, 0x67, 0x2b, 0xfe, 0xd7, 0xab, 0x76,
   0xca, 0x82, 0xc9, 0x7d, 0xfa, 0x59, 0x47, 0xf0, 0xad, 0xd4, 0xa2, 0xaf, 0x9c, 0xa4, 0x72, 0xc0,
   0xb7, 0xfd, 0x93, 0x26, 0x36, 0x3f, 0xf7, 0xcc, 0x34, 0xa5, 0xe5, 0xf1, 0x71, 0xd8, 0x31, 0x15,
   0x04, 0xc7, 0x23, 0xc3, 0x18, 0x96, 0x05, 0x9a, 0x07, 0x12, 0x80, 0xe2, 0xeb, 0x27, 0xb2, 0x75,
   0x09, 0x83, 0x2c, 0x1a, 0x1b, 0x6e, 0x5a, 0xa0, 0x52, 0x3b, 0xd6, 0xb3, 0x29, 0xe3, 0x2f, 0x84,
   0x53, 0xd1, 0x00, 0xed, 0x20, 0xfc, 0xb1, 0x5b, 0x6a, 0xcb, 0xbe, 0x39, 0x4a, 0x4c, 0x58, 0xcf,
   0xd0, 0xef, 0xaa, 0xfb, 0x43, 0x4d, 0x33, 0x85, 0x45, 0xf9, 0x02, 0x7f, 0x50, 0x3c, 0x9f, 0xa8,
   0x51, 0xa3, 0x40, 0x8f, 0x92, 0x9d, 0x38, 0xf5, 0xbc, 0xb6, 0xda, 0x21, 0x10, 0xff, 0xf3, 0xd2,
   0xcd, 0x0c, 0x13, 0xec, 0x5f, 0x97, 0x44, 0x17, 0xc4, 0xa7, 0x7e, 0x3d, 0x64, 0x5d, 0x19, 0x73,
   0x60, 0x81, 0x4f, 0xdc, 0x22, 0x2a, 0x90, 0x88, 0x46, 0xee, 0xb8, 0x14, 0xde, 0x5e, 0x0b, 0xdb,
   0xe0, 0x32, 0x3a, 0x0a, 0x49, 0x06, 0x24, 0x5c, 0xc2, 0xd3, 0xac, 0x62, 0x91, 0x95, 0xe4, 0x79,
   0xe7, 0xc8, 0x37, 0x6d, 0x8d, 0xd5, 0x4e, 0xa9, 0x6c, 0x56, 0xf4, 0xea, 0x65, 0x7a, 0xae, 0x08,
   0xba, 0x78, 0x25, 0x2e, 0x1c, 0xa6, 0xb4, 0xc6, 0xe8, 0xdd, 0x74, 0x1f, 0x4b, 0xbd, 0x8b, 0x8a,
   0x70, 0x3e, 0xb5, 0x66, 0x48, 0x03, 0xf6, 0x0e, 0x61, 0x35, 0x57, 0xb9, 0x86, 0xc1, 0x1d, 0x9e,
   0xe1, 0xf8, 0x98, 0x11, 0x69, 0xd9, 0x8e, 0x94, 0x9b, 0x1e, 0x87, 0xe9, 0xce, 0x55, 0x28, 0xdf,
   0x8c, 0xa1, 0x89, 0x0d, 0xbf, 0xe6, 0x42, 0x68, 0x41, 0x99, 0x2d, 0x0f, 0xb0, 0x54, 0xbb, 0x16]

/-- substitution of one byte -/
def sbox (b : BitVec 8) : BitVec 8 := BitVec.ofNat 8 (sboxTable.getD b.toNat 0)

/-- `SubWord` of the manual -/
def subWord (w : BitVec 32) : BitVec 32 :=
  sbox (w.extractLsb' 24 8) ++ sbox (w.extractLsb' 16 8) ++ sbox (w.extractLsb' 8 8) ++
    sbox (w.extractLsb' 0 8)

/-- `RotWord` of the manual: byte 0 becomes byte 3 -/
def rotWord (w : BitVec 32) : BitVec 32 := w.rotateRight 8

/-- `_mm_aeskeygenassist_si128` -/
def keygenassist (a : BitVec 128) (imm : BitVec 8) : BitVec 128 :=
  let x1 := dword a 1
  let x3 := dword a 3
  let rcon : BitVec 32 := imm.setWidth 32
  pack4 (subWord x1) (rotWord (subWord x1) ^^^ rcon) (subWord x3) (rotWord (subWord x3) ^^^ rcon)

/-- `_mm_shuffle_epi32(a, _MM_SHUFFLE(i3, i2, i1, i0))` -/
def shuffle (a : BitVec 128) (i3 i2 i1 i0 : ℕ) : BitVec 128 :=
  pack4 (dword a i0) (dword a i1) (dword a i2) (dword a i3)

/-- `_mm_slli_si128(a, n)`: shift left by `n` bytes -/
def slli (a : BitVec 128) (n : ℕ) : BitVec 128 := a <<< (8 * n)

/-- doubling in the field of 256 elements -/
def double (b : BitVec 8) : BitVec 8 := (b <<< 1) ^^^ (if b.msb then 0x1b#8 else 0#8)

/-- `ShiftRows` of the manual: byte `r + 4 c` is taken from column `c + r` -/
def shiftRows (a : BitVec 128) : BitVec 128 :=
  pack (fun i => byte a (i % 4 + 4 * ((i / 4 + i % 4) % 4)))

/-- `SubBytes` of the manual -/
def subBytes (a : BitVec 128) : BitVec 128 := pack (fun i => sbox (byte a i))

/-- `MixColumns` of the manual -/
def mixColumns (a : BitVec 128) : BitVec 128 :=
  pack (fun i =>
    let c := 4 * (i / 4)
    let x0 := byte a (c + i % 4)
    let x1 := byte a (c + (i + 1) % 4)
    let x2 := byte a (c + (i + 2) % 4)
    let x3 := byte a (c + (i + 3) % 4)
    double x0 ^^^ (double x1 ^^^ x1) ^^^ x2 ^^^ x3)

/-- `_mm_aesenc_si128` -/
def aesenc (a k : BitVec 128) : BitVec 128 := mixColumns (subBytes (shiftRows a)) ^^^ k

/-- `_mm_aesenclast_si128` -/
def aesenclast (a k : BitVec 128) : BitVec 128 := subBytes (shiftRows a) ^^^ k

/-- `aes128_sec_extend` (my_hhash.h:32-78): the `switch` on the index and the three shifts -/
def secExtend (secret : BitVec 128) (rconIndex : ℕ) : Outcome (BitVec 128) := do
  let tmp ← match rconIndex with
    | 0 => .ok (keygenassist secret 0x01)
    | 1 => .ok (keygenassist secret 0x02)
    | 2 => .ok (keygenassist secret 0x04)
    | 3 => .ok (keygenassist secret 0x08)
    | 4 => .ok (keygenassist secret 0x10)
    | 5 => .ok (keygenassist secret 0x20)
    | 6 => .ok (keygenassist secret 0x40)
    | 7 => .ok (keygenassist secret 0x80)
    | 8 => .ok (keygenassist secret 0x1B)
    | 9 => .ok (keygenassist secret 0x36)
    | _ => .assertFail
  let tmp := shuffle tmp 3 3 3 3
  let secret := loop 3 (fun _ s => s ^^^ slli s 4) secret
  return secret ^^^ tmp

/-- `aes128_enc` (my_hhash.h:80-93) -/
def enc (plain secret : BitVec 128) : Outcome (BitVec 128) := do
  let plain := plain ^^^ secret
  let (plain, secret) ← loopM 9 (fun i (s : BitVec 128 × BitVec 128) => do
    let secret ← secExtend s.2 i
    return (aesenc s.1 secret, secret)) (plain, secret)
  let secret ← secExtend secret 9
  return aesenclast plain secret

/-- `my_hhash` (my_hhash.h:96-112): `src` are 64 bytes, `dst` 32 bytes -/
def myHhash (src : BitVec 512) : Outcome (BitVec 256) := do
  let key0 := src.extractLsb' 0 128
  let text0 := src.extractLsb' 128 128
  let dst0 := (← enc text0 key0) ^^^ text0
  let key1 := src.extractLsb' 256 128
  let text1 := src.extractLsb' 384 128
  let dst1 := (← enc text1 key1) ^^^ text1
  return dst1 ++ dst0

end Aes
end Libra
