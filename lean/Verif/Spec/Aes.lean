import Mathlib.Data.Fin.Basic
import Mathlib.Data.Nat.Notation
import Mathlib.Logic.Function.Iterate

/-!
# AES-128 (FIPS 197)

Bytes are elements of the field of 256 elements. A state is a 4 by 4 array of bytes, rows first, filled column by column.
-/

namespace Libra
namespace Spec
namespace Aes

/-- a byte (FIPS 197, 3.1) -/
abbrev Byte : Type := BitVec 8

/-- a word: four bytes (3.5) -/
abbrev Word : Type := Fin 4 → Byte

/-- the state, `s r c` in row `r` and column `c` (3.4) -/
abbrev State : Type := Fin 4 → Fin 4 → Byte

/-- `xtime`: multiplication by `x` modulo `x^8 + x^4 + x^3 + x + 1` (4.2.1) -/
def xtime (b : Byte) : Byte := if b.msb then (b <<< 1) ^^^ 0x1b#8 else b <<< 1

/-- product of two bytes: the sum of `a x^i` over the bits `i` of `b` (4.2) -/
def gmul (a b : Byte) : Byte :=
  (List.range 8).foldl (fun s i => if b.getLsbD i then s ^^^ xtime^[i] a else s) 0

/-- square of a byte -/
def sq (a : Byte) : Byte := gmul a a

/-- the multiplicative inverse, `a^254 = a^2 a^4 ... a^128`; 0 for 0 (`inv_spec` in `Props/Aes`) -/
def inv (a : Byte) : Byte := (List.range 7).foldl (fun s k => gmul s (sq^[k + 1] a)) 1

/-- the S-box (5.1.1): inverse followed by an affine map over the bits, where bit `i` of the result is the
sum of the bits `i`, `i + 4`, `i + 5`, `i + 6`, `i + 7` modulo 8 and bit `i` of `63` -/
def sbox (a : Byte) : Byte :=
  let b := inv a
  b ^^^ b.rotateRight 4 ^^^ b.rotateRight 5 ^^^ b.rotateRight 6 ^^^ b.rotateRight 7 ^^^ 0x63#8

/-- `SUBBYTES` (5.1.1) -/
def subBytes (s : State) : State := fun r c => sbox (s r c)

/-- `SHIFTROWS` (5.1.2) -/
def shiftRows (s : State) : State := fun r c => s r (c + r)

/-- `MIXCOLUMNS` (5.1.3): every column is multiplied by the matrix with the rows
`2 3 1 1`, `1 2 3 1`, `1 1 2 3`, `3 1 1 2` -/
def mixColumns (s : State) : State := fun r c =>
  gmul 2 (s r c) ^^^ gmul 3 (s (r + 1) c) ^^^ s (r + 2) c ^^^ s (r + 3) c

/-- `ROTWORD` (5.2) -/
def rotWord (w : Word) : Word := fun i => w (i + 1)

/-- `SUBWORD` (5.2) -/
def subWord (w : Word) : Word := fun i => sbox (w i)

/-- `Rcon[j]` (5.2): `x^(j-1), 0, 0, 0` -/
def rcon (j : ℕ) : Word := fun i => if i = 0 then xtime^[j - 1] 1 else 0

/-- sum of two words -/
def xorWord (v w : Word) : Word := fun i => v i ^^^ w i

/-- `KEYEXPANSION` for `Nk = 4` (5.2): the words `w[i]` made from the key bytes -/
def keyWord (key : Fin 16 → Byte) (i : ℕ) : Word :=
  if h : i < 4 then fun j => key ⟨4 * i + j, by omega⟩
  else
    let temp := keyWord key (i - 1)
    let temp := if i % 4 = 0 then xorWord (subWord (rotWord temp)) (rcon (i / 4)) else temp
    xorWord (keyWord key (i - 4)) temp
termination_by i
decreasing_by all_goals omega

/-- `ADDROUNDKEY` (5.1.4) in round `n` -/
def addRoundKey (w : ℕ → Word) (n : ℕ) (s : State) : State := fun r c => s r c ^^^ w (4 * n + c) r

/-- `CIPHER` for `Nr = 10` (5.1) -/
def cipher (key : Fin 16 → Byte) (s : State) : State :=
  let w := keyWord key
  let s := addRoundKey w 0 s
  let s := (List.range 9).foldl (fun s i =>
    addRoundKey w (i + 1) (mixColumns (shiftRows (subBytes s)))) s
  addRoundKey w 10 (shiftRows (subBytes s))

/-- the state with the bytes `x 0, x 1, ..., x 15` (3.4) -/
def stateOf (x : Fin 16 → Byte) : State := fun r c => x ⟨r + 4 * c, by omega⟩

/-- the bytes of a 128-bit value, in the order of memory -/
def bytesOf (x : BitVec 128) : Fin 16 → Byte := fun i => x.extractLsb' (8 * i) 8

/-- AES-128: the bytes of the block made from the bytes of a key and of a block -/
def aes128 (key block : Fin 16 → Byte) : Fin 16 → Byte := fun i =>
  cipher key (stateOf block) ⟨i % 4, by omega⟩ ⟨i / 4, by omega⟩

end Aes
end Spec
end Libra
