import Verif.Spec.Circuit
import Mathlib.Data.Nat.Log

/-!
# Specification: circuit files

A circuit file lists its layers; a layer lists its gates, one per line, as type, number and two
operands. `circuitOf` is the circuit such a file describes.
-/

namespace Libra.Spec

/-- a line `ty g u v` of a circuit file -/
structure Line where
  ty : ℤ
  g : ℤ
  u : ℤ
  v : ℤ
deriving DecidableEq, Repr

/-- the numbers on a line -/
def Line.tokens (l : Line) : List ℤ := [l.ty, l.g, l.u, l.v]

/-- a circuit file as a list of layers -/
abbrev File := List (List Line)

/-- the number of gates, then the gates -/
def layerTokens (L : List Line) : List ℤ := (L.length : ℤ) :: L.flatMap Line.tokens

/-- the number of layers, then the layers -/
def tokens (f : File) : List ℤ := (f.length : ℤ) :: f.flatMap layerTokens

/-- the numbers fit the variables they are read into: two `int`s and two `long long`s -/
def Line.InRange (l : Line) : Prop :=
  (-2 ^ 31 ≤ l.ty ∧ l.ty < 2 ^ 31) ∧ (-2 ^ 31 ≤ l.g ∧ l.g < 2 ^ 31) ∧
  (-2 ^ 63 ≤ l.u ∧ l.u < 2 ^ 63) ∧ (-2 ^ 63 ≤ l.v ∧ l.v < 2 ^ 63)

/-- the file can be read number by number: at least one layer, no empty layer, and sizes and
numbers within the ranges of the program -/
def Readable (f : File) : Prop :=
  f ≠ [] ∧ f.length < 2 ^ 31 ∧
  ∀ L ∈ f, L ≠ [] ∧ L.length ≤ 2 ^ 30 ∧ ∀ l ∈ L, l.InRange

/-- the gates of a layer are numbered 0, 1, 2, ... -/
def Numbered (L : List Line) : Prop := ∀ j (h : j < L.length), L[j].g = j

/-- the first layer of the file holds inputs (type 3) and dummies (type 2) -/
def Inputs (L : List Line) : Prop := ∀ l ∈ L, l.ty = 2 ∨ l.ty = 3

/-- The wires of a gate refer to positions of the layer before, which has `2^n` of them; the operands
of a constant are not wires, those of a range sum delimit a half-open interval, and the
bit test has twice the same operand. -/
def WiresOk (n : ℕ) (l : Line) : Prop :=
  if l.ty = 3 then True
  else if l.ty = 5 then 0 ≤ l.u ∧ l.u < l.v ∧ l.v ≤ 2 ^ n
  else Wire n l.u ∧ Wire n l.v ∧ (l.ty = 13 → l.u = l.v)

/-- the number of variables of a layer of `n` gates: the least `k ≥ 1` with `n ≤ 2^k` -/
def width (n : ℕ) : ℕ := max 1 (Nat.clog 2 n)

/-- all wires exist; the inputs have no layer before them, so a dummy input must have zero operands -/
def Wired (f : File) : Prop :=
  ∀ i (h : i < f.length), ∀ l ∈ f[i],
    WiresOk (match i with | 0 => 0 | j + 1 => width (f[j]?.getD []).length) l

/-- the remainder of `x` in the range of an `int` -/
def int32 (x : ℤ) : ℤ := (x + 2 ^ 31) % 2 ^ 32 - 2 ^ 31

/-- The gate described by a line: operands are truncated to `int`, the unused operand of a NOT gate
(and, in the zero-knowledge version, of a relay) is cleared. -/
def gateOf (zk : Bool) (l : Line) : Gate :=
  ⟨l.ty, int32 l.u, if l.ty = 6 ∨ zk = true ∧ l.ty = 10 then 0 else int32 l.v⟩

/-- the positions that exist in a layer of `n` lines: a layer with one gate gets a second one -/
def positions (n : ℕ) : ℕ := if n = 1 then 2 else n

/-- A layer of the circuit: the gates of the file, plus a dummy gate if there is just one. -/
def layerOf (zk : Bool) (L : List Line) : Layer :=
  { gates := L.map (fun l => some (gateOf zk l)) ++ (if L.length = 1 then [some ⟨2, 0, 0⟩] else [])
    bitLength := width L.length }

/-- layer 1: gate `g` relays input `g` -/
def relayLayer (n : ℕ) : Layer :=
  { gates := (List.range (positions n)).map (fun g : ℕ => some ⟨4, (g : ℤ), 0⟩)
    bitLength := width n }

/-- the layers of the circuit described by a file -/
def layersOf (zk : Bool) : File → List Layer
  | [] => []
  | L :: f => layerOf zk L :: relayLayer L.length :: f.map (layerOf zk)

/-- the circuit described by a file -/
def circuitOf (zk : Bool) (f : File) : Circuit := ⟨layersOf zk f⟩

/-- A file that is not too large for the reader: fewer than 999999 layers, of at most `2^30` gates. -/
def FitsReader (file : List ℤ) : Prop := ∃ f : File, file = tokens f ∧ f.length < 999999 ∧ ∀ K ∈ f, K.length ≤ 2 ^ 30

/-- A file whose circuit the protocol treats: every layer has a power of two of gates, dummy
inputs have operand 0, and every gate can be evaluated and
proved. -/
structure GoodFile (zk : Bool) (f : File) : Prop where
  readable : Readable f
  numbered : ∀ L ∈ f, Numbered L
  full : ∀ L ∈ f, ∃ k, L.length = 2 ^ k
  inputs : ∀ l ∈ f.headD [], l.ty = 3 ∨ l.ty = 2 ∧ l.u = 0
  shallow : f.length + 1 < 1000000
  gates : ∀ i (h : i + 1 < f.length), ∀ l ∈ f[i + 1],
    GateOk zk (width f[i].length) (gateOf zk l) ∧ GateProvable (gateOf zk l)

end Libra.Spec

namespace Libra.Spec

/-- a line of the meta file: is the layer a repetition of blocks, and of which size -/
structure MetaLine where
  isPara : ℤ
  blockSize : ℤ
  repeatNum : ℤ
  logBlockSize : ℤ
  logRepeatNum : ℤ
deriving DecidableEq, Repr

/-- the numbers on a line of the meta file -/
def MetaLine.tokens (m : MetaLine) : List ℤ :=
  [m.isPara, m.blockSize, m.repeatNum, m.logBlockSize, m.logRepeatNum]

/-- the numbers are `int`s, and a layer said to consist of blocks consists of
`2^log_repeat_num = repeat_num` blocks -/
def MetaLine.Ok (m : MetaLine) : Prop :=
  (∀ x ∈ m.tokens, -2 ^ 31 ≤ x ∧ x < 2 ^ 31) ∧
  (m.isPara ≠ 0 → 0 ≤ m.logRepeatNum ∧ m.logRepeatNum < 31 ∧ 2 ^ m.logRepeatNum.toNat = m.repeatNum)

/-- a layer with its meta data -/
def withMeta (L : Layer) (m : MetaLine) : Layer :=
  { L with isParallel := decide (m.isPara ≠ 0), blockSize := m.blockSize.toNat,
           logBlockSize := m.logBlockSize.toNat, repeatNum := m.repeatNum.toNat,
           logRepeatNum := m.logRepeatNum.toNat }

/-- the circuit described by a file and its meta file: layer 0 has no meta data -/
def circuitWithMeta (f : File) (ms : List MetaLine) : Circuit :=
  match layersOf true f with
  | [] => ⟨[]⟩
  | L :: Ls => ⟨L :: List.zipWith withMeta Ls ms⟩

end Libra.Spec
