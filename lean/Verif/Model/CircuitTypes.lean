import Mathlib.Data.List.Basic
import Mathlib.Data.Nat.Notation
import Mathlib.Data.Int.Notation

/-!
# Layered circuits

The data structures of `/repo/include/linear_gkr/circuit_fast_track.h`.
-/

namespace Libra

/-- `class gate` (circuit_fast_track.h:8-17); the fields are C `int`s. -/
structure Gate where
  ty : ℤ
  u : ℤ
  v : ℤ
deriving DecidableEq, Repr

/-- `class layer` (circuit_fast_track.h:19-41). `gates` is the heap block allocated with
`new gate[...]`: its length is the allocated size, an entry is `none` until it is written.
`u_gates`, `v_gates` are never used by the modelled provers. -/
structure Layer where
  gates : List (Option Gate)
  bitLength : ℕ
  isParallel : Bool := false
  blockSize : ℕ := 0
  logBlockSize : ℕ := 0
  repeatNum : ℕ := 0
  logRepeatNum : ℕ := 0
deriving DecidableEq, Repr

/-- `class layered_circuit` (circuit_fast_track.h:43-58): `circuit[0..total_depth-1]`. -/
structure Circuit where
  layers : List Layer
deriving DecidableEq, Repr

namespace Layer
/-- `gates[g]` for code that is only run on fully initialised layers (see `Circuit.WF`). -/
def gate (L : Layer) (g : ℕ) : Gate := (L.gates[g]?.getD none).getD ⟨2, 0, 0⟩
end Layer

namespace Circuit
/-- `C.total_depth` -/
def depth (C : Circuit) : ℕ := C.layers.length
/-- `C.circuit[i]` -/
def layer (C : Circuit) (i : ℕ) : Layer := C.layers[i]?.getD ⟨[], 0, false, 0, 0, 0, 0⟩
/-- `C.circuit[i].bit_length` -/
def bl (C : Circuit) (i : ℕ) : ℕ := (C.layer i).bitLength
/-- `C.circuit[i].gates[g]` -/
def gate (C : Circuit) (i g : ℕ) : Gate := (C.layer i).gate g
end Circuit

end Libra
