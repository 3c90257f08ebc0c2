import Verif.Props.Examples
import Verif.Proofs.ReaderEval
import Verif.Proofs.Soundness
import Verif.Model.Fp
import Verif.Props.Field

/-!
# C10, C11, C13, C39, C40: circuit files
-/

namespace Libra.Props
open Libra Spec Reader

/-- What the circuit built from the file `f` looks like. -/
structure Describes (zk : Bool) (f : File) (C : Circuit) : Prop where
  /-- one layer more than the file lists -/
  depth : C.depth = f.length + 1
  /-- the bit length of a layer of `n` gates is the least `k ≥ 1` with `n ≤ 2^k` -/
  bitLength : ∀ i (h : i < f.length), IsLeast {k | 1 ≤ k ∧ f[i].length ≤ 2 ^ k} (C.bl (i + 1))
  /-- the input layer and the relay layer have the same number of variables -/
  inputLength : C.bl 0 = C.bl 1
  /-- layer 0 holds the first layer of the file -/
  inputs : ∀ j (h : j < (f.headD []).length),
    (C.layer 0).gates[j]? = some (some (gateOf zk (f.headD [])[j]))
  /-- layer 1 relays every input -/
  relay : ∀ j, j < (f.headD []).length → (C.layer 1).gates[j]? = some (some ⟨4, (j : ℤ), 0⟩)
  /-- the other layers hold the gates of the file -/
  gates : ∀ i (h : i + 1 < f.length), ∀ j (hj : j < f[i + 1].length),
    (C.layer (i + 2)).gates[j]? = some (some (gateOf zk f[i + 1][j]))
  /-- a layer with one gate is completed by a dummy gate -/
  single : ∀ i (h : i + 1 < f.length), f[i + 1].length = 1 →
    (C.layer (i + 2)).gates[1]? = some (some ⟨2, 0, 0⟩)
  /-- and so is a single input, together with its relay -/
  singleInput : (f.headD []).length = 1 → (C.layer 0).gates[1]? = some (some ⟨2, 0, 0⟩) ∧
    (C.layer 1).gates[1]? = some (some ⟨4, 1, 0⟩)

theorem describes_of_same {zk : Bool} {f : File} {C : Circuit} (hne : f ≠ [])
    (h : SameLayers C (circuitOf zk f)) : Describes zk f C := by
  have hlay : ∀ (L : List Line) j (hj : j < L.length), (layerOf zk L).gates[j]? =
      some (some (gateOf zk L[j])) := by
    intro L j hj
    simp [layerOf, List.getElem?_append, hj]
  have hone : ∀ L : List Line, L.length = 1 → (layerOf zk L).gates[1]? = some (some ⟨2, 0, 0⟩) := by
    intro L hL
    simp [layerOf, hL]
  refine ⟨?_, ?_, ?_, ?_, ?_, ?_, ?_, ?_⟩
  · rw [h.depth]; exact circuitOf_depth zk hne
  · intro i hi
    rw [h.bl, circuitOf_bl zk f i hi]; exact width_isLeast _
  · rw [h.bl, h.bl]; exact circuitOf_bl_zero zk f hne
  · cases f with
    | nil => exact absurd rfl hne
    | cons L f => intro j hj; rw [h.gates]; exact hlay L j hj
  · cases f with
    | nil => exact absurd rfl hne
    | cons L f =>
      intro j hj
      have hj : j < L.length := hj
      rw [h.gates, circuitOf_layer_one]
      have := lt_of_lt_of_le hj (le_positions L.length)
      simp [relayLayer, this]
  · intro i hi j hj
    rw [h.gates, circuitOf_layer_succ zk f i hi]; exact hlay _ j hj
  · intro i hi he
    rw [h.gates, circuitOf_layer_succ zk f i hi]; exact hone _ he
  · cases f with
    | nil => exact absurd rfl hne
    | cons L f =>
      intro he
      have he : L.length = 1 := he
      rw [h.gates, h.gates, circuitOf_layer_one]
      refine ⟨hone L he, ?_⟩
      rw [he]
      decide

/-! ### C10 -/

/-- C10, `verifier::read_circuit`: a file whose gates are numbered in order and whose first layer holds
inputs is read, and the circuit is the one described. -/
theorem C10_plain (f : File) (rest : List ℤ) (hr : Readable f) (hn : ∀ L ∈ f, Numbered L)
    (hi : Inputs (f.headD [])) :
    ∃ C, readPlain (tokens f ++ rest) = .ok C ∧ Describes false f C :=
  ⟨_, readPlain_ok f rest hr ((FileOk_iff false f).2 ⟨hn, hi, by simp⟩),
    describes_of_same hr.1 ⟨rfl, fun _ => rfl, fun _ => rfl⟩⟩

/-- C10, `zk_verifier::read_circuit`: the same for files whose wires exist, with a meta file of one
line per layer; the meta data is attached to the layers. -/
theorem C10_zk (f : File) (ms : List MetaLine) (rest rest' : List ℤ) (hr : Readable f)
    (hn : ∀ L ∈ f, Numbered L) (hi : Inputs (f.headD [])) (hw : Wired f)
    (hm : ∀ m ∈ ms, m.Ok) (hlen : ms.length = f.length) :
    ∃ C, readZk (tokens f ++ rest) (ms.flatMap MetaLine.tokens ++ rest') = .ok C ∧
      Describes true f C ∧
      ∀ i (h : i < ms.length), (C.layer (i + 1)).isParallel = decide (ms[i].isPara ≠ 0) ∧
        ((C.layer (i + 1)).blockSize = ms[i].blockSize.toNat ∧
         (C.layer (i + 1)).repeatNum = ms[i].repeatNum.toNat ∧
         (C.layer (i + 1)).logBlockSize = ms[i].logBlockSize.toNat ∧
         (C.layer (i + 1)).logRepeatNum = ms[i].logRepeatNum.toNat) := by
  refine ⟨_, readZk_ok f ms rest rest' hr ((FileOk_iff true f).2 ⟨hn, hi, fun _ => hw⟩) hm hlen,
    describes_of_same hr.1 (withMeta_same hlen), ?_⟩
  intro i h
  obtain ⟨X, hX⟩ : ∃ X, (circuitWithMeta f ms).layer (i + 1) = withMeta X ms[i] := by
    cases f with
    | nil => exact absurd rfl hr.1
    | cons L f =>
      have hl : i < (relayLayer L.length :: f.map (layerOf true)).length := by
        simp at hlen ⊢; omega
      refine ⟨(relayLayer L.length :: f.map (layerOf true))[i], ?_⟩
      change (layerOf true L :: List.zipWith withMeta _ ms)[i + 1]?.getD _ = _
      rw [List.getElem?_cons_succ, List.getElem?_zipWith, List.getElem?_eq_getElem h,
        List.getElem?_eq_getElem hl]
      rfl
  rw [hX]
  exact ⟨rfl, rfl, rfl, rfl, rfl⟩

/-! ### C11 -/

/-- C11: if `zk_verifier::read_circuit` returns, the numbers in the file were those of a file with
consecutively numbered gates, inputs in the first layer and existing wires; and the circuit is
the one it describes. -/
theorem C11_accepted (file metaFile : List ℤ) (C : Circuit) (h : readZk file metaFile = .ok C) :
    ∃ (f : File) (rest : List ℤ), file = tokens f ++ rest ∧ Readable f ∧ (∀ L ∈ f, Numbered L) ∧
      Inputs (f.headD []) ∧ Wired f ∧ Describes true f C := by
  obtain ⟨f, ms, rest, rest', h1, -, h3, h4, h5, -, rfl⟩ := readZk_inv h
  obtain ⟨a, b, c⟩ := (FileOk_iff true f).1 h4
  exact ⟨f, rest, h1, h3, a, b, c rfl, describes_of_same h3.1 (withMeta_same h5)⟩

/-- C11: a file that lists its layers but violates one of these conditions makes the program call
`exit` or fail an assertion, whatever the meta file. -/
theorem C11_rejected (f : File) (rest metaFile : List ℤ) (hr : Readable f)
    (hbad : ¬ ((∀ L ∈ f, Numbered L) ∧ Inputs (f.headD []) ∧ Wired f)) :
    readZk (tokens f ++ rest) metaFile = .exit ∨ readZk (tokens f ++ rest) metaFile = .assertFail := by
  have hb : ¬ FileOk true f := by
    rw [FileOk_iff]; intro h; exact hbad ⟨h.1, h.2.1, h.2.2 rfl⟩
  unfold readZk
  rcases readLayers_bad f rest hr hb with h | h
  · left; rw [h]; rfl
  · right; rw [h]; rfl

/-- C11: an empty layer makes the reader loop for ever. -/
theorem C11_empty_layer (d : ℤ) (hd : 0 < d ∧ d < 2 ^ 31) (rest metaFile : List ℤ) :
    readZk (d :: 0 :: rest) metaFile = .diverges := by
  unfold readZk readLayers
  rw [readD_cons ⟨by omega, hd.2⟩, Outcome.ok_bind]
  simp only []
  rw [if_neg (by omega), if_neg (by omega)]
  have key : ∀ k, loopM (k + 1) (fun k => readLayer .zk (k + 1))
      ([{ gates := [], bitLength := 0 }], 0 :: rest) = .diverges := by
    intro k
    induction k with
    | zero =>
      change Outcome.bind (.ok _) _ = _
      rw [Outcome.bind_ok]
      unfold readLayer
      simp only [readD_cons (show -2 ^ 31 ≤ (0 : ℤ) ∧ (0 : ℤ) < 2 ^ 31 by norm_num), Outcome.ok_bind]
      rfl
    | succ k ih => rw [loopM_succ, ih]; rfl
  obtain ⟨k, hk⟩ : ∃ k, d.toNat = k + 1 := ⟨d.toNat - 1, by omega⟩
  rw [hk, key]
  rfl

/-- The plain reader makes none of these checks: a wire to a position that does not exist is
accepted, and gate numbers outside the layer are written outside the array. -/
theorem C11_plain_unchecked :
    (∃ C, readPlain (tokens [[⟨3, 0, 1, 0⟩, ⟨3, 1, 2, 0⟩], [⟨0, 0, 0, 77⟩, ⟨0, 1, 0, 1⟩]]) = .ok C) ∧
    readPlain (tokens [[⟨3, 0, 1, 0⟩, ⟨3, 5, 2, 0⟩]]) = .undefined := by
  constructor
  · have := C10_plain [[⟨3, 0, 1, 0⟩, ⟨3, 1, 2, 0⟩], [⟨0, 0, 0, 77⟩, ⟨0, 1, 0, 1⟩]] []
      (by unfold Readable Line.InRange; decide) (by unfold Numbered; decide) (by unfold Inputs; decide)
    obtain ⟨C, h, -⟩ := this
    rw [List.append_nil] at h
    exact ⟨C, h⟩
  · decide

/-! ### C13 -/

/-- C13: on a circuit read by the zk reader from a file whose layers have a power-of-two number of
gates, evaluation never reads outside an array: it returns or fails an assertion. -/
theorem C13_defined {F : Type} [CommRing F] (f : File) (rest metaFile : List ℤ) (C : Circuit)
    (h : readZk (tokens f ++ rest) metaFile = .ok C) (hr : Readable f)
    (hp : ∀ L ∈ f, ∃ k, L.length = 2 ^ k) :
    (∃ vals : List (List F), evaluate .zk C = .ok vals) ∨
      (evaluate .zk C : Outcome (List (List F))) = .assertFail := by
  have hok : FileOk true f := by
    by_contra hb
    unfold readZk at h
    rcases readLayers_bad f rest hr hb with e | e <;> rw [e] at h <;> cases h
  unfold readZk at h
  have e := readLayers_ok .zk f rest hr hok
  rw [e, Outcome.ok_bind] at h
  simp only [Int.toNat_natCast] at h
  obtain ⟨t, e2, h⟩ := Outcome.bind_eq_ok' h
  obtain ⟨ms, rest', h1, -, -, rfl⟩ := meta_inv _ _ (layersOf_length _ hr.1) e2
  cases h
  have hC : (⟨metaLayers (layersOf (isZk .zk) f) ms f.length⟩ : Circuit) = circuitWithMeta f ms := by
    rw [← h1]; exact metaLayers_circuit hr.1 h1
  have hs := withMeta_same h1
  simp only
  rw [hC]
  exact evaluate_total (hs.shape (circuitOf_shape hr hok)) (hs.full.2 ((circuitOf_full true hr).2 hp))

/-- C13: if moreover the evaluator knows the gate types, it returns a value exactly when every layer
has a power-of-two number of gates; otherwise it reads past the end of a gate array. -/
theorem C13_exact {F : Type} [CommRing F] (f : File) (ms : List MetaLine) (rest rest' : List ℤ)
    (hr : Readable f) (hn : ∀ L ∈ f, Numbered L) (hi : Inputs (f.headD [])) (hw : Wired f)
    (hm : ∀ m ∈ ms, m.Ok) (hlen : ms.length = f.length)
    (hk : ∀ L ∈ f.tail, ∀ l ∈ L, KnownType (gateOf true l)) (hd : f.length + 1 < 1000000) :
    ∃ C, readZk (tokens f ++ rest) (ms.flatMap MetaLine.tokens ++ rest') = .ok C ∧
      ((∀ L ∈ f, ∃ k, L.length = 2 ^ k) → ∃ vals : List (List F), evaluate .zk C = .ok vals) ∧
      ((∃ L ∈ f, ∀ k, L.length ≠ 2 ^ k) →
        (evaluate .zk C : Outcome (List (List F))) = .undefined) := by
  have hok := (FileOk_iff true f).2 ⟨hn, hi, fun _ => hw⟩
  refine ⟨_, readZk_ok f ms rest rest' hr hok hm hlen, ?_⟩
  have hs := withMeta_same hlen
  obtain ⟨h1, h2⟩ := evaluate_known (F := F) (hs.shape (circuitOf_shape hr hok))
    (hs.known.2 ((circuitOf_known hr.1).2 hk)) (by rw [hs.depth, circuitOf_depth _ hr.1]; exact hd)
  refine ⟨fun h => h1 (hs.full.2 ((circuitOf_full true hr).2 h)), fun h => h2 ?_⟩
  rw [hs.full, circuitOf_full true hr]
  rintro h'
  obtain ⟨L, hL, hne⟩ := h
  obtain ⟨k, hk⟩ := h' L hL
  exact hne k hk

/-- The plain reader does not give this guarantee: after reading a wire that does not exist,
evaluation reads outside the array of the previous layer. -/
theorem C13_plain_undefined : ∃ (file : List ℤ) (C : Circuit), readPlain file = .ok C ∧
    (evaluate .fastTrack C : Outcome (List (List ℤ))) = .undefined := by
  refine ⟨tokens [[⟨3, 0, 1, 0⟩, ⟨3, 1, 2, 0⟩], [⟨0, 0, 0, 77⟩, ⟨0, 1, 0, 1⟩]],
    circuitOf false [[⟨3, 0, 1, 0⟩, ⟨3, 1, 2, 0⟩], [⟨0, 0, 0, 77⟩, ⟨0, 1, 0, 1⟩]], ?_, ?_⟩
  · have := readPlain_ok [[⟨3, 0, 1, 0⟩, ⟨3, 1, 2, 0⟩], [⟨0, 0, 0, 77⟩, ⟨0, 1, 0, 1⟩]] []
      (by unfold Readable Line.InRange; decide)
      ((FileOk_iff _ _).2 ⟨by unfold Numbered; decide, by unfold Inputs; decide, by simp⟩)
    rwa [List.append_nil] at this
  · decide +kernel

/-! ### C39 -/

/-- C39: in a circuit read from a file (by either reader), the value of an input is its operand,
first truncated to 32 bits with sign, then taken modulo `2^64`. -/
theorem C39_input_value {F : Type} [CommRing F] (zk : Bool) (var : Variant) (f : File) (C : Circuit)
    (hC : Describes zk f C) (vals : List (List F)) (hv : evaluate var C = .ok vals) (hne : f ≠ [])
    (j : ℕ) (hj : j < (f.headD []).length) :
    (vals[0]?.getD [])[j]? = some (((int32 (f.headD [])[j].u % 2 ^ 64).toNat : ℕ) : F) := by
  have hlt : j < 2 ^ C.bl 0 := by
    rw [hC.inputLength]
    cases f with
    | nil => exact absurd rfl hne
    | cons L f => exact lt_of_lt_of_le hj (hC.bitLength 0 (by simp)).1.2
  exact evaluate_input hv hlt (hC.inputs j hj)

theorem Fp.intCast_inj {a b : ℤ} (h : (a : Fp) = (b : Fp)) (ha : |a - b| < p) : a = b := by
  have h' := congrArg Fp.equiv h
  rw [map_intCast, map_intCast, ZMod.intCast_eq_intCast_iff] at h'
  have hd := Int.emod_emod_of_dvd
  have : (p : ℤ) ∣ a - b := (Int.modEq_iff_dvd.1 h'.symm)
  have := Int.eq_zero_of_abs_lt_dvd this ha
  omega

/-- C39: so the value is the field element the operand denotes exactly for `0 ≤ x < 2^31`. -/
theorem C39_exact (x : ℤ) (hx : -2 ^ 63 ≤ x ∧ x < 2 ^ 63) :
    (((int32 x % 2 ^ 64).toNat : ℕ) : Fp) = (x : Fp) ↔ 0 ≤ x ∧ x < 2 ^ 31 := by
  have hi : -2 ^ 31 ≤ int32 x ∧ int32 x < 2 ^ 31 := by unfold int32; omega
  have hn : ((int32 x % 2 ^ 64).toNat : ℤ) = int32 x % 2 ^ 64 := by omega
  constructor
  · intro h
    rw [← Int.cast_natCast, hn] at h
    have hp : (2 : ℤ) ^ 65 < p := by decide
    have := Fp.intCast_inj h (by rw [abs_lt]; constructor <;> omega)
    unfold int32 at *
    omega
  · rintro ⟨h0, h1⟩
    rw [← Int.cast_natCast, hn]
    congr 1
    unfold int32
    omega

/-! ### the hypotheses can be met -/

/-- three inputs and a dummy, an addition and a multiplication, a range sum -/
def exampleFile : File :=
  [[⟨3, 0, 5, 0⟩, ⟨3, 1, -1, 0⟩, ⟨3, 2, 4294967296, 0⟩, ⟨2, 3, 0, 0⟩],
   [⟨0, 0, 0, 1⟩, ⟨1, 1, 2, 3⟩], [⟨5, 0, 0, 2⟩]]

/-- three gates in the last layer -/
def shortFile : File :=
  [[⟨3, 0, 5, 0⟩, ⟨3, 1, 7, 0⟩], [⟨0, 0, 0, 1⟩, ⟨1, 1, 0, 1⟩, ⟨12, 2, 0, 1⟩]]

/-- no layer is a repetition of blocks -/
def noMeta : MetaLine := ⟨0, 0, 0, 0, 0⟩

instance (l : Line) : Decidable l.InRange := by unfold Line.InRange; infer_instance
instance (f : File) : Decidable (Readable f) := by unfold Readable; infer_instance
instance (L : List Line) : Decidable (Numbered L) := by unfold Numbered; infer_instance
instance (L : List Line) : Decidable (Inputs L) := by unfold Inputs; infer_instance
instance (n : ℕ) (l : Line) : Decidable (WiresOk n l) := by unfold WiresOk; infer_instance
instance (f : File) : Decidable (Wired f) := by unfold Wired; infer_instance
instance (m : MetaLine) : Decidable m.Ok := by unfold MetaLine.Ok; infer_instance
instance (g : Gate) : Decidable (KnownType g) := by unfold KnownType; infer_instance

example : Readable exampleFile ∧ (∀ L ∈ exampleFile, Numbered L) ∧ Inputs (exampleFile.headD []) ∧
    Wired exampleFile ∧ (∀ m ∈ [noMeta, noMeta, ⟨1, 1, 2, 0, 1⟩], m.Ok) ∧
    (∀ L ∈ exampleFile.tail, ∀ l ∈ L, KnownType (gateOf true l)) := by decide +kernel

example : Readable shortFile ∧ (∀ L ∈ shortFile, Numbered L) ∧ Inputs (shortFile.headD []) ∧
    Wired shortFile ∧ (∀ m ∈ [noMeta, noMeta], m.Ok) ∧
    (∀ L ∈ shortFile.tail, ∀ l ∈ L, KnownType (gateOf true l)) := by decide +kernel

/-- the file with three gates is read and its evaluation is undefined -/
example : ∃ C, readZk (tokens shortFile) [0, 0, 0, 0, 0, 0, 0, 0, 0, 0] = .ok C ∧
    (evaluate .zk C : Outcome (List (List ℤ))) = .undefined := by
  obtain ⟨C, h, -, h2⟩ := C13_exact (F := ℤ) shortFile [noMeta, noMeta] [] [] (by decide +kernel)
    (by decide +kernel) (by decide +kernel) (by decide +kernel) (by decide +kernel) rfl
    (by decide +kernel) (by decide)
  rw [List.append_nil] at h
  refine ⟨C, h, h2 ⟨_, List.mem_cons_of_mem _ (List.mem_cons_self), fun k => ?_⟩⟩
  intro hk
  have h3 : (3 : ℕ) = 2 ^ k := hk
  rcases k with _ | _ | k
  · simp at h3
  · simp at h3
  · rw [pow_succ] at h3; omega

/-- files that must be refused: a wrong number, a wire out of range -/
example : ¬ (∀ L ∈ ([[⟨3, 1, 5, 0⟩]] : File), Numbered L) ∧
    ¬ Wired [[⟨3, 0, 5, 0⟩, ⟨3, 1, 5, 0⟩], [⟨0, 0, 0, 2⟩, ⟨0, 1, 0, 0⟩]] := by decide +kernel

end Libra.Props
