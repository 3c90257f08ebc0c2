import Verif.Proofs.CompilerValue
import Verif.Spec.Parallel

/-!
# Compiled circuits consist of copies of a block
-/

namespace Libra.Compiler
open Libra Spec Matmul Reader Finset

variable {P : List Stmt} {W : List RStmt} {d : Dag} {src : Id → Id} {L : Layered} {s : RState} {wg : Wiring}
  {relays : List LGate} {C : Circuit}

/-- no level is empty -/
theorem level_nonempty (h : Compiled P d src L) : ∀ l < L.depth, levelKeys d l ≠ [] := by
  have key : ∀ m l, l + m + 1 = L.depth → levelKeys d l ≠ [] := by
    intro m
    induction m with
    | zero =>
      intro l hl
      rcases h.top with h0 | ⟨k, hk, hle⟩
      · omega
      · have := h.low k hk
        exact List.ne_nil_of_mem (mem_levelKeys.2 ⟨hk, by omega⟩)
    | succ m ih =>
      intro l hl
      obtain ⟨k, hk⟩ := List.exists_mem_of_ne_nil _ (ih (l + 1) (by omega))
      exact List.ne_nil_of_mem (input0_below h hk).2
  intro l hl
  exact key (L.depth - 1 - l) l (by omega)

theorem bitCount_pos {n : ℕ} (h : n ≠ 0) : 1 ≤ bitCount n := by
  rw [bitCount, dif_neg h]; omega

theorem bitLen_pos (h : Compiled P d src L) {l : ℕ} (hl : l < L.depth) : 1 ≤ L.bitLen l := by
  rw [h.bitLen]
  exact bitCount_pos (fun h0 => level_nonempty h l hl (List.length_eq_zero_iff.1 h0))

theorem least_pow {k m : ℕ} (hk : 1 ≤ k) (h : IsLeast {j | 1 ≤ j ∧ 2 ^ k ≤ 2 ^ j} m) : m = k :=
  le_antisymm (h.2 ⟨hk, le_refl _⟩) ((Nat.pow_le_pow_iff_right (by omega)).1 h.1.2)

/-- the meta data of a layer -/
theorem layer_meta {f : File} {ms : List MetaLine} (hne : f ≠ []) (hlen : ms.length = f.length) {i : ℕ} (h : i < ms.length) :
    ∃ X, (circuitWithMeta f ms).layer (i + 1) = withMeta X ms[i] := by
  cases f with
  | nil => exact absurd rfl hne
  | cons L f =>
    have hl : i < (relayLayer L.length :: f.map (layerOf true)).length := by
      simp at hlen ⊢; omega
    refine ⟨(relayLayer L.length :: f.map (layerOf true))[i], ?_⟩
    change (layerOf true L :: List.zipWith withMeta _ ms)[i + 1]?.getD _ = _
    rw [List.getElem?_cons_succ, List.getElem?_zipWith, List.getElem?_eq_getElem h,
      List.getElem?_eq_getElem hl]
    rfl

/-- the numbers of variables of the layers -/
theorem bl_levels (h : Files P W d src L s wg relays) {e : ℕ} (he : wg.repeatNum = 2 ^ e)
    (hC : Props.Describes true (fileOf wg.inputs relays wg.repeatNum L) C) :
    C.bl 2 = L.bitLen 0 + e ∧ ∀ l < L.depth, C.bl (l + 3) = L.bitLen l + e := by
  have hlen := fileOf_length wg.inputs relays wg.repeatNum L
  have hdep : 0 < L.depth := Nat.pos_of_ne_zero h.wired.depth
  have hsize : ∀ l, (L.gates l).length * wg.repeatNum = 2 ^ (L.bitLen l + e) := by
    intro l; rw [h.comp.length, he, pow_add]
  constructor
  · have := hC.bitLength 1 (by omega)
    change IsLeast {k | 1 ≤ k ∧ (relays.map LGate.line).length ≤ 2 ^ k} _ at this
    rw [List.length_map, relays_length h, hsize] at this
    exact least_pow (by have := bitLen_pos h.comp hdep; omega) this
  · intro l hl
    have := hC.bitLength (l + 2) (by omega)
    rw [fileOf_level, levelLines_length, hsize] at this
    exact least_pow (by have := bitLen_pos h.comp hl; omega) this

theorem wire_lt {nb n : ℕ} {x : ℤ} (e : x = n) (h : n < 2 ^ nb) : Wire nb x := by
  subst e
  exact ⟨by omega, by exact_mod_cast h⟩

/-- the gates of a level are copies of those of its first block -/
theorem copy_level (h : Files P W d src L s wg relays) (hP : ProgramOk P) (hW : WiringOk W) (hS : Small wg L)
    (hC : Props.Describes true (fileOf wg.inputs relays wg.repeatNum L) C) {l c g : ℕ} (hl : l < L.depth)
    (hc : c < wg.repeatNum) (hg : g < 2 ^ L.bitLen l) :
    CopyOf (L.bitLen (l - 1)) ((c * 2 ^ L.bitLen (l - 1) : ℕ) : ℤ) (C.gate (l + 3) g)
      (C.gate (l + 3) (c * 2 ^ L.bitLen l + g)) := by
  have hlen := fileOf_length wg.inputs relays wg.repeatNum L
  have hgl : g < (L.gates l).length := by rw [h.comp.length]; exact hg
  have hi : l + 1 + 1 < (fileOf wg.inputs relays wg.repeatNum L).length := by omega
  have gate : ∀ r < wg.repeatNum, C.gate (l + 3) (r * (L.gates l).length + g) =
      let line := if l = 0 then blockInputLine (L.gates l).length r (L.gates l)[g]
        else blockGateLine (L.gates l).length (L.gates (l - 1)).length r (L.gates l)[g]
      ⟨line.ty, line.u, line.v⟩ := by
    intro r hr
    refine gate_line h hP hW hS hC hi ?_
    rw [show (fileOf wg.inputs relays wg.repeatNum L)[l + 1 + 1] = levelLines L wg.repeatNum l from fileOf_level hi]
    exact levelLines_get L hr hgl
  have h0 := gate 0 (by omega)
  have h1 := gate c hc
  rw [Nat.zero_mul, Nat.zero_add] at h0
  rw [← h.comp.length l, h0, h1]
  have hnum := level_numbered h.comp.toLayout l hgl
  rcases Nat.eq_zero_or_pos l with rfl | hpos
  · rw [← h.comp.length]
    simp only [if_true, blockInputLine, Nat.zero_sub]
    by_cases ht : (L.gates 0)[g].ty = 3
    · simp only [if_pos ht]
      refine ⟨rfl, .inr (.inl ⟨.inr rfl, wire_lt (n := g) ?_ hg, rfl, ?_, rfl⟩)⟩
      · rw [hnum]; simp
      · dsimp only; push_cast; ring
    · simp only [if_neg ht]
      exact ⟨rfl, .inl rfl⟩
  · obtain ⟨m, rfl⟩ : ∃ m, l = m + 1 := ⟨l - 1, by omega⟩
    obtain ⟨u, v, hu, hv, hul, hvl, hty⟩ := levelGate_ok h.comp hP (List.getElem_mem hgl)
    rw [Nat.add_sub_cancel, ← h.comp.length]
    simp only [if_neg (Nat.succ_ne_zero m), blockGateLine, Nat.add_sub_cancel]
    have hul' := hul
    have hvl' := hvl
    rw [h.comp.length] at hul' hvl'
    by_cases ht : (L.gates (m + 1))[g].ty = 10 ∨ (L.gates (m + 1))[g].ty = 6
    · simp only [if_pos ht]
      have hv0 : (L.gates (m + 1))[g].v = 0 := h.unary (m + 1) (by omega) hl _ (List.getElem_mem hgl) ht
      refine ⟨rfl, .inr (.inl ⟨by tauto, wire_lt (n := u) ?_ hul', hv0, ?_, hv0⟩)⟩
      · rw [hu]; simp
      · dsimp only; push_cast; ring
    · simp only [if_neg ht]
      refine ⟨rfl, ?_⟩
      dsimp only
      by_cases h2 : (L.gates (m + 1))[g].ty = 2
      · exact .inl h2
      · refine .inr (.inr ⟨by tauto, wire_lt (n := u) ?_ hul', wire_lt (n := v) ?_ hvl', ?_, ?_⟩)
        · rw [hu]; simp
        · rw [hv]; simp
        · push_cast; ring
        · push_cast; ring

/-- the meta data of a compiled circuit is correct -/
theorem parallel_ok {var : Variant} (h : Files P W d src L s wg relays) (hP : ProgramOk P) (hW : WiringOk W) (hS : Small wg L)
    {e : ℕ} (he : wg.repeatNum = 2 ^ e)
    (hC : Props.Describes true (fileOf wg.inputs relays wg.repeatNum L)
      (circuitWithMeta (fileOf wg.inputs relays wg.repeatNum L) (metaOf var wg.repeatNum L))) :
    ParallelOk (circuitWithMeta (fileOf wg.inputs relays wg.repeatNum L) (metaOf var wg.repeatNum L)) := by
  have hlen := fileOf_length wg.inputs relays wg.repeatNum L
  have hml := (metaOf_ok h hS ⟨e, he⟩ var).2
  have hdep : 0 < L.depth := Nat.pos_of_ne_zero h.wired.depth
  have hbl := bl_levels h he hC
  have hmeta : ∀ i (hi : i < (metaOf var wg.repeatNum L).length), ∃ X,
      (circuitWithMeta (fileOf wg.inputs relays wg.repeatNum L) (metaOf var wg.repeatNum L)).layer (i + 1) =
        withMeta X (metaOf var wg.repeatNum L)[i] :=
    fun i hi => layer_meta (by intro h0; rw [h0] at hlen; simp at hlen) (by omega) hi
  generalize hCC : circuitWithMeta (fileOf wg.inputs relays wg.repeatNum L) (metaOf var wg.repeatNum L) = C at *
  have m2 : (C.layer 2).logBlockSize = L.bitLen 0 ∧ (C.layer 2).isParallel = false := by
    obtain ⟨X, hX⟩ := hmeta 1 (by omega)
    rw [hX]
    exact ⟨rfl, rfl⟩
  have ml : ∀ l < L.depth, (C.layer (l + 3)).logBlockSize = L.bitLen l ∧ (C.layer (l + 3)).logRepeatNum = e ∧
      (C.layer (l + 3)).blockSize = 2 ^ L.bitLen l ∧ (C.layer (l + 3)).repeatNum = 2 ^ e := by
    intro l hl
    obtain ⟨X, hX⟩ := hmeta (l + 2) (by omega)
    have hm : (metaOf var wg.repeatNum L)[l + 2]'(by omega) = levelMeta L wg.repeatNum l 1 := by simp [metaOf]
    rw [hX, hm, levelMeta, he, logRep_pow, h.comp.length]
    exact ⟨rfl, rfl, Int.toNat_natCast _, Int.toNat_natCast _⟩
  have mb : ∀ l < L.depth, (C.layer (l + 2)).logBlockSize = L.bitLen (l - 1) ∧ C.bl (l + 2) = L.bitLen (l - 1) + e := by
    intro l hl
    cases l with
    | zero => exact ⟨m2.1, hbl.1⟩
    | succ l => exact ⟨(ml l (by omega)).1, hbl.2 l (by omega)⟩
  intro i hi hid hpar
  rw [hC.depth, hlen] at hid
  match i, hi with
  | 2, _ => rw [m2.2] at hpar; cases hpar
  | l + 3, _ =>
    have hl : l < L.depth := by omega
    obtain ⟨c1, c2, c3, c4⟩ := ml l hl
    obtain ⟨b1, b2⟩ := mb l hl
    refine ⟨by rw [c1, c3], by rw [c2, c4], by rw [c1, c2, hbl.2 l hl], ?_, ?_⟩
    · change C.bl (l + 2) = (C.layer (l + 2)).logBlockSize + _
      rw [b1, b2, c2]
    · intro c hc g hg
      change CopyOf (C.layer (l + 2)).logBlockSize ((c * 2 ^ (C.layer (l + 2)).logBlockSize : ℕ) : ℤ) _ _
      rw [c1] at hg ⊢
      rw [c2, ← he] at hc
      rw [b1]
      exact copy_level h hP hW hS hC hl hc hg

/-- every layer has at least one and not too many variables -/
theorem bl_bounds (h : Files P W d src L s wg relays) (hS : Small wg L)
    (hC : Props.Describes true (fileOf wg.inputs relays wg.repeatNum L) C) :
    ∀ i, i < C.depth → 1 ≤ C.bl i ∧ C.bl i ≤ 30 := by
  have key : ∀ i, i + 1 < C.depth → 1 ≤ C.bl (i + 1) ∧ C.bl (i + 1) ≤ 30 := by
    intro i hi
    rw [hC.depth] at hi
    have := hC.bitLength i (by omega)
    exact ⟨this.1.1, this.2 ⟨by omega, fileOf_size h hS i (by omega)⟩⟩
  have hlen := fileOf_length wg.inputs relays wg.repeatNum L
  intro i hi
  cases i with
  | zero =>
    rw [hC.inputLength]
    exact key 0 (by rw [hC.depth]; omega)
  | succ i => exact key i hi

end Libra.Compiler
