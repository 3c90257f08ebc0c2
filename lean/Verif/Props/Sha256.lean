import Verif.Proofs.Sha256Program
import Verif.Props.Compiler
import Verif.Model.Fp

/-!
# The SHA-256 benchmark

`write64` writes the program for one block: inputs 34 to 49 are the message, 2210 to 2273 the round constants, 2274 to
2281 the old hash value, 2282 to 2289 the new one, all as field elements; input 0 is the constant 0; the other inputs are
bits and intermediate values the prover chooses. A block is accepted when all outputs are zero.
-/

namespace Libra.Props
open Libra Compiler Sha256Gen Reader
open Libra.Spec.Sha256 (Word compress roundConstants initialHash)
open Libra.Spec hiding Holds

theorem fp_small : SmallInj Fp := by
  intro m n hm hn h
  have h := congrArg Fp.toZ h
  have e : ∀ k : ℕ, ((k : Fp)).toZ = (k : ZMod p) := Fp.toZ_ofNat
  have hp : 2 ^ 40 < p := by decide +kernel
  rw [e, e, ZMod.natCast_eq_natCast_iff'] at h
  rwa [Nat.mod_eq_of_lt (hm.trans hp), Nat.mod_eq_of_lt (hn.trans hp)] at h

/-- The block of inputs `inp` is accepted by the program `P`: the variables that satisfy its lines exist, and the outputs
are zero. -/
def Accepts (P : List Stmt) (inp : ℕ → Fp) : Prop :=
  ∃ w : ℕ → Fp, (∀ s ∈ P, Spec.Holds inp w s) ∧ ∀ o t, .output o t ∈ P → w t = 0

/-- the inputs the verifier knows: the constant zero, the round constants and the old hash value -/
structure Public (inp : ℕ → Fp) (K H : ℕ → Word) : Prop where
  zero : inp 0 = 0
  constants : ∀ i < 64, inp (2210 + i) = ((K i).toNat : Fp)
  hash : ∀ i < 8, inp (2274 + i) = ((H i).toNat : Fp)

/-- The generator succeeds: its assertions hold. -/
theorem C58_generates : ∃ P, write64 = .ok P := by
  obtain ⟨L, -, -, -, h⟩ := write64_eq
  exact ⟨_, h⟩

/-- Accepted blocks are evaluations of the compression function: if word 0 of the message is a word, then
the other fifteen are words too, and the new hash value is the compression function of the message and the old hash value. -/
theorem C58_sound {P : List Stmt} (hP : write64 = .ok P) {inp : ℕ → Fp} (hacc : Accepts P inp) {K H : ℕ → Word}
    (hpub : Public inp K H) {m0 : Word} (h0 : inp 34 = (m0.toNat : Fp)) :
    ∃ M : ℕ → Word, M 0 = m0 ∧ (∀ t < 16, inp (34 + t) = ((M t).toNat : Fp)) ∧
      ∀ i < 8, inp (2282 + i) = ((compress K M H i).toNat : Fp) := by
  obtain ⟨w, hw, hout⟩ := hacc
  obtain ⟨x, -, hx⟩ := program_sound hP hw hpub.zero hout
  exact ⟨message m0 x, if_pos rfl, fun t ht => (schedule_eq fp_small hx h0 t (by omega)).2,
    eqs_compress fp_small hx h0 hpub.constants hpub.hash⟩

/-- Every message is accepted, with the hash value of the compression function. -/
theorem C59_complete {P : List Stmt} (hP : write64 = .ok P) (K M H : ℕ → Word) :
    ∃ inp : ℕ → Fp, Accepts P inp ∧ Public inp K H ∧ (∀ t < 16, inp (34 + t) = ((M t).toNat : Fp)) ∧
      ∀ i < 8, inp (2282 + i) = ((compress K M H i).toNat : Fp) := by
  have b0 := (M 0).isLt
  have b9 := (M 9).isLt
  have b1 := (Spec.Sha256.sigma0 (M 1)).isLt
  have b14 := (Spec.Sha256.sigma1 (M 14)).isLt
  obtain ⟨inp, w, h1, h2, h3, h4, h5, h6, h7, h8⟩ := program_complete (F := Fp) hP (M 0).toNat K M H
    ⟨Nat.mod_eq_of_lt b0, by omega, by omega⟩
  refine ⟨inp, ⟨w, h1, h3⟩, ⟨h2, h6, h7⟩, fun t ht => ?_, h8⟩
  rcases Nat.eq_zero_or_pos t with rfl | hpos
  · exact h4
  · exact h5 t hpos ht

/-- The expected property: accepted blocks carry words of 32 bits in the inputs of the message. -/
def MessageChecked (P : List Stmt) : Prop :=
  ∀ (inp : ℕ → Fp) (K H : ℕ → Word), Accepts P inp → Public inp K H →
    ∃ M : ℕ → Word, ∀ t < 16, inp (34 + t) = ((M t).toNat : Fp)

/-- Fifteen of the sixteen words are checked. Missing: word 0, see `C60_second_preimage`. -/
theorem C60_checked_partial {P : List Stmt} (hP : write64 = .ok P) {inp : ℕ → Fp} (hacc : Accepts P inp)
    (h0 : inp 0 = 0) : ∃ M : ℕ → Word, ∀ t, 1 ≤ t → t < 16 → inp (34 + t) = ((M t).toNat : Fp) := by
  obtain ⟨w, hw, hout⟩ := hacc
  obtain ⟨x, -, hx⟩ := program_sound hP hw h0 hout
  exact ⟨x.word, fun t h1 h2 => (hx.W t h1 (by omega)).symm⟩

/-- Word 0 of the message is not checked to be a word: if the sum in the message schedule does not overflow 34 bits, the block
with `2^32` added to word 0 is accepted too, with the same hash value. -/
theorem C60_second_preimage {P : List Stmt} (hP : write64 = .ok P) (K M H : ℕ → Word)
    (hM : (M 0).toNat + 2 ^ 32 + (M 9).toNat + ((Spec.Sha256.sigma0 (M 1)).toNat + (Spec.Sha256.sigma1 (M 14)).toNat) < 2 ^ 34) :
    ∃ inp : ℕ → Fp, Accepts P inp ∧ Public inp K H ∧ inp 34 = (((M 0).toNat + 2 ^ 32 : ℕ) : Fp) ∧
      (∀ t, 1 ≤ t → t < 16 → inp (34 + t) = ((M t).toNat : Fp)) ∧
      ∀ i < 8, inp (2282 + i) = ((compress K M H i).toNat : Fp) := by
  have b0 := (M 0).isLt
  obtain ⟨inp, w, h1, h2, h3, h4, h5, h6, h7, h8⟩ := program_complete (F := Fp) hP ((M 0).toNat + 2 ^ 32) K M H
    ⟨by omega, by omega, hM⟩
  exact ⟨inp, ⟨w, h1, h3⟩, ⟨h2, h6, h7⟩, h4, h5, h8⟩

/-- The property is false. -/
theorem C60_false {P : List Stmt} (hP : write64 = .ok P) : ¬ MessageChecked P := by
  intro h
  obtain ⟨inp, h1, h2, h3, -⟩ := C60_second_preimage hP (fun _ => 0) (fun _ => 0) (fun _ => 0) (by decide)
  obtain ⟨M, hM⟩ := h inp _ _ h1 h2
  have e := (hM 0 (by decide)).symm.trans h3
  have b := (M 0).isLt
  have := fp_small _ _ (by omega) (by decide) e
  omega

/-! ### The compiled circuit -/

theorem straight_mem {v : ℕ} {l : List Stmt} (h : Straight v l) : ∀ s ∈ l, ∃ u, v ≤ u ∧ Sha256Gen.LineOk u s := by
  induction l generalizing v with
  | nil => simp
  | cons s l ih =>
    intro s' hs'
    rcases List.mem_cons.1 hs' with rfl | hs'
    · exact ⟨v, Nat.le_refl v, h.1⟩
    · obtain ⟨u, hu, h'⟩ := ih h.2 s' hs'
      exact ⟨u, by omega, h'⟩

theorem lineOk_target {v : ℕ} {s : Stmt} (h : Sha256Gen.LineOk v s) : target s = some v := by
  cases s with
  | gate op t a b => exact congrArg some h.1
  | expSum t a b => exact congrArg some h.1
  | bit t a b => exact congrArg some h.1
  | _ => exact h.elim

theorem straight_targets {v : ℕ} {l : List Stmt} (h : Straight v l) : l.filterMap target = List.range' v l.length := by
  induction l generalizing v with
  | nil => rfl
  | cons s l ih =>
    rw [List.filterMap_cons, lineOk_target h.1, ih h.2, List.length_cons, List.range'_succ]

theorem straight_inputs {v : ℕ} {l : List Stmt} (h : Straight v l) {q : Stmt → Bool}
    (hq : ∀ (u : ℕ) (s : Stmt), Sha256Gen.LineOk u s → q s = false) :
    l.countP q = 0 := by
  rw [List.countP_eq_zero]
  intro s hs
  obtain ⟨u, -, hu⟩ := straight_mem h s hs
  rw [hq u s hu]; simp

theorem countP_inputBefore {j n : ℕ} (hjn : j ≤ n) :
    List.countP (inputBefore j ∘ fun i => Stmt.input i i) (List.range n) = j := by
  induction n with
  | zero => simp at hjn; subst hjn; rfl
  | succ n ih =>
    rw [List.range_succ, List.countP_append, List.countP_singleton]
    rcases Nat.lt_or_ge n j with hlt | hge
    · obtain rfl : j = n + 1 := by omega
      rw [List.countP_eq_length.2 (fun a ha => by
        rw [List.mem_range] at ha
        simp [inputBefore]; omega), List.length_range]
      simp [inputBefore]
    · rw [ih hge]
      simp [inputBefore]; omega

theorem inputCount_append (a b : List Stmt) : inputCount (a ++ b) = inputCount a + inputCount b := by
  simp [inputCount, List.countP_append]

theorem inputCount_inputs (n : ℕ) : inputCount ((List.range n).map fun i => Stmt.input i i) = n := by
  rw [inputCount, List.countP_map]
  exact (List.countP_eq_length.2 fun a _ => rfl).trans (by simp)

theorem straight_inputCount {v : ℕ} {l : List Stmt} (h : Straight v l) : inputCount l = 0 := by
  refine straight_inputs h ?_
  intro u s hu
  cases s <;> first | rfl | exact hu.elim

theorem outputs_inputCount (l : List ℕ) (m : ℕ) : inputCount ((l.zipIdx m).map fun p => Stmt.output p.2 p.1) = 0 := by
  rw [inputCount, List.countP_eq_zero]
  intro s hs
  obtain ⟨p, -, rfl⟩ := List.mem_map.1 hs
  simp

theorem outputs_inputBefore (j : ℕ) (l : List ℕ) (m : ℕ) :
    ((l.zipIdx m).map fun p => Stmt.output p.2 p.1).countP (inputBefore j) = 0 := by
  rw [List.countP_eq_zero]
  intro s hs
  obtain ⟨p, -, rfl⟩ := List.mem_map.1 hs
  simp [inputBefore]

theorem straight_inputBefore (j : ℕ) {v : ℕ} {l : List Stmt} (h : Straight v l) : l.countP (inputBefore j) = 0 := by
  refine straight_inputs h ?_
  intro u s hu
  cases s <;> first | rfl | exact hu.elim

/-- A program made of `n` input lines, a straight piece of code and output lines. -/
theorem straight_program {n : ℕ} {l : List Stmt} (h : Straight n l) (o : List ℕ) (m : ℕ) :
    ProgramOk ((List.range n).map (fun i => Stmt.input i i) ++ l ++ (o.zipIdx m).map (fun p => .output p.2 p.1)) ∧
      (∀ t a b, .sum t a b ∉ (List.range n).map (fun i => Stmt.input i i) ++ l ++ (o.zipIdx m).map (fun p => .output p.2 p.1)) ∧
      inputCount ((List.range n).map (fun i => Stmt.input i i) ++ l ++ (o.zipIdx m).map (fun p => .output p.2 p.1)) = n := by
  have hm := straight_mem h
  have hn : (((List.range n).map fun i => Stmt.input i i).filterMap target) = List.range n := by
    rw [List.filterMap_map]
    exact List.filterMap_some
  have hz : ((o.zipIdx m).map fun p => Stmt.output p.2 p.1).filterMap target = [] := by
    rw [List.filterMap_eq_nil_iff]
    intro s hs
    obtain ⟨p, -, rfl⟩ := List.mem_map.1 hs
    rfl
  have cases' : ∀ s ∈ (List.range n).map (fun i => Stmt.input i i) ++ l ++ (o.zipIdx m).map (fun p => .output p.2 p.1),
      (∃ j < n, s = .input j j) ∨ (∃ u, Sha256Gen.LineOk u s) ∨ ∃ i t, s = .output i t := by
    intro s hs
    simp only [List.mem_append, List.mem_map] at hs
    rcases hs with (⟨j, hj, e⟩ | hs) | ⟨j, hj, e⟩
    · exact .inl ⟨j, List.mem_range.1 hj, e.symm⟩
    · obtain ⟨u, -, hu⟩ := hm _ hs
      exact .inr (.inl ⟨u, hu⟩)
    · exact .inr (.inr ⟨_, _, e.symm⟩)
  refine ⟨⟨?_, ?_, ?_, ?_⟩, ?_, ?_⟩
  · rw [List.filterMap_append, List.filterMap_append, hn, straight_targets h, hz, List.append_nil, List.range_eq_range']
    have := List.range'_append_1 (s := 0) (m := n) (n := l.length)
    rw [Nat.zero_add] at this
    rw [this]
    exact List.nodup_range'
  · intro t i hti
    rcases cases' _ hti with ⟨j, hj, e⟩ | ⟨u, hu⟩ | ⟨_, _, e⟩
    · obtain ⟨rfl, rfl⟩ := Stmt.input.inj e
      rw [List.countP_append, List.countP_append, straight_inputBefore _ h, outputs_inputBefore, List.countP_map,
        countP_inputBefore hj.le, Nat.add_zero]
    · exact hu.elim
    · cases e
  · intro t a b hs
    rcases cases' _ hs with ⟨j, hj, e⟩ | ⟨u, hu⟩ | ⟨_, _, e⟩
    · cases e
    · exact hu.elim
    · cases e
  · intro t a b hs
    rcases cases' _ hs with ⟨j, hj, e⟩ | ⟨u, hu⟩ | ⟨_, _, e⟩
    · cases e
    · exact ⟨hu.2.2.1, hu.2.2.2⟩
    · cases e
  · intro t a b hs
    rcases cases' _ hs with ⟨j, hj, e⟩ | ⟨u, hu⟩ | ⟨_, _, e⟩
    · cases e
    · exact hu.elim
    · cases e
  · rw [inputCount_append, inputCount_append, inputCount_inputs, straight_inputCount h, outputs_inputCount, Nat.add_zero]

/-- The program is one for which the compiler keeps the meaning, and it has 7226 inputs. -/
theorem C61_program {P : List Stmt} (hP : write64 = .ok P) :
    ProgramOk P ∧ (∀ t a b, .sum t a b ∉ P) ∧ inputCount P = 7226 := by
  obtain ⟨L, h1, h2, h3, h4⟩ := write64_eq
  rw [h4] at hP
  obtain rfl := Outcome.ok.inj hP
  exact straight_program h2 _ _

/-- There is a place for every output of the program, in all circuits compiled from it, such that every block where the gates in these
places are zero is accepted. -/
theorem C61_accepts (var : Compiler.Variant) {P : List Stmt} (hP : write64 = .ok P) :
    ∃ layer pos size : ℕ → ℕ, ∀ (W : List RStmt) (file metaFile : List ℤ) (base : ℕ),
      compile var P W = .ok (file, metaFile) → WiringOk W →
      IsLeast {o | ∃ a, .output o a ∈ W} base → base ≤ 0x3f3f3f3f →
      (∃ e, outputCount W = 7226 * 2 ^ e) → FitsReader file →
      ∃ C, readZk file metaFile = .ok C ∧ ∀ out v : ℕ → Fp, (∀ l ∈ W, RHolds out v l.asRead) →
        ∀ r, 7226 * r < outputCount W →
          ((∀ o t, .output o t ∈ P → value C (layer t) (r * size (layer t) + pos t) = (0 : Fp)) ↔
            Accepts P (fun i => out (base + (r * 7226 + i)))) := by
  obtain ⟨hok, hss, hcount⟩ := C61_program hP
  obtain ⟨layer, pos, size, h⟩ := C50_compile var P hok hss
  refine ⟨layer, pos, size, fun W file metaFile base h1 h2 h3 h4 h5 h6 => ?_⟩
  obtain ⟨C, c1, -, -, c4⟩ := h W file metaFile base h1 h2 h3 h4 (by rw [hcount]; exact h5) h6
  refine ⟨C, c1, fun out v hR r hr => ?_⟩
  rw [hcount] at c4
  obtain ⟨⟨w, hw⟩, hall⟩ := (c4 Fp out v hR).2 r hr
  obtain ⟨L, l1, l2, l3, l4⟩ := write64_eq
  rw [l4] at hP
  obtain rfl := Outcome.ok.inj hP
  have hdef : ∀ o t, .output o t ∈ (List.range 7226).map (fun i => Stmt.input i i) ++ L.lines ++
      ((L.roundTests ++ L.bitTests).zipIdx (7226 + L.lines.length)).map (fun p => .output p.2 p.1) →
      ∃ st ∈ (List.range 7226).map (fun i => Stmt.input i i) ++ L.lines ++
      ((L.roundTests ++ L.bitTests).zipIdx (7226 + L.lines.length)).map (fun p => .output p.2 p.1), target st = some t := by
    intro o t hot
    have htl : t < 7226 + L.lines.length := by
      simp only [List.mem_append, List.mem_map] at hot
      rcases hot with (⟨j, hj, e⟩ | h) | ⟨j, hj, e⟩
      · cases e
      · obtain ⟨u, -, hu⟩ := straight_mem l2 _ h
        exact hu.elim
      · obtain ⟨-, rfl⟩ := Stmt.output.inj e
        exact l3 _ (List.fst_mem_of_mem_zipIdx hj)
    by_cases ht : t < 7226
    · exact ⟨.input t t, List.mem_append_left _ (List.mem_append_left _ (List.mem_map.2 ⟨t, List.mem_range.2 ht, rfl⟩)), rfl⟩
    · have : t ∈ L.lines.filterMap target := by
        rw [straight_targets l2, List.mem_range'_1]; omega
      obtain ⟨st, hst, e⟩ := List.mem_filterMap.1 this
      exact ⟨st, List.mem_append_left _ (List.mem_append_right _ hst), e⟩
  constructor
  · intro hzero
    refine ⟨w, hw, fun o t hot => ?_⟩
    obtain ⟨st, hst, e⟩ := hdef o t hot
    rw [← (hall w hw st hst t e).2.2]
    exact hzero o t hot
  · rintro ⟨w, hw, hz⟩ o t hot
    obtain ⟨st, hst, e⟩ := hdef o t hot
    rw [(hall w hw st hst t e).2.2]
    exact hz o t hot

/-- Circuits compiled from the program and any wiring file: there is a place for every output of the program, such that in every
block where the gates in these places are zero, and whose inputs are the constant 0, the round
constants `K`, an old hash value `H` and a word, the inputs also contain the compression function of `H` and the message. -/
theorem C61_circuit (var : Compiler.Variant) {P : List Stmt} (hP : write64 = .ok P) :
    ∃ layer pos size : ℕ → ℕ, ∀ (W : List RStmt) (file metaFile : List ℤ) (base : ℕ),
      compile var P W = .ok (file, metaFile) → WiringOk W →
      IsLeast {o | ∃ a, .output o a ∈ W} base → base ≤ 0x3f3f3f3f →
      (∃ e, outputCount W = 7226 * 2 ^ e) → FitsReader file →
      ∃ C, readZk file metaFile = .ok C ∧ ∀ out v : ℕ → Fp, (∀ l ∈ W, RHolds out v l.asRead) →
        ∀ r, 7226 * r < outputCount W →
          (∀ o t, .output o t ∈ P → value C (layer t) (r * size (layer t) + pos t) = (0 : Fp)) →
          ∀ (K H : ℕ → Word) (m0 : Word), Public (fun i => out (base + (r * 7226 + i))) K H →
            out (base + (r * 7226 + 34)) = (m0.toNat : Fp) →
            ∃ M : ℕ → Word, M 0 = m0 ∧ (∀ t < 16, out (base + (r * 7226 + (34 + t))) = ((M t).toNat : Fp)) ∧
              ∀ i < 8, out (base + (r * 7226 + (2282 + i))) = ((compress K M H i).toNat : Fp) := by
  obtain ⟨layer, pos, size, h⟩ := C61_accepts var hP
  refine ⟨layer, pos, size, fun W file metaFile base h1 h2 h3 h4 h5 h6 => ?_⟩
  obtain ⟨C, c1, c4⟩ := h W file metaFile base h1 h2 h3 h4 h5 h6
  exact ⟨C, c1, fun out v hR r hr hzero K H m0 hpub h0 => C58_sound hP ((c4 out v hR r hr).1 hzero) hpub h0⟩

/-! ### The specification on a test vector -/

/-- the padded message "abc" -/
def abc (t : ℕ) : Word := [0x61626380, 0, 0, 0, 0, 0, 0, 0, 0, 0, 0, 0, 0, 0, 0, 0x18].getD t 0

/-- its schedule -/
def abcSchedule : List Word := [
  0x61626380, 0x00000000, 0x00000000, 0x00000000, 0x00000000, 0x00000000, 0x00000000, 0x00000000,
  0x00000000, 0x00000000, 0x00000000, 0x00000000, 0x00000000, 0x00000000, 0x00000000, 0x00000018,
  0x61626380, 0x000f0000, 0x7da86405, 0x600003c6, 0x3e9d7b78, 0x0183fc00, 0x12dcbfdb, 0xe2e2c38e,
  0xc8215c1a, 0xb73679a2, 0xe5bc3909, 0x32663c5b, 0x9d209d67, 0xec8726cb, 0x702138a4, 0xd3b7973b,
  0x93f5997f, 0x3b68ba73, 0xaff4ffc1, 0xf10a5c62, 0x0a8b3996, 0x72af830a, 0x9409e33e, 0x24641522,
  0x9f47bf94, 0xf0a64f5a, 0x3e246a79, 0x27333ba3, 0x0c4763f2, 0x840abf27, 0x7a290d5d, 0x065c43da,
  0xfb3e89cb, 0xcc7617db, 0xb9e66c34, 0xa9993667, 0x84badedd, 0xc21462bc, 0x1487472c, 0xb20f7a99,
  0xef57b9cd, 0xebe6b238, 0x9fe3095e, 0x78bc8d4b, 0xa43fcf15, 0x668b2ff8, 0xeeaba2cc, 0x12b1edeb]

/-- the working variables of its rounds -/
def abcVars : List Spec.Sha256.Vars := [
  ⟨0x6a09e667, 0xbb67ae85, 0x3c6ef372, 0xa54ff53a, 0x510e527f, 0x9b05688c, 0x1f83d9ab, 0x5be0cd19⟩,
  ⟨0x5d6aebcd, 0x6a09e667, 0xbb67ae85, 0x3c6ef372, 0xfa2a4622, 0x510e527f, 0x9b05688c, 0x1f83d9ab⟩,
  ⟨0x5a6ad9ad, 0x5d6aebcd, 0x6a09e667, 0xbb67ae85, 0x78ce7989, 0xfa2a4622, 0x510e527f, 0x9b05688c⟩,
  ⟨0xc8c347a7, 0x5a6ad9ad, 0x5d6aebcd, 0x6a09e667, 0xf92939eb, 0x78ce7989, 0xfa2a4622, 0x510e527f⟩,
  ⟨0xd550f666, 0xc8c347a7, 0x5a6ad9ad, 0x5d6aebcd, 0x24e00850, 0xf92939eb, 0x78ce7989, 0xfa2a4622⟩,
  ⟨0x04409a6a, 0xd550f666, 0xc8c347a7, 0x5a6ad9ad, 0x43ada245, 0x24e00850, 0xf92939eb, 0x78ce7989⟩,
  ⟨0x2b4209f5, 0x04409a6a, 0xd550f666, 0xc8c347a7, 0x714260ad, 0x43ada245, 0x24e00850, 0xf92939eb⟩,
  ⟨0xe5030380, 0x2b4209f5, 0x04409a6a, 0xd550f666, 0x9b27a401, 0x714260ad, 0x43ada245, 0x24e00850⟩,
  ⟨0x85a07b5f, 0xe5030380, 0x2b4209f5, 0x04409a6a, 0x0c657a79, 0x9b27a401, 0x714260ad, 0x43ada245⟩,
  ⟨0x8e04ecb9, 0x85a07b5f, 0xe5030380, 0x2b4209f5, 0x32ca2d8c, 0x0c657a79, 0x9b27a401, 0x714260ad⟩,
  ⟨0x8c87346b, 0x8e04ecb9, 0x85a07b5f, 0xe5030380, 0x1cc92596, 0x32ca2d8c, 0x0c657a79, 0x9b27a401⟩,
  ⟨0x4798a3f4, 0x8c87346b, 0x8e04ecb9, 0x85a07b5f, 0x436b23e8, 0x1cc92596, 0x32ca2d8c, 0x0c657a79⟩,
  ⟨0xf71fc5a9, 0x4798a3f4, 0x8c87346b, 0x8e04ecb9, 0x816fd6e9, 0x436b23e8, 0x1cc92596, 0x32ca2d8c⟩,
  ⟨0x87912990, 0xf71fc5a9, 0x4798a3f4, 0x8c87346b, 0x1e578218, 0x816fd6e9, 0x436b23e8, 0x1cc92596⟩,
  ⟨0xd932eb16, 0x87912990, 0xf71fc5a9, 0x4798a3f4, 0x745a48de, 0x1e578218, 0x816fd6e9, 0x436b23e8⟩,
  ⟨0xc0645fde, 0xd932eb16, 0x87912990, 0xf71fc5a9, 0x0b92f20c, 0x745a48de, 0x1e578218, 0x816fd6e9⟩,
  ⟨0xb0fa238e, 0xc0645fde, 0xd932eb16, 0x87912990, 0x07590dcd, 0x0b92f20c, 0x745a48de, 0x1e578218⟩,
  ⟨0x21da9a9b, 0xb0fa238e, 0xc0645fde, 0xd932eb16, 0x8034229c, 0x07590dcd, 0x0b92f20c, 0x745a48de⟩,
  ⟨0xc2fbd9d1, 0x21da9a9b, 0xb0fa238e, 0xc0645fde, 0x846ee454, 0x8034229c, 0x07590dcd, 0x0b92f20c⟩,
  ⟨0xfe777bbf, 0xc2fbd9d1, 0x21da9a9b, 0xb0fa238e, 0xcc899961, 0x846ee454, 0x8034229c, 0x07590dcd⟩,
  ⟨0xe1f20c33, 0xfe777bbf, 0xc2fbd9d1, 0x21da9a9b, 0xb0638179, 0xcc899961, 0x846ee454, 0x8034229c⟩,
  ⟨0x9dc68b63, 0xe1f20c33, 0xfe777bbf, 0xc2fbd9d1, 0x8ada8930, 0xb0638179, 0xcc899961, 0x846ee454⟩,
  ⟨0xc2606d6d, 0x9dc68b63, 0xe1f20c33, 0xfe777bbf, 0xe1257970, 0x8ada8930, 0xb0638179, 0xcc899961⟩,
  ⟨0xa7a3623f, 0xc2606d6d, 0x9dc68b63, 0xe1f20c33, 0x49f5114a, 0xe1257970, 0x8ada8930, 0xb0638179⟩,
  ⟨0xc5d53d8d, 0xa7a3623f, 0xc2606d6d, 0x9dc68b63, 0xaa47c347, 0x49f5114a, 0xe1257970, 0x8ada8930⟩,
  ⟨0x1c2c2838, 0xc5d53d8d, 0xa7a3623f, 0xc2606d6d, 0x2823ef91, 0xaa47c347, 0x49f5114a, 0xe1257970⟩,
  ⟨0xcde8037d, 0x1c2c2838, 0xc5d53d8d, 0xa7a3623f, 0x14383d8e, 0x2823ef91, 0xaa47c347, 0x49f5114a⟩,
  ⟨0xb62ec4bc, 0xcde8037d, 0x1c2c2838, 0xc5d53d8d, 0xc74c6516, 0x14383d8e, 0x2823ef91, 0xaa47c347⟩,
  ⟨0x77d37528, 0xb62ec4bc, 0xcde8037d, 0x1c2c2838, 0xedffbff8, 0xc74c6516, 0x14383d8e, 0x2823ef91⟩,
  ⟨0x363482c9, 0x77d37528, 0xb62ec4bc, 0xcde8037d, 0x6112a3b7, 0xedffbff8, 0xc74c6516, 0x14383d8e⟩,
  ⟨0xa0060b30, 0x363482c9, 0x77d37528, 0xb62ec4bc, 0xade79437, 0x6112a3b7, 0xedffbff8, 0xc74c6516⟩,
  ⟨0xea992a22, 0xa0060b30, 0x363482c9, 0x77d37528, 0x0109ab3a, 0xade79437, 0x6112a3b7, 0xedffbff8⟩,
  ⟨0x73b33bf5, 0xea992a22, 0xa0060b30, 0x363482c9, 0xba591112, 0x0109ab3a, 0xade79437, 0x6112a3b7⟩,
  ⟨0x98e12507, 0x73b33bf5, 0xea992a22, 0xa0060b30, 0x9cd9f5f6, 0xba591112, 0x0109ab3a, 0xade79437⟩,
  ⟨0xfe604df5, 0x98e12507, 0x73b33bf5, 0xea992a22, 0x59249dd3, 0x9cd9f5f6, 0xba591112, 0x0109ab3a⟩,
  ⟨0xa9a7738c, 0xfe604df5, 0x98e12507, 0x73b33bf5, 0x085f3833, 0x59249dd3, 0x9cd9f5f6, 0xba591112⟩,
  ⟨0x65a0cfe4, 0xa9a7738c, 0xfe604df5, 0x98e12507, 0xf4b002d6, 0x085f3833, 0x59249dd3, 0x9cd9f5f6⟩,
  ⟨0x41a65cb1, 0x65a0cfe4, 0xa9a7738c, 0xfe604df5, 0x0772a26b, 0xf4b002d6, 0x085f3833, 0x59249dd3⟩,
  ⟨0x34df1604, 0x41a65cb1, 0x65a0cfe4, 0xa9a7738c, 0xa507a53d, 0x0772a26b, 0xf4b002d6, 0x085f3833⟩,
  ⟨0x6dc57a8a, 0x34df1604, 0x41a65cb1, 0x65a0cfe4, 0xf0781bc8, 0xa507a53d, 0x0772a26b, 0xf4b002d6⟩,
  ⟨0x79ea687a, 0x6dc57a8a, 0x34df1604, 0x41a65cb1, 0x1efbc0a0, 0xf0781bc8, 0xa507a53d, 0x0772a26b⟩,
  ⟨0xd6670766, 0x79ea687a, 0x6dc57a8a, 0x34df1604, 0x26352d63, 0x1efbc0a0, 0xf0781bc8, 0xa507a53d⟩,
  ⟨0xdf46652f, 0xd6670766, 0x79ea687a, 0x6dc57a8a, 0x838b2711, 0x26352d63, 0x1efbc0a0, 0xf0781bc8⟩,
  ⟨0x17aa0dfe, 0xdf46652f, 0xd6670766, 0x79ea687a, 0xdecd4715, 0x838b2711, 0x26352d63, 0x1efbc0a0⟩,
  ⟨0x9d4baf93, 0x17aa0dfe, 0xdf46652f, 0xd6670766, 0xfda24c2e, 0xdecd4715, 0x838b2711, 0x26352d63⟩,
  ⟨0x26628815, 0x9d4baf93, 0x17aa0dfe, 0xdf46652f, 0xa80f11f0, 0xfda24c2e, 0xdecd4715, 0x838b2711⟩,
  ⟨0x72ab4b91, 0x26628815, 0x9d4baf93, 0x17aa0dfe, 0xb7755da1, 0xa80f11f0, 0xfda24c2e, 0xdecd4715⟩,
  ⟨0xa14c14b0, 0x72ab4b91, 0x26628815, 0x9d4baf93, 0xd57b94a9, 0xb7755da1, 0xa80f11f0, 0xfda24c2e⟩,
  ⟨0x4172328d, 0xa14c14b0, 0x72ab4b91, 0x26628815, 0xfecf0bc6, 0xd57b94a9, 0xb7755da1, 0xa80f11f0⟩,
  ⟨0x05757ceb, 0x4172328d, 0xa14c14b0, 0x72ab4b91, 0xbd714038, 0xfecf0bc6, 0xd57b94a9, 0xb7755da1⟩,
  ⟨0xf11bfaa8, 0x05757ceb, 0x4172328d, 0xa14c14b0, 0x6e5c390c, 0xbd714038, 0xfecf0bc6, 0xd57b94a9⟩,
  ⟨0x7a0508a1, 0xf11bfaa8, 0x05757ceb, 0x4172328d, 0x52f1ccf7, 0x6e5c390c, 0xbd714038, 0xfecf0bc6⟩,
  ⟨0x886e7a22, 0x7a0508a1, 0xf11bfaa8, 0x05757ceb, 0x49231c1e, 0x52f1ccf7, 0x6e5c390c, 0xbd714038⟩,
  ⟨0x101fd28f, 0x886e7a22, 0x7a0508a1, 0xf11bfaa8, 0x529e7d00, 0x49231c1e, 0x52f1ccf7, 0x6e5c390c⟩,
  ⟨0xf5702fdb, 0x101fd28f, 0x886e7a22, 0x7a0508a1, 0x9f4787c3, 0x529e7d00, 0x49231c1e, 0x52f1ccf7⟩,
  ⟨0x3ec45cdb, 0xf5702fdb, 0x101fd28f, 0x886e7a22, 0xe50e1b4f, 0x9f4787c3, 0x529e7d00, 0x49231c1e⟩,
  ⟨0x38cc9913, 0x3ec45cdb, 0xf5702fdb, 0x101fd28f, 0x54cb266b, 0xe50e1b4f, 0x9f4787c3, 0x529e7d00⟩,
  ⟨0xfcd1887b, 0x38cc9913, 0x3ec45cdb, 0xf5702fdb, 0x9b5e906c, 0x54cb266b, 0xe50e1b4f, 0x9f4787c3⟩,
  ⟨0xc062d46f, 0xfcd1887b, 0x38cc9913, 0x3ec45cdb, 0x7e44008e, 0x9b5e906c, 0x54cb266b, 0xe50e1b4f⟩,
  ⟨0xffb70472, 0xc062d46f, 0xfcd1887b, 0x38cc9913, 0x6d83bfc6, 0x7e44008e, 0x9b5e906c, 0x54cb266b⟩,
  ⟨0xb6ae8fff, 0xffb70472, 0xc062d46f, 0xfcd1887b, 0xb21bad3d, 0x6d83bfc6, 0x7e44008e, 0x9b5e906c⟩,
  ⟨0xb85e2ce9, 0xb6ae8fff, 0xffb70472, 0xc062d46f, 0x961f4894, 0xb21bad3d, 0x6d83bfc6, 0x7e44008e⟩,
  ⟨0x04d24d6c, 0xb85e2ce9, 0xb6ae8fff, 0xffb70472, 0x948d25b6, 0x961f4894, 0xb21bad3d, 0x6d83bfc6⟩,
  ⟨0xd39a2165, 0x04d24d6c, 0xb85e2ce9, 0xb6ae8fff, 0xfb121210, 0x948d25b6, 0x961f4894, 0xb21bad3d⟩,
  ⟨0x506e3058, 0xd39a2165, 0x04d24d6c, 0xb85e2ce9, 0x5ef50f24, 0xfb121210, 0x948d25b6, 0x961f4894⟩]

theorem abc_schedule : ∀ t < 64, Spec.Sha256.schedule abc t = abcSchedule.getD t 0 := by
  have h0 : ∀ t < 16, abc t = abcSchedule.getD t 0 := by decide +kernel
  have h1 : ∀ t < 48, Spec.Sha256.sigma1 (abcSchedule.getD (t + 14) 0) + abcSchedule.getD (t + 9) 0 +
      Spec.Sha256.sigma0 (abcSchedule.getD (t + 1) 0) + abcSchedule.getD t 0 = abcSchedule.getD (t + 16) 0 := by decide +kernel
  intro t
  induction t using Nat.strong_induction_on with
  | _ t ih =>
    intro ht
    rw [Spec.Sha256.schedule]
    split
    · exact h0 t ‹_›
    · obtain ⟨n, rfl⟩ : ∃ n, t = n + 16 := ⟨t - 16, by omega⟩
      rw [ih _ (by omega) (by omega), ih _ (by omega) (by omega), ih _ (by omega) (by omega), ih _ (by omega) (by omega)]
      exact h1 n (by omega)

theorem abc_rounds : ∀ t ≤ 64, some (Spec.Sha256.rounds (roundConstants.getD · 0) (Spec.Sha256.schedule abc)
    ⟨initialHash.getD 0 0, initialHash.getD 1 0, initialHash.getD 2 0, initialHash.getD 3 0, initialHash.getD 4 0,
      initialHash.getD 5 0, initialHash.getD 6 0, initialHash.getD 7 0⟩ t) = abcVars[t]? := by
  have h : ∀ t < 64, (abcVars[t]?).map (Spec.Sha256.round (roundConstants.getD t 0) (abcSchedule.getD t 0)) =
      abcVars[t + 1]? := by decide +kernel
  intro t
  induction t with
  | zero => intro _; decide +kernel
  | succ t ih =>
    intro ht
    rw [Spec.Sha256.rounds, ← h t ht, ← ih (by omega), abc_schedule t ht]
    rfl

/-- The specification gives the published digest of "abc". -/
theorem abc_digest : ∀ i < 8, compress (roundConstants.getD · 0) abc (initialHash.getD · 0) i =
    ([0xba7816bf, 0x8f01cfea, 0x414140de, 0x5dae2223, 0xb00361a3, 0x96177a9c, 0xb410ff61, 0xf20015ad] : List Word).getD i 0 := by
  intro i hi
  have h := (abc_rounds 64 (Nat.le_refl _)).symm
  rw [compress]
  generalize Spec.Sha256.rounds _ _ _ 64 = s at h ⊢
  obtain rfl : (abcVars.getD 64 ⟨0, 0, 0, 0, 0, 0, 0, 0⟩) = s := by rw [List.getD_eq_getElem?_getD, h]; rfl
  clear h
  revert i
  decide +kernel

/-- an accepted block with this digest -/
example : ∃ P, write64 = .ok P ∧ ∃ inp : ℕ → Fp, Accepts P inp ∧
    Public inp (roundConstants.getD · 0) (initialHash.getD · 0) ∧ inp 34 = (0x61626380 : ℕ) ∧ inp 2282 = (0xba7816bf : ℕ) := by
  obtain ⟨P, hP⟩ := C58_generates
  obtain ⟨inp, h1, h2, h3, h4⟩ := C59_complete hP (roundConstants.getD · 0) abc (initialHash.getD · 0)
  refine ⟨P, hP, inp, h1, h2, h3 0 (by decide), ?_⟩
  have := h4 0 (by decide)
  rw [abc_digest 0 (by decide)] at this
  exact this

end Libra.Props
