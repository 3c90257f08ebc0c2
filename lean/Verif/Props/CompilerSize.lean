import Verif.Proofs.CompilerSize
import Verif.Proofs.Sha256Size
import Verif.Props.CompilerAccepts

/-!
# The size of compiled circuits

The compiler passes every operand that is not on the level before through relays. So a circuit has many more gates than the program
has lines, but the number of its layers and their widths are bounded, and this decides which circuits the verifier can read.
-/

namespace Libra.Props
open Libra Spec Compiler Reader

/-- A layer for the inputs, one for the wiring, and at most one for each line of the program; the first has at most two gates for each line
of the wiring file, the others have at most six for each line of the program and each block. -/
theorem C69_size (var : Compiler.Variant) (P : List Stmt) (W : List RStmt) (hP : ProgramOk P) (hA : Acceptable P)
    (file metaFile : List ℤ) (h : compile var P W = .ok (file, metaFile)) (blocks : ℕ) (hpos : 0 < blocks)
    (hout : outputCount W = inputCount P * blocks) :
    ∃ (inputs wiring : List Line) (levels : List (List Line)), file = tokens (inputs :: wiring :: levels) ∧
      inputs.length ≤ 2 * W.length ∧ wiring.length ≤ 6 * P.length * blocks ∧ levels.length ≤ P.length ∧
      ∀ K ∈ levels, K.length ≤ 6 * P.length * blocks := by
  have h' := h
  unfold compile at h'
  obtain ⟨⟨d0, c⟩, h1, h'⟩ := Outcome.bind_eq_ok' h'
  obtain ⟨L, h2, -⟩ := Outcome.bind_eq_ok' h'
  obtain ⟨d, src, hcomp⟩ := dagToLayered_ok (readProgram_reads h1).1 (ranges_of_ok hP) h2
  obtain ⟨wg, relays, hF, rfl, rfl⟩ := compile_files hP h1 h2 hcomp h
  obtain ⟨hdep, hwid⟩ := layered_size h1 hP hA h2
  have htot := hF.wired.total
  rw [hF.reads.outputs] at htot
  have he : wg.repeatNum = blocks := Nat.eq_of_mul_eq_mul_left (Nat.pos_of_ne_zero hF.wired.positive) (htot.trans hout)
  have hW : 0 < W.length := by
    rcases Nat.eq_zero_or_pos W.length with h0 | h0
    · obtain rfl := List.length_eq_zero_iff.1 h0
      have := Nat.mul_pos (Nat.pos_of_ne_zero hF.wired.positive) hpos
      rw [← hout] at this
      cases this
    · exact h0
  refine ⟨wg.inputs.map LGate.inputLine, relays.map LGate.line, (List.range L.depth).map (levelLines L wg.repeatNum), rfl, ?_, ?_, ?_, ?_⟩
  · rw [List.length_map, inputs_length hF]
    have hs := sources_length hF.reads
    by_cases h0 : (sources (W.foldl readRStmt {})).length = 0
    · rw [h0, fullCount, dif_pos rfl]
      omega
    · have := fullCount_le _ h0
      omega
  · rw [List.length_map, Compiler.relays_length hF, he]
    exact Nat.mul_le_mul_right _ (hwid 0)
  · rwa [List.length_map, List.length_range]
  · intro K hK
    obtain ⟨l, -, rfl⟩ := List.mem_map.1 hK
    rw [levelLines_length, he]
    exact Nat.mul_le_mul_right _ (hwid l)

/-- So the sizes of the program and the wiring file tell whether the verifier can read the circuit. -/
theorem C69_fits (var : Compiler.Variant) (P : List Stmt) (W : List RStmt) (hP : ProgramOk P) (hA : Acceptable P)
    (file metaFile : List ℤ) (h : compile var P W = .ok (file, metaFile)) (e : ℕ) (hout : outputCount W = inputCount P * 2 ^ e)
    (hlines : P.length < 999997) (hW : W.length ≤ 2 ^ 29) (hblocks : 6 * P.length * 2 ^ e ≤ 2 ^ 30) : FitsReader file := by
  obtain ⟨inputs, wiring, levels, rfl, h1, h2, h3, h4⟩ := C69_size var P W hP hA file metaFile h (2 ^ e) (Nat.two_pow_pos e) hout
  refine ⟨_, rfl, by rw [List.length_cons, List.length_cons]; omega, fun K hK => ?_⟩
  rcases List.mem_cons.1 hK with rfl | hK
  · omega
  rcases List.mem_cons.1 hK with rfl | hK
  · omega
  · exact (h4 K hK).trans hblocks

/-- `C62_compiles` for programs and wiring files within these sizes. -/
theorem C69_compiles (var : Compiler.Variant) (P : List Stmt) (hP : ProgramOk P)
    (hu : ∀ s ∈ P, Understands var s) (hA : Acceptable P) (hss : ∀ t a b, .sum t a b ∉ P) (hlines : P.length < 999997) :
    ∃ layer pos size : ℕ → ℕ, ∀ (W : List RStmt) (base e : ℕ), WiringOk W → WiringComplete W base → base ≤ 0x3f3f3f3f →
      outputCount W = inputCount P * 2 ^ e → W.length ≤ 2 ^ 29 → 6 * P.length * 2 ^ e ≤ 2 ^ 30 →
      ∃ file metaFile C, compile var P W = .ok (file, metaFile) ∧ readZk file metaFile = .ok C ∧ WellFormed true C ∧
        ∀ (F : Type) [CommRing F] (out v : ℕ → F), (∀ l ∈ W, RHolds out v l.asRead) → ∀ r < 2 ^ e,
          ∃ w, (∀ st ∈ P, Spec.Holds (fun i => out (base + (r * inputCount P + i))) w st) ∧
            ∀ st ∈ P, ∀ t, target st = some t → layer t < C.depth ∧ pos t < size (layer t) ∧
              value C (layer t) (r * size (layer t) + pos t) = w t := by
  obtain ⟨layer, pos, size, h⟩ := C62_compiles var P hP hu hA hss
  refine ⟨layer, pos, size, fun W base e hW hc hb hout hlen hblocks => ?_⟩
  obtain ⟨file, metaFile, h1, h2⟩ := h W base e hW hc hb hout
  obtain ⟨C, h3⟩ := h2 (C69_fits var P W hP hA file metaFile h1 e hout hlines hlen hblocks)
  exact ⟨file, metaFile, C, h1, h3⟩

open Sha256Gen in
/-- The program of the SHA-256 generator has 54033 lines, so the verifier reads circuits of up to `2^11` blocks. -/
theorem C69_sha256 (var : Compiler.Variant) {P : List Stmt} (hP : write64 = .ok P) :
    P.length = 54033 ∧ ∀ (W : List RStmt) (file metaFile : List ℤ), compile var P W = .ok (file, metaFile) →
      ∀ e ≤ 11, outputCount W = 7226 * 2 ^ e → W.length ≤ 2 ^ 29 → FitsReader file := by
  obtain ⟨hok, -, hcount⟩ := C61_program hP
  have hlen := write64_length hP
  refine ⟨hlen, fun W file metaFile h e he hout hW => ?_⟩
  refine C69_fits var P W hok (write64_acceptable hP) file metaFile h e (by rw [hcount]; exact hout) (by omega) hW ?_
  have : 2 ^ e ≤ 2 ^ 11 := Nat.pow_le_pow_right (by decide) he
  rw [hlen]
  omega

/-- the bounds are met: two blocks of `doubled`, with a wiring file of five lines -/
example : ∃ file metaFile, compile .sha256 doubled (copies 5 (inputCount doubled * 2 ^ 1)) = .ok (file, metaFile) ∧ FitsReader file := by
  obtain ⟨h1, h2, h3⟩ := doubled_ok
  have hc := copies_ok (x := 5) (by decide) (by decide) (inputCount doubled * 2 ^ 1)
  obtain ⟨file, metaFile, h⟩ := C62_accepts .sha256 doubled _ h1 (h3 .sha256) h2 hc.1 10 (2 ^ 1) hc.2.1 (by decide) (by decide) hc.2.2
  exact ⟨file, metaFile, h, C69_fits _ _ _ h1 h2 _ _ h 1 hc.2.2 (by decide) (by decide) (by decide)⟩

end Libra.Props
