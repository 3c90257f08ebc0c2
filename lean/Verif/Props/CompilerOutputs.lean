import Verif.Proofs.CompilerOutputs
import Verif.Props.CompiledProofs

/-!
# The outputs of compiled circuits

The verifier checks a claim on the last layer of the circuit. So it matters which variables of the program are there.
-/

namespace Libra.Props
open Libra Spec Compiler Reader

/-- The variables of a program that are deepest, for the depths `lv`. -/
structure Deepest (P : List Stmt) (lv : ℕ → ℕ) (outs : List ℕ) : Prop where
  /-- in increasing order -/
  sorted : outs.SortedLT
  /-- exactly the variables of the program that no other variable exceeds -/
  mem : ∀ t, t ∈ outs ↔ (∃ s ∈ P, target s = some t) ∧ ∀ s ∈ P, ∀ t', target s = some t' → lv t' ≤ lv t

/-- The last layer of a compiled circuit holds, in every block, the deepest variables of the program in the order of their numbers,
followed by zeros up to the next greater power of two; and nothing else. In particular the declared outputs of the program do not matter. -/
theorem C70_outputs (var : Compiler.Variant) (P : List Stmt) (hP : ProgramOk P) (hA : Acceptable P) (hss : ∀ t a b, .sum t a b ∉ P)
    (lv : ℕ → ℕ) (hlv : ∀ s ∈ P, LevelOk lv s) (outs : List ℕ) (houts : Deepest P lv outs)
    (W : List RStmt) (hW : WiringOk W) (base e : ℕ) (hb : IsLeast {o | ∃ a, .output o a ∈ W} base) (hbase : base ≤ 0x3f3f3f3f)
    (hrep : outputCount W = inputCount P * 2 ^ e) (file metaFile : List ℤ) (hcompile : compile var P W = .ok (file, metaFile))
    (hfit : FitsReader file) :
    ∃ C b, readZk file metaFile = .ok C ∧ C.bl (C.depth - 1) = b + e ∧ outs.length < 2 ^ b ∧ 2 ^ b ≤ 2 * outs.length ∧
      ∀ (F : Type) [CommRing F] (out v : ℕ → F), (∀ l ∈ W, RHolds out v l.asRead) → ∀ r < 2 ^ e,
        ∀ w, (∀ st ∈ P, Spec.Holds (fun i => out (base + (r * inputCount P + i))) w st) →
          (∀ j (hj : j < outs.length), value C (C.depth - 1) (r * 2 ^ b + j) = w outs[j]) ∧
          ∀ j, outs.length ≤ j → j < 2 ^ b → value C (C.depth - 1) (r * 2 ^ b + j) = (0 : F) := by
  have h' := hcompile
  unfold compile at h'
  obtain ⟨⟨d0, c⟩, h1, h'⟩ := Outcome.bind_eq_ok' h'
  obtain ⟨L, h2, -⟩ := Outcome.bind_eq_ok' h'
  obtain ⟨d, src, hcomp, ⟨S⟩⟩ := dagToLayered_steps (readProgram_reads h1).1 (ranges_of_ok hP) h2
  obtain ⟨wg, relays, hF, rfl, rfl⟩ := compile_files hP h1 h2 hcomp hcompile
  have hS := small_of_file hfit
  have htot := hF.wired.total
  rw [hF.reads.outputs] at htot
  have hpos := Nat.pos_of_ne_zero hF.wired.positive
  have he : wg.repeatNum = 2 ^ e := Nat.eq_of_mul_eq_mul_left hpos (htot.trans hrep)
  have hrep' : ∃ e, wg.repeatNum = 2 ^ e := ⟨e, he⟩
  obtain ⟨hg, hnum, hin, hwired⟩ := fileOf_good hF hP hW hS hrep'
  obtain ⟨hm, hml⟩ := metaOf_ok hF hS hrep' var
  have hfl := fileOf_length wg.inputs relays wg.repeatNum L
  have hlen' : (metaOf var wg.repeatNum L).length = (fileOf wg.inputs relays wg.repeatNum L).length := by rw [hml, hfl]
  have hread := readZk_ok (fileOf wg.inputs relays wg.repeatNum L) (metaOf var wg.repeatNum L) [] [] hg.readable
    ((FileOk_iff true _).2 ⟨hnum, hin, fun _ => hwired⟩) hm hlen'
  have hsame := withMeta_same (f := fileOf wg.inputs relays wg.repeatNum L) (ms := metaOf var wg.repeatNum L) hlen'
  have hwf := goodFile_wf hg hsame
  have hdesc := describes_of_same hg.readable.1 hsame
  rw [List.append_nil, List.append_nil] at hread
  have hdep0 : L.depth ≠ 0 := hF.wired.depth
  have htop := top_level h1 hP hA hlv S hcomp hdep0 houts.sorted houts.mem
  have hsize : (L.gates (L.depth - 1)).length = fullCount outs.length := by
    rw [size_eq hcomp.toLayout, htop, List.length_map]
  have hne : outs.length ≠ 0 := by
    intro h0
    rcases hcomp.top with h | ⟨k, hk, h⟩
    · exact hdep0 h
    · have hk' : k ∈ levelKeys d (L.depth - 1) := mem_levelKeys.2 ⟨hk, by have := hcomp.low k hk; omega⟩
      rw [htop, List.length_eq_zero_iff.1 h0] at hk'
      cases hk'
  have hbits : (L.gates (L.depth - 1)).length = 2 ^ bitCount outs.length := by rw [hsize, fullCount_eq]
  generalize hCC : circuitWithMeta _ _ = C at hread hwf hdesc
  have hD : C.depth - 1 = L.depth - 1 + 3 := by rw [hdesc.depth, hfl]; omega
  refine ⟨C, bitCount outs.length, hread, ?_, ?_, ?_, fun F _ out v hR r hr w hw => ?_⟩
  · rw [hD, (bl_levels hF he hdesc).2 _ (by omega), hcomp.bitLen, htop, List.length_map]
  · rw [← fullCount_eq]; exact lt_fullCount _
  · rw [← fullCount_eq]; exact fullCount_le _ hne
  rw [hD, ← hbits]
  refine ⟨fun j hj => ?_, fun j hj hj' => ?_⟩
  · have hk : V outs[j] ∈ levelKeys d (L.depth - 1) := by
      rw [htop]; exact List.mem_map_of_mem (List.getElem_mem hj)
    have hlid : (d.node (V outs[j])).lid = j := by
      rw [hcomp.lid _ (mem_levelKeys.1 hk).1, (mem_levelKeys.1 hk).2, htop]
      have hnd : (outs.map V).Nodup := by rw [← htop]; exact Sorted.nodup (hcomp.sorted.filter _)
      have := hnd.idxOf_getElem j (by simpa using hj)
      simpa using this
    have := value_level hF hP hW hS hdesc hb hbase hR (r := r) (by omega) (w := w)
      (fun st hst => (holdsCompiled_iff (by rintro t a b rfl; exact hss t a b hst) _ w).2 (hw st hst)) _ (by omega) _ hk
    rw [hlid, hcomp.vars] at this
    exact this
  · have hget := levelLines_get L (rep := wg.repeatNum) (r := r) (by omega) hj'
    have hdummy : (L.gates (L.depth - 1))[j] = ⟨2, (j : ℤ), 0, 0⟩ := by
      have := hcomp.gates (L.depth - 1)
      rw [htop, List.length_map] at this
      rw [← Option.some.injEq, ← List.getElem?_eq_getElem, this, List.getElem?_append_right (by simpa using hj), List.getElem?_map,
        List.length_map, List.length_map, List.getElem?_range (by omega)]
      simp only [Option.map_some]
      rw [Nat.add_sub_cancel' hj]
    rw [hdummy] at hget
    have hi : L.depth - 1 + 1 + 1 < (fileOf wg.inputs relays wg.repeatNum L).length := by omega
    have hgate := gate_line hF hP hW hS hdesc hi (l := _) (by
      rw [show (fileOf wg.inputs relays wg.repeatNum L)[L.depth - 1 + 1 + 1] = levelLines L wg.repeatNum (L.depth - 1) from fileOf_level hi]
      exact hget)
    have hty : (C.gate (L.depth - 1 + 3) (r * (L.gates (L.depth - 1)).length + j)).ty = 2 := by
      rw [hgate]
      by_cases h0 : L.depth - 1 = 0
      · rw [if_pos h0, blockInputLine, if_neg (by simp)]
      · rw [if_neg h0, blockGateLine, if_neg (by simp)]
    rw [show L.depth - 1 + 3 = (L.depth - 1 + 2) + 1 from rfl] at hty ⊢
    rw [value, gateValue, hty]
    simp

/-- the deepest variable of `doubled` is the second one, so the last layer of its circuits has two gates for each block, the doubled input
and zero -/
example : (∀ s ∈ doubled, LevelOk (fun i => i) s) ∧ Deepest doubled (fun i => i) [1] := by
  refine ⟨by simp [doubled, LevelOk], by simp [List.sortedLT_iff_pairwise], fun t => ?_⟩
  constructor
  · intro h
    obtain rfl := List.mem_singleton.1 h
    exact ⟨⟨.gate .add 1 0 0, by decide, rfl⟩, fun s hs t' ht => by
      rcases List.mem_cons.1 hs with rfl | hs
      · obtain rfl := Option.some.inj ht; decide
      · obtain rfl := List.mem_singleton.1 hs
        obtain rfl := Option.some.inj ht; decide⟩
  · rintro ⟨⟨s, hs, ht⟩, h⟩
    have h1 := h (.gate .add 1 0 0) (by decide) 1 rfl
    rcases List.mem_cons.1 hs with rfl | hs
    · obtain rfl := Option.some.inj ht; omega
    · obtain rfl := List.mem_singleton.1 hs
      obtain rfl := Option.some.inj ht; decide

end Libra.Props
