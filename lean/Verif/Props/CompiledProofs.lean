import Verif.Proofs.CompilerParallel
import Verif.Props.CompilerSize
import Verif.Props.Zk

/-!
# From program to proof

The meta file of the compiler promises the verifier that the layers consist of copies of one block. It is true, so the verifier
accepts the honest prover for every compiled program.
-/

namespace Libra.Props
open Libra Spec Compiler Reader Libra.Zk

/-- Whatever the compiler writes for a power of two of blocks, `zk_verifier::read_circuit` reads; the circuit is well formed, all
layers above the wiring are declared to consist of copies of a block, and they do. -/
theorem C63_parallel (var : Compiler.Variant) (P : List Stmt) (W : List RStmt) (hP : ProgramOk P) (hW : WiringOk W)
    (file metaFile : List ℤ) (h : compile var P W = .ok (file, metaFile)) (e : ℕ) (hout : outputCount W = inputCount P * 2 ^ e)
    (hfit : FitsReader file) :
    ∃ C, readZk file metaFile = .ok C ∧ WellFormed true C ∧ ParallelOk C ∧ 3 < C.depth ∧
      (∀ i, 3 ≤ i → i < C.depth → (C.layer i).isParallel = true ∧ (C.layer i).repeatNum = 2 ^ e) ∧
      ∀ i, i < C.depth → 1 ≤ C.bl i ∧ C.bl i ≤ 30 := by
  have h' := h
  unfold compile at h'
  obtain ⟨⟨d0, c⟩, h1, h'⟩ := Outcome.bind_eq_ok' h'
  obtain ⟨L, h2, -⟩ := Outcome.bind_eq_ok' h'
  obtain ⟨d, src, hcomp⟩ := dagToLayered_ok (readProgram_reads h1).1 (ranges_of_ok hP) h2
  obtain ⟨wg, relays, hF, rfl, rfl⟩ := compile_files hP h1 h2 hcomp h
  have hS := small_of_file hfit
  have htot := hF.wired.total
  rw [hF.reads.outputs] at htot
  have he : wg.repeatNum = 2 ^ e := Nat.eq_of_mul_eq_mul_left (Nat.pos_of_ne_zero hF.wired.positive) (htot.trans hout)
  obtain ⟨hg, hnum, hin, hwired⟩ := fileOf_good hF hP hW hS ⟨e, he⟩
  obtain ⟨hm, hml⟩ := metaOf_ok hF hS ⟨e, he⟩ var
  have hfl := fileOf_length wg.inputs relays wg.repeatNum L
  have hlen' : (metaOf var wg.repeatNum L).length = (fileOf wg.inputs relays wg.repeatNum L).length := by rw [hml, hfl]
  have hread := readZk_ok (fileOf wg.inputs relays wg.repeatNum L) (metaOf var wg.repeatNum L) [] [] hg.readable
    ((FileOk_iff true _).2 ⟨hnum, hin, fun _ => hwired⟩) hm hlen'
  have hsame := withMeta_same (f := fileOf wg.inputs relays wg.repeatNum L) (ms := metaOf var wg.repeatNum L) hlen'
  have hdesc := describes_of_same hg.readable.1 hsame
  rw [List.append_nil, List.append_nil] at hread
  have hdep : 0 < L.depth := Nat.pos_of_ne_zero hF.wired.depth
  refine ⟨_, hread, goodFile_wf hg hsame, parallel_ok hF hP hW hS he hdesc, ?_, ?_, bl_bounds hF hS hdesc⟩
  · rw [hdesc.depth, hfl]; omega
  · intro i hi hid
    rw [hdesc.depth, hfl] at hid
    obtain ⟨l, rfl⟩ : ∃ l, i = l + 3 := ⟨i - 3, by omega⟩
    obtain ⟨X, hX⟩ := layer_meta hg.readable.1 hlen' (i := l + 2) (by omega)
    have hm : (metaOf var wg.repeatNum L)[l + 2]'(by omega) = levelMeta L wg.repeatNum l 1 := by simp [metaOf]
    rw [hX, hm, levelMeta, he]
    exact ⟨rfl, Int.toNat_natCast _⟩

/-- For any other number of blocks the verifier does not read the files. -/
theorem C63_power_of_two (var : Compiler.Variant) (P : List Stmt) (W : List RStmt) (hP : ProgramOk P)
    (file metaFile : List ℤ) (h : compile var P W = .ok (file, metaFile)) (blocks : ℕ) (hout : outputCount W = inputCount P * blocks)
    (C : Circuit) (hC : readZk file metaFile = .ok C) : ∃ e, blocks = 2 ^ e := by
  have h' := h
  unfold compile at h'
  obtain ⟨⟨d0, c⟩, h1, h'⟩ := Outcome.bind_eq_ok' h'
  obtain ⟨L, h2, -⟩ := Outcome.bind_eq_ok' h'
  obtain ⟨d, src, hcomp⟩ := dagToLayered_ok (readProgram_reads h1).1 (ranges_of_ok hP) h2
  obtain ⟨wg, relays, hF, rfl, rfl⟩ := compile_files hP h1 h2 hcomp h
  have htot := hF.wired.total
  rw [hF.reads.outputs] at htot
  have he : wg.repeatNum = blocks := Nat.eq_of_mul_eq_mul_left (Nat.pos_of_ne_zero hF.wired.positive) (htot.trans hout)
  obtain ⟨f, ms, rest, rest', e1, e2, -, -, e3, e4, -⟩ := readZk_inv hC
  have hfl := fileOf_length wg.inputs relays wg.repeatNum L
  have hlen : f.length = L.depth + 2 := by
    have := congrArg (fun l => l.headD 0) e1
    simp only [tokens, List.headD_cons, List.cons_append] at this
    omega
  have hdep : 0 < L.depth := Nat.pos_of_ne_zero hF.wired.depth
  -- the first line of the meta file that declares a layer parallel
  match ms, e3 with
  | m0 :: m1 :: m2 :: ms, _ =>
    have e2' : (metaOf var wg.repeatNum L).flatMap MetaLine.tokens =
        m0.tokens ++ (m1.tokens ++ (m2.tokens ++ (ms.flatMap MetaLine.tokens ++ rest'))) := by
      rw [e2]; simp
    obtain ⟨n, hn⟩ : ∃ n, L.depth = n + 1 := ⟨L.depth - 1, by omega⟩
    have hm : ∃ a t, metaOf var wg.repeatNum L = a :: levelMeta L wg.repeatNum 0 0 :: levelMeta L wg.repeatNum 0 1 :: t := by
      rw [metaOf, hn, List.range_succ_eq_map, List.map_cons]
      exact ⟨_, _, rfl⟩
    obtain ⟨a, t, hm⟩ := hm
    rw [hm] at e2'
    simp only [List.flatMap_cons, MetaLine.tokens, List.cons_append, List.nil_append, List.cons.injEq] at e2'
    obtain ⟨-, -, -, -, -, -, -, -, -, -, p1, -, p3, -, p5, -⟩ := e2'
    have hok := (e4 m2 (by simp)).2
    rw [← p1, ← p3, ← p5] at hok
    obtain ⟨-, -, q⟩ := hok (by simp [levelMeta])
    rw [← he]
    refine ⟨logRep wg.repeatNum, ?_⟩
    simp only [levelMeta, Int.toNat_natCast] at q
    exact_mod_cast q.symm
  | [], e3 => simp at e3; omega
  | [_], e3 => simp at e3; omega
  | [_, _], e3 => simp at e3; omega

variable {G1 G2 GT : Type} [AddCommGroup G1] [AddCommGroup G2] [AddCommGroup GT]
  [Module (ZMod p) G1] [Module (ZMod p) G2] [Module (ZMod p) GT] [DecidableEq GT]

/-- The whole way: the compiler accepts the program, the verifier reads the circuit, and accepts the honest prover, for all secrets and
challenges; for all programs, wiring files and numbers of blocks that are not too large for the reader (see `C69_size`). -/
theorem C63_complete (E : Pairing G1 G2 GT) (var : Compiler.Variant) (P : List Stmt) (W : List RStmt) (hP : ProgramOk P)
    (hu : ∀ s ∈ P, Understands var s) (hA : Acceptable P) (hW : WiringOk W) (base e : ℕ) (hc : WiringComplete W base)
    (hb : base ≤ 0x3f3f3f3f) (hout : outputCount W = inputCount P * 2 ^ e)
    (hlines : P.length < 999997) (hlen : W.length ≤ 2 ^ 29) (hblocks : 6 * P.length * 2 ^ e ≤ 2 ^ 30) :
    ∃ file metaFile C, compile var P W = .ok (file, metaFile) ∧ readZk file metaFile = .ok C ∧
      ∀ coins : Coins Fp, CoinsOk C coins → ∀ (junk : Prover Fp G1 G2) (tables : VTables Fp) (ch : Zk.Challenges Fp),
        Zk.verify E C (Zk.honest E C coins junk) tables ch = .ok () := by
  obtain ⟨file, metaFile, h⟩ := C62_accepts var P W hP hu hA hW base (2 ^ e) hc hb (by positivity) hout
  obtain ⟨C, c1, c2, c3, -, -, c5⟩ := C63_parallel var P W hP hW file metaFile h e hout
    (C69_fits var P W hP hA file metaFile h e hout hlines hlen hblocks)
  refine ⟨file, metaFile, C, h, c1, fun coins hco junk tables ch => C23_zk_complete E C c2 c3 (fun i hi => ?_) coins hco junk tables ch⟩
  obtain ⟨a, b⟩ := c5 i (by omega)
  exact ⟨a, lt_of_le_of_lt b (by norm_num)⟩

open Sha256Gen in
/-- The SHA-256 program, for every power of two of blocks up to 2048. -/
theorem C63_sha256 (E : Pairing G1 G2 GT) {P : List Stmt} (hP : write64 = .ok P) {W : List RStmt} (hW : WiringOk W) {base e : ℕ}
    (hc : WiringComplete W base) (hb : base ≤ 0x3f3f3f3f) (hout : outputCount W = 7226 * 2 ^ e) (he : e ≤ 11) (hlen : W.length ≤ 2 ^ 29) :
    ∃ file metaFile C, compile .sha256 P W = .ok (file, metaFile) ∧ readZk file metaFile = .ok C ∧
      ∀ coins : Coins Fp, CoinsOk C coins → ∀ (junk : Prover Fp G1 G2) (tables : VTables Fp) (ch : Zk.Challenges Fp),
        Zk.verify E C (Zk.honest E C coins junk) tables ch = .ok () := by
  obtain ⟨hok, -, hcount⟩ := C61_program hP
  obtain ⟨file, metaFile, h⟩ := C61_accepted hP hW hc hb (Nat.two_pow_pos e) hout
  have hfit := (C69_sha256 .sha256 hP).2 W file metaFile h e he hout hlen
  rw [← hcount] at hout
  obtain ⟨C, c1, c2, c3, -, -, c5⟩ := C63_parallel _ P W hok hW file metaFile h e hout hfit
  refine ⟨file, metaFile, C, h, c1, fun coins hco junk tables ch => C23_zk_complete E C c2 c3 (fun i hi => ?_) coins hco junk tables ch⟩
  obtain ⟨a, b⟩ := c5 i (by omega)
  exact ⟨a, lt_of_le_of_lt b (by norm_num)⟩

/-- so the verifier accepts the honest prover for two blocks of `doubled` -/
example (E : Pairing G1 G2 GT) : ∃ file metaFile C,
    compile .sha256 doubled (copies 5 (inputCount doubled * 2 ^ 1)) = .ok (file, metaFile) ∧ readZk file metaFile = .ok C ∧
      ∀ coins : Coins Fp, CoinsOk C coins → ∀ (junk : Prover Fp G1 G2) (tables : VTables Fp) (ch : Zk.Challenges Fp),
        Zk.verify E C (Zk.honest E C coins junk) tables ch = .ok () := by
  have h := copies_ok (x := 5) (by decide) (by decide) (inputCount doubled * 2 ^ 1)
  exact C63_complete E .sha256 doubled _ doubled_ok.1 (doubled_ok.2.2 _) doubled_ok.2.1 h.1 10 1 h.2.1 (by decide) h.2.2
    (by decide) (by decide) (by decide)

/-- three blocks compile, but the result is not read -/
example : ∃ file metaFile, compile .sha256 doubled (copies 5 (inputCount doubled * 3)) = .ok (file, metaFile) ∧
    ∀ C, readZk file metaFile ≠ .ok C := by
  have h := copies_ok (x := 5) (by decide) (by decide) (inputCount doubled * 3)
  obtain ⟨file, metaFile, h1⟩ := C62_accepts .sha256 doubled _ doubled_ok.1 (doubled_ok.2.2 _) doubled_ok.2.1 h.1 10 3 h.2.1
    (by decide) (by decide) h.2.2
  refine ⟨file, metaFile, h1, fun C hC => ?_⟩
  obtain ⟨e, he⟩ := C63_power_of_two _ _ _ doubled_ok.1 _ _ h1 3 h.2.2 C hC
  match e with
  | 0 => omega
  | e + 1 => omega

end Libra.Props
