import Verif.Proofs.CompilerValue
import Verif.Props.Circuit

/-!
# The circuit compiler

`compile` turns a straight-line program for one block and a wiring file for the inputs of all blocks into
a circuit file and a meta file.
-/

namespace Libra.Props
open Libra Spec Compiler Reader Finset

/-- The form of the result: a place `(layer t, pos t)` for every variable `t` of the program, and the size of a block in
every layer, which depend on the program only; the circuit read from the two files is well formed and `evaluate()`
succeeds on it; in every block, there are values that satisfy the lines of the program in the sense of `Sem`, and all such values
are the ones the circuit has in the places of the variables. -/
def CompilesTo (var : Compiler.Variant) (P : List Stmt)
    (Sem : ∀ {F : Type} [CommRing F], (ℕ → F) → (ℕ → F) → Stmt → Prop) : Prop :=
  ∃ layer pos size : ℕ → ℕ, ∀ (W : List RStmt) (file metaFile : List ℤ) (base : ℕ),
    compile var P W = .ok (file, metaFile) → WiringOk W →
    IsLeast {o | ∃ a, .output o a ∈ W} base → base ≤ 0x3f3f3f3f →
    (∃ e, outputCount W = inputCount P * 2 ^ e) → FitsReader file →
    ∃ C, readZk file metaFile = .ok C ∧ WellFormed true C ∧ (C.depth : ℤ) = file.headD 0 + 1 ∧
      ∀ (F : Type) [CommRing F] (out v : ℕ → F), (∀ l ∈ W, RHolds out v l.asRead) →
        (∃ vals : List (List F), evaluate .zk C = .ok vals) ∧
        ∀ r, inputCount P * r < outputCount W →
          (∃ w, ∀ st ∈ P, Sem (fun i => out (base + (r * inputCount P + i))) w st) ∧
          ∀ w, (∀ st ∈ P, Sem (fun i => out (base + (r * inputCount P + i))) w st) →
            ∀ st ∈ P, ∀ t, target st = some t → layer t < C.depth ∧ pos t < size (layer t) ∧
              value C (layer t) (r * size (layer t) + pos t) = w t

/-- What compiled circuits compute, for all programs. `HoldsCompiled` is the meaning of the lines, except that `SS` leaves out
its last operand; that this is not the intended sum is `C51_false`. -/
theorem C51_sum_partial (var : Compiler.Variant) (P : List Stmt) (hP : ProgramOk P) :
    CompilesTo var P (@HoldsCompiled) := by
  by_cases hc : ∃ d0 c L, readProgram var P = .ok (d0, c) ∧ dagToLayered d0 = .ok L
  · obtain ⟨d0, c, L, h1, h2⟩ := hc
    obtain ⟨d, src, hcomp⟩ := dagToLayered_ok (readProgram_reads h1).1 (ranges_of_ok hP) h2
    refine ⟨fun t => (d.node (V t)).lvl + 3, fun t => (d.node (V t)).lid, fun l => (L.gates (l - 3)).length,
      fun W file metaFile base hcompile hW hb hbase hrep hfit => ?_⟩
    obtain ⟨wg, relays, hF, rfl, rfl⟩ := compile_files hP h1 h2 hcomp hcompile
    have hS := small_of_file hfit
    have htot := hF.wired.total
    rw [hF.reads.outputs] at htot
    have hpos := Nat.pos_of_ne_zero hF.wired.positive
    have hrep' : ∃ e, wg.repeatNum = 2 ^ e := by
      obtain ⟨e, he⟩ := hrep
      exact ⟨e, Nat.eq_of_mul_eq_mul_left hpos (htot.trans he)⟩
    obtain ⟨hg, hnum, hin, hwired⟩ := fileOf_good hF hP hW hS hrep'
    obtain ⟨hm, hml⟩ := metaOf_ok hF hS hrep' var
    have hfl := fileOf_length wg.inputs relays wg.repeatNum L
    have hlen' : (metaOf var wg.repeatNum L).length = (fileOf wg.inputs relays wg.repeatNum L).length := by rw [hml, hfl]
    have hread := readZk_ok (fileOf wg.inputs relays wg.repeatNum L) (metaOf var wg.repeatNum L) [] [] hg.readable
      ((FileOk_iff true _).2 ⟨hnum, hin, fun _ => hwired⟩) hm hlen'
    have hsame := withMeta_same (f := fileOf wg.inputs relays wg.repeatNum L) (ms := metaOf var wg.repeatNum L) hlen'
    have hwf := goodFile_wf hg hsame
    have hdesc := describes_of_same hg.readable.1 hsame
    rw [List.append_nil, List.append_nil] at hread
    refine ⟨_, hread, hwf, ?_, fun F _ out v hR => ⟨⟨_, evaluate_ok hwf.toEvaluable⟩, fun r hr => ?_⟩⟩
    · rw [hdesc.depth, tokens, List.headD_cons]
      push_cast
      rfl
    · have hr' : r < wg.repeatNum := by
        rw [← htot] at hr
        exact Nat.lt_of_mul_lt_mul_left hr
      refine ⟨⟨_, equations_hold hF hP hW hS hdesc hb hbase hR hr'⟩, fun w hw st hst t ht => ?_⟩
      have hk := hcomp.defined st hst t ht
      have hlow := hcomp.low _ hk
      have hlev : V t ∈ levelKeys d (d.node (V t)).lvl := mem_levelKeys.2 ⟨hk, rfl⟩
      refine ⟨?_, lid_lt_size hcomp.toLayout hlev, ?_⟩
      · rw [hdesc.depth, hfl]; dsimp only; omega
      · have := value_level hF hP hW hS hdesc hb hbase hR hr' hw _ hlow _ hlev
        rw [hcomp.vars] at this
        exact this
  · refine ⟨fun _ => 0, fun _ => 0, fun _ => 0, fun W file metaFile base hcompile => absurd ?_ hc⟩
    unfold compile at hcompile
    obtain ⟨⟨d0, c⟩, h1, hcompile⟩ := Outcome.bind_eq_ok' hcompile
    obtain ⟨L, h2, -⟩ := Outcome.bind_eq_ok' hcompile
    exact ⟨d0, c, L, h1, h2⟩

/-- Compiled circuits compute what the program says, for all programs without `SS`. -/
theorem C50_compile (var : Compiler.Variant) (P : List Stmt) (hP : ProgramOk P) (hss : ∀ t a b, .sum t a b ∉ P) :
    CompilesTo var P (@Spec.Holds) := by
  have key : ∀ {F : Type} [CommRing F] (inp w : ℕ → F),
      (∀ st ∈ P, HoldsCompiled inp w st) ↔ ∀ st ∈ P, Spec.Holds inp w st := by
    intro F _ inp w
    refine forall₂_congr (fun st hst => holdsCompiled_iff ?_ inp w)
    rintro t a b rfl
    exact hss t a b hst
  obtain ⟨layer, pos, size, h⟩ := C51_sum_partial var P hP
  refine ⟨layer, pos, size, fun W file metaFile base h1 h2 h3 h4 h5 h6 => ?_⟩
  obtain ⟨C, c1, c2, c3, c4⟩ := h W file metaFile base h1 h2 h3 h4 h5 h6
  refine ⟨C, c1, c2, c3, fun F _ out v hR => ⟨(c4 F out v hR).1, fun r hr => ?_⟩⟩
  obtain ⟨a1, a2⟩ := (c4 F out v hR).2 r hr
  exact ⟨a1.imp (fun w hw => (key _ _).1 hw), fun w hw => a2 w ((key _ _).2 hw)⟩

/-! ### Programs with `SS` -/

/-- a position that does not exist counts as a dummy gate -/
theorem value_ne_of_check {C : Circuit} {x : ℤ} (h0 : (0 : ℤ) ≠ x)
    (h : ∀ l < C.depth, ∀ g < (C.layer l).gates.length, value C l g ≠ x) (l g : ℕ) : value C l g ≠ x := by
  by_cases hg : l < C.depth ∧ g < (C.layer l).gates.length
  · exact h l hg.1 g hg.2
  · have e : C.gate l g = ⟨2, 0, 0⟩ := by
      rw [Circuit.gate, Layer.gate]
      by_cases hl : l < C.depth
      · rw [List.getElem?_eq_none (Nat.le_of_not_lt (fun h => hg ⟨hl, h⟩))]; rfl
      · have : C.layer l = ⟨[], 0, false, 0, 0, 0, 0⟩ := by
          rw [Circuit.layer, List.getElem?_eq_none (Nat.le_of_not_lt hl)]; rfl
        rw [this]; rfl
    cases l with
    | zero => rw [value, e]; simpa [inputValue] using h0
    | succ l => rw [value, e]; simpa [gateValue] using h0

/-- two inputs and their sum -/
def sumProgram : List Stmt := [.input 0 0, .input 1 1, .sum 2 0 1, .output 0 2]

/-- both inputs are 1 -/
def sumWiring : List RStmt :=
  [.input 0 0 1, .input 1 1 1, .pass 2 0 0, .pass 3 1 1, .output 0 2, .output 1 3]

theorem sumProgram_ok : ProgramOk sumProgram := by
  refine ⟨by decide, ?_, ?_, ?_⟩ <;> simp [sumProgram]
  · rintro t i (⟨rfl, rfl⟩ | ⟨rfl, rfl⟩) <;> decide
  · rintro t a b rfl rfl rfl; decide

theorem sumWiring_ok : WiringOk sumWiring := by
  refine ⟨by decide, ?_, ?_, ?_, ?_⟩ <;> simp [sumWiring]
  · rintro t i x (⟨rfl, rfl, rfl⟩ | ⟨rfl, rfl, rfl⟩) <;> decide
  · rintro t a b (⟨rfl, rfl, rfl⟩ | ⟨rfl, rfl, rfl⟩)
    exacts [⟨0, by decide⟩, ⟨1, by decide⟩]
  · rintro t a b (⟨rfl, rfl, rfl⟩ | ⟨rfl, rfl, rfl⟩)
    exacts [⟨0, 1, by decide⟩, ⟨1, 1, by decide⟩]

/-- the circuit of `sumProgram` -/
def sumCircuit : Circuit := circuitWithMeta
  [[⟨3, 0, 1, 0⟩, ⟨3, 1, 1, 0⟩, ⟨3, 2, 0, 0⟩, ⟨3, 3, 0, 0⟩], [⟨10, 0, 0, 0⟩, ⟨10, 1, 1, 0⟩, ⟨2, 2, 0, 0⟩, ⟨2, 3, 0, 0⟩],
    [⟨10, 0, 0, 0⟩, ⟨10, 1, 1, 0⟩, ⟨2, 2, 0, 0⟩, ⟨2, 3, 0, 0⟩], [⟨5, 0, 0, 1⟩, ⟨2, 1, 0, 0⟩]]
  [⟨0, 0, 0, 0, 0⟩, ⟨0, 4, 1, 2, 0⟩, ⟨1, 4, 1, 2, 0⟩, ⟨1, 2, 1, 1, 0⟩]

/-- `V2 = V0 SS V1` with both inputs 1 should be 2; no gate of the compiled circuit has the value 2. -/
theorem C51_false : ∃ file metaFile C, compile .root sumProgram sumWiring = .ok (file, metaFile) ∧
    readZk file metaFile = .ok C ∧ ∃ out v w : ℕ → ℤ, (∀ l ∈ sumWiring, RHolds out v l) ∧
      (∀ st ∈ sumProgram, Spec.Holds out w st) ∧ w 2 = 2 ∧ ∀ l g, value C l g ≠ w 2 := by
  refine ⟨[4, 4, 3, 0, 1, 0, 3, 1, 1, 0, 3, 2, 0, 0, 3, 3, 0, 0, 4, 10, 0, 0, 0, 10, 1, 1, 0,
    2, 2, 0, 0, 2, 3, 0, 0, 4, 10, 0, 0, 0, 10, 1, 1, 0, 2, 2, 0, 0, 2, 3, 0, 0, 2, 5, 0, 0, 1, 2, 1, 0, 0],
    [0, 0, 0, 0, 0, 0, 4, 1, 2, 0, 1, 4, 1, 2, 0, 1, 2, 1, 1, 0], sumCircuit, by decide +kernel, by decide +kernel,
    fun _ => 1, fun _ => 1, fun t => if t = 2 then 2 else 1, ?_, ?_, rfl, ?_⟩
  · intro l hl
    simp only [sumWiring, List.mem_cons, List.not_mem_nil, or_false] at hl
    rcases hl with rfl | rfl | rfl | rfl | rfl | rfl <;> simp [RHolds]
  · intro st hst
    simp only [sumProgram, List.mem_cons, List.not_mem_nil, or_false] at hst
    rcases hst with rfl | rfl | rfl | rfl
    · simp [Spec.Holds]
    · simp [Spec.Holds]
    · change (2 : ℤ) = ∑ k ∈ Icc 0 1, if k = 2 then 2 else 1
      decide
    · trivial
  · exact value_ne_of_check (by decide) (by decide +kernel)

/-! ### Declared outputs -/

theorem foldlM_app {α β : Type} (f : β → α → Outcome β) (l l' : List α) (b : β) :
    (l ++ l').foldlM f b = (l.foldlM f b >>= fun b => l'.foldlM f b) := by
  induction l generalizing b with
  | nil => rfl
  | cons a l ih =>
    rw [List.cons_append, List.foldlM_cons, List.foldlM_cons]
    cases h : f b a with
    | ok b' => exact ih b'
    | _ => rfl

/-- A line `O.. = Va` has no effect on the files if `Va` is defined above it. -/
theorem C52_outputs_ignored (var : Compiler.Variant) (P Q : List Stmt) (o a : ℕ) (W : List RStmt)
    (ha : ∃ st ∈ P, target st = some a) :
    compile var (P ++ .output o a :: Q) W = compile var (P ++ Q) W := by
  have key : readProgram var (P ++ .output o a :: Q) = readProgram var (P ++ Q) := by
    unfold readProgram
    rw [foldlM_app, foldlM_app]
    cases h : List.foldlM (readStmt var) (Dag.empty, 0) P with
    | ok s =>
      obtain ⟨d, c⟩ := s
      obtain ⟨hr, -, -⟩ := readProgram_reads (show readProgram var P = .ok (d, c) from h)
      obtain ⟨st, hst, ht⟩ := ha
      rw [Outcome.ok_bind, Outcome.ok_bind, List.foldlM_cons]
      have e : readStmt var (d, c) (.output o a) = .ok (d, c) := by
        rw [readStmt]
        have hk : V a ∈ d.keys := (hr.defined st hst a ht).1
        congr 2
        rw [Dag.set, insertKey_of_mem hr.sorted hk, Function.update_eq_self]
      rw [e, Outcome.ok_bind]
    | _ => rfl
  unfold compile
  rw [key]

/-- an input, twice and three times the input; twice the input is declared as output -/
def outputProgram : List Stmt := [.input 0 0, .gate .add 1 0 0, .gate .add 2 1 0, .output 0 1]

/-- the input is 1 -/
def outputWiring : List RStmt := [.input 0 0 1, .pass 2 0 0, .output 0 2]

/-- the circuit of `outputProgram` -/
def outputCircuit : Circuit := circuitWithMeta
  [[⟨3, 0, 1, 0⟩, ⟨3, 1, 0, 0⟩], [⟨10, 0, 0, 0⟩, ⟨2, 1, 0, 0⟩], [⟨10, 0, 0, 0⟩, ⟨2, 1, 0, 0⟩],
    [⟨10, 0, 0, 0⟩, ⟨0, 1, 0, 0⟩, ⟨2, 2, 0, 0⟩, ⟨2, 3, 0, 0⟩], [⟨0, 0, 1, 0⟩, ⟨2, 1, 0, 0⟩]]
  [⟨0, 0, 0, 0, 0⟩, ⟨0, 2, 1, 1, 0⟩, ⟨1, 2, 1, 1, 0⟩, ⟨1, 4, 1, 2, 0⟩, ⟨1, 2, 1, 1, 0⟩]

/-- The declared output is 2, but the outputs of the circuit, its last layer, are 3 and 0. -/
theorem C52_false : ∃ file metaFile C, compile .root outputProgram outputWiring = .ok (file, metaFile) ∧
    readZk file metaFile = .ok C ∧ ∃ out v w : ℕ → ℤ, (∀ l ∈ outputWiring, RHolds out v l) ∧
      (∀ st ∈ outputProgram, Spec.Holds out w st) ∧ .output 0 1 ∈ outputProgram ∧ w 1 = 2 ∧
      ∀ g, value C (C.depth - 1) g ≠ w 1 := by
  refine ⟨[5, 2, 3, 0, 1, 0, 3, 1, 0, 0, 2, 10, 0, 0, 0, 2, 1, 0, 0, 2, 10, 0, 0, 0, 2, 1, 0, 0, 4, 10, 0, 0, 0, 0, 1, 0, 0,
    2, 2, 0, 0, 2, 3, 0, 0, 2, 0, 0, 1, 0, 2, 1, 0, 0],
    [0, 0, 0, 0, 0, 0, 2, 1, 1, 0, 1, 2, 1, 1, 0, 1, 4, 1, 2, 0, 1, 2, 1, 1, 0], outputCircuit, by decide +kernel,
    by decide +kernel, fun _ => 1, fun _ => 1, fun t => t + 1, ?_, ?_, by decide, by decide, ?_⟩
  · intro l hl
    simp only [outputWiring, List.mem_cons, List.not_mem_nil, or_false] at hl
    rcases hl with rfl | rfl | rfl <;> simp [RHolds]
  · intro st hst
    simp only [outputProgram, List.mem_cons, List.not_mem_nil, or_false] at hst
    rcases hst with rfl | rfl | rfl | rfl <;> simp [Spec.Holds, opValue]
  · intro g
    by_cases hg : g < 2
    · revert g; decide +kernel
    · have e : outputCircuit.gate 5 g = ⟨2, 0, 0⟩ := by
        rw [Circuit.gate, Layer.gate, List.getElem?_eq_none]
        · rfl
        · exact Nat.le_of_not_lt hg
      change value outputCircuit (4 + 1) g ≠ _
      rw [value, e]
      simp [gateValue]

/-! ### A program that meets the hypotheses -/

/-- three bits per block; XOR, NAAB, NOT, subtraction, product, a number from three digits and a bit test -/
def bitsProgram : List Stmt :=
  [.input 0 0, .input 1 1, .input 2 2, .gate .xor 3 0 1, .gate .naab 4 1 2, .gate .not 5 2 2, .expSum 6 3 5,
    .gate .mult 7 6 0, .gate .minus 8 7 3, .gate .add 9 8 8, .bit 10 9 9, .output 0 10]

/-- two blocks, with inputs 0, 1, 1 and 1, 0, 1; the outputs are numbered from 10 -/
def bitsWiring : List RStmt :=
  [.input 0 0 1, .const 1 0, .pass 2 1 1, .pass 3 0 0, .pass 4 0 0, .pass 5 0 0, .pass 6 1 1, .pass 7 0 0,
    .output 10 2, .output 11 3, .output 12 4, .output 13 5, .output 14 6, .output 15 7]

theorem bits_ok : ProgramOk bitsProgram := by
  refine ⟨by decide, ?_, ?_, ?_⟩ <;> simp [bitsProgram]
  · rintro t i (⟨rfl, rfl⟩ | ⟨rfl, rfl⟩ | ⟨rfl, rfl⟩) <;> decide
  · rintro t a b rfl rfl rfl; decide

example : ProgramOk bitsProgram ∧ WiringOk bitsWiring ∧ (∀ t a b, .sum t a b ∉ bitsProgram) ∧
    IsLeast {o | ∃ a, .output o a ∈ bitsWiring} 10 ∧ outputCount bitsWiring = inputCount bitsProgram * 2 ^ 1 ∧
    ∃ file metaFile, compile .sha256 bitsProgram bitsWiring = .ok (file, metaFile) ∧ FitsReader file := by
  refine ⟨bits_ok, ?_, by simp [bitsProgram], ⟨⟨2, by decide⟩, ?_⟩, by decide, ?_⟩
  · refine ⟨by decide, ?_, ?_, ?_, ?_⟩ <;> simp [bitsWiring]
    · omega
    · rintro t a b (⟨rfl, -⟩ | ⟨rfl, -⟩ | ⟨rfl, -⟩ | ⟨rfl, -⟩ | ⟨rfl, -⟩ | ⟨rfl, -⟩) <;> simp
    · omega
  · rintro o ⟨a, h⟩
    simp only [bitsWiring, List.mem_cons, RStmt.output.injEq, reduceCtorEq, List.not_mem_nil, or_false, false_or] at h
    omega
  · have h : (match compile .sha256 bitsProgram bitsWiring with
        | .ok (f, _) => decide (f.length ≤ 2 ^ 30) && decide (f.headD 0 < 999999) | _ => false) = true := by decide +kernel
    cases e : compile .sha256 bitsProgram bitsWiring with
    | ok s =>
      rw [e] at h
      simp only [Bool.and_eq_true, decide_eq_true_eq] at h
      exact ⟨s.1, s.2, rfl, fits_of_compile bits_ok e h.1 h.2⟩
    | _ => rw [e] at h; cases h

end Libra.Props
