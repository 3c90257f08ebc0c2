import Verif.Proofs.CompilerSucceeds4
import Verif.Proofs.Sha256Accept
import Verif.Props.Compiler
import Verif.Props.Sha256

/-!
# What the circuit compiler accepts

The compiler has assertions, reads tables that may not have the entry, and loops over a count that may be zero. For the
programs and wiring files described by `Acceptable` and `WiringComplete`, none of this goes wrong.
-/

namespace Libra.Props
open Libra Spec Compiler Reader

/-- the lines a version of the compiler understands: `SS` only the one in the root directory, `EXPSUM` and `BIT` only the one of
the SHA256 test, constants none -/
def Understands (var : Compiler.Variant) : Stmt → Prop
  | .sum _ _ _ => var = .root
  | .expSum _ _ _ => var = .sha256
  | .bit _ _ _ => var = .sha256
  | .const _ _ => False
  | _ => True

theorem known_of {var : Compiler.Variant} {s : Stmt} (h : Understands var s) : Known var s := by cases s <;> exact h

theorem base_least {W : List RStmt} {base : ℕ} (hc : WiringComplete W base) (h : outputCount W ≠ 0) :
    IsLeast {o | ∃ a, .output o a ∈ W} base :=
  ⟨(hc.numbers base).2 ⟨le_refl _, by omega⟩, fun o ho => ((hc.numbers o).1 ho).1⟩

theorem acceptable_count {P : List Stmt} (h : Acceptable P) : inputCount P ≠ 0 := by
  obtain ⟨t, i, hi⟩ := h.input
  unfold inputCount
  rw [Ne, List.countP_eq_zero]
  intro h'
  exact h' _ hi rfl

/-- The compiler terminates and writes its two files: for all programs whose lines it understands, which use variables only after they
are defined and number them in this order, and which add up variables of the same depth only; and all wiring files that
give a value to the inputs of a positive number of blocks. -/
theorem C62_accepts (var : Compiler.Variant) (P : List Stmt) (W : List RStmt) (hP : ProgramOk P)
    (hu : ∀ s ∈ P, Understands var s) (hA : Acceptable P) (hW : WiringOk W) (base blocks : ℕ) (hc : WiringComplete W base)
    (hb : base ≤ 0x3f3f3f3f) (hpos : 0 < blocks) (hout : outputCount W = inputCount P * blocks) :
    ∃ file metaFile, compile var P W = .ok (file, metaFile) :=
  compile_succeeds hP (fun s hs => known_of (hu s hs)) hA hW hc hb (by omega) hout

/-- Together with `C50_compile`: if the number of blocks is a power of two and the files are not too large for the reader, the circuit
computes what the program says. -/
theorem C62_compiles (var : Compiler.Variant) (P : List Stmt) (hP : ProgramOk P)
    (hu : ∀ s ∈ P, Understands var s) (hA : Acceptable P) (hss : ∀ t a b, .sum t a b ∉ P) :
    ∃ layer pos size : ℕ → ℕ, ∀ (W : List RStmt) (base e : ℕ), WiringOk W → WiringComplete W base → base ≤ 0x3f3f3f3f →
      outputCount W = inputCount P * 2 ^ e →
      ∃ file metaFile, compile var P W = .ok (file, metaFile) ∧
        (FitsReader file →
          ∃ C, readZk file metaFile = .ok C ∧ WellFormed true C ∧
            ∀ (F : Type) [CommRing F] (out v : ℕ → F), (∀ l ∈ W, RHolds out v l.asRead) → ∀ r < 2 ^ e,
              ∃ w, (∀ st ∈ P, Spec.Holds (fun i => out (base + (r * inputCount P + i))) w st) ∧
                ∀ st ∈ P, ∀ t, target st = some t → layer t < C.depth ∧ pos t < size (layer t) ∧
                  value C (layer t) (r * size (layer t) + pos t) = w t) := by
  obtain ⟨layer, pos, size, h⟩ := C50_compile var P hP hss
  refine ⟨layer, pos, size, fun W base e hW hc hb hout => ?_⟩
  obtain ⟨file, metaFile, hcomp⟩ := C62_accepts var P W hP hu hA hW base (2 ^ e) hc hb (by positivity) hout
  have hn := acceptable_count hA
  refine ⟨file, metaFile, hcomp, fun hfit => ?_⟩
  have h0 : outputCount W ≠ 0 := by rw [hout]; exact Nat.mul_ne_zero hn (by positivity)
  obtain ⟨C, c1, c2, -, c4⟩ := h W file metaFile base hcomp hW (base_least hc h0) hb ⟨e, hout⟩ hfit
  refine ⟨C, c1, c2, fun F _ out v hR r hr => ?_⟩
  obtain ⟨⟨w, hw⟩, hall⟩ := (c4 F out v hR).2 r (by rw [hout]; exact Nat.mul_lt_mul_of_pos_left hr (Nat.pos_of_ne_zero hn))
  exact ⟨w, hw, fun st hst t ht => hall w hw st hst t ht⟩

/-! ### None of the conditions can be left out -/

theorem forall_prefix {P : List Stmt} {R : List Stmt → Stmt → Prop} (h : ∀ i s, P[i]? = some s → R (P.take i) s) :
    ∀ Q s, Q ++ [s] <+: P → R Q s := by
  rintro Q s ⟨T, rfl⟩
  have := h Q.length s (by simp)
  rwa [List.append_assoc, List.take_left] at this

/-- the program "V7 = I0; V5 = V7 + V7; V3 = V5 + V5": every variable is defined before it is used, but not numbered in this order -/
def backwards : List Stmt := [.input 7 0, .gate .add 5 7 7, .gate .add 3 5 5]

/-- one block with one input -/
def singleInput : List RStmt := [.input 0 0 1, .pass 1 0 0, .output 10 1]

theorem singleInput_ok : WiringOk singleInput ∧ WiringComplete singleInput 10 := by
  refine ⟨⟨by decide, ?_, ?_, ?_, ?_⟩, ⟨?_, ?_, ?_⟩⟩ <;> simp [singleInput, outputCount] <;> omega

/-- Variables with decreasing numbers: the compiler reads the level of a gate it has not yet computed. -/
theorem C62_order : ProgramOk backwards ∧ WiringOk singleInput ∧ WiringComplete singleInput 10 ∧
    outputCount singleInput = inputCount backwards ∧ (∃ lv, ∀ s ∈ backwards, LevelOk lv s) ∧
    (∀ Q s, Q ++ [s] <+: backwards → ∀ x, Uses s x → ∃ s' ∈ Q, target s' = some x) ∧
    compile .sha256 backwards singleInput = .undefined := by
  refine ⟨⟨by decide, ?_, ?_, ?_⟩, singleInput_ok.1, singleInput_ok.2, by decide,
    ⟨fun i => if i = 7 then 0 else if i = 5 then 1 else 2, ?_⟩, ?_, by decide +kernel⟩
  · simp [backwards, inputBefore]
  · simp [backwards]
  · simp [backwards]
  · simp [backwards, LevelOk]
  · refine forall_prefix fun i s hs => ?_
    match i with
    | 0 => obtain rfl := Option.some.inj hs; intro x hx; exact hx.elim
    | 1 => obtain rfl := Option.some.inj hs; rintro x (rfl | rfl) <;> exact ⟨.input 7 0, by decide, rfl⟩
    | 2 => obtain rfl := Option.some.inj hs; rintro x (rfl | rfl) <;> exact ⟨.gate .add 5 7 7, by decide, rfl⟩
    | i + 3 => cases hs

/-- a sum of an input and twice this input -/
def uneven : List Stmt := [.input 0 0, .gate .add 1 0 0, .expSum 2 0 1]

/-- Summands of different depth fail an assertion. -/
theorem C62_depth : ProgramOk uneven ∧ outputCount singleInput = inputCount uneven ∧
    (∀ Q s, Q ++ [s] <+: uneven → ∀ x, Uses s x → (∃ s' ∈ Q, target s' = some x) ∧ ∀ t, target s = some t → x < t) ∧
    compile .sha256 uneven singleInput = .assertFail := by
  refine ⟨⟨by decide, ?_, ?_, ?_⟩, by decide, ?_, by decide +kernel⟩
  · simp [uneven, inputBefore]
  · simp [uneven]
  · simp [uneven]; omega
  · refine forall_prefix fun i s hs => ?_
    match i with
    | 0 => obtain rfl := Option.some.inj hs; intro x hx; exact hx.elim
    | 1 =>
      obtain rfl := Option.some.inj hs
      rintro x (rfl | rfl) <;> exact ⟨⟨.input 0 0, by decide, rfl⟩, fun t ht => by obtain rfl := Option.some.inj ht; decide⟩
    | 2 =>
      obtain rfl := Option.some.inj hs
      rintro x ⟨h1, h2⟩
      obtain rfl | rfl : x = 0 ∨ x = 1 := by omega
      · exact ⟨⟨.input 0 0, by decide, rfl⟩, fun t ht => by obtain rfl := Option.some.inj ht; decide⟩
      · exact ⟨⟨.gate .add 1 0 0, by decide, rfl⟩, fun t ht => by obtain rfl := Option.some.inj ht; decide⟩
    | i + 3 => cases hs

/-- two blocks of one input, whose outputs are not numbered consecutively -/
def gap : List RStmt := [.input 0 0 1, .pass 1 0 0, .pass 2 0 0, .output 10 1, .output 12 2]

/-- an input and twice this input -/
def doubled : List Stmt := [.input 0 0, .gate .add 1 0 0]

theorem doubled_ok : ProgramOk doubled ∧ Acceptable doubled ∧ ∀ var, ∀ s ∈ doubled, Understands var s := by
  refine ⟨⟨by decide, ?_, ?_, ?_⟩, ⟨forall_prefix fun i s hs => ?_, ⟨fun i => i, ?_⟩, ⟨0, 0, by decide⟩⟩, ?_⟩
  · simp [doubled, inputBefore]
  · simp [doubled]
  · simp [doubled]
  · match i with
    | 0 => obtain rfl := Option.some.inj hs; intro x hx; exact hx.elim
    | 1 =>
      obtain rfl := Option.some.inj hs
      rintro x (rfl | rfl) <;> exact ⟨⟨.input 0 0, by decide, rfl⟩, fun t ht => by obtain rfl := Option.some.inj ht; decide⟩
    | i + 2 => cases hs
  · simp [doubled, LevelOk]
  · simp [doubled, Understands]

/-- A gap in the numbers of the outputs: the compiler reads a table entry that was never written. -/
theorem C62_gap : WiringOk gap ∧ outputCount gap = inputCount doubled * 2 ∧ compile .sha256 doubled gap = .undefined := by
  refine ⟨⟨by decide, ?_, ?_, ?_, ?_⟩, by decide, by decide +kernel⟩ <;> simp [gap]
  all_goals first | omega | skip
  all_goals (rintro t a b (⟨rfl, -⟩ | ⟨rfl, -⟩) <;> simp)

/-! ### The conditions can be met -/

/-- `n` outputs from number 10 on, which are copies of one input -/
def copies (x : ℤ) (n : ℕ) : List RStmt :=
  .input 0 0 x :: ((List.range n).map (fun i => .pass (i + 1) 0 0) ++ (List.range n).map (fun i => .output (10 + i) (i + 1)))

theorem copies_ok {x : ℤ} (h0 : 0 ≤ x) (h1 : x < 2 ^ 31) (n : ℕ) :
    WiringOk (copies x n) ∧ WiringComplete (copies x n) 10 ∧ outputCount (copies x n) = n := by
  have hcount : outputCount (copies x n) = n := by
    unfold outputCount copies
    rw [List.countP_cons, List.countP_append, List.countP_map, List.countP_map]
    simp [Function.comp_def]
  refine ⟨⟨?_, ?_, ?_, ?_, ?_⟩, ⟨?_, ?_, ?_⟩, hcount⟩
  · unfold copies
    rw [List.filterMap_cons_some (show rtarget (.input 0 0 x) = some 0 from rfl), List.filterMap_append, List.filterMap_map,
      List.filterMap_map]
    have e1 : (List.range n).filterMap (rtarget ∘ fun i => RStmt.pass (i + 1) 0 0) = (List.range n).map (· + 1) := by
      rw [← List.filterMap_eq_map]; rfl
    have e2 : (List.range n).filterMap (rtarget ∘ fun i => RStmt.output (10 + i) (i + 1)) = [] := by
      rw [List.filterMap_eq_nil_iff]; intro a _; rfl
    rw [e1, e2, List.append_nil, List.nodup_cons]
    exact ⟨by simp, (List.nodup_range).map fun a b h => by simpa using h⟩
  · intro t c h; simp [copies] at h
  · intro t i y h; simp [copies] at h; omega
  · intro t a b h
    simp [copies] at h
    obtain ⟨i, hi, rfl, -⟩ := h
    exact ⟨10 + i, by simp [copies, hi]⟩
  · intro t a b h
    simp [copies] at h
    obtain ⟨i, hi, rfl, rfl, -⟩ := h
    exact .inr ⟨0, x, by simp [copies]⟩
  · intro o
    rw [hcount]
    simp only [copies, List.mem_cons, List.mem_append, List.mem_map, List.mem_range, RStmt.output.injEq, reduceCtorEq, and_false,
      exists_false, false_or]
    constructor
    · rintro ⟨a, i, hi, rfl, -⟩; omega
    · rintro ⟨h1, h2⟩; exact ⟨o - 10 + 1, o - 10, by omega, by omega, rfl⟩
  · intro o t h
    simp [copies] at h
    obtain ⟨i, hi, -, rfl⟩ := h
    exact ⟨0, 0, by simp [copies, hi]⟩
  · intro o o' t h h'
    simp [copies] at h h'
    obtain ⟨i, hi, rfl, rfl⟩ := h
    obtain ⟨j, hj, rfl, h⟩ := h'
    omega

/-- `doubled` meets the conditions, for every number of blocks -/
example (e : ℕ) : ∃ file metaFile, compile .sha256 doubled (copies 5 (inputCount doubled * 2 ^ e)) = .ok (file, metaFile) :=
  have h := copies_ok (x := 5) (by decide) (by decide) (inputCount doubled * 2 ^ e)
  C62_accepts .sha256 doubled _ doubled_ok.1 (doubled_ok.2.2 _) doubled_ok.2.1 h.1 10 (2 ^ e) h.2.1 (by decide) (by positivity) h.2.2

/-! ### The SHA-256 program -/

open Sha256Gen

/-- The compiler of the SHA256 test accepts the program for one block, with any complete wiring file: no assertion fails, and no table
entry is missing. -/
theorem C61_accepted {P : List Stmt} (hP : write64 = .ok P) {W : List RStmt} (hW : WiringOk W) {base blocks : ℕ}
    (hc : WiringComplete W base) (hb : base ≤ 0x3f3f3f3f) (hpos : 0 < blocks) (hout : outputCount W = 7226 * blocks) :
    ∃ file metaFile, compile .sha256 P W = .ok (file, metaFile) := by
  obtain ⟨hok, -, hcount⟩ := C61_program hP
  exact compile_succeeds hok (write64_known hP) (write64_acceptable hP) hW hc hb (Nat.pos_iff_ne_zero.1 hpos) (by rw [hcount]; exact hout)

/-- such wiring files exist for every number of blocks -/
example (blocks : ℕ) (h : 0 < blocks) : ∃ P file metaFile, write64 = .ok P ∧
    compile .sha256 P (copies 0 (7226 * blocks)) = .ok (file, metaFile) := by
  obtain ⟨P, hP⟩ := C58_generates
  have hk := copies_ok (x := 0) (by decide) (by decide) (7226 * blocks)
  obtain ⟨file, metaFile, h⟩ := C61_accepted hP hk.1 hk.2.1 (by decide) h hk.2.2
  exact ⟨P, file, metaFile, hP, h⟩

end Libra.Props
