import Verif.Proofs.OldCompilerValue
import Verif.Props.Compiler

/-!
# C101, C102: the older circuit compilers

`OldCompiler.compile` turns a straight-line program and a wiring file into the circuit file for `k` copies of the program.
-/

namespace Libra.Props
open Libra Spec Compiler Reader OldCompiler

/-- The form of the result: the compiler writes a file; if it is not too large for the reader, the circuit read from it is well formed
and `evaluate()` succeeds on it; every variable `t` of every copy `r` has a place `(layer r t, pos r t)`; in every copy, there are values
that satisfy the lines of the program in the sense of `Sem`, and all such values are the ones the circuit has in the places. -/
def OldCompilesTo (prog : OldCompiler.Program) (P : List Stmt) (W : List RStmt) (k : ℕ)
    (Sem : ∀ {F : Type} [CommRing F], (ℕ → F) → (ℕ → F) → Stmt → Prop) : Prop :=
  ∃ file, OldCompiler.compile prog P W k = .ok file ∧ (FitsReader file →
    ∃ C, readPlain file = .ok C ∧ WellFormed false C ∧ (C.depth : ℤ) = file.headD 0 + 1 ∧
      ∃ layer pos : ℕ → ℕ → ℕ, ∀ (F : Type) [CommRing F] (out v : ℕ → F), (∀ l ∈ W, RHolds out v l.asRead) →
        (∃ vals : List (List F), evaluate .fastTrack C = .ok vals) ∧
        ∀ r < k, (∃ w, ∀ st ∈ P, Sem (copyInput W k v r) w st) ∧
          ∀ w, (∀ st ∈ P, Sem (copyInput W k v r) w st) → ∀ st ∈ P, ∀ t, target st = some t →
            layer r t < C.depth ∧ pos r t < 2 ^ C.bl (layer r t) ∧ value C (layer r t) (pos r t) = w t)

/-- What the older compilers compute, where a constant is taken as the number of an input; that this is not the intended meaning is
`C102_constant_false`. -/
theorem C102_constants_partial (prog : OldCompiler.Program) (P : List Stmt) (W : List RStmt) (k : ℕ) (hk : 0 < k) (hW : OldWiringOk W)
    (hd : k ∣ (passes W).length) (hP : OldProgramOk P (passes W).length k) (hprog : prog = .lanczos → OnlyArithmetic P) :
    OldCompilesTo prog P W k (@HoldsOld) := by
  obtain ⟨s0, M, s, t, n1, D, mx, e, hD, hl, ht, hp, hM, hsz, hid, hsat⟩ := compile_graph hk hW hd hP hprog
  refine ⟨_, e, fun hfit => ?_⟩
  have hg := oldFile_good hl ht hD hfit
  have hin : Inputs ((oldFile s t D).headD []) := fun l hl' => (hg.inputs l hl').symm.imp_left And.left
  have hread := readPlain_ok (oldFile s t D) [] hg.readable ((FileOk_iff false _).2 ⟨hg.numbered, hin, fun h => by cases h⟩)
  rw [List.append_nil] at hread
  have hsame : SameLayers (circuitOf false (oldFile s t D)) (circuitOf false (oldFile s t D)) := ⟨rfl, fun _ => rfl, fun _ => rfl⟩
  have hwf := goodFile_wf hg hsame
  have hdesc := describes_of_same hg.readable.1 hsame
  refine ⟨_, hread, hwf, ?_, fun r x => (s.lvl (s.addr (gateNo P W k M r x))).toNat + 1, fun r x => OldCompiler.pos s (s.addr (gateNo P W k M r x)),
    fun F _ out v hR => ⟨⟨_, evaluate_ok hwf.toEvaluable⟩, fun r hr => ?_⟩⟩
  · rw [hdesc.depth, tokens, List.headD_cons]
    push_cast
    rfl
  · have hval := program_value hW hP hp hM (hsat F _ (oldFile_sat hl ht hg hdesc)) hR hr
    refine ⟨⟨_, hval⟩, fun w hw st hst x hx => ?_⟩
    obtain ⟨a, ha, ea⟩ := gateNo_gate hP hp hr hst hx
    have ha' : a < s.size := by omega
    have eaddr : s.addr (gateNo P W k M r x) = a := by rw [← ea, ← hid a ha, hl.addr a ha']
    have hlv := hl.lvls a ha'
    obtain ⟨i, hi⟩ : ∃ i : ℕ, s.lvl a = i := ⟨(s.lvl a).toNat, by omega⟩
    refine ⟨?_, ?_, old_unique hP hval hw st hst x hx⟩
    · beta_reduce; rw [hdesc.depth, oldFile_length, eaddr]; omega
    · beta_reduce; rw [eaddr, hi, Int.toNat_natCast]
      have hb := (hdesc.bitLength i (by rw [oldFile_length]; omega)).1.2
      rw [oldFile_getElem, fileLines_length] at hb
      have := (operand_pos hl ha' hi).1
      omega

/-- The older compilers are correct for programs without constants. -/
theorem C101_compile (prog : OldCompiler.Program) (P : List Stmt) (W : List RStmt) (k : ℕ) (hk : 0 < k) (hW : OldWiringOk W)
    (hd : k ∣ (passes W).length) (hP : OldProgramOk P (passes W).length k) (hprog : prog = .lanczos → OnlyArithmetic P)
    (hc : ∀ t (c : ℤ), .const t c ∉ P) : OldCompilesTo prog P W k (@Spec.Holds) := by
  have key : ∀ {F : Type} [CommRing F] (inp w : ℕ → F), (∀ st ∈ P, HoldsOld inp w st) ↔ ∀ st ∈ P, Spec.Holds inp w st := by
    intro F _ inp w
    refine forall₂_congr (fun st hst => ?_)
    cases st with
    | const t c => exact absurd hst (hc t c)
    | _ => rfl
  obtain ⟨file, e, h⟩ := C102_constants_partial prog P W k hk hW hd hP hprog
  refine ⟨file, e, fun hfit => ?_⟩
  obtain ⟨C, c1, c2, c3, layer, pos, c4⟩ := h hfit
  refine ⟨C, c1, c2, c3, layer, pos, fun F _ out v hR => ⟨(c4 F out v hR).1, fun r hr => ?_⟩⟩
  obtain ⟨a1, a2⟩ := (c4 F out v hR).2 r hr
  exact ⟨a1.imp (fun w hw => (key _ _).1 hw), fun w hw => a2 w ((key _ _).2 hw)⟩

/-- The older compilers write no file for a program with `SS`, `EXPSUM` or `BIT`, such as the ones of the generators for SHA-256. -/
theorem C101_rejects (prog : OldCompiler.Program) (P : List Stmt) (W : List RStmt) (k : ℕ)
    (h : ∃ t a b, .sum t a b ∈ P ∨ .expSum t a b ∈ P ∨ .bit t a b ∈ P) (file : List ℤ) : OldCompiler.compile prog P W k ≠ .ok file := by
  intro e
  unfold OldCompiler.compile at e
  obtain ⟨s, -, e⟩ := Outcome.bind_eq_ok' e
  obtain ⟨s', e, -⟩ := Outcome.bind_eq_ok' e
  obtain ⟨t, a, b, h⟩ := h
  have key : ∀ (P : List Stmt) (s s' : St), readCircuit prog k P s = .ok s' →
      .sum t a b ∉ P ∧ .expSum t a b ∉ P ∧ .bit t a b ∉ P := by
    intro P
    induction P with
    | nil => intro s s' _; simp
    | cons l P ih =>
      intro s s' e
      unfold readCircuit at e
      rw [List.foldlM_cons] at e
      obtain ⟨s1, e1, e2⟩ := Outcome.bind_eq_ok' e
      obtain ⟨i1, i2, i3⟩ := ih s1 s' e2
      refine ⟨?_, ?_, ?_⟩
      · intro hm
        rcases List.mem_cons.1 hm with rfl | hm
        · cases e1
        · exact i1 hm
      · intro hm
        rcases List.mem_cons.1 hm with rfl | hm
        · cases e1
        · exact i2 hm
      · intro hm
        rcases List.mem_cons.1 hm with rfl | hm
        · cases e1
        · exact i3 hm
  obtain ⟨k1, k2, k3⟩ := key P s s' e
  rcases h with h | h | h
  · exact k1 h
  · exact k2 h
  · exact k3 h

/-! ### Two copies -/

/-- the difference of two inputs -/
def oldProgram : List Stmt := [.input 0 0, .input 1 1, .gate .minus 2 0 1, .output 0 2]

/-- the inputs are 1 and 2, 10 and 20 -/
def oldWiring : List RStmt :=
  [.input 0 0 1, .input 1 1 2, .input 2 2 10, .input 3 3 20, .pass 4 0 0, .pass 5 1 1, .pass 6 2 2, .pass 7 3 3]

theorem oldWiring_ok : OldWiringOk oldWiring := by
  refine ⟨by decide, fun t c h => ?_, fun t i x h => ?_, fun Q t a b h => ?_⟩
  · simp [oldWiring] at h
  · simp only [oldWiring, List.mem_cons, List.not_mem_nil, or_false, reduceCtorEq, RStmt.input.injEq] at h
    rcases h with ⟨-, -, rfl⟩ | ⟨-, -, rfl⟩ | ⟨-, -, rfl⟩ | ⟨-, -, rfl⟩ <;> norm_num
  · have hm : .pass t a b ∈ oldWiring := h.subset (by simp)
    have hlen : 4 ≤ Q.length := by
      by_contra hlt
      obtain ⟨R, hR⟩ := h
      have hget : oldWiring[Q.length]? = some (.pass t a b) := by rw [← hR]; simp
      obtain h0 | h0 | h0 | h0 : Q.length = 0 ∨ Q.length = 1 ∨ Q.length = 2 ∨ Q.length = 3 := by omega
      all_goals rw [h0] at hget; simp [oldWiring] at hget
    have hpre : oldWiring.take 4 <+: Q := by
      refine List.prefix_of_prefix_length_le (l₃ := oldWiring) (List.take_prefix _ _) ((List.prefix_append _ _).trans h) ?_
      simpa [oldWiring] using hlen
    simp only [oldWiring, List.mem_cons, List.not_mem_nil, or_false, reduceCtorEq, RStmt.pass.injEq, false_or] at hm
    rcases hm with ⟨-, rfl, -⟩ | ⟨-, rfl, -⟩ | ⟨-, rfl, -⟩ | ⟨-, rfl, -⟩
    · exact ⟨.input 0 0 1, hpre.subset (by decide), rfl⟩
    · exact ⟨.input 1 1 2, hpre.subset (by decide), rfl⟩
    · exact ⟨.input 2 2 10, hpre.subset (by decide), rfl⟩
    · exact ⟨.input 3 3 20, hpre.subset (by decide), rfl⟩

theorem oldProgram_ok : OldProgramOk oldProgram 4 2 := by
  refine ⟨by decide, fun Q op t a b h => ?_, fun t a b => by simp [oldProgram], fun t i h => ?_, fun t c h => ?_⟩
  · have hm : .gate op t a b ∈ oldProgram := h.subset (by simp)
    simp only [oldProgram, List.mem_cons, List.not_mem_nil, or_false, reduceCtorEq, Stmt.gate.injEq, false_or] at hm
    obtain ⟨rfl, rfl, rfl, rfl⟩ := hm
    have hlen : 2 ≤ Q.length := by
      by_contra hlt
      obtain ⟨R, hR⟩ := h
      have hget : oldProgram[Q.length]? = some (.gate .minus 2 0 1) := by rw [← hR]; simp
      obtain h0 | h0 : Q.length = 0 ∨ Q.length = 1 := by omega
      all_goals rw [h0] at hget; simp [oldProgram] at hget
    have hpre : oldProgram.take 2 <+: Q := by
      refine List.prefix_of_prefix_length_le (l₃ := oldProgram) (List.take_prefix _ _) ((List.prefix_append _ _).trans h) ?_
      simpa [oldProgram] using hlen
    exact ⟨⟨.input 0 0, hpre.subset (by decide), rfl⟩, fun _ => ⟨.input 1 1, hpre.subset (by decide), rfl⟩⟩
  · simp only [oldProgram, List.mem_cons, List.not_mem_nil, or_false, reduceCtorEq, Stmt.input.injEq] at h
    rcases h with ⟨-, rfl⟩ | ⟨-, rfl⟩ <;> norm_num
  · simp [oldProgram] at h

example : OldCompilesTo .sha oldProgram oldWiring 2 (@Spec.Holds) :=
  C101_compile .sha oldProgram oldWiring 2 (by norm_num) oldWiring_ok (by decide) oldProgram_ok (fun h => by cases h)
    (by simp [oldProgram])

/-- the circuit of the two copies -/
def oldCircuit : Circuit := circuitOf false
  [[⟨3, 0, 0, 0⟩, ⟨3, 1, 0, 0⟩, ⟨3, 2, 1, 0⟩, ⟨3, 3, 2, 0⟩, ⟨3, 4, 10, 0⟩, ⟨3, 5, 20, 0⟩, ⟨2, 6, 0, 0⟩, ⟨2, 7, 0, 0⟩],
   [⟨0, 0, 0, 0⟩, ⟨0, 1, 2, 1⟩, ⟨0, 2, 3, 1⟩, ⟨0, 3, 4, 1⟩, ⟨0, 4, 5, 1⟩, ⟨2, 5, 0, 0⟩, ⟨2, 6, 0, 0⟩, ⟨2, 7, 0, 0⟩],
   [⟨0, 0, 0, 0⟩, ⟨7, 1, 1, 3⟩, ⟨7, 2, 2, 4⟩, ⟨2, 3, 0, 0⟩]]

/-- The newer compiler takes the inputs of a block from consecutive lines of the wiring file. The older ones do not: for the inputs 1 and 2, 10
and 20 they do not compute the difference of 1 and 2, but of 1 and 10. -/
theorem C102_order_false : ∃ file C, OldCompiler.compile .sha oldProgram oldWiring 2 = .ok file ∧ readPlain file = .ok C ∧
    ∃ out v w : ℕ → ℤ, (∀ l ∈ oldWiring, RHolds out v l.asRead) ∧
      (∀ st ∈ oldProgram, Spec.Holds (fun i => v ((passes oldWiring).getD (0 * 2 + i) 0)) w st) ∧ w 2 = -1 ∧
      (∀ l g, value C l g ≠ w 2) ∧ copyInput oldWiring 2 v 0 0 = 1 ∧ copyInput oldWiring 2 v 0 1 = 10 ∧ value C 3 1 = (-9 : ℤ) := by
  refine ⟨[3, 8, 3, 0, 0, 0, 3, 1, 0, 0, 3, 2, 1, 0, 3, 3, 2, 0, 3, 4, 10, 0, 3, 5, 20, 0, 2, 6, 0, 0, 2, 7, 0, 0, 8, 0, 0, 0,
    0, 0, 1, 2, 1, 0, 2, 3, 1, 0, 3, 4, 1, 0, 4, 5, 1, 2, 5, 0, 0, 2, 6, 0, 0, 2, 7, 0, 0, 4, 0, 0, 0, 0, 7, 1, 1, 3, 7,
    2, 2, 4, 2, 3, 0, 0], oldCircuit, by decide +kernel, by decide +kernel, fun _ => 0,
    fun t => if t % 4 = 0 then 1 else if t % 4 = 1 then 2 else if t % 4 = 2 then 10 else 20,
    fun t => if t = 0 then 1 else if t = 1 then 2 else -1, ?_, ?_, rfl, ?_, by decide +kernel, by decide +kernel, by decide +kernel⟩
  · intro l hl
    simp only [oldWiring, List.mem_cons, List.not_mem_nil, or_false] at hl
    rcases hl with rfl | rfl | rfl | rfl | rfl | rfl | rfl | rfl <;>
      simp [RHolds, RStmt.asRead, readNumber, inputNumber, int32]
  · intro st hst
    simp only [oldProgram, List.mem_cons, List.not_mem_nil, or_false] at hst
    rcases hst with rfl | rfl | rfl | rfl
    · change (1 : ℤ) = _; decide
    · change (2 : ℤ) = _; decide
    · change (-1 : ℤ) = 1 - 2; decide
    · trivial
  · exact value_ne_of_check (by decide) (by decide +kernel)

/-! ### Constants -/

/-- an input plus 1 -/
def constantProgram : List Stmt := [.input 0 0, .input 1 1, .const 2 1, .gate .add 3 0 2]

/-- the inputs are 5 and 9 -/
def constantWiring : List RStmt := [.input 0 0 5, .input 1 1 9, .pass 2 0 0, .pass 3 1 1]

/-- the circuit of `constantProgram` -/
def constantCircuit : Circuit := circuitOf false
  [[⟨3, 0, 0, 0⟩, ⟨3, 1, 0, 0⟩, ⟨3, 2, 5, 0⟩, ⟨3, 3, 9, 0⟩], [⟨0, 0, 0, 0⟩, ⟨0, 1, 2, 1⟩, ⟨0, 2, 3, 1⟩, ⟨2, 3, 0, 0⟩],
   [⟨0, 0, 0, 0⟩, ⟨0, 1, 1, 2⟩]]

/-- Input 0 plus the constant 1 should be 6 for the inputs 5 and 9; the circuit adds input 1 instead, and no gate has the value 6. -/
theorem C102_constant_false : ∃ file C, OldCompiler.compile .sha constantProgram constantWiring 1 = .ok file ∧ readPlain file = .ok C ∧
    ∃ out v w : ℕ → ℤ, (∀ l ∈ constantWiring, RHolds out v l.asRead) ∧
      (∀ st ∈ constantProgram, Spec.Holds (copyInput constantWiring 1 v 0) w st) ∧ w 3 = 6 ∧
      (∀ l g, value C l g ≠ w 3) ∧ value C 3 1 = (14 : ℤ) := by
  refine ⟨[3, 4, 3, 0, 0, 0, 3, 1, 0, 0, 3, 2, 5, 0, 3, 3, 9, 0, 4, 0, 0, 0, 0, 0, 1, 2, 1, 0, 2, 3, 1, 2, 3, 0, 0, 2, 0, 0, 0,
    0, 0, 1, 1, 2], constantCircuit, by decide +kernel, by decide +kernel, fun _ => 0, fun t => if t % 2 = 0 then 5 else 9,
    fun t => if t = 0 then 5 else if t = 1 then 9 else if t = 2 then 1 else 6, ?_, ?_, rfl, ?_, by decide +kernel⟩
  · intro l hl
    simp only [constantWiring, List.mem_cons, List.not_mem_nil, or_false] at hl
    rcases hl with rfl | rfl | rfl | rfl <;> simp [RHolds, RStmt.asRead, readNumber, inputNumber, int32]
  · intro st hst
    simp only [constantProgram, List.mem_cons, List.not_mem_nil, or_false] at hst
    rcases hst with rfl | rfl | rfl | rfl
    · change (5 : ℤ) = _; decide
    · change (9 : ℤ) = _; decide
    · change (1 : ℤ) = _; decide
    · change (6 : ℤ) = 5 + 1; decide
  · exact value_ne_of_check (by decide) (by decide +kernel)

/-! ### Lines that refer to themselves -/

/-- a variable that should be one larger than itself -/
def cyclicProgram : List Stmt := [.input 0 0, .gate .add 1 1 0]

/-- A program whose lines contradict each other is accepted: with the input 1, `V1 = V1 + V0` has no solution, but there is a file, and
the reader accepts it. -/
theorem C102_cycle : ∃ file C, OldCompiler.compile .sha cyclicProgram [.input 0 0 1, .pass 1 0 0] 1 = .ok file ∧ readPlain file = .ok C ∧
    ∀ w : ℕ → ℤ, ¬ ∀ st ∈ cyclicProgram, Spec.Holds (fun _ => 1) w st := by
  refine ⟨[3, 4, 3, 0, 0, 0, 3, 1, 0, 0, 3, 2, 1, 0, 2, 3, 0, 0, 2, 0, 0, 0, 0, 0, 1, 2, 1, 2, 0, 0, 0, 0, 0, 1, 1, 1],
    circuitOf false [[⟨3, 0, 0, 0⟩, ⟨3, 1, 0, 0⟩, ⟨3, 2, 1, 0⟩, ⟨2, 3, 0, 0⟩], [⟨0, 0, 0, 0⟩, ⟨0, 1, 2, 1⟩],
      [⟨0, 0, 0, 0⟩, ⟨0, 1, 1, 1⟩]], by decide +kernel, by decide +kernel, fun w hw => ?_⟩
  have h0 : w 0 = 1 := hw (.input 0 0) (by simp [cyclicProgram])
  have h1 : w 1 = w 1 + w 0 := hw (.gate .add 1 1 0) (by simp [cyclicProgram])
  omega

end Libra.Props
