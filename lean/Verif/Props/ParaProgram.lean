import Verif.Proofs.ParaReader
import Verif.Props.ParaTrack
import Verif.Props.TradPrograms
import Verif.Props.CmtSound

/-!
# C86, C87, C88: soundness of the verifier of the threaded protocol, its reader and its program
-/

namespace Libra.Props
open Libra Spec Finset FastTrack ParaReader

/-! ## C86: soundness -/

theorem paraInput_eq {F : Type} [CommRing F] {C : Circuit} {T : ℕ → F}
    (h : ParaTrack.verifierInput C = .ok T) : FastTrack.verifierInput C = .ok T := by
  have h3 : ∀ g < 2 ^ C.bl 0, (C.gate 0 g).ty = 3 := by
    refine loopM_eq_ok h (fun n _ => ∀ g < n, (C.gate 0 g).ty = 3) (by simp) ?_
    intro i _ s s' hs e g hg
    by_cases hi : (C.gate 0 i).ty = 3
    · rcases Nat.lt_succ_iff_lt_or_eq.1 hg with hlt | rfl
      · exact hs g hlt
      · exact hi
    · rw [if_neg hi] at e
      cases e
  rw [← h]
  unfold ParaTrack.verifierInput FastTrack.verifierInput
  refine loopM_congr_inv (fun _ => True) trivial (fun _ _ _ _ _ _ => trivial) (fun g hg T _ => ?_)
  rw [if_pos (h3 g hg), if_pos (h3 g hg)]

/-- The verifier of the threaded protocol accepts only what the traditional verifier accepts. -/
theorem C86_stricter {F : Type} [CommRing F] [DecidableEq F] {σ : Type} (C : Circuit)
    (A : Cmt.ProverApi σ F) (tables : BetaTables F) (ch : Challenges F)
    (h : ParaTrack.verify C A tables ch = .ok ()) : Cmt.verify C A tables ch = .ok () := by
  unfold ParaTrack.verify at h
  unfold Cmt.verify
  obtain ⟨⟨p, result⟩, e1, h⟩ := Outcome.bind_eq_ok h
  dsimp only at h
  obtain ⟨s, e2, h⟩ := Outcome.bind_eq_ok h
  obtain ⟨T, e3, h⟩ := Outcome.bind_eq_ok h
  rw [e1, Outcome.ok_bind]
  dsimp only
  rw [e2, Outcome.ok_bind, paraInput_eq e3, Outcome.ok_bind]
  exact h

section
variable {F : Type} [CommRing F] [DecidableEq F] [IsDomain F] [Fintype F] {σ : Type}

/-- If the claimed output is wrong in some place, the fraction of outcomes of the verifier's coins on
which `verify()` of the threaded protocol accepts is at most `cmtSoundnessError C / |F|`. The prover is
an arbitrary state machine that sees every challenge when it is sent; only the value of the claimed
output at the first point (`V_res`) is computed as in the code. -/
theorem C86_soundness (C : Circuit) (hwf : AddMult C) (A : Cmt.ProverApi σ F)
    (p : σ) (result : ℕ → F) (hA : A.evaluate A.start = .ok (p, result))
    (hres : ∀ omr r n N, A.vRes p omr r result n N = foldOutput omr r result n N)
    (hbad : ∃ g < 2 ^ C.bl (C.depth - 1), result g ≠ value C (C.depth - 1) g)
    (tables : BetaTables F) :
    ((univ.filter (fun ω : Coin C → F =>
      ParaTrack.verify C A tables (challenges C ω) = .ok ())).card : ℚ) / Fintype.card (Coin C → F) ≤
      cmtSoundnessError C / Fintype.card F := by
  refine le_trans ?_ (C46_soundness C hwf A p result hA hres hbad tables)
  refine div_le_div_of_nonneg_right ?_ (by positivity)
  exact_mod_cast Finset.card_le_card (Finset.monotone_filter_right _
    (fun ω _ h => C86_stricter C A tables _ h))

/-- The same for the program: it reads a good file, hands the circuit to a prover of any kind, and
prints "Pass" with at most this probability if the prover's output is not the one that the circuit of
the file has. -/
theorem C86_program (f : File) (hf : AddMultFile f) (hd : f.length ≤ 1000) (rest : List ℤ)
    (A : Cmt.ProverApi σ F) (p : σ) (result : ℕ → F) (hA : A.evaluate A.start = .ok (p, result))
    (hres : ∀ omr r n N, A.vRes p omr r result n N = foldOutput omr r result n N)
    (hbad : ∃ g < 2 ^ (tradCircuitOf f).bl (f.length - 1),
      result g ≠ value (tradCircuitOf f) (f.length - 1) g)
    (tables : BetaTables F) :
    ((univ.filter (fun ω : Coin (tradCircuitOf f) → F =>
      program (tokens f ++ rest) (fun _ => A) tables (challenges (tradCircuitOf f) ω) = .ok true)).card : ℚ)
        / Fintype.card (Coin (tradCircuitOf f) → F) ≤
      cmtSoundnessError (tradCircuitOf f) / Fintype.card F := by
  have hdep := TradReader.tradCircuitOf_depth f
  refine le_trans ?_ (C86_soundness (tradCircuitOf f)
    { TradReader.addMult_wf hf with small := by rw [hdep]; omega } A p result hA hres
    (by rw [hdep]; exact hbad) tables)
  refine div_le_div_of_nonneg_right ?_ (by positivity)
  refine Nat.cast_le.2 (Finset.card_le_card (Finset.monotone_filter_right _ (fun ω _ h => ?_)))
  rw [program, readPara_ok f rest hf.readable (by omega) hf.numbered, Outcome.ok_bind] at h
  change TradReader.toBool (ParaTrack.verify (tradCircuitOf f) _ _ _) = _ at h
  revert h
  cases ParaTrack.verify (tradCircuitOf f) A tables (challenges (tradCircuitOf f) ω) <;>
    simp [TradReader.toBool]

end

/-- the hypotheses can be met: the circuit of a file and a prover with a wrong output -/
example (junk : Cmt.Prover Fp) : ∃ p result,
    (offByOne (tradCircuitOf tradFile) junk).evaluate (offByOne (tradCircuitOf tradFile) junk).start
      = .ok (p, result) ∧
    (∀ omr r n N, (offByOne (tradCircuitOf tradFile) junk).vRes p omr r result n N =
      foldOutput omr r result n N) ∧
    ∃ g < 2 ^ (tradCircuitOf tradFile).bl (tradFile.length - 1),
      result g ≠ value (tradCircuitOf tradFile) (tradFile.length - 1) g := by
  have hwf : AddMult (tradCircuitOf tradFile) :=
    { TradReader.addMult_wf tradFile_good with small := by decide }
  have h1 : 0 < 2 ^ (tradCircuitOf tradFile).bl (tradFile.length - 1) := by positivity
  have h2 : tradFile.length - 1 < (tradCircuitOf tradFile).depth := by decide
  have h3 : (tradCircuitOf tradFile).depth = tradFile.length := by decide
  have hev := Cmt.evaluate_ok (F := Fp) hwf
  refine ⟨_, _, offByOne_evaluate hev, fun _ _ _ _ => rfl, 0, h1, ?_⟩
  rw [Function.update_self, show tradFile.length - 1 = (tradCircuitOf tradFile).depth - 1 by rw [h3]]
  rw [show tradFile.length - 1 = (tradCircuitOf tradFile).depth - 1 by rw [h3]] at h1 h2
  rw [valueFn_allValues _ h2 h1]
  intro h
  exact one_ne_zero (add_eq_left.1 h)

/-! ## C87, C88: the reader and the program -/

/-- A file with gates numbered in order is read as the circuit it describes, and the two maps of every
layer list, for each wire, the lines with that wire as first or second operand in the order of the
file (and the dummy that is put next to a single gate). -/
theorem C87_read (f : File) (rest : List ℤ) (hr : TradReadable f) (hd : f.length + 10 < 2 ^ 31)
    (hn : ∀ L ∈ f, Numbered L) :
    ∃ P, readPara (tokens f ++ rest) = .ok P ∧ P.circuit = tradCircuitOf f ∧
      ∀ i (h : i < f.length) (k : ℤ),
        P.uGates i k = (f[i].filter (fun l => l.u = k)).map (fun l => (l.ty, l.g, l.v)) ++
          (if f[i].length = 1 ∧ k = 0 then [(2, 1, 0)] else []) ∧
        P.vGates i k = (f[i].filter (fun l => l.v = k)).map (fun l => (l.ty, l.g, l.u)) ++
          (if f[i].length = 1 ∧ k = 0 then [(2, 1, 0)] else []) := by
  refine ⟨_, readPara_ok f rest hr hd hn, rfl, fun i h k => ?_⟩
  rw [← uMap_eq, ← vMap_eq]
  simp [paraCircuitOf, h]

/-- On a good file the maps are the lists of gates of the circuit by their operands, which the model of
the threaded prover works with. -/
theorem C87_maps (f : File) (rest : List ℤ) (hf : AddMultFile f) :
    ∃ P, readPara (tokens f ++ rest) = .ok P ∧ P.circuit = tradCircuitOf f ∧
      ∀ l < f.length, ∀ i : ℕ,
        (P.uGates l i).map (fun e => (e.1, e.2.1.toNat, e.2.2.toNat)) = ParaTrack.uGates P.circuit l i ∧
        (P.vGates l i).map (fun e => (e.1, e.2.1.toNat, e.2.2.toNat)) = ParaTrack.vGates P.circuit l i := by
  have hs := hf.shallow
  refine ⟨_, readPara_ok f rest hf.readable (by omega) hf.numbered, rfl, fun l hl i => ?_⟩
  have hu := uGates_eq hf l hl i
  have hv := vGates_eq hf l hl i
  refine ⟨?_, ?_⟩
  · change _ = ParaTrack.uGates (tradCircuitOf f) l i
    rw [hu]
    simp [paraCircuitOf, hl, entry]
  · change _ = ParaTrack.vGates (tradCircuitOf f) l i
    rw [hv]
    simp [paraCircuitOf, hl, entry]

/-- Depths that no file can announce: `d + 10` overflows from `2^31 - 10` on, a depth below -10 is a negative
number of layers to allocate, and without layers the beta tables have a negative size. -/
theorem C87_header (d : ℤ) (rest : List ℤ) :
    (2 ^ 31 - 10 ≤ d → readPara (d :: rest) = .undefined) ∧
    (-2 ^ 31 ≤ d ∧ d < -10 → readPara (d :: rest) = .assertFail) ∧
    (-10 ≤ d ∧ d ≤ 0 → readPara (d :: rest) = .undefined) := by
  refine ⟨fun h => ?_, fun h => ?_, fun h => ?_⟩
  · unfold readPara Reader.readD
    dsimp only
    by_cases h' : d < 2 ^ 31
    · rw [if_pos ⟨by omega, h'⟩, Outcome.ok_bind]
      dsimp only
      rw [if_pos (by omega)]
    · rw [if_neg (by omega)]
      rfl
  · unfold readPara Reader.readD
    dsimp only
    rw [if_pos ⟨by omega, by omega⟩, Outcome.ok_bind]
    dsimp only
    rw [if_neg (by omega), if_pos (by omega)]
  · unfold readPara Reader.readD
    dsimp only
    rw [if_pos ⟨by omega, by omega⟩, Outcome.ok_bind]
    dsimp only
    rw [if_neg (by omega), if_neg (by omega), if_pos (by omega)]

/-- The layer `0 0 0 0 / 1 1 1 1 / 1 0 0 1` has two lines for gate 0. -/
def twiceFile : List ℤ := [2, 2, 3, 0, 5, 0, 3, 1, 7, 0, 3, 0, 0, 0, 0, 1, 1, 1, 1, 1, 0, 0, 1]

/-- A line for a gate that has one already only causes a message: the gate is that of the later line,
but both lines stay in the maps. The prover then sums over a gate that neither `evaluate()` nor the
verifier knows. -/
theorem C87_twice : ∃ P, readPara twiceFile = .ok P ∧ P.circuit.gate 1 0 = ⟨1, 0, 1⟩ ∧
    P.uGates 1 0 = [(0, 0, 0), (1, 0, 1)] ∧ (0, 0, 0) ∉ ParaTrack.uGates P.circuit 1 0 := by
  have key : (match readPara twiceFile with
    | .ok P => decide (P.circuit.gate 1 0 = ⟨1, 0, 1⟩ ∧ P.uGates 1 0 = [(0, 0, 0), (1, 0, 1)] ∧
        (0, 0, 0) ∉ ParaTrack.uGates P.circuit 1 0)
    | _ => false) = true := by decide +kernel
  revert key
  cases readPara twiceFile with
  | ok P => exact fun key => ⟨P, rfl, of_decide_eq_true key⟩
  | _ => exact fun key => absurd key (by decide)

/-- On a good file with constant inputs whose circuit is local the program prints "Pass", whatever the
scheduler does, whatever the uninitialised memory holds and whatever the challenges are. Missing: the
circuits that are not local (`C54_false`) and the 512-bit arithmetic of phase 2 (`C55_underflow`). -/
theorem C88_program_partial {F : Type} [CommRing F] [DecidableEq F] {τ : Type} (f : File)
    (hf : AddMultFile f) (rest : List ℤ) (h3 : ConstantInputs (tradCircuitOf f))
    (hloc : Local (tradCircuitOf f))
    (A : ParaCircuit → Cmt.ProverApi (ParaTrack.Prover F × τ) F)
    (hA : ∀ P, readPara (tokens f ++ rest) = .ok P → ParaTrack.Scheduled P.circuit (A P))
    (tables : BetaTables F) (ch : Challenges F) :
    program (tokens f ++ rest) A tables ch = .ok true := by
  have hs := hf.shallow
  have e := readPara_ok f rest hf.readable (by omega) hf.numbered
  have hsch := hA _ e
  rw [program, e, Outcome.ok_bind]
  have := C54_complete_partial (tradCircuitOf f) (TradReader.addMult_wf hf) h3 hloc
    (A (paraCircuitOf f)) hsch tables ch
  change TradReader.toBool (ParaTrack.verify (tradCircuitOf f) _ _ _) = _
  rw [this]
  rfl

theorem loopM_assertFail {σ : Type} {n : ℕ} {b : ℕ → σ → Outcome σ} (P : ℕ → Prop)
    (hok : ∀ i < n, P i → ∀ s, ∃ t, b i s = .ok t) (hbad : ∀ i < n, ¬ P i → ∀ s, b i s = .assertFail)
    (h : ¬ ∀ i < n, P i) (s : σ) : loopM n b s = .assertFail := by
  induction n with
  | zero => exact absurd (by simp) h
  | succ n ih =>
    rw [loopM_succ]
    by_cases hn : ∀ i < n, P i
    · have : ¬ P n := fun hp => h (fun i hi => by
        rcases Nat.lt_succ_iff_lt_or_eq.1 hi with h' | rfl
        · exact hn i h'
        · exact hp)
      obtain ⟨t, e⟩ : ∃ t, loopM n b s = .ok t := by
        obtain ⟨t, e, -⟩ := loopM_ok (P := fun _ _ => True) trivial
          (fun i hi s _ => by
            obtain ⟨t, e⟩ := hok i (by omega) (hn i hi) s
            exact ⟨t, e, trivial⟩) (n := n) (b := b) (s := s)
        exact ⟨t, e⟩
      rw [e]
      exact hbad n (by omega) this t
    · rw [ih (fun i hi => hok i (by omega)) (fun i hi => hbad i (by omega)) hn]
      rfl

theorem para_evaluate_aborts {F : Type} [CommRing F] {C : Circuit} (hwf : AddMultGates C)
    (h3 : ¬ ConstantInputs C) : (ParaTrack.evaluate C : Outcome (List (List F))) = .assertFail := by
  have hpos := hwf.nonempty
  have hL : C.layers[0]? = some (C.layer 0) := by
    unfold Circuit.layer
    cases h : C.layers with
    | nil => simp [Circuit.depth, h] at hpos
    | cons => simp
  rw [ParaTrack.evaluate, hL, Outcome.read, Outcome.ok_bind]
  have : (evalLayer (C.layer 0) (fun g => do
      Outcome.assert (g.ty == 3)
      return ofCInt g.u) : Outcome (List F)) = .assertFail := by
    refine loopM_assertFail (fun i => (C.gate 0 i).ty = 3) (fun i hi hp s => ?_) (fun i hi hp s => ?_)
      h3 _
    · have hg := (hwf.full 0 hpos).2 i hi
      rw [Layer.readGate, hg]
      change ∃ t, (Outcome.assert ((C.gate 0 i).ty == 3) >>= _) >>= _ = _
      rw [hp]
      exact ⟨_, rfl⟩
    · have hg := (hwf.full 0 hpos).2 i hi
      rw [Layer.readGate, hg]
      change (Outcome.assert ((C.gate 0 i).ty == 3) >>= _) >>= _ = _
      rw [show ((C.gate 0 i).ty == 3) = false by simpa using hp]
      rfl
  rw [this]
  rfl

/-- A file whose first layer has one line, or a dummy, aborts the program: `evaluate()` and `verify()`
want constants only. -/
theorem C88_inputs {F : Type} [CommRing F] [DecidableEq F] {τ : Type} (f : File)
    (hf : AddMultFile f) (rest : List ℤ) (h3 : ¬ ConstantInputs (tradCircuitOf f))
    (A : ParaCircuit → Cmt.ProverApi (ParaTrack.Prover F × τ) F)
    (hA : ∀ P, readPara (tokens f ++ rest) = .ok P → ParaTrack.Scheduled P.circuit (A P))
    (tables : BetaTables F) (ch : Challenges F) :
    program (tokens f ++ rest) A tables ch = .assertFail := by
  have hs := hf.shallow
  have e := readPara_ok f rest hf.readable (by omega) hf.numbered
  have hwf := TradReader.addMult_wf hf
  have hE := (hA _ e).evaluate (A (paraCircuitOf f)).start
  have hev : (ParaTrack.evaluate (tradCircuitOf f) : Outcome (List (List F))) = .assertFail :=
    para_evaluate_aborts hwf h3
  change match (ParaTrack.evaluate (tradCircuitOf f) : Outcome (List (List F))) with
    | .ok vals => _
    | .assertFail => _
    | .undefined => _
    | _ => True at hE
  rw [hev] at hE
  rw [program, e, Outcome.ok_bind]
  change TradReader.toBool (ParaTrack.verify (tradCircuitOf f) _ _ _) = _
  rw [ParaTrack.verify, hE]
  rfl

/-- four inputs, four gates that double or square them, a layer of one gate -/
def localFile : File :=
  [[⟨3, 0, 5, 0⟩, ⟨3, 1, 7, 0⟩, ⟨3, 2, 1, 0⟩, ⟨3, 3, 9, 0⟩],
   [⟨0, 0, 0, 0⟩, ⟨1, 1, 1, 1⟩, ⟨0, 2, 2, 2⟩, ⟨1, 3, 3, 3⟩], [⟨1, 0, 0, 0⟩]]

/-- a dummy among the inputs -/
def inputDummyFile : File := [[⟨3, 0, 5, 0⟩, ⟨2, 1, 0, 0⟩], [⟨0, 0, 0, 0⟩, ⟨1, 1, 1, 1⟩]]

theorem localFile_good : AddMultFile localFile where
  readable := by
    refine ⟨by decide, by decide, fun L hL => ?_⟩
    simp only [localFile, List.mem_cons, List.not_mem_nil, or_false] at hL
    rcases hL with rfl | rfl | rfl <;> refine ⟨by decide, by decide, ?_⟩ <;> intro l hl <;>
      simp only [List.mem_cons, List.not_mem_nil, or_false] at hl
    · rcases hl with rfl | rfl | rfl | rfl <;> norm_num [Line.Ints]
    · rcases hl with rfl | rfl | rfl | rfl <;> norm_num [Line.Ints]
    · subst hl; norm_num [Line.Ints]
  numbered := by
    intro L hL
    simp only [localFile, List.mem_cons, List.not_mem_nil, or_false] at hL
    rcases hL with rfl | rfl | rfl <;> unfold Numbered <;> decide
  full := by
    intro L hL
    simp only [localFile, List.mem_cons, List.not_mem_nil, or_false] at hL
    rcases hL with rfl | rfl | rfl
    · exact ⟨2, rfl⟩
    · exact ⟨2, rfl⟩
    · exact ⟨0, rfl⟩
  inputs := by decide
  shallow := by decide
  gates := by
    intro i h
    obtain hi | hi : i = 0 ∨ i = 1 := by change i + 1 < 3 at h; omega
    all_goals
      subst hi
      revert h
      unfold Wire
      decide +kernel

theorem inputDummyFile_good : AddMultFile inputDummyFile where
  readable := by
    refine ⟨by decide, by decide, fun L hL => ?_⟩
    simp only [inputDummyFile, List.mem_cons, List.not_mem_nil, or_false] at hL
    rcases hL with rfl | rfl <;> refine ⟨by decide, by decide, ?_⟩ <;> intro l hl <;>
      simp only [List.mem_cons, List.not_mem_nil, or_false] at hl
    · rcases hl with rfl | rfl <;> norm_num [Line.Ints]
    · rcases hl with rfl | rfl <;> norm_num [Line.Ints]
  numbered := by
    intro L hL
    simp only [inputDummyFile, List.mem_cons, List.not_mem_nil, or_false] at hL
    rcases hL with rfl | rfl <;> unfold Numbered <;> decide
  full := by
    intro L hL
    simp only [inputDummyFile, List.mem_cons, List.not_mem_nil, or_false] at hL
    rcases hL with rfl | rfl
    · exact ⟨1, rfl⟩
    · exact ⟨1, rfl⟩
  inputs := by decide
  shallow := by decide
  gates := by
    intro i h
    obtain hi : i = 0 := by change i + 1 < 2 at h; omega
    subst hi
    revert h
    unfold Wire
    decide +kernel

theorem localFile_local : Local (tradCircuitOf localFile) := by
  intro l hl
  have : l < 2 := by
    rw [TradReader.tradCircuitOf_depth] at hl
    change l + 1 < 3 at hl
    omega
  have key : ∀ l < 2, ∀ g < 2 ^ (tradCircuitOf localFile).bl (l + 1),
      ((tradCircuitOf localFile).gate (l + 1) g).ty ≠ 2 →
      part ((tradCircuitOf localFile).bl (l + 1)) g =
        part ((tradCircuitOf localFile).bl l) ((tradCircuitOf localFile).gate (l + 1) g).u.toNat ∧
      part ((tradCircuitOf localFile).bl l) ((tradCircuitOf localFile).gate (l + 1) g).u.toNat =
        part ((tradCircuitOf localFile).bl l) ((tradCircuitOf localFile).gate (l + 1) g).v.toNat := by
    decide +kernel
  exact key l this

/-- the program passes on this file when the threads run one after the other in any order -/
example (order : List (Fin ParaTrack.numThreads)) (hn : order.Nodup) (hall : ∀ i, i ∈ order)
    (junk : ParaTrack.Prover Fp) (tables : BetaTables Fp) (ch : Challenges Fp) :
    program (tokens localFile) (fun P => ParaTrack.serial order P.circuit junk) tables ch = .ok true := by
  have := C88_program_partial localFile localFile_good [] (by unfold ConstantInputs; decide +kernel)
    localFile_local _ (fun P _ => ParaTrack.serial_scheduled hn hall P.circuit junk) tables ch
  rwa [List.append_nil] at this

/-- and aborts on the file with a dummy among its inputs -/
example (order : List (Fin ParaTrack.numThreads)) (hn : order.Nodup) (hall : ∀ i, i ∈ order)
    (junk : ParaTrack.Prover Fp) (tables : BetaTables Fp) (ch : Challenges Fp) :
    program (tokens inputDummyFile) (fun P => ParaTrack.serial order P.circuit junk) tables ch =
      .assertFail := by
  have := C88_inputs inputDummyFile inputDummyFile_good [] (by unfold ConstantInputs; decide +kernel)
    _ (fun P _ => ParaTrack.serial_scheduled hn hall P.circuit junk) tables ch
  rwa [List.append_nil] at this

example : ∃ P, readPara (tokens localFile ++ [3]) = .ok P ∧ P.circuit = tradCircuitOf localFile ∧
    ∀ l < localFile.length, ∀ i : ℕ,
      (P.uGates l i).map (fun e => (e.1, e.2.1.toNat, e.2.2.toNat)) = ParaTrack.uGates P.circuit l i ∧
      (P.vGates l i).map (fun e => (e.1, e.2.1.toNat, e.2.2.toNat)) = ParaTrack.vGates P.circuit l i :=
  C87_maps localFile [3] localFile_good

end Libra.Props
