import Verif.Proofs.ConstantCount
import Verif.Proofs.Constants
import Verif.Proofs.Dummy
import Verif.Proofs.FileWf
import Verif.Proofs.Soundness
import Verif.Props.Reader
import Verif.Props.FastTrack

/-!
# C19 (from files), C40, C41: files, dummy inputs and constants in the plain protocol
-/

namespace Libra.Props
open Libra Spec Reader FastTrack

section
variable {F : Type} [CommRing F] [DecidableEq F]

/-! ## C19 end to end -/

/-- C19, from the circuit file to the verdict: for every good file, the plain reader returns a circuit
whose honest proof is accepted, for all challenges. -/
theorem C19_from_file (f : File) (rest : List ℤ) (h : GoodFile false f) :
    ∃ C, readPlain (tokens f ++ rest) = .ok C ∧
      ∀ (junk : Prover F) (tables : BetaTables F) (ch : Challenges F),
        verify C (honest C junk) tables ch = .ok () := by
  have hin : Inputs (f.headD []) := fun l hl => by
    rcases h.inputs l hl with a | ⟨a, -⟩
    · exact Or.inr a
    · exact Or.inl a
  exact ⟨_, readPlain_ok f rest h.readable ((FileOk_iff false f).2 ⟨h.numbered, hin, by simp⟩),
    fun junk tables ch => C19_complete _ (goodFile_wf h ⟨rfl, fun _ => rfl, fun _ => rfl⟩) junk tables ch⟩

/-- inputs, an addition and a product, and their sum -/
def goodFile : File :=
  [[⟨3, 0, 5, 0⟩, ⟨3, 1, 6, 0⟩, ⟨3, 2, 7, 0⟩, ⟨2, 3, 0, 0⟩],
   [⟨0, 0, 0, 1⟩, ⟨1, 1, 2, 3⟩], [⟨5, 0, 0, 2⟩]]

theorem goodFile_good : GoodFile false goodFile where
  readable := by decide +kernel
  numbered := by decide +kernel
  full := by
    intro L hL
    simp only [goodFile, List.mem_cons, List.not_mem_nil, or_false] at hL
    rcases hL with rfl | rfl | rfl
    · exact ⟨2, rfl⟩
    · exact ⟨1, rfl⟩
    · exact ⟨0, rfl⟩
  inputs := by decide +kernel
  shallow := by decide
  gates := by
    intro i h
    have h' : i + 1 < 3 := h
    have h' : i < 2 := by omega
    interval_cases i
    · revert h; decide +kernel
    · revert h; decide +kernel

/-! ## C40 dummy inputs -/

/-- C40, plain version, exactly: in a circuit that is well formed except that dummy inputs may have any
operand (`constify` turns dummy inputs into inputs), the honest proof is accepted if and only if the
multilinear extension of the operands of the dummy inputs vanishes at the random point. -/
theorem C40_plain_exact (C : Circuit) (hwf : WellFormed false (constify C))
    (hin : ∀ g < 2 ^ C.bl 0, ∃ x, (C.layer 0).gates[g]? = some (some x) ∧ (x.ty = 3 ∨ x.ty = 2))
    (hlen : (C.layer 0).gates.length = 2 ^ C.bl 0)
    (junk : Prover F) (tables : BetaTables F) (ch : Challenges F) :
    verify C (honest C junk) tables ch = .ok () ↔
      mle (C.bl 0) (fun g => if (C.gate 0 g).ty = 2 then (inputNumber (C.gate 0 g).u : F) else 0) (ch.ru 1) = 0 := by
  refine dummy_iff hwf hin (fun x hx => ?_) false junk tables ch
  obtain ⟨i, hi, e⟩ := List.mem_iff_getElem.1 hx
  obtain ⟨y, hy, hty⟩ := hin i (by rw [← hlen]; exact hi)
  rw [List.getElem?_eq_getElem hi, e] at hy
  cases hy; exact hty

/-- a dummy with operand 1 and an input with value 0 -/
def dummyFile : File := [[⟨2, 0, 1, 0⟩, ⟨3, 1, 0, 0⟩]]

/-- C40 is false of the plain version: there is a file the reader accepts whose honest proof is not
accepted, because a dummy input has operand 1. -/
theorem C40_plain_false [Nontrivial F] : ∃ (file : List ℤ) (C : Circuit), readPlain file = .ok C ∧
    ∀ (junk : Prover F) (tables : BetaTables F) (ch : Challenges F), ch.ru 1 0 = 0 →
      verify C (honest C junk) tables ch ≠ .ok () := by
  refine ⟨tokens dummyFile, circuitOf false dummyFile, ?_, ?_⟩
  · have := readPlain_ok dummyFile [] (by decide +kernel)
      ((FileOk_iff _ _).2 ⟨by decide +kernel, by decide +kernel, by simp⟩)
    rwa [List.append_nil] at this
  · intro junk tables ch h0 hacc
    have hwf : WellFormed false (constify (circuitOf false dummyFile)) := by
      apply wellFormed_of_check <;> decide +kernel
    rw [C40_plain_exact _ hwf] at hacc
    · have hb : (circuitOf false dummyFile).bl 0 = 1 := by decide +kernel
      have e0 : (circuitOf false dummyFile).gate 0 0 = ⟨2, 1, 0⟩ := by decide +kernel
      have e1 : (circuitOf false dummyFile).gate 0 1 = ⟨3, 0, 0⟩ := by decide +kernel
      rw [hb] at hacc
      simp [mle, eqPoly, Finset.sum_range_succ, Finset.prod_range_succ, e0, e1, h0, inputNumber] at hacc
    · have hb : (circuitOf false dummyFile).bl 0 = 1 := by decide +kernel
      rw [hb]
      intro g hg
      interval_cases g
      · exact ⟨_, rfl, by decide⟩
      · exact ⟨_, rfl, by decide⟩
    · decide +kernel

/-- C40, zero-knowledge version: the reader accepts a dummy input only with operand 0, and `evaluate()`
gives it the value 0. -/
theorem C40_zk {K : Type} [CommRing K] (file metaFile : List ℤ) (C : Circuit)
    (h : readZk file metaFile = .ok C) :
    ∃ (f : File) (rest : List ℤ), file = tokens f ++ rest ∧
      ∀ j (hj : j < (f.headD []).length), (f.headD [])[j].ty = 2 →
        (f.headD [])[j].u = 0 ∧ (f.headD [])[j].v = 0 ∧
        (C.layer 0).gates[j]? = some (some ⟨2, 0, 0⟩) ∧
        ∀ vals : List (List K), evaluate .zk C = .ok vals → (vals[0]?.getD [])[j]? = some 0 := by
  obtain ⟨f, rest, h1, h2, -, -, hw, hD⟩ := C11_accepted file metaFile C h
  refine ⟨f, rest, h1, fun j hj ht => ?_⟩
  obtain ⟨L, f', rfl⟩ : ∃ L f', f = L :: f' := by
    cases f with
    | nil => exact absurd rfl h2.1
    | cons L f => exact ⟨L, f, rfl⟩
  have hj' : j < L.length := hj
  have ht' : L[j].ty = 2 := ht
  have hwj := hw 0 (by simp) L[j] (List.getElem_mem hj')
  simp only [WiresOk, ht'] at hwj
  norm_num [Wire] at hwj
  have hu : L[j].u = 0 := by omega
  have hv : L[j].v = 0 := by omega
  have hg := hD.inputs j hj
  have eg : gateOf true L[j] = ⟨2, 0, 0⟩ := by simp [gateOf, ht', hu, hv, int32]
  refine ⟨hu, hv, ?_, fun vals hvals => ?_⟩
  · rw [hg]; exact congrArg (fun x => some (some x)) eg
  · have := C39_input_value true .zk (L :: f') C hD vals hvals h2.1 j hj
    rw [this]
    change some (((int32 L[j].u % 2 ^ 64).toNat : ℕ) : K) = _
    rw [hu]; simp [int32]

/-- an accepted file with a dummy input -/
example : ∃ C, readZk (tokens goodFile) [0, 0, 0, 0, 0, 0, 0, 0, 0, 0, 0, 0, 0, 0, 0] = .ok C := by
  obtain ⟨C, h, -⟩ := C10_zk goodFile [noMeta, noMeta, noMeta] [] [] (by decide +kernel)
    (by decide +kernel) (by decide +kernel) (by decide +kernel) (by decide +kernel) rfl
  rw [List.append_nil] at h
  exact ⟨C, h⟩

/-! ## C41 constants above the input layer -/

/-- C41: `evaluate()` accepts constants in every layer, but the proof ignores them: if the last
layer holds constants (and no direct relays), the honest proof is rejected whenever the multilinear extension of these
constants does not vanish at the first random point. -/
theorem C41_constants_rejected (C : Circuit) (hev : Evaluable false C) (hd : 3 ≤ C.depth)
    (hv0 : ∀ g < 2 ^ C.bl (C.depth - 1), (C.gate (C.depth - 1) g).ty = 6 ∨
      (C.gate (C.depth - 1) g).ty = 10 → (C.gate (C.depth - 1) g).v = 0)
    (hno4 : ∀ g < 2 ^ C.bl (C.depth - 1), (C.gate (C.depth - 1) g).ty ≠ 4)
    (hbl : 1 ≤ C.bl (C.depth - 2)) (junk : Prover F) (tables : BetaTables F) (ch : Challenges F)
    (hc : mle (C.bl (C.depth - 1)) (fun g => if (C.gate (C.depth - 1) g).ty = 3
      then ((C.gate (C.depth - 1) g).u : F) else 0) ch.r0 ≠ 0) :
    verify C (honest C junk) tables ch = .reject :=
  const_reject hev hd hv0 hno4 hbl false junk tables ch hc

/-- two inputs; their sum and the constant 9 -/
def constFile : File := [[⟨3, 0, 5, 0⟩, ⟨3, 1, 6, 0⟩], [⟨0, 0, 0, 1⟩, ⟨3, 1, 9, 0⟩]]

/-- C41 for a file: it is read, it can be evaluated, and its honest proof is rejected unless
`9 * r = 0` for the first coordinate `r` of the first random point. -/
theorem C41_false : ∃ (file : List ℤ) (C : Circuit), readPlain file = .ok C ∧
    (∃ vals : List (List F), evaluate .fastTrack C = .ok vals) ∧
    ∀ (junk : Prover F) (tables : BetaTables F) (ch : Challenges F), 9 * ch.r0 0 ≠ 0 →
      verify C (honest C junk) tables ch = .reject := by
  have hev : Evaluable false (circuitOf false constFile) := by
    have h3 : ∀ i < (circuitOf false constFile).depth,
      ((circuitOf false constFile).layer i).gates.length = 2 ^ (circuitOf false constFile).bl i ∧
      ∀ g < 2 ^ (circuitOf false constFile).bl i, ((circuitOf false constFile).layer i).gates[g]? =
        some (some ((circuitOf false constFile).gate i g)) := by decide +kernel
    have h5 : ∀ i < (circuitOf false constFile).depth - 1, ∀ g < 2 ^ (circuitOf false constFile).bl (i + 1),
      GateOk false ((circuitOf false constFile).bl i) ((circuitOf false constFile).gate (i + 1) g) := by
      decide +kernel
    exact ⟨by decide +kernel, by decide +kernel, h3, by decide +kernel, fun i hi => h5 i (by omega)⟩
  refine ⟨tokens constFile, circuitOf false constFile, ?_, ?_, ?_⟩
  · have := readPlain_ok constFile [] (by decide +kernel)
      ((FileOk_iff _ _).2 ⟨by decide +kernel, by decide +kernel, by simp⟩)
    rwa [List.append_nil] at this
  · exact ⟨_, evaluate_ok (var := .fastTrack) (by simpa using hev)⟩
  · intro junk tables ch h9
    refine C41_constants_rejected _ hev (by decide +kernel) (by decide +kernel) (by decide +kernel)
      (by decide +kernel) junk tables ch ?_
    have hd : (circuitOf false constFile).depth = 3 := by decide +kernel
    have hb : (circuitOf false constFile).bl (3 - 1) = 1 := by decide +kernel
    have e0 : (circuitOf false constFile).gate (3 - 1) 0 = ⟨0, 0, 1⟩ := by decide +kernel
    have e1 : (circuitOf false constFile).gate (3 - 1) 1 = ⟨3, 9, 0⟩ := by decide +kernel
    rw [hd, hb]
    have : mle 1 (fun g => if ((circuitOf false constFile).gate (3 - 1) g).ty = 3
        then (((circuitOf false constFile).gate (3 - 1) g).u : F) else 0) ch.r0 = 9 * ch.r0 0 := by
      simp only [mle, eqPoly, pow_one, Finset.sum_range_succ, Finset.prod_range_succ, e0, e1]
      simp
      ring
    rw [this]; exact h9

/-- C41, constants in any layer: the honest proof is accepted exactly when the constants of every layer have weight zero, and rejected
otherwise. -/
theorem C41_exact (C : Circuit) (h : WellFormedUpToConstants false C) (junk : Prover F) (tables : BetaTables F) (ch : Challenges F) :
    verify C (honest C junk) tables ch = if ∀ i < C.depth, 1 ≤ i → runWeight C ch i = 0 then .ok () else .reject :=
  constants_run h false junk tables ch

open Finset in
/-- C41: over a finite field the honest proof for a circuit with a constant other than zero above
the input layer is almost never accepted: with probability at most `(n + 1) / |F|`, for a layer of `2 ^ n` gates. -/
theorem C41_almost_never [IsDomain F] [Fintype F] (C : Circuit) (h : WellFormedUpToConstants false C) (i g : ℕ) (hi : 1 ≤ i)
    (hd : i < C.depth) (hg : g < 2 ^ C.bl i) (h3 : (C.gate i g).ty = 3) (hu : ((C.gate i g).u : F) ≠ 0) (junk : Prover F)
    (tables : BetaTables F) :
    ((univ.filter (fun ω : Coin C → F => verify C (honest C junk) tables (challenges C ω) = .ok ())).card : ℚ) /
      Fintype.card (Coin C → F) ≤ (C.bl i + 1 : ℕ) / Fintype.card F := by
  have hc := constants_count (F := F) h false junk tables hi hd ⟨g, hg, by rwa [constants, if_pos h3]⟩
  have h1 : (0 : ℚ) < Fintype.card F := by exact_mod_cast Fintype.card_pos
  have h2 : (0 : ℚ) < Fintype.card (Coin C → F) := by exact_mod_cast Fintype.card_pos
  rw [div_le_div_iff₀ h2 h1]
  exact_mod_cast hc

/-- two inputs; their sum and the constant 9; the product of these -/
def constBelow : File := [[⟨3, 0, 5, 0⟩, ⟨3, 1, 6, 0⟩], [⟨0, 0, 0, 1⟩, ⟨3, 1, 9, 0⟩], [⟨1, 0, 0, 1⟩, ⟨2, 1, 0, 0⟩]]

theorem constBelow_ok : WellFormedUpToConstants false (circuitOf false constBelow) := by
  have h3 : ∀ i < (circuitOf false constBelow).depth,
    ((circuitOf false constBelow).layer i).gates.length = 2 ^ (circuitOf false constBelow).bl i ∧
    ∀ g < 2 ^ (circuitOf false constBelow).bl i, ((circuitOf false constBelow).layer i).gates[g]? =
      some (some ((circuitOf false constBelow).gate i g)) := by decide +kernel
  have h5 : ∀ i < (circuitOf false constBelow).depth - 1, ∀ g < 2 ^ (circuitOf false constBelow).bl (i + 1),
    GateOk false ((circuitOf false constBelow).bl i) ((circuitOf false constBelow).gate (i + 1) g) := by
    decide +kernel
  have h6 : ∀ i < (circuitOf false constBelow).depth - 2, ∀ g < 2 ^ (circuitOf false constBelow).bl (i + 2),
      ((circuitOf false constBelow).gate (i + 2) g).ty ≠ 4 ∧ (((circuitOf false constBelow).gate (i + 2) g).ty = 6 ∨
        ((circuitOf false constBelow).gate (i + 2) g).ty = 10 → ((circuitOf false constBelow).gate (i + 2) g).v = 0) := by
    decide +kernel
  exact ⟨⟨by decide +kernel, by decide +kernel, h3, by decide +kernel, fun i hi => h5 i (by omega)⟩, by decide +kernel,
    by decide +kernel, fun i hi => h6 i (by omega), by decide +kernel, by decide +kernel⟩

/-- a constant below the last layer; the circuit can be evaluated and is not well formed -/
example : ¬ WellFormed false (circuitOf false constBelow) ∧
    (∃ vals : List (List ℤ), evaluate .fastTrack (circuitOf false constBelow) = .ok vals) := by
  refine ⟨fun h => ?_, _, evaluate_ok (var := .fastTrack) (by simpa using constBelow_ok.toEvaluable)⟩
  exact (h.provable 0 (by decide +kernel) 1 (by decide +kernel)).1 (by decide +kernel)

end

end Libra.Props
