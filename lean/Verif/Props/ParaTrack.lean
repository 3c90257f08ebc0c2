import Verif.Proofs.ParaRace
import Verif.Proofs.ParaSched
import Verif.Proofs.RawExpr
import Verif.Props.RawStmts
import Verif.Model.ParaRaw
import Verif.Model.Fp
import Verif.Props.Examples

/-!
# C53, C54, C55: the threaded prover
-/

namespace Libra.Props
open Libra Spec Finset Threads FastTrack ParaTrack

section
variable {F : Type} [CommRing F]

/-! ## C53: the rounds do not depend on the schedule -/

/-- the tables of the threaded prover as those of the prover without threads -/
def tablesOf (P : ParaTrack.Prover F) : Tabs F where
  addMultSum i := ⟨P.mem (.lin false .addMult i true), P.mem (.lin false .addMult i false)⟩
  vMultAdd i := ⟨P.mem (.lin false .vMultAdd i true), P.mem (.lin false .vMultAdd i false)⟩
  addVArray i := ⟨P.mem (.lin false .addV i true), P.mem (.lin false .addV i false)⟩

/-- What a round has to do: the message and the new tables are those of the prover without threads,
and the table of the gates' weights is kept. -/
structure SequentialRound (P : ParaTrack.Prover F) (prev : F) (bit half : ℕ) (P' : ParaTrack.Prover F)
    (msg : QuadraticPoly F) : Prop where
  message : msg = ((tablesOf P).round (bit == 0) prev half).2
  A : ∀ i < half, (tablesOf P').addMultSum i = ((tablesOf P).round (bit == 0) prev half).1.addMultSum i
  V : ∀ i < half, (tablesOf P').vMultAdd i = ((tablesOf P).round (bit == 0) prev half).1.vMultAdd i
  B : ∀ i < half, (tablesOf P').addVArray i = ((tablesOf P).round (bit == 0) prev half).1.addVArray i
  size : P'.totalUv = half
  weights : ∀ g, P'.mem (.betaG g) = P.mem (.betaG g)
  values : P'.circuitValue = P.circuitValue ∧ P'.vU = P.vU

theorem sequential_of_updated {P P' : ParaTrack.Prover F} {prev : F} {bit n : ℕ}
    {msg : QuadraticPoly F} (h : Updated P prev bit n P' msg) :
    SequentialRound P prev bit (2 ^ n) P' msg := by
  have hr := (Tabs.round_eq (bit == 0) prev (2 ^ n) (tablesOf P)).1
  refine ⟨h.msg, ?_, ?_, ?_, by rw [h.eq], h.betaG, by rw [h.eq]; exact ⟨rfl, rfl⟩⟩ <;>
    intro i hi <;> rw [hr] <;> dsimp only <;> rw [bindLoop, if_pos hi]
  · exact h.tabs .addMult i hi
  · exact h.tabs .vMultAdd i hi
  · exact h.tabs .addV i hi

/-- A round of phase 1: no data race, some outcome, and every outcome is that of the prover without
threads — for every interleaving of the threads' accesses. -/
theorem C53_phase1_update (P : ParaTrack.Prover F) (prev : F) (bit n : ℕ)
    (hn : P.totalUv = 2 ^ (n + 1)) :
    ¬ DataRace P.mem (fun id : Fin numThreads =>
      updateThread true (bit == 0) prev (P.totalUv >>> 1) id) ∧
    (∃ P' msg, P.Phase1Update prev bit P' msg) ∧
    ∀ P' msg, P.Phase1Update prev bit P' msg → SequentialRound P prev bit (2 ^ n) P' msg := by
  have hh : P.totalUv >>> 1 = 2 ^ n := by
    rw [hn, Nat.shiftRight_eq_div_pow, pow_succ]; omega
  exact ⟨(update_disjoint _ _ _ _).raceFree _,
    ⟨_, _, _, joins_inOrder (List.nodup_finRange _) (List.mem_finRange) _ _, rfl, rfl⟩,
    fun P' msg h => sequential_of_updated (phase1Update_spec hh h)⟩

/-- ... and of phase 2. -/
theorem C53_phase2_update (P : ParaTrack.Prover F) (prev : F) (bit n : ℕ)
    (hn : P.totalUv = 2 ^ (n + 1)) :
    ¬ DataRace (clearRets P.mem) (fun id : Fin numThreads =>
      updateThread false (bit == 0) prev (P.totalUv >>> 1) id) ∧
    (∃ P' msg, P.Phase2Update prev bit P' msg) ∧
    ∀ P' msg, P.Phase2Update prev bit P' msg → SequentialRound P prev bit (2 ^ n) P' msg := by
  have hh : P.totalUv >>> 1 = 2 ^ n := by
    rw [hn, Nat.shiftRight_eq_div_pow, pow_succ]; omega
  exact ⟨(update_disjoint _ _ _ _).raceFree _,
    ⟨_, _, _, joins_inOrder (List.nodup_finRange _) (List.mem_finRange) _ _, rfl, rfl⟩,
    fun P' msg h => sequential_of_updated (phase2Update_spec hh h)⟩

/-- The value of the output layer at the verifier's point: no data race in any round, some outcome,
and every outcome is the multilinear extension. -/
theorem C53_output (n : ℕ) (r raw : ℕ → F) :
    (∀ (m : VLoc → F) (half k : ℕ), ¬ DataRace m
      (fun id : Fin numThreads => vResThread (1 - r k) (r k) half id)) ∧
    (∃ x, VRes (fun j => 1 - r j) r raw n (2 ^ n) x) ∧
    ∀ x, VRes (fun j => 1 - r j) r raw n (2 ^ n) x → x = mle n raw r :=
  ⟨fun m half k => (vRes_disjoint _ _ half).raceFree m,
    ⟨_, _, vResIn_loop (List.nodup_finRange _) (List.mem_finRange) _ r raw (2 ^ n) n, rfl⟩,
    fun _ h => vRes_spec (fun _ _ => rfl) h⟩

/-- Joining always comes to an end: threads of any kind cannot run forever, and as long as one of
them has not returned some access can be made. -/
theorem C53_join_terminates :
    WellFounded (fun c c' : Config (Fin numThreads) Loc F => Step c' c) ∧
    ∀ (m : Loc → F) (ts : Fin numThreads → Prog Loc F Unit), ¬ Finished ts → ∃ c, Step (m, ts) c :=
  ⟨terminates, fun _ _ h => exists_step h⟩

/-! ## C54: the initialisation of the phases has data races -/

/-- A gate whose first operand lies in another part of its layer than the gate itself: the threads
started by `sumcheck_phase1_init` have a data race. -/
theorem C54_race1 {C : Circuit} (hwf : AddMultGates C) {l g : ℕ} (hl : l + 1 < C.depth)
    (hg : g < 2 ^ C.bl (l + 1)) (ht : (C.gate (l + 1) g).ty ≠ 2)
    (hne : part (C.bl (l + 1)) g ≠ part (C.bl l) (C.gate (l + 1) g).u.toNat)
    (P : ParaTrack.Prover F) (h1 : P.layerId = l + 1) (h2 : P.lengthG = C.bl (l + 1)) :
    DataRace P.mem (P.phase1Threads C) := by
  rw [part_eq, part_eq] at hne
  have ht' : (C.gate (l + 1) g).ty = 0 ∨ (C.gate (l + 1) g).ty = 1 := by
    rcases hwf.types l hl g hg with h | h | h
    · exact .inl h
    · exact .inr h
    · exact absurd h ht
  have hw : Wire (C.bl l) (C.gate (l + 1) g).u := by
    have := hwf.gates l hl g hg
    rcases ht' with h0 | h0 <;> exact (by simpa [GateOk, h0] using this : _ ∧ _).1
  have := phase1_race (P.circuitValue (P.layerId - 1)) P.tmpG hg ht' hw.1 hw.2 hne P.mem
  have e : P.phase1Threads C = fun id : Fin numThreads => phase1InitThread C (l + 1)
      (P.circuitValue (P.layerId - 1)) P.tmpG (2 ^ C.bl l) (2 ^ C.bl (l + 1)) id := by
    funext id
    rw [Prover.phase1Threads, h1, h2]
    rfl
  rw [e]
  exact this

/-- A gate whose operands lie in different parts of their layer: the threads started by
`sumcheck_phase2_init` have a data race. -/
theorem C54_race2 {C : Circuit} (hwf : AddMultGates C) {l g : ℕ} (hl : l + 1 < C.depth)
    (hg : g < 2 ^ C.bl (l + 1)) (ht : (C.gate (l + 1) g).ty ≠ 2)
    (hne : part (C.bl l) (C.gate (l + 1) g).u.toNat ≠ part (C.bl l) (C.gate (l + 1) g).v.toNat)
    (P : ParaTrack.Prover F) (h1 : P.layerId = l + 1) (h2 : P.lengthU = C.bl l) :
    DataRace P.mem (P.phase2Threads C) := by
  rw [part_eq, part_eq] at hne
  have ht' : (C.gate (l + 1) g).ty = 0 ∨ (C.gate (l + 1) g).ty = 1 := by
    rcases hwf.types l hl g hg with h | h | h
    · exact .inl h
    · exact .inr h
    · exact absurd h ht
  have hw : Wire (C.bl l) (C.gate (l + 1) g).u ∧ Wire (C.bl l) (C.gate (l + 1) g).v := by
    have := hwf.gates l hl g hg
    rcases ht' with h0 | h0 <;> exact (by simpa [GateOk, h0] using this)
  have := phase2_race (P.circuitValue (P.layerId - 1)) (halves (P.lengthU >>> 1) P.uf P.us) P.vU hg ht'
    hw.1.1 hw.1.2 hw.2.1 hw.2.2 hne P.mem
  have e : P.phase2Threads C = fun id : Fin numThreads => phase2InitThread C (l + 1)
      (P.circuitValue (P.layerId - 1)) (halves (P.lengthU >>> 1) P.uf P.us) P.vU (2 ^ C.bl l)
      (2 ^ C.bl l) id := by
    funext id
    rw [Prover.phase2Threads, h1, h2]
    rfl
  rw [e]
  exact this

/-- In a layer in which every gate and its operands lie in the same part there is no data race. -/
theorem C54_race_free {C : Circuit} (hloc : Local C) {l : ℕ} (hl : l + 1 < C.depth)
    (P : ParaTrack.Prover F) (h1 : P.layerId = l + 1) (h2 : P.lengthG = C.bl (l + 1))
    (h3 : P.lengthU = C.bl l) :
    ¬ DataRace P.mem (P.phase1Threads C) ∧ ¬ DataRace P.mem (P.phase2Threads C) := by
  have hl' := local_iff.1 hloc (l + 1) (by omega) hl
  constructor
  · have e : P.phase1Threads C = fun id : Fin numThreads => phase1InitThread C (l + 1)
        (P.circuitValue (P.layerId - 1)) P.tmpG (2 ^ C.bl l) (2 ^ C.bl (l + 1)) id := by
      funext id
      rw [Prover.phase1Threads, h1, h2]
      rfl
    rw [e]
    exact (phase1_disjoint hl' _ _).raceFree _
  · have e : P.phase2Threads C = fun id : Fin numThreads => phase2InitThread C (l + 1)
        (P.circuitValue (P.layerId - 1)) (halves (P.lengthU >>> 1) P.uf P.us) P.vU (2 ^ C.bl l)
        (2 ^ C.bl l) id := by
      funext id
      rw [Prover.phase2Threads, h1, h3]
      rfl
    rw [e]
    exact (phase2_disjoint hl' _ _ _).raceFree _

/-- Completeness for local circuits: `verify()` accepts the threaded prover under every scheduler, for
every content of the uninitialised members, and every sequence of challenges. Missing: circuits that
are not local (`C54_false`), and the 512-bit arithmetic of phase 2 (`C55_underflow`). -/
theorem C54_complete_partial [DecidableEq F] {τ : Type} (C : Circuit) (hwf : AddMultGates C)
    (h3 : ConstantInputs C) (hloc : Local C) (A : Cmt.ProverApi (ParaTrack.Prover F × τ) F)
    (hA : Scheduled C A) (tables : BetaTables F) (ch : Challenges F) :
    ParaTrack.verify C A tables ch = .ok () :=
  ParaTrack.complete hwf h3 (local_iff.1 hloc) hA tables ch

end

/-- Eight inputs, eight gates working within pairs, four gates adding up or multiplying the pairs. -/
def localCircuit : Circuit := ⟨[
  { gates := [some ⟨3, 5, 0⟩, some ⟨3, 7, 0⟩, some ⟨3, 0, 0⟩, some ⟨3, 2147483647, 0⟩,
      some ⟨3, 1, 0⟩, some ⟨3, 2, 0⟩, some ⟨3, 3, 0⟩, some ⟨3, 4, 0⟩], bitLength := 3 },
  { gates := [some ⟨0, 0, 1⟩, some ⟨1, 1, 1⟩, some ⟨2, 900, 900⟩, some ⟨1, 3, 2⟩,
      some ⟨1, 4, 5⟩, some ⟨0, 4, 4⟩, some ⟨0, 7, 6⟩, some ⟨1, 6, 7⟩], bitLength := 3 },
  { gates := [some ⟨0, 0, 1⟩, some ⟨1, 2, 3⟩, some ⟨1, 5, 4⟩, some ⟨0, 6, 6⟩], bitLength := 2 }]⟩

theorem localCircuit_wf : AddMultGates localCircuit where
  nonempty := by decide
  shallow := by decide
  full := by
    have : ∀ i < localCircuit.depth, (localCircuit.layer i).gates.length = 2 ^ localCircuit.bl i ∧
      ∀ g < 2 ^ localCircuit.bl i,
        (localCircuit.layer i).gates[g]? = some (some (localCircuit.gate i g)) := by decide +kernel
    exact this
  inputs := by decide +kernel
  gates := fun i hi => by
    have : ∀ i < localCircuit.depth - 1, ∀ g < 2 ^ localCircuit.bl (i + 1),
      GateOk false (localCircuit.bl i) (localCircuit.gate (i + 1) g) := by decide +kernel
    exact this i (by omega)
  types := fun i hi => by
    have : ∀ i < localCircuit.depth - 1, ∀ g < 2 ^ localCircuit.bl (i + 1),
      (localCircuit.gate (i + 1) g).ty = 0 ∨ (localCircuit.gate (i + 1) g).ty = 1 ∨
        (localCircuit.gate (i + 1) g).ty = 2 := by decide +kernel
    exact this i (by omega)
  wide := fun i hi => by
    have : ∀ i < localCircuit.depth - 1, 1 ≤ localCircuit.bl i := by decide +kernel
    exact this i (by omega)

theorem localCircuit_local : Local localCircuit := fun l hl => by
  have : ∀ l < localCircuit.depth - 1, ∀ g < 2 ^ localCircuit.bl (l + 1),
      (localCircuit.gate (l + 1) g).ty ≠ 2 →
      part (localCircuit.bl (l + 1)) g = part (localCircuit.bl l) (localCircuit.gate (l + 1) g).u.toNat ∧
      part (localCircuit.bl l) (localCircuit.gate (l + 1) g).u.toNat =
        part (localCircuit.bl l) (localCircuit.gate (l + 1) g).v.toNat := by decide +kernel
  exact this l (by omega)

/-- there are schedulers: for example one that runs the threads one after the other -/
example (order : List (Fin numThreads)) (hn : order.Nodup) (hall : ∀ i, i ∈ order)
    (junk : ParaTrack.Prover Fp) (tables : BetaTables Fp) (ch : Challenges Fp) :
    ParaTrack.verify localCircuit (serial order localCircuit junk) tables ch = .ok () :=
  C54_complete_partial localCircuit localCircuit_wf (by unfold ConstantInputs; decide +kernel)
    localCircuit_local _ (serial_scheduled hn hall _ _) tables ch

/-- Two inputs and two gates, both of which have input 1 as their operands. -/
def raceCircuit : Circuit := ⟨[
  { gates := [some ⟨3, 5, 0⟩, some ⟨3, 7, 0⟩], bitLength := 1 },
  { gates := [some ⟨0, 1, 1⟩, some ⟨1, 1, 1⟩], bitLength := 1 }]⟩

theorem raceCircuit_wf : AddMultGates raceCircuit where
  nonempty := by decide
  shallow := by decide
  full := by
    have : ∀ i < raceCircuit.depth, (raceCircuit.layer i).gates.length = 2 ^ raceCircuit.bl i ∧
      ∀ g < 2 ^ raceCircuit.bl i,
        (raceCircuit.layer i).gates[g]? = some (some (raceCircuit.gate i g)) := by decide +kernel
    exact this
  inputs := by decide +kernel
  gates := fun i hi => by
    have : ∀ i < raceCircuit.depth - 1, ∀ g < 2 ^ raceCircuit.bl (i + 1),
      GateOk false (raceCircuit.bl i) (raceCircuit.gate (i + 1) g) := by decide +kernel
    exact this i (by omega)
  types := fun i hi => by
    have : ∀ i < raceCircuit.depth - 1, ∀ g < 2 ^ raceCircuit.bl (i + 1),
      (raceCircuit.gate (i + 1) g).ty = 0 ∨ (raceCircuit.gate (i + 1) g).ty = 1 ∨
        (raceCircuit.gate (i + 1) g).ty = 2 := by decide +kernel
    exact this i (by omega)
  wide := fun i hi => by
    have : ∀ i < raceCircuit.depth - 1, 1 ≤ raceCircuit.bl i := by decide +kernel
    exact this i (by omega)

/-- a freshly constructed prover -/
def zeroProver : ParaTrack.Prover Fp where
  circuitValue _ _ := 0
  vU := 0
  vV := 0
  totalUv := 0
  layerId := 0
  lengthG := 0
  lengthU := 0
  lengthV := 0
  alpha := 0
  beta := 0
  r0 _ := 0
  r1 _ := 0
  omr0 _ := 0
  omr1 _ := 0
  g0f _ := 0
  g0s _ := 0
  g1f _ := 0
  g1s _ := 0
  uf _ := 0
  us _ := 0
  mem _ := 0

def raceTables : BetaTables Fp := ⟨fun _ => 0, fun _ => 0, fun _ => 0, fun _ => 0⟩

def raceChallenges : Challenges Fp where
  r0 _ := 3
  r1 _ := 4
  ru _ _ := 5
  rv _ _ := 6
  alpha _ := 7
  beta _ := 8

/-- **Completeness fails.** On the same circuit with the same challenges `verify()` accepts under one
schedule and rejects under another one. -/
theorem C54_false :
    ∃ A B : Cmt.ProverApi (ParaTrack.Prover Fp × Unit) Fp,
      Scheduled raceCircuit A ∧ Scheduled raceCircuit B ∧ A.start = B.start ∧
      ParaTrack.verify raceCircuit A raceTables raceChallenges = .ok () ∧
      ParaTrack.verify raceCircuit B raceTables raceChallenges = .reject :=
  ⟨serial [0, 1, 2, 3] raceCircuit zeroProver, serial [3, 2, 1, 0] raceCircuit zeroProver,
    serial_scheduled (by decide) (by decide) _ _, serial_scheduled (by decide) (by decide) _ _, rfl,
    by decide +kernel, by decide +kernel⟩

/-- the race behind it -/
example (P : ParaTrack.Prover Fp) (h1 : P.layerId = 1) (h2 : P.lengthG = 1) :
    DataRace P.mem (P.phase1Threads raceCircuit) :=
  C54_race1 (l := 0) (g := 0) raceCircuit_wf (by decide) (by decide) (by decide) (by decide) P h1 h2

end Libra.Props
