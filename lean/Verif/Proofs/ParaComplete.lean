import Verif.Proofs.ParaInit
import Verif.Proofs.ParaVRes

/-!
# Completeness of the threaded prover on local circuits
-/

namespace Libra.ParaTrack
open Spec Finset Threads Threads.Prog FastTrack
open Libra.Cmt (tyOf uOf vOf A1 B1 A2 B2 LayerAM layerAM claim1_zero claim1_last claim2_zero claim2_last
  endClaim endClaim_congr pred_end midClaim)
variable {F : Type} [CommRing F]

/-! ## evaluation -/

theorem evaluate_ok {C : Circuit} (h : AddMultGates C) (h3 : ∀ g < 2 ^ C.bl 0, (C.gate 0 g).ty = 3) :
    evaluate C = .ok (allValues C C.depth : List (List F)) := by
  have hin : evalLayer (C.layer 0) (fun g => do
      Outcome.assert (g.ty == 3)
      return ofCInt g.u) = .ok (block (2 ^ C.bl 0) (value C 0 : ℕ → F)) := by
    refine evalLayer_ok _ (fun j hj => ⟨C.gate 0 j, (h.full 0 h.nonempty).2 j hj, ?_⟩)
    have h1 := h3 j hj
    rcases h.inputs j hj with ⟨_, h2, h3⟩ | ⟨h2, _⟩
    · simp [h1, value, inputValue, ofCInt_input h2 h3]
    · omega
  unfold evaluate
  rw [layer_eq C h.nonempty]
  simp only [Outcome.read_some, Outcome.ok_bind, hin, h.shallow, decide_true, Outcome.assert_true]
  obtain ⟨s, hs, e⟩ := loopM_ok (n := C.depth - 1) (s := [block (2 ^ C.bl 0) (value C 0 : ℕ → F)])
    (b := fun k vals => do
      let L ← Outcome.read (C.layers[k + 1]?)
      let prev ← Outcome.read (vals[k]?)
      let v ← evalLayer L (Cmt.evalGate prev)
      return vals ++ [v])
    (fun i vals => vals = allValues C (i + 1)) rfl (by
      rintro i hi vals rfl
      refine ⟨_, ?_, (block_succ (i + 1) _).symm⟩
      rw [layer_eq C (i := i + 1) (by omega), allValues, block_getElem? _ _ _ (by omega)]
      have : evalLayer (C.layer (i + 1)) (Cmt.evalGate (block (2 ^ C.bl i) (value C i)))
          = .ok (block (2 ^ C.bl (i + 1)) (value C (i + 1) : ℕ → F)) := by
        refine evalLayer_ok _ (fun j hj => ⟨C.gate (i + 1) j, (h.full _ (by omega)).2 j hj, ?_⟩)
        have e : Cmt.evalGate (block (2 ^ C.bl i) (value C i : ℕ → F)) (C.gate (i + 1) j) =
            Libra.evalGate .fastTrack (block (2 ^ C.bl i) (value C i)) (C.gate (i + 1) j) := by
          rcases h.types i (by omega) j hj with ht | ht | ht <;>
            simp [Cmt.evalGate, Libra.evalGate, ht]
        rw [e]
        exact evalGate_ok (var := .fastTrack) _ (by simpa using h.gates i (by omega) j hj)
      simp only [Outcome.read_some, Outcome.ok_bind, this]
      rfl)
  rw [hs, e, Nat.sub_add_cancel h.nonempty]

theorem verifierInput_ok {C : Circuit} (h : Evaluable false C)
    (h3 : ∀ g < 2 ^ C.bl 0, (C.gate 0 g).ty = 3) :
    ∃ T : ℕ → F, verifierInput C = .ok T ∧ ∀ g < 2 ^ C.bl 0, T g = value C 0 g := by
  have : verifierInput C = .ok (loop (2 ^ C.bl 0) (fun g T =>
      Function.update T g (value C 0 g : F)) (fun _ => 0)) := by
    refine loopM_pure (fun g hg T => ?_)
    rcases h.inputs g hg with ⟨a, b, c⟩ | ⟨a, b⟩
    · simp [a, value, inputValue, ofCInt_input b c]
    · rw [h3 g hg] at a; omega
  exact ⟨_, this, fun g hg => by rw [loop_write, if_pos hg]⟩

/-! ## the rounds -/

/-- what an update does, in either phase -/
structure Updated (P : Prover F) (prev : F) (bit n : ℕ) (P' : Prover F) (msg : QuadraticPoly F) : Prop where
  tabs : ∀ t, ∀ i < 2 ^ n, entry false P'.mem t i = bound (bit == 0) prev P.mem t i
  msg : msg = ((tabsOf P.mem).round (bit == 0) prev (2 ^ n)).2
  betaG : ∀ i, P'.mem (.betaG i) = P.mem (.betaG i)
  eq : P' = { P with mem := P'.mem, totalUv := 2 ^ n }

theorem phase1Update_spec {P P' : Prover F} {prev : F} {bit n : ℕ} {msg : QuadraticPoly F}
    (hn : P.totalUv >>> 1 = 2 ^ n) (h : P.Phase1Update prev bit P' msg) :
    Updated P prev bit n P' msg := by
  obtain ⟨m, hj, rfl, rfl⟩ := h
  rw [hn] at hj
  obtain ⟨h1, h2, h3, _⟩ := update_joins (fun h => absurd h (by decide)) hj
  exact ⟨h1, h2, h3, by rw [hn]⟩

theorem clearRets_ret (m : Loc → F) {id k : ℕ} (hid : id < numThreads) (hk : k < 3) :
    clearRets m (.ret id k) = 0 := by
  have h1 : id = 0 ∨ id = 1 ∨ id = 2 ∨ id = 3 := by unfold numThreads at hid; omega
  have h2 : k = 0 ∨ k = 1 ∨ k = 2 := by omega
  rcases h1 with rfl | rfl | rfl | rfl <;> rcases h2 with rfl | rfl | rfl <;>
    simp [clearRets, loop, numThreads, Function.update_of_ne]

theorem clearRets_other (m : Loc → F) {l : Loc} (h : ∀ id k, l ≠ .ret id k) :
    clearRets m l = m l := by
  simp [clearRets, loop, numThreads, Function.update_of_ne, h]

theorem clearRets_entry (m : Loc → F) (fresh : Bool) (t : Tab) (i : ℕ) :
    entry fresh (clearRets m) t i = entry fresh m t i := by
  rw [entry, entry, clearRets_other m (by simp), clearRets_other m (by simp)]

theorem phase2Update_spec {P P' : Prover F} {prev : F} {bit n : ℕ} {msg : QuadraticPoly F}
    (hn : P.totalUv >>> 1 = 2 ^ n) (h : P.Phase2Update prev bit P' msg) :
    Updated P prev bit n P' msg := by
  obtain ⟨m, hj, rfl, rfl⟩ := h
  rw [hn] at hj
  obtain ⟨h1, h2, h3, _⟩ := update_joins (fun _ id hid k hk => clearRets_ret _ hid hk) hj
  refine ⟨fun t i hi => ?_, ?_, fun i => ?_, by rw [hn]⟩
  · exact (h1 t i hi).trans (bound_congr (fun t j => clearRets_entry _ _ _ _) t i)
  · rw [h2]
    congr 2
  · exact (h3 i).trans (clearRets_other _ (by simp))

/-- the tables after `k` rounds -/
structure HoldsTabs (n : ℕ) (r A V B : ℕ → F) (k : ℕ) (m : Loc → F) : Prop where
  A : Holds n r k A (entry false m .addMult)
  V : Holds n r k V (entry false m .vMultAdd)
  B : Holds n r k B (entry false m .addV)

theorem holds_congr {n k : ℕ} {r T : ℕ → F} {X Y : ℕ → LinearPoly F}
    (h : Holds n r (k + 1) T X) (e : ∀ i < 2 ^ (n - (k + 1)), Y i = X i) : Holds n r (k + 1) T Y :=
  fun i hi => (e i hi).trans (h i hi)

theorem HoldsTabs.update {n k : ℕ} {r A V B : ℕ → F} {P P' : Prover F} {msg : QuadraticPoly F}
    (h : HoldsTabs n r A V B k P.mem) (hk : k < n)
    (hu : Updated P (prevOf r k) k (n - (k + 1)) P' msg) :
    HoldsTabs n r A V B (k + 1) P'.mem ∧ ∀ x, msg.eval x = polyAt n r A V B k x := by
  obtain ⟨a1, a2, a3, a4⟩ := Tabs.round_spec (T := tabsOf P.mem) hk h.A h.V h.B (prevOf r k) (prevOf_spec r k)
  rw [pow_half hk] at a1 a2 a3 a4
  have hr := (Tabs.round_eq (k == 0) (prevOf r k) (2 ^ (n - (k + 1))) (tabsOf P.mem)).1
  rw [hr] at a1 a2 a3
  refine ⟨⟨holds_congr a1 ?_, holds_congr a2 ?_, holds_congr a3 ?_⟩, fun x => by rw [hu.msg, a4]⟩ <;>
    intro i hi <;> rw [hu.tabs _ i hi] <;> dsimp only <;> rw [bindLoop, if_pos hi] <;> rfl

variable [DecidableEq F] {τ : Type}

/-- the rounds of one phase -/
theorem rounds {upd : Prover F × τ → F → ℕ → Outcome ((Prover F × τ) × QuadraticPoly F)}
    (hupd : ∀ s prev bit n, s.1.totalUv >>> 1 = 2 ^ n →
      ∃ s' msg, upd s prev bit = .ok (s', msg) ∧ Updated s.1 prev bit n s'.1 msg)
    {n : ℕ} {r A V B : ℕ → F} {s : Prover F × τ} (ht : s.1.totalUv = 2 ^ n)
    (hs : HoldsTabs n r A V B 0 s.1.mem) : ∀ j ≤ n, ∃ s' : Prover F × τ,
      loopM j (Cmt.round upd r) (s, claimAt n r A V B 0, 0) =
        .ok (s', claimAt n r A V B j, prevOf r j) ∧
      HoldsTabs n r A V B j s'.1.mem ∧ s'.1 = { s.1 with mem := s'.1.mem, totalUv := 2 ^ (n - j) } ∧
      ∀ i, s'.1.mem (.betaG i) = s.1.mem (.betaG i) := by
  intro j
  induction j with
  | zero =>
    intro _
    exact ⟨s, rfl, hs, by rw [Nat.sub_zero, ← ht], fun _ => rfl⟩
  | succ j ih =>
    intro hj
    obtain ⟨s', e, h1, h2, h3⟩ := ih (by omega)
    have hhalf : s'.1.totalUv >>> 1 = 2 ^ (n - (j + 1)) := by
      rw [h2]; exact pow_half (by omega)
    obtain ⟨s'', msg, e', hu⟩ := hupd s' (prevOf r j) j _ hhalf
    obtain ⟨g1, g2⟩ := h1.update (by omega) hu
    refine ⟨s'', ?_, g1, ?_, fun i => (hu.betaG i).trans (h3 i)⟩
    · rw [loopM_succ, e]
      change Cmt.round upd r j (s', _, _) = _
      rw [Cmt.round, e', Outcome.ok_bind]
      dsimp only
      rw [g2, g2, polyAt_sum (by omega), beq_self_eq_true, Outcome.check_true, Outcome.ok_bind, g2,
        polyAt_next, prevOf, if_neg (Nat.succ_ne_zero j)]
      rfl
    · rw [hu.eq, h2]

/-! ## one layer -/

theorem signs {C : Circuit} (h : AddMultGates C) {i : ℕ} (h1 : 1 ≤ i) (hd : i < C.depth) :
    Signs C i := by
  obtain ⟨i, rfl⟩ : ∃ k, i = k + 1 := ⟨i - 1, by omega⟩
  have key : ∀ g < 2 ^ C.bl (i + 1), (C.gate (i + 1) g).ty ≠ 2 →
      Wire (C.bl i) (C.gate (i + 1) g).u ∧ Wire (C.bl i) (C.gate (i + 1) g).v := by
    intro g hg ht
    have := h.gates i hd g hg
    rcases h.types i hd g hg with h0 | h0 | h0
    · simpa [GateOk, h0] using this
    · simpa [GateOk, h0] using this
    · exact absurd h0 ht
  exact ⟨fun g hg ht => (key g hg ht).1.1, fun g hg ht => (key g hg ht).2.1⟩

/-- invariant of the layer loop before layer `i` -/
structure LayerInv (C : Circuit) (i : ℕ) (s : VState (Prover F × τ) F) : Prop where
  val : ∀ j < C.depth, ∀ g < 2 ^ C.bl j, s.prover.1.circuitValue j g = value C j g
  om0 : ∀ j < C.bl i, s.omr0 j = 1 - s.r0 j
  om1 : ∀ j < C.bl i, s.omr1 j = 1 - s.r1 j
  sum : s.sum = s.alpha * mle (C.bl i) (value C i) s.r0 + s.beta * mle (C.bl i) (value C i) s.r1

omit [DecidableEq F] in
theorem tab_congr {N : ℕ} {c c' f f' : ℕ → F} {w : ℕ → ℕ} (x : ℕ)
    (h : ∀ g < N, w g = x → c g * f g = c' g * f' g) : Cmt.tab N c w f x = Cmt.tab N c' w f' x := by
  refine sum_congr rfl (fun g hg => ?_)
  by_cases e : w g = x
  · rw [if_pos e, if_pos e, h g (mem_range.1 hg) e]
  · rw [if_neg e, if_neg e]

theorem layer_ok {C : Circuit} (hwf : AddMultGates C) {A : Cmt.ProverApi (Prover F × τ) F}
    (hA : Scheduled C A) (ch : Challenges F) {i : ℕ} (h1 : 1 ≤ i) (hd : i < C.depth)
    (hloc : LocalLayer C i) {s : VState (Prover F × τ) F} (hs : LayerInv C i s) :
    ∃ s', Cmt.layerStep C A ch i s = .ok s' ∧ LayerInv C (i - 1) s' := by
  have hl := layerAM hwf h1 hd
  have hsg := signs hwf h1 hd
  set n := C.bl (i - 1) with hn
  set ru := ch.ru i with hru
  set rv := ch.rv i with hrv
  set w := comb (C.bl i) s.alpha s.beta s.r0 s.r1 with hw
  set V : ℕ → F := value C (i - 1) with hV
  set S0 := A.sumcheckInit s.prover i (C.bl i) n n s.alpha s.beta s.r0 s.r1 s.omr0 s.omr1 with hS0
  have hP : S0.1 = s.prover.1.sumcheckInit i (C.bl i) n n s.alpha s.beta s.r0 s.r1 s.omr0 s.omr1 :=
    hA.sumcheckInit _ _ _ _ _ _ _ _ _ _ _
  set S1 := A.phase1Init S0 with hS1
  obtain ⟨m1, hj1, hP1⟩ := hA.phase1Init S0
  rw [← hS1] at hP1
  have hcv : ∀ k < 2 ^ n, s.prover.1.circuitValue (i - 1) k = V k :=
    fun k hk => hs.val (i - 1) (by omega) k hk
  -- the tables of phase 1
  have hj1' : Joins S0.1.mem (fun id : Fin numThreads => phase1InitThread C i
      (s.prover.1.circuitValue (i - 1)) (S0.1.phase1Main C).tmpG (2 ^ C.bl (i - 1)) (2 ^ C.bl i) id) m1 := by
    have : ((S0.1.phase1Main C).phase1Threads C) = (fun id : Fin numThreads => phase1InitThread C i
      (s.prover.1.circuitValue (i - 1)) (S0.1.phase1Main C).tmpG (2 ^ C.bl (i - 1)) (2 ^ C.bl i) id) := by
      rw [hP]; rfl
    rwa [this] at hj1
  obtain ⟨ht1, hg1⟩ := phase1_joins hloc hsg hj1'
  have htmp : ∀ g < 2 ^ C.bl i, (S0.1.phase1Main C).tmpG g = w g := by
    intro g hg
    rw [hP]
    simp only [Prover.tmpG, Prover.phase1Main, Prover.sumcheckInit]
    rw [halves_doubling hs.om0 g hg, halves_doubling hs.om1 g hg, hw, comb]
    ring
  have hold1 : HoldsTabs n ru (A1 C i w V) V (B1 C i w V) 0 S1.1.mem := by
    rw [hP1]
    refine ⟨fun k hk => ?_, fun k hk => ?_, fun k hk => ?_⟩
    · refine (ht1 k hk).2.2.trans (tab_congr k (fun g hg _ => ?_))
      rw [htmp g hg]
      by_cases h2 : tyOf C i g = 2
      · simp [Cmt.lin, h2]
      · dsimp only
        rw [hcv _ (hl.v g hg h2)]
    · dsimp only
      rw [(ht1 k hk).1, hcv k hk]
    · refine (ht1 k hk).2.1.trans (tab_congr k (fun g hg _ => ?_))
      rw [htmp g hg]
      by_cases h2 : tyOf C i g = 2
      · simp [Cmt.con, h2]
      · dsimp only
        rw [hcv _ (hl.v g hg h2)]
  have htot1 : S1.1.totalUv = 2 ^ n := by
    rw [hP1]
    change 2 ^ C.bl (S0.1.layerId - 1) = _
    rw [hP]
    rfl
  obtain ⟨S2, e1, hh1, hq1, hb1⟩ := rounds (upd := A.phase1Update)
    (fun s prev bit k hk => by
      obtain ⟨s', msg, e, h⟩ := hA.phase1Update s prev bit
      exact ⟨s', msg, e, phase1Update_spec hk h⟩) htot1 hold1 n le_rfl
  rw [claim1_zero hl h1, ← hs.sum, claim1_last hl] at e1
  -- phase 2
  obtain ⟨S3, e2, m2, hj2, hP3⟩ := hA.phase2Init S2 (prevOf ru n) ru (oneMinus ru)
  set vu := mle n V ru with hvu
  have hvU : (S2.1.phase2Main C (prevOf ru n) ru (oneMinus ru)).vU = vu :=
    holds_final hh1.V _ (prevOf_spec ru n) (fun h => by simp [prevOf, h])
  have hS2 : S2.1.layerId = i ∧ S2.1.lengthU = n ∧ S2.1.circuitValue = s.prover.1.circuitValue := by
    rw [hq1, hP1, hP]
    exact ⟨rfl, rfl, rfl⟩
  have hbetaG : ∀ g < 2 ^ C.bl i, S2.1.mem (.betaG g) = w g := by
    intro g hg
    rw [hb1, hP1]
    exact (hg1 g hg).trans (htmp g hg)
  set tU := halves (n >>> 1) (S2.1.phase2Main C (prevOf ru n) ru (oneMinus ru)).uf
      (S2.1.phase2Main C (prevOf ru n) ru (oneMinus ru)).us with htU
  have htU' : ∀ k < 2 ^ n, tU k = eqPoly n ru k := by
    intro k hk
    rw [htU]
    simp only [Prover.phase2Main]
    rw [hS2.2.1, halves_doubling (omr := oneMinus ru) (fun _ _ => rfl) k hk, one_mul, one_mul]
  have hj2' : Joins S2.1.mem (fun id : Fin numThreads => phase2InitThread C i
      (s.prover.1.circuitValue (i - 1)) tU vu (2 ^ C.bl (i - 1)) (2 ^ C.bl (i - 1)) id) m2 := by
    have : ((S2.1.phase2Main C (prevOf ru n) ru (oneMinus ru)).phase2Threads C) =
        (fun id : Fin numThreads => phase2InitThread C i
      (s.prover.1.circuitValue (i - 1)) tU vu (2 ^ C.bl (i - 1)) (2 ^ C.bl (i - 1)) id) := by
      funext id
      rw [Prover.phase2Threads, hvU]
      have : (S2.1.phase2Main C (prevOf ru n) ru (oneMinus ru)).layerId = i := hS2.1
      rw [this]
      have : (S2.1.phase2Main C (prevOf ru n) ru (oneMinus ru)).lengthU = n := hS2.2.1
      rw [this]
      have : (S2.1.phase2Main C (prevOf ru n) ru (oneMinus ru)).circuitValue =
        s.prover.1.circuitValue := hS2.2.2
      rw [this]
    rwa [this] at hj2
  have ht2 := phase2_joins hloc hsg hl.u hj2'
  have hold2 : HoldsTabs n rv (A2 C i w (eqPoly n ru) vu) V (B2 C i w (eqPoly n ru) vu) 0 S3.1.mem := by
    rw [hP3]
    refine ⟨fun k hk => ?_, fun k hk => ?_, fun k hk => ?_⟩
    · refine (ht2 k hk).2.2.trans (tab_congr k (fun g hg _ => ?_))
      by_cases h2 : tyOf C i g = 2
      · simp [Cmt.lin, h2]
      · dsimp only
        rw [hbetaG g hg, htU' _ (hl.u g hg h2)]
    · dsimp only
      rw [(ht2 k hk).1, hcv k hk]
    · refine (ht2 k hk).2.1.trans (tab_congr k (fun g hg _ => ?_))
      by_cases h2 : tyOf C i g = 2
      · simp [Cmt.con, h2]
      · dsimp only
        rw [hbetaG g hg, htU' _ (hl.u g hg h2)]
  have htot2 : S3.1.totalUv = 2 ^ n := by
    rw [hP3]
    change 2 ^ C.bl (S2.1.layerId - 1) = _
    rw [hS2.1]
  obtain ⟨S4, e3, hh2, hq2, _⟩ := rounds (upd := A.phase2Update)
    (fun s prev bit k hk => by
      obtain ⟨s', msg, e, h⟩ := hA.phase2Update s prev bit
      exact ⟨s', msg, e, phase2Update_spec hk h⟩) htot2 hold2 n le_rfl
  rw [claim2_zero hl, claim2_last hl] at e3
  -- the end of the layer
  obtain ⟨f1, f2⟩ := hA.finalize S4 (prevOf rv n)
  set vv := mle n V rv with hvv
  have hvV : LinearPoly.eval (entry false S4.1.mem .vMultAdd 0) (prevOf rv n) = vv :=
    holds_final hh2.V _ (prevOf_spec rv n) (fun h => by simp [prevOf, h])
  have hvU4 : S4.1.vU = vu := by
    rw [hq2, hP3]; exact hvU
  have hfin : (A.finalize S4 (prevOf rv n)).2 = (vu, vv) := by
    rw [f2, Prover.finalize]
    exact Prod.ext hvU4 hvV
  set T := betaInit C s.tables i s.alpha s.beta s.r0 s.r1 ru rv s.omr0 s.omr1 (oneMinus ru)
    (oneMinus rv) with hT
  obtain ⟨b1, b2, b3⟩ := betaInit_spec C s.tables i s.alpha s.beta s.r0 s.r1 ru rv s.omr0 s.omr1
    (oneMinus ru) (oneMinus rv) hs.om0 hs.om1 (fun _ _ => rfl)
  have hend := endClaim_congr hl b1 b2 (b3 (fun _ _ => rfl)) vu vv
  refine ⟨{ prover := (A.finalize S4 (prevOf rv n)).1, alpha := ch.alpha i, beta := ch.beta i,
            sum := ch.alpha i * vu + ch.beta i * vv,
            r0 := ru, r1 := rv, omr0 := oneMinus ru, omr1 := oneMinus rv, tables := T }, ?_, ?_⟩
  · rw [Cmt.layerStep]
    change (loopM n (Cmt.round A.phase1Update ru) (S1, s.sum, 0) >>= _) = _
    rw [e1, Outcome.ok_bind]
    change (A.phase2Init S2 (prevOf ru n) ru (oneMinus ru) >>= _) = _
    rw [e2, Outcome.ok_bind]
    change (loopM n (Cmt.round A.phase2Update rv) (S3, _, 0) >>= _) = _
    rw [e3, Outcome.ok_bind]
    change (Outcome.check (endClaim C i w (eqPoly n ru) (eqPoly n rv) vu vv ==
        pred2 C T i 0 * ((A.finalize S4 (prevOf rv n)).2.1 + (A.finalize S4 (prevOf rv n)).2.2) +
        pred2 C T i 1 * (A.finalize S4 (prevOf rv n)).2.1 * (A.finalize S4 (prevOf rv n)).2.2) >>= fun _ =>
      Outcome.ok (VState.mk (A.finalize S4 (prevOf rv n)).1 (ch.alpha i) (ch.beta i)
        (ch.alpha i * (A.finalize S4 (prevOf rv n)).2.1 + ch.beta i * (A.finalize S4 (prevOf rv n)).2.2)
        ru rv (oneMinus ru) (oneMinus rv) T)) = _
    rw [hfin, pred_end, hend, beq_self_eq_true, Outcome.check_true, Outcome.ok_bind]
  · refine ⟨fun j hj g hg => ?_, fun _ _ => rfl, fun _ _ => rfl, rfl⟩
    dsimp only
    rw [f1]
    change S4.1.circuitValue j g = _
    rw [hq2, hP3]
    change S2.1.circuitValue j g = _
    rw [hS2.2.2]
    exact hs.val j hj g hg

/-- **completeness under every schedule, for local circuits** -/
theorem complete {C : Circuit} (hwf : AddMultGates C) (h3 : ∀ g < 2 ^ C.bl 0, (C.gate 0 g).ty = 3)
    (hloc : ∀ i, 1 ≤ i → i < C.depth → LocalLayer C i) {A : Cmt.ProverApi (Prover F × τ) F}
    (hA : Scheduled C A) (tables : BetaTables F) (ch : Challenges F) :
    verify C A tables ch = .ok () := by
  have hev := evaluate_ok (F := F) hwf h3
  have hd := hwf.nonempty
  have hE := hA.evaluate A.start
  rw [hev] at hE
  obtain ⟨t, he⟩ := hE
  rw [verify, he, Outcome.ok_bind]
  dsimp only
  have hv := fun {i j} (hi : i < C.depth) (hj : j < 2 ^ C.bl i) =>
    valueFn_allValues (F := F) C hi hj
  set p0 : Prover F × τ := ({ A.start.1 with circuitValue := valueFn (allValues C C.depth) }, t) with hp0
  set s0 : VState (Prover F × τ) F :=
    { prover := p0, alpha := 1, beta := 0,
      sum := 1 * A.vRes p0
        (oneMinus ch.r0) ch.r0 (valueFn (allValues C C.depth) (C.depth - 1)) (C.bl (C.depth - 1))
        (2 ^ C.bl (C.depth - 1)),
      r0 := ch.r0, r1 := ch.r1, omr0 := oneMinus ch.r0, omr1 := oneMinus ch.r1,
      tables := tables } with hs0
  have hinv : LayerInv C (C.depth - 1) s0 := by
    refine ⟨fun j hj g hg => hv hj hg, fun _ _ => rfl, fun _ _ => rfl, ?_⟩
    change 1 * A.vRes p0 _ _ _ _ _ = 1 * mle _ _ _ + 0 * _
    rw [vRes_spec (omr := oneMinus ch.r0) (fun _ _ => rfl) (hA.vRes p0 _ _ _ _ _), zero_mul, add_zero]
    congr 1
    exact mle_congr (fun g hg => hv (by omega) hg) (fun _ _ => rfl)
  obtain ⟨s', e, hs'⟩ := loopDownM_ok (LayerInv C) hinv
    (fun i hi hn s hs => layer_ok hwf hA ch hi (by omega) (hloc i hi (by omega)) hs)
  obtain ⟨T, hT, hTv⟩ := verifierInput_ok (F := F) hwf.toEvaluable h3
  rw [e, Outcome.ok_bind, hT, Outcome.ok_bind, foldOutput_spec _ _ _ _ hs'.om0,
    foldOutput_spec _ _ _ _ hs'.om1, hs'.sum, mle_congr hTv (fun _ _ => rfl),
    mle_congr hTv (fun _ _ => rfl), mul_comm (mle _ _ s'.r0), mul_comm (mle _ _ s'.r1),
    beq_self_eq_true, Outcome.check_true]

end Libra.ParaTrack
