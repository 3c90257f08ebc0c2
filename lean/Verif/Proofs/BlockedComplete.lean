import Verif.Proofs.Blocked

/-!
# Completeness of the blocked protocol
-/

namespace Libra.Blocked
open Libra Spec Finset FastTrack Cmt
variable {F : Type} [CommRing F]

/-! ## evaluation -/

theorem evaluateBlock_ok {C : Circuit} (h : AddMultGates C) :
    evaluateBlock C = .ok (allValues C C.depth : List (List F)) := by
  have hin : evalInput (C.layer 0) = .ok (block (2 ^ C.bl 0) (value C 0 : ℕ → F)) := by
    refine evalLayer_ok _ (fun j hj => ⟨C.gate 0 j, (h.full 0 h.nonempty).2 j hj, ?_⟩)
    rcases h.inputs j hj with ⟨h1, h2, h3⟩ | ⟨h1, h2⟩
    · simp [h1, value, inputValue, ofCInt_input h2 h3]
    · simp [h1, value, inputValue, h2, ofCInt]
  unfold evaluateBlock
  rw [layer_eq C h.nonempty]
  simp only [Outcome.read_some, Outcome.ok_bind, hin]
  obtain ⟨s, hs, e⟩ := loopM_ok (n := C.depth - 1) (s := [block (2 ^ C.bl 0) (value C 0 : ℕ → F)])
    (b := fun k vals => do
      let L ← Outcome.read (C.layers[k + 1]?)
      let prev ← Outcome.read (vals[k]?)
      let v ← evalLayer L (Cmt.evalGate prev)
      return vals ++ [v])
    (fun i vals => vals = allValues C (i + 1)) rfl (by
      rintro i hi vals rfl
      refine ⟨_, ?_, (block_succ (i + 1) _).symm⟩
      rw [layer_eq C (i := i + 1) (by omega), allValues, block_getElem? _ _ _ (by omega)]
      have : evalLayer (C.layer (i + 1)) (Cmt.evalGate (block (2 ^ C.bl i) (value C i)))
          = .ok (block (2 ^ C.bl (i + 1)) (value C (i + 1) : ℕ → F)) := by
        refine evalLayer_ok _ (fun j hj => ⟨C.gate (i + 1) j, (h.full _ (by omega)).2 j hj, ?_⟩)
        have e : Cmt.evalGate (block (2 ^ C.bl i) (value C i : ℕ → F)) (C.gate (i + 1) j) =
            Libra.evalGate .fastTrack (block (2 ^ C.bl i) (value C i)) (C.gate (i + 1) j) := by
          rcases h.types i (by omega) j hj with ht | ht | ht <;>
            simp [Cmt.evalGate, Libra.evalGate, ht]
        rw [e]
        exact evalGate_ok (var := .fastTrack) _ (by simpa using h.gates i (by omega) j hj)
      simp only [Outcome.read_some, Outcome.ok_bind, this]
      rfl)
  rw [hs, e, Nat.sub_add_cancel h.nonempty]

theorem total_pos {B : BlockedCircuit} (h : Repeats B) : 0 < B.total :=
  lt_of_lt_of_le (by positivity) h.count

/-- the values of all blocks -/
def allBlocks (B : BlockedCircuit) : List (List (List F)) :=
  block B.total (fun b => allValues (B.blocks b) (B.blocks b).depth)

theorem evaluate_ok {B : BlockedCircuit} (h : Repeats B) :
    evaluate B = .ok (allBlocks B : List (List (List F))) := by
  have ht := total_pos h
  have e1 : loopM B.total (fun blk (vals : List (List (List F))) => do
      let v ← if (B.blocks 0).depth < (B.blocks blk).depth then .undefined
        else evaluateBlock (B.blocks blk)
      return vals ++ [v]) [] = .ok (allBlocks B) := by
    obtain ⟨s, hs, e⟩ := loopM_ok (n := B.total) (s := ([] : List (List (List F))))
      (b := fun blk (vals : List (List (List F))) => do
        let v ← if (B.blocks 0).depth < (B.blocks blk).depth then .undefined
          else evaluateBlock (B.blocks blk)
        return vals ++ [v])
      (fun m vals => vals = block m (fun b => allValues (B.blocks b) (B.blocks b).depth)) rfl (by
        rintro b hb vals rfl
        refine ⟨_, ?_, (block_succ b _).symm⟩
        rw [if_neg (by rw [h.depth b hb]; omega), evaluateBlock_ok (h.circuit b hb)]
        rfl)
    rw [hs, e]; rfl
  have e2 : loopM B.total (fun blk (_ : Unit) =>
      if (B.blocks blk).depth = (B.blocks 0).depth ∧
        (B.blocks 0).bl ((B.blocks 0).depth - 1) ≤ (B.blocks blk).bl ((B.blocks 0).depth - 1)
      then pure () else .undefined) () = .ok () := by
    obtain ⟨s, hs, -⟩ := loopM_ok (n := B.total) (s := ())
      (b := fun blk (_ : Unit) =>
        if (B.blocks blk).depth = (B.blocks 0).depth ∧
          (B.blocks 0).bl ((B.blocks 0).depth - 1) ≤ (B.blocks blk).bl ((B.blocks 0).depth - 1)
        then (pure () : Outcome Unit) else .undefined)
      (fun _ _ => True) trivial (fun b hb _ _ => ⟨(), by
        have := (h.circuit 0 ht).nonempty
        rw [if_pos ⟨h.depth b hb, (h.bl b hb _ (by omega)).ge⟩]; rfl, trivial⟩)
    exact hs
  unfold evaluate
  rw [if_neg (by omega)]
  dsimp only
  rw [e1, Outcome.ok_bind, e2, Outcome.ok_bind]
  rfl

theorem blockFn_allBlocks {B : BlockedCircuit} (h : Repeats B) {b i g : ℕ} (hb : b < B.total)
    (hi : i < (B.blocks 0).depth) (hg : g < 2 ^ (B.blocks 0).bl i) :
    blockFn (allBlocks B : List (List (List F))) b i g = blockValue B i b g := by
  rw [blockFn, allBlocks, block_getElem? _ _ _ hb, Option.getD_some,
    valueFn_allValues _ (by rw [h.depth b hb]; exact hi) (by rw [h.bl b hb i hi]; exact hg)]
  rfl

theorem resultOf_eq {B : BlockedCircuit} (val : ℕ → ℕ → ℕ → F) {b j : ℕ} (hb : b < B.total)
    (hj : j < 2 ^ (B.blocks 0).bl ((B.blocks 0).depth - 1)) :
    resultOf B val (b * 2 ^ (B.blocks 0).bl ((B.blocks 0).depth - 1) + j) =
      val b ((B.blocks 0).depth - 1) j :=
  write_blocks _ (fun i j => val i ((B.blocks 0).depth - 1) j) _ _ b hb j hj

theorem verifierInput_ok {B : BlockedCircuit} (h : Repeats B) :
    ∃ T : ℕ → F, verifierInput B = .ok T ∧ ∀ b < B.total, ∀ g < 2 ^ (B.blocks 0).bl 0,
      T (b * 2 ^ (B.blocks 0).bl 0 + g) = blockValue B 0 b g := by
  have hd := (h.circuit 0 (total_pos h)).nonempty
  have : verifierInput B = .ok (loop B.total (fun b T => loop (2 ^ (B.blocks 0).bl 0) (fun g T =>
      Function.update T (b * 2 ^ (B.blocks 0).bl 0 + g) (blockValue B 0 b g : F)) T)
      (fun _ => 0)) := by
    refine loopM_pure (fun b hb T => ?_)
    dsimp only
    rw [h.bl b hb 0 hd]
    refine loopM_pure (fun g hg T => ?_)
    rcases (h.circuit b hb).inputs g (by rw [h.bl b hb 0 hd]; exact hg) with ⟨x, y, z⟩ | ⟨x, y⟩
    · simp [x, blockValue, value, inputValue, ofCInt_input y z]
    · simp [x, blockValue, value, inputValue, y, ofCInt]
  exact ⟨_, this, fun b hb g hg => write_blocks _ (fun b g => blockValue B 0 b g) _ _ b hb g hg⟩

/-! ## one layer -/

theorem layer_facts {B : BlockedCircuit} (h : Repeats B) {i : ℕ} (h1 : 1 ≤ i)
    (hd : i < (B.blocks 0).depth) : LayerAM (B.blocks 0) i ∧ GatesOk B i := by
  refine ⟨layerAM (h.circuit 0 (total_pos h)) h1 hd, fun b hb g hg => ?_⟩
  obtain ⟨i, rfl⟩ : ∃ k, i = k + 1 := ⟨i - 1, by omega⟩
  exact ⟨h.gates b (lt_of_lt_of_le hb h.count) i hd g hg, h.operands i hd g hg⟩

theorem gsum_value {B : BlockedCircuit} (h : Repeats B) {i : ℕ} (h1 : 1 ≤ i)
    (hd : i < (B.blocks 0).depth) {b : ℕ} (hb : b < B.total) (α β : F) (r0 r1 : ℕ → F) :
    gsum (B.blocks 0) i (comb ((B.blocks 0).bl i) α β r0 r1) (blockValue B (i - 1) b) =
      α * mle ((B.blocks 0).bl i) (blockValue B i b) r0 +
        β * mle ((B.blocks 0).bl i) (blockValue B i b) r1 := by
  rw [← sum_comb_value, gsum]
  refine sum_congr rfl (fun g hg => ?_)
  have hg := mem_range.1 hg
  have hl : LayerAM (B.blocks b) i := layerAM (h.circuit b hb) h1 (by rw [h.depth b hb]; exact hd)
  have e : (B.blocks b).gate i g = (B.blocks 0).gate i g := by
    obtain ⟨i, rfl⟩ : ∃ k, i = k + 1 := ⟨i - 1, by omega⟩
    exact h.gates b hb i hd g hg
  have := opOf_value (F := F) hl h1 (g := g) (by rw [h.bl b hb i hd]; exact hg)
  rw [tyOf, uOf, vOf, e] at this
  rw [tyOf, uOf, vOf, blockValue, blockValue, this]
  rfl

theorem blockClaim_zero {B : BlockedCircuit} (h : Repeats B) {i : ℕ} (h1 : 1 ≤ i)
    (hd : i < (B.blocks 0).depth) (α β : F) (r0 r1 rb0 rb : ℕ → F) :
    blockClaim (B.blocks 0) i B.log (comb ((B.blocks 0).bl i) α β r0 r1) rb (eqPoly B.log rb0)
      (blockValue B (i - 1)) 0 =
      α * blockMle B.log ((B.blocks 0).bl i) (blockValue B i) rb0 r0 +
        β * blockMle B.log ((B.blocks 0).bl i) (blockValue B i) rb0 r1 := by
  rw [blockClaim, Nat.sub_zero, blockMle, blockMle, mle, mle, mul_sum, mul_sum, ← sum_add_distrib]
  refine sum_congr rfl (fun b hb => ?_)
  have := gsum_value h h1 hd (lt_of_lt_of_le (mem_range.1 hb) h.count) α β r0 r1
  change eqPoly B.log rb0 b * gsum _ i _ (blockValue B (i - 1) b) = _
  rw [this]
  ring

theorem gsum_claim {C : Circuit} {i : ℕ} (h : LayerAM C i) (c V ru : ℕ → F) :
    claimAt (C.bl (i - 1)) ru (A1 C i c V) V (B1 C i c V) 0 = gsum C i c V := by
  rw [claimAt_zero, A1, B1, tab_claim h.u]; rfl

/-- the prover is initialised for layer `i` -/
theorem phase0_init {B : BlockedCircuit} {i : ℕ} {P : Prover F} (hid : P.layerId = i)
    (hlg : P.lengthG = (B.blocks 0).bl i) (hlu : P.lengthU = (B.blocks 0).bl (i - 1))
    (hlen : P.blkLen = B.log) (hi : i - 1 < (B.blocks 0).depth)
    (hval : ∀ b < 2 ^ B.log, ∀ j < (B.blocks 0).depth, ∀ g < 2 ^ (B.blocks 0).bl j,
      P.circuitValue b j g = blockValue B j b g)
    (om0 : ∀ j < (B.blocks 0).bl i, P.omr0 j = 1 - P.r0 j)
    (om1 : ∀ j < (B.blocks 0).bl i, P.omr1 j = 1 - P.r1 j)
    (omb : ∀ j < B.log, P.omrb0 j = 1 - P.rb0 j) (rb : ℕ → F) :
    (∀ g < 2 ^ (B.blocks 0).bl i, (P.phase0Init B).core.bgs g =
      comb ((B.blocks 0).bl i) P.alpha P.beta P.r0 P.r1 g) ∧
    BlocksAt B.log ((B.blocks 0).bl (i - 1)) (eqPoly B.log P.rb0) rb (blockValue B (i - 1)) 0
      (P.phase0Init B).blkBeta (P.phase0Init B).blkV := by
  refine ⟨fun g hg => ?_, fun b hb => ?_, fun b hb u hu => ?_⟩
  · simp only [Prover.phase0Init]
    rw [hlg, loop_write (fun g => halves ((B.blocks 0).bl i >>> 1) _ _ g +
      halves ((B.blocks 0).bl i >>> 1) _ _ g),
      if_pos hg, halves_doubling om0 g hg, halves_doubling om1 g hg, comb]
    ring
  · rw [Nat.sub_zero] at hb
    simp only [Prover.phase0Init]
    rw [doubling_spec _ _ _ _ _ (fun j hj => omb _ (by omega)) b hb, setZero, Function.update_self,
      one_mul]
    rfl
  · rw [Nat.sub_zero] at hb
    simp only [Prover.phase0Init]
    have e : ∀ T : ℕ → F, loop (2 ^ P.blkLen) (fun i T => loop (2 ^ P.lengthU) (fun j T =>
        Function.update T (i <<< P.lengthU ||| j) (P.circuitValue i (P.layerId - 1) j)) T) T =
        loop (2 ^ P.blkLen) (fun i T => loop (2 ^ P.lengthU) (fun j T =>
        Function.update T (i * 2 ^ P.lengthU + j) (P.circuitValue i (P.layerId - 1) j)) T) T := by
      intro T
      refine loop_congr (fun b _ T => loop_congr (fun j hj T => ?_))
      rw [block_index _ hj]
    rw [e, hlen, hlu, hid,
      write_blocks _ (fun b u => P.circuitValue b (i - 1) u) _ _ b hb u hu, hval b hb _ hi u hu]
    rfl

variable [DecidableEq F]

/-- invariant of the layer loop before layer `i` -/
structure LayerInv (B : BlockedCircuit) (i : ℕ) (s : BState (Prover F) F) : Prop where
  val : ∀ b < 2 ^ B.log, ∀ j < (B.blocks 0).depth, ∀ g < 2 ^ (B.blocks 0).bl j,
    s.prover.circuitValue b j g = blockValue B j b g
  om0 : ∀ j < (B.blocks 0).bl i, s.omr0 j = 1 - s.r0 j
  om1 : ∀ j < (B.blocks 0).bl i, s.omr1 j = 1 - s.r1 j
  omb : ∀ j < B.log, s.omrb j = 1 - s.rb j
  sum : s.sum = s.alpha * blockMle B.log ((B.blocks 0).bl i) (blockValue B i) s.rb s.r0 +
    s.beta * blockMle B.log ((B.blocks 0).bl i) (blockValue B i) s.rb s.r1

theorem honest_layer (h2 : (2 : F) * inv2 = 1) {B : BlockedCircuit} (hB : Repeats B)
    (junk : Prover F) (ch : BlockChallenges F) {i : ℕ} (h1 : 1 ≤ i) (hd : i < (B.blocks 0).depth)
    {s : BState (Prover F) F} (hs : LayerInv B i s) :
    ∃ s', layerStep B (honest B junk) ch i s = .ok s' ∧ LayerInv B (i - 1) s' ∧
      s'.prover.betaBlkVal = mle B.log (eqPoly B.log s.rb) (ch.rb i) := by
  obtain ⟨hl, hg⟩ := layer_facts hB h1 hd
  set C := B.blocks 0 with hC
  set n := C.bl (i - 1) with hn
  set K := B.log with hK
  have hK1 : 1 ≤ K := hB.log
  set w := comb (C.bl i) s.alpha s.beta s.r0 s.r1 with hw
  set V : ℕ → ℕ → F := blockValue B (i - 1) with hV
  set ru := ch.ru i with hru
  set rv := ch.rv i with hrv
  set rb := ch.rb i with hrb
  set E := eqPoly K s.rb with hE
  set P1 : Prover F := (s.prover.sumcheckInit i K (C.bl i) n n s.alpha s.beta s.rb s.r0 s.r1 s.omrb
    s.omr0 s.omr1).phase0Init B with hP1
  obtain ⟨hbgs, hblk⟩ := phase0_init (B := B) (i := i)
    (P := s.prover.sumcheckInit i K (C.bl i) n n s.alpha s.beta s.rb s.r0 s.r1 s.omrb
    s.omr0 s.omr1) rfl rfl rfl rfl (show i - 1 < C.depth by omega) hs.val hs.om0 hs.om1 hs.omb rb
  obtain ⟨T, W, e0, hTW⟩ := rounds0 hg (P := P1) (c := w) (β := E) (rb := rb) (V := V) rfl rfl rfl
    rfl hbgs hblk K le_rfl
  rw [blockClaim_zero hB h1 hd, ← hs.sum, blockClaim_last] at e0
  set bv := mle K E rb with hbv
  set X : ℕ → F := fun u => mle K (fun b => V b u) rb with hX
  have hprev : prevOf rb K = rb (K - 1) := by rw [prevOf, if_neg (by omega)]
  have hlast : ∀ (A : ℕ → F) (t0 t1 : F), t0 = foldK rb (K - 1) A 0 → t1 = foldK rb (K - 1) A 1 →
      (t1 - t0) * prevOf rb K + t0 = mle K A rb := by
    intro A t0 t1 e0 e1
    rw [hprev, ← foldK_mle, e0, e1]
    obtain ⟨m, hm⟩ : ∃ m, K = m + 1 := ⟨K - 1, by omega⟩
    rw [hm, Nat.add_sub_cancel, foldK, foldT]
    ring
  have htwo : 2 ^ (B.log - (K - 1)) = 2 := by rw [show B.log - (K - 1) = 1 by omega]; rfl
  have hbval : (T 1 - T 0) * prevOf rb K + T 0 = bv :=
    hlast E _ _ (hTW.beta 0 (by omega)) (hTW.beta 1 (by omega))
  set val : ℕ → F := fun j => (W (2 ^ n ||| j) - W j) * prevOf rb K + W j with hvaldef
  have hval : ∀ u < 2 ^ n, val u = X u := by
    intro u hu
    refine hlast (fun b => V b u) _ _ ?_ ?_
    · have := hTW.val 0 (by omega) u hu
      rwa [Nat.zero_mul, Nat.zero_add] at this
    · have := hTW.val 1 (by omega) u hu
      rw [← block_index 1 hu, Nat.one_shiftLeft] at this
      exact this
  set P2 : Prover F := { P1 with blkBeta := T, blkV := W } with hP2
  set P3 : Prover F := { P2 with
    totalUv := 2 ^ n
    core := { P2.core with V := copyV (2 ^ n) val P2.core.V }
    copy := copyV (2 ^ n) val P2.copy
    betaBlkVal := bv } with hP3
  have e1 : P2.phase1Init B (prevOf rb K) = .ok P3 := by
    rw [Prover.phase1Init]
    change (if K = 0 then Outcome.undefined else _) = _
    rw [if_neg (by omega), hP3, ← hbval]
    rfl
  have hcopy : ∀ u < 2 ^ n, P3.copy u = X u := by
    intro u hu
    change copyV (2 ^ n) val P2.copy u = X u
    rw [copyV_eq, if_pos hu, hval u hu]
  have hold1 : HoldsAt n (2 ^ C.bl i) (uOf C i) w X ru 0 P3.core := by
    refine ⟨fun k hk => ?_, fun g hg' => ?_⟩
    · rw [Nat.sub_zero] at hk
      change copyV (2 ^ n) val P2.core.V k = X k
      rw [copyV_eq, if_pos hk, hval k hk]
    · rw [eqPoly_zero, mul_one]; exact hbgs g hg'
  obtain ⟨K1, e2, hK1'⟩ := rounds_scaled h2 hl.ty hl.u (o := fun g => X (vOf C i g))
    (prevOf rb K) bv (fun K => { P3 with core := K }) (Prover.phase1Update B)
    (fun K prev bit => by
      rw [← update_congr (fun g hg' ht => hcopy _ (hl.v g hg' ht))]; rfl)
    hold1 n le_rfl
  change loopM n (Cmt.round (Prover.phase1Update B) ru) (P3,
      bv * claimAt n ru (A1 C i w X) X (B1 C i w X) 0, prevOf rb K) =
    .ok ({ P3 with core := K1 }, bv * claimAt n ru (A1 C i w X) X (B1 C i w X) n,
      if n = 0 then prevOf rb K else ru (n - 1)) at e2
  have hn1 : 1 ≤ n := hl.wide
  have hpu : (if n = 0 then prevOf rb K else ru (n - 1)) = prevOf ru n := by
    have : n ≠ 0 := by omega
    simp [prevOf, this]
  rw [gsum_claim hl, claim1_last hl, hpu] at e2
  set vu := mle n X ru with hvu
  have hvu' := holds_last hn1 hK1'
  set P4 : Prover F := { P3 with
    vU := vu
    core := { K1 with
      V := copyV (2 ^ n) P3.copy K1.V
      bgs := bindBeta (uOf C i) (prevOf ru n) (n - 1) (2 ^ C.bl i) K1.bgs } } with hP4
  have e3 : Prover.phase2Init B { P3 with core := K1 } (prevOf ru n) = .ok P4 := by
    rw [Prover.phase2Init]
    change (if n = 0 then Outcome.undefined else _) = _
    rw [if_neg (by omega), hP4, hvu, ← hvu']
    rfl
  have hold2 : HoldsAt n (2 ^ C.bl i) (vOf C i) (fun g => w g * eqPoly n ru (uOf C i g)) X rv 0
      P4.core := by
    refine ⟨fun k hk => ?_, fun g hg' => ?_⟩
    · rw [Nat.sub_zero] at hk
      change copyV (2 ^ n) _ K1.V k = X k
      rw [copyV_eq, if_pos hk, hcopy k hk]
    · change bindBeta (uOf C i) (prevOf ru n) (n - 1) (2 ^ C.bl i) K1.bgs g = _
      rw [bindBeta_eq, if_pos hg', hK1'.bgs g hg', eqPoly_zero, mul_one]
      obtain ⟨m, hm⟩ : ∃ m, n = m + 1 := ⟨n - 1, by omega⟩
      rw [hm, Nat.add_sub_cancel, eqPoly_succ, bitF, prevOf, if_neg (Nat.succ_ne_zero m),
        Nat.add_sub_cancel, mul_assoc]
  obtain ⟨K2, e4, hK2⟩ := rounds_scaled h2 hl.ty hl.v (o := fun _ => vu) (r := rv) 0 bv
    (fun K => { P4 with core := K }) (Prover.phase2Update B) (fun K prev bit => rfl) hold2 n le_rfl
  change loopM n (Cmt.round (Prover.phase2Update B) rv) (P4,
    bv * claimAt n rv (A2 C i w (eqPoly n ru) vu) X (B2 C i w (eqPoly n ru) vu) 0, 0) =
    .ok ({ P4 with core := K2 }, bv * claimAt n rv (A2 C i w (eqPoly n ru) vu) X
      (B2 C i w (eqPoly n ru) vu) n, prevOf rv n) at e4
  rw [claim2_zero hl, claim2_last hl] at e4
  have hvv := holds_last hn1 hK2
  set vv := mle n X rv with hvvdef
  set T' := betaInit C s.tables i s.alpha s.beta s.r0 s.r1 ru rv s.omr0 s.omr1 (oneMinus ru)
    (oneMinus rv) with hT'
  obtain ⟨b1, b2, b3⟩ := betaInit_spec C s.tables i s.alpha s.beta s.r0 s.r1 ru rv s.omr0 s.omr1
    (oneMinus ru) (oneMinus rv) hs.om0 hs.om1 (fun _ _ => rfl)
  have hend := endClaim_congr hl b1 b2 (b3 (fun _ _ => rfl)) vu vv
  refine ⟨{ prover := { P4 with core := K2, vV := vv }, alpha := ch.alpha i, beta := ch.beta i,
            sum := ch.alpha i * vu + ch.beta i * vv,
            r0 := ru, r1 := rv, omr0 := oneMinus ru, omr1 := oneMinus rv, tables := T',
            rb := rb, omrb := oneMinus rb }, ?_, ?_, rfl⟩
  · rw [layerStep]
    change (loopM K (round0 (Prover.phase0Update B) rb) (P1, s.sum, 0) >>= _) = _
    rw [e0, Outcome.ok_bind]
    change (P2.phase1Init B (prevOf rb K) >>= _) = _
    rw [e1, Outcome.ok_bind]
    change (loopM n (Cmt.round (Prover.phase1Update B) ru) (P3, _, prevOf rb K) >>= _) = _
    rw [e2, Outcome.ok_bind]
    change (Prover.phase2Init B { P3 with core := K1 } (prevOf ru n) >>= _) = _
    rw [e3, Outcome.ok_bind]
    change (loopM n (Cmt.round (Prover.phase2Update B) rv) (P4, _, 0) >>= _) = _
    rw [e4, Outcome.ok_bind]
    change (Outcome.check (bv * endClaim C i w (eqPoly n ru) (eqPoly n rv) vu vv ==
        bv * (pred2 C T' i 0 * (vu + (K2.V 0 * (1 - prevOf rv n) + K2.V 1 * prevOf rv n)) +
        pred2 C T' i 1 * vu * (K2.V 0 * (1 - prevOf rv n) + K2.V 1 * prevOf rv n))) >>= fun _ =>
      Outcome.ok (BState.mk (VState.mk
        { P4 with core := K2, vV := K2.V 0 * (1 - prevOf rv n) + K2.V 1 * prevOf rv n }
        (ch.alpha i) (ch.beta i)
        (ch.alpha i * vu + ch.beta i * (K2.V 0 * (1 - prevOf rv n) + K2.V 1 * prevOf rv n))
        ru rv (oneMinus ru) (oneMinus rv) T') rb (oneMinus rb))) = _
    rw [hvv, pred_end, hend, beq_self_eq_true, Outcome.check_true, Outcome.ok_bind]
  · refine ⟨hs.val, fun _ _ => rfl, fun _ _ => rfl, fun _ _ => rfl, ?_⟩
    rw [blockMle_swap, blockMle_swap]

theorem complete (h2 : (2 : F) * inv2 = 1) {B : BlockedCircuit} (hB : Repeats B) (junk : Prover F)
    (tables : BetaTables F) (ch : BlockChallenges F) :
    verify B (honest B junk) tables ch = .ok () := by
  have hev := evaluate_ok (F := F) hB
  have hd := (hB.circuit 0 (total_pos hB)).nonempty
  rw [verify]
  have he : (honest B junk).evaluate (honest B junk).start =
      .ok ({ junk with circuitValue := blockFn (allBlocks B) },
        resultOf B (blockFn (allBlocks B))) := by
    simp [honest, hev]
  rw [he, Outcome.ok_bind]
  dsimp only
  have hle := hB.count
  rw [if_neg (by omega)]
  change (Outcome.ok _ >>= _) = _
  rw [Outcome.ok_bind]
  have hv := fun {b i g} (hb : b < 2 ^ B.log) (hi : i < (B.blocks 0).depth)
    (hg : g < 2 ^ (B.blocks 0).bl i) =>
    blockFn_allBlocks (F := F) hB (lt_of_lt_of_le hb hB.count) hi hg
  set top := (B.blocks 0).depth - 1 with htop
  set P0 : Prover F := { junk with circuitValue := blockFn (allBlocks B) } with hP0
  set s0 : BState (Prover F) F :=
    { prover := P0, alpha := 1, beta := 0,
      sum := 1 * (honest B junk).vRes P0 (oneMinus ch.r0) ch.r0 (oneMinus ch.rb0) ch.rb0
        (resultOf B (blockFn (allBlocks B))) ((B.blocks 0).bl top) B.log
        (2 ^ ((B.blocks 0).bl top + B.log)),
      r0 := ch.r0, r1 := ch.r1, omr0 := oneMinus ch.r0, omr1 := oneMinus ch.r1,
      tables := tables, rb := ch.rb0, omrb := oneMinus ch.rb0 } with hs0
  have hinv : LayerInv B top s0 := by
    refine ⟨fun b hb j hj g hg => hv hb hj hg, fun _ _ => rfl, fun _ _ => rfl, fun _ _ => rfl, ?_⟩
    change 1 * foldBlocked (oneMinus ch.r0) ch.r0 (oneMinus ch.rb0) ch.rb0 _ _ _ _ =
      1 * blockMle _ _ _ _ _ + 0 * _
    rw [foldBlocked_spec (oneMinus ch.r0) _ (oneMinus ch.rb0) _ _ _ _ (fun _ _ => rfl)
      (fun _ _ => rfl), zero_mul, add_zero]
    congr 1
    refine blockMle_congr _ _ (fun b hb g hg => ?_)
    rw [resultOf_eq _ (by omega) hg, hv hb (by omega) hg]
  obtain ⟨s', e, hs'⟩ := loopDownM_ok (LayerInv B) hinv
    (fun i hi hn s hs => by
      obtain ⟨s', e, h, -⟩ := honest_layer h2 hB junk ch hi (by omega) hs
      exact ⟨s', e, h⟩)
  obtain ⟨T, hT, hTv⟩ := verifierInput_ok (F := F) hB
  rw [e, Outcome.ok_bind, hT, Outcome.ok_bind, foldBlocked_spec _ _ _ _ _ _ _ hs'.om0 hs'.omb,
    foldBlocked_spec _ _ _ _ _ _ _ hs'.om1 hs'.omb, hs'.sum,
    blockMle_congr _ _ (fun b hb g hg => hTv b (lt_of_lt_of_le hb hB.count) g hg),
    blockMle_congr _ _ (fun b hb g hg => hTv b (lt_of_lt_of_le hb hB.count) g hg),
    mul_comm (blockMle _ _ _ _ s'.r0), mul_comm (blockMle _ _ _ _ s'.r1),
    beq_self_eq_true, Outcome.check_true]

end Libra.Blocked
