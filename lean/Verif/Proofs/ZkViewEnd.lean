import Verif.Proofs.ZkViewRun

/-!
# The records of two whole runs
-/

namespace Libra.Zk
open Libra Spec Finset FastTrack Props
variable {F : Type} [Field F] {G1 G2 GT : Type} [AddCommGroup G1] [AddCommGroup G2] [AddCommGroup GT]
  [Module (ZMod p) G1] [Module (ZMod p) G2] [Module (ZMod p) GT] [Gmp F] [LawfulGmp F]
  {full : Bool} {X A B : Circuit} {K : Secrets} {ch : Challenges F}

/-- the commitment to the input -/
def inCommit {E : Pairing G1 G2 GT} (T : Tools F E X K) (A : Circuit) (junk : Prover F G1 G2) (w : Rand F X) :
    InputVpd.Commitment G1 :=
  InputVpd.commit T.keyI (inTab A X junk) (mpz (pad w.r)) w.rf.val w.rf2.val

/-- the prover after the evaluation of the circuit -/
def evalP (A : Circuit) (junk : Prover F G1 G2) : Prover F G1 G2 :=
  { junk.fresh with base := { junk.base with circuitValue := valueFn (allValues A A.depth) } }

/-- the prover before the layer loop -/
def startP {E : Pairing G1 G2 GT} (T : Tools F E X K) (A : Circuit) (junk : Prover F G1 G2) (w : Rand F X) :
    Prover F G1 G2 :=
  { evalP A junk with
    keyInput := T.keyI, inputMpz := (inCommit T A junk w).coeffs, maskr := pad w.r, maskrMpz := mpz (pad w.r)
    rfInput := w.rf.val, rfInput2 := w.rf2.val }

/-- the verifier before the layer loop -/
def startS {E : Pairing G1 G2 GT} (T : Tools F E X K) (A : Circuit) (ch : Challenges F) (junk : Prover F G1 G2)
    (tables : VTables F) (w : Rand F X) : VState (Prover F G1 G2) F :=
  ⟨startP T A junk w, 1, 0, 1 * foldOutput (oneMinus ch.r0) ch.r0 (valueFn (allValues A A.depth) (A.depth - 1))
    (A.bl (A.depth - 1)) (2 ^ A.bl (A.depth - 1)), ch.r0, ch.r1, oneMinus ch.r0, oneMinus ch.r1, tables⟩

/-- the record before the layer loop -/
def startL {E : Pairing G1 G2 GT} (T : Tools F E X K) (A : Circuit) (junk : Prover F G1 G2) (w : Rand F X) :
    List (Msg F G1 G2) :=
  (List.range (2 ^ A.bl (A.depth - 1))).map (fun j => .number (valueFn (allValues A A.depth) (A.depth - 1) j)) ++
    [.inputKey T.keyI, .digests ((inCommit T A junk w).digest, (inCommit T A junk w).digesta)
      ((inCommit T A junk w).digest2, (inCommit T A junk w).digest2a)]

theorem start_run (wf : WellFormed true A) (oA : OtherInputs X A) {E : Pairing G1 G2 GT} (T : Tools F E X K)
    (ch : Challenges F) (junk : Prover F G1 G2) (tables : VTables F) (w : Rand F X) :
    Run X A ch w (startP T A junk w) (X.depth - 1) (startS T A ch junk tables w) := by
  have hd := wf.deep
  have hdX := oA.depth
  have hp : pub X ch (X.depth - 1) = ⟨1, 0, ch.r0, ch.r1, 0, 0, 0, 0⟩ := by rw [pub, if_pos (by omega)]
  have hv := fun {i j} (hi : i < A.depth) (hj : j < 2 ^ A.bl i) => valueFn_allValues (F := F) A hi hj
  refine ⟨⟨fun j hj _ g hg => hv hj hg, fun _ _ => rfl, fun _ _ _ => rfl, ?_, ⟨rfl, rfl, rfl, rfl, rfl, rfl⟩⟩, rfl, rfl,
    ?_, ?_, ?_, ?_, rfl, fun _ => rfl, ?_, ?_, ?_, ?_, fun _ => ?_⟩
  · rw [if_neg (by omega)]
    change 1 * foldOutput (oneMinus ch.r0) ch.r0 _ _ _ = 1 * (mle _ _ _ + 0 * _) + 0 * _
    rw [foldOutput_spec (oneMinus ch.r0) _ _ _ (fun _ _ => rfl), zero_mul, zero_mul, add_zero, add_zero, hdX]
    congr 1
    exact mle_congr (fun g hg => by rw [← hv (i := X.depth - 1) (by omega) hg, hdX]) (fun _ _ => rfl)
  all_goals first | (rw [hp]; rfl) | skip
  rw [Rand.Rs, dif_neg (by omega)]
  rfl

theorem inputTable_eq (wf : WellFormed true A) (oA : OtherInputs X A) (junk : Prover F G1 G2) :
    inputTable (F := F) A (A.bl 0) junk.inputMpz = .ok (inTab A X junk) := by
  have : inputTable (F := F) A (A.bl 0) junk.inputMpz = .ok (loop (2 ^ A.bl 0) (fun g T =>
      Function.update T g (Gmp.toMpz (value A 0 g : F))) junk.inputMpz) := by
    refine loopM_pure (fun g hg T => ?_)
    rcases wf.toEvaluable.inputs g hg with ⟨a, b, c⟩ | ⟨a, b⟩
    · simp [a, value, inputValue, ofCInt_input b c]
    · simp [a, value, inputValue]
  rw [this]
  congr 1
  funext g
  rw [loop_write, inTab, oA.bl_eq]

variable [DecidableEq F] [DecidableEq GT]

/-- the end of a run -/
theorem view_of_loop (hlen : ∀ i, i + 1 < X.depth → 1 ≤ X.bl i ∧ 2 * X.bl i + 1 < 2 ^ 250)
    (wf : WellFormed true A) (oA : OtherInputs X A) {E : Pairing G1 G2 GT} (T : Tools F E X K)
    (junk : Prover F G1 G2) (tables : VTables F) (w : Rand F X) {t : VState (Prover F G1 G2) F} {l : ℕ}
    {L : List (Msg F G1 G2)} (ht : Run X A ch w (startP T A junk w) 0 t)
    (hloop : loopDownM (X.depth - 1) (layerStep E A (logged full (2 ^ A.bl (A.depth - 1)) (honest E A (w.coins K) junk)) ch)
      (withLog (startS T A ch junk tables w) 0 (startL T A junk w)) = .ok (withLog t l L)) :
    ∃ O, InputVpd.prove T.keyI (mpz (ch.ru 1)) (inCommit T A junk w).coeffs (mpz (pad w.r)) w.rf.val w.rf2.val
        (Gmp.toMpz (ZAt (ch.ru 1) (X.bl 0))) (fun j => (pad w.t j).val) = .ok O ∧
      view full E A (honest E A (w.coins K) junk) tables ch =
        .ok (L ++ [.number (ZAt (ch.ru 1) (X.bl 0)), .opened (X.bl 0 + 1) O]) := by
  have hd := wf.deep
  have hdX := oA.depth
  have hn := hlen 0 (by omega)
  have hev := evaluate_ok (F := F) (var := .zk) (C := A) (by simpa using wf.toEvaluable)
  have hin : ∀ g < 2 ^ X.bl 0, inTab A X junk g = Gmp.toMpz (value A 0 g : F) := fun g hg => if_pos hg
  have hp : pub X ch 0 = ⟨ch.alpha 1, ch.beta 1, ch.ru 1, rvOf ch 1,
      ch.ru 1 (X.bl 0 - 1), ZAt (ch.ru 1) (X.bl 0), rvOf ch 1 (X.bl 0 - 1),
      ZAt (rvOf ch 1) (X.bl 0)⟩ := by rw [pub, if_neg (by omega)]
  have hr0 : t.r0 = ch.ru 1 := by rw [ht.r0, hp]
  have hZ : t.prover.Zu = ZAt (ch.ru 1) (X.bl 0) := by rw [ht.Z0, hp]
  obtain ⟨O, eO, -, vO, hO⟩ := InputVpd.complete hn.1
    (by omega) T.genI.2 (inTab A X junk) (mpz (pad w.r))
    (fun g hg => by rw [hin g hg]; exact LawfulGmp.lt _) w.rf.val w.rf2.val (Gmp.toMpz (ZAt (ch.ru 1) (X.bl 0)))
    (fun j => (pad w.t j).val) (mpz (ch.ru 1)) (fun _ _ => LawfulGmp.lt _)
  refine ⟨O, eO, ?_⟩
  have hfr := ht.inv.frame
  have e1 : (logged full (2 ^ A.bl (A.depth - 1)) (honest E A (w.coins K) junk)).evaluate
      (logged full (2 ^ A.bl (A.depth - 1)) (honest E A (w.coins K) junk)).start =
      .ok (⟨evalP A junk, 0,
        (List.range (2 ^ A.bl (A.depth - 1))).map (fun j => .number (valueFn (allValues A A.depth) (A.depth - 1) j))⟩,
        valueFn (allValues A A.depth) (A.depth - 1)) := by
    simp only [logged, honest, hev, Outcome.ok_bind, Outcome.pure_eq, WithRecord.step, List.nil_append]
    rfl
  have e2 : (logged full (2 ^ A.bl (A.depth - 1)) (honest E A (w.coins K) junk)).keygenAndCommit
      ⟨evalP A junk, 0,
        (List.range (2 ^ A.bl (A.depth - 1))).map (fun j => .number (valueFn (allValues A A.depth) (A.depth - 1) j))⟩
      (A.bl 0) = .ok (⟨startP T A junk w, 0, startL T A junk w⟩, inCommit T A junk w) := by
    have ek : InputVpd.keyGen E (A.bl 0) K.a K.s = .ok T.keyI := by rw [oA.bl_eq]; exact T.genI.1
    have et := inputTable_eq (F := F) wf oA junk
    have ek' : InputVpd.keyGen E (A.bl 0) (w.coins K).a (w.coins K).s = .ok T.keyI := ek
    have et' : inputTable (F := F) A (A.bl 0) (evalP A junk).inputMpz = .ok (inTab A X junk) := et
    simp only [logged, honest, Prover.keygenAndCommit, ek', et', Outcome.ok_bind, Outcome.pure_eq, WithRecord.step]
    rfl
  unfold view
  dsimp only
  refine bind_of_ok e1 ?_
  refine bind_of_ok e2 ?_
  rw [← hdX] at hloop
  refine bind_of_ok hloop ?_
  have e3 : t.prover.proveInput (w.coins K) (fun j => Gmp.toMpz (t.r0 j)) (Gmp.toMpz t.prover.Zu) = .ok O := by
    rw [Prover.proveInput, hfr.key, hfr.input, hfr.maskrMpz, hfr.rf, hfr.rf2, hr0, hZ]
    exact eO
  have hk : t.prover.keyInput = T.keyI := by rw [hfr.key]; rfl
  have e4 : (logged full (2 ^ A.bl (A.depth - 1)) (honest E A (w.coins K) junk)).proveInput (withLog t l L).prover
      (fun j => Gmp.toMpz (t.r0 j)) (Gmp.toMpz t.prover.Zu) =
      .ok (⟨t.prover, l, L ++ [.number (ZAt (ch.ru 1) (X.bl 0)), .opened (X.bl 0 + 1) O]⟩, O) := by
    have h0 : (honest E A (w.coins K) junk).proveInput t.prover (fun j => Gmp.toMpz (t.r0 j)) (Gmp.toMpz t.prover.Zu) =
        .ok (t.prover, O) := by
      change (t.prover.proveInput (w.coins K) (fun j => Gmp.toMpz (t.r0 j)) (Gmp.toMpz t.prover.Zu) >>= _) = _
      rw [e3]; rfl
    refine bind_of_ok h0 ?_
    change Outcome.ok ((⟨t.prover, l, L ++ [.number t.prover.Zu, .opened (t.prover.keyInput.numOfVar + 1) O]⟩ :
      WithRecord (Prover F G1 G2) F G1 G2), O) = _
    rw [hZ, hk, T.genI.2.numOfVar]
  refine bind_of_ok e4 ?_
  have hO' : InputVpd.verify E t.prover.keyInput (A.bl 0) (fun j => Gmp.toMpz (t.r0 j)) (inCommit T A junk w).digest
      (inCommit T A junk w).digest2 (Gmp.toMpz t.prover.Zu) O.ans O.witness O.witnessa = .ok true := by
    rw [hk, oA.bl_eq, hr0, hZ]
    exact hO
  refine bind_of_ok hO' ?_
  rw [Outcome.check_true]
  refine bind_of_ok rfl ?_
  have hval : t.sum = (O.ans : F) := by
    rw [ht.inv.sum, if_pos rfl, vO F LawfulGmp.char, InputVpd.maskedValue, hr0, hZ, oA.bl_eq, ht.maskr]
    simp only [mpz, LawfulGmp.cast]
    congr 1
    exact mle_congr (fun g hg => by rw [hin g hg, LawfulGmp.cast]) (fun _ _ => rfl)
  change (Outcome.check (t.sum == (O.ans : F)) >>= _) = _
  rw [hval, beq_self_eq_true, Outcome.check_true]
  rfl

/-- the layer loops of two runs -/
theorem paired_loop (hS : Setup full F X A B K ch) {E : Pairing G1 G2 GT} {T : Tools F E X K} {junk : Prover F G1 G2}
    {w w' : Rand F X} (hr : Rel T A B ch junk w w') (m : ℕ) {P0 P0' : Prover F G1 G2} :
    ∀ k, k ≤ X.depth - 1 → ∀ {s s' : VState (Prover F G1 G2) F}, Run X A ch w P0 k s → Run X B ch w' P0' k s' → ∀ l L,
      ∃ t t', Run X A ch w P0 0 t ∧ Run X B ch w' P0' 0 t' ∧ ∃ l' L',
      loopDownM k (layerStep E A (logged full m (honest E A (w.coins K) junk)) ch) (withLog s l L) = .ok (withLog t l' L') ∧
      loopDownM k (layerStep E B (logged full m (honest E B (w'.coins K) junk)) ch) (withLog s' l L) = .ok (withLog t' l' L') := by
  intro k
  induction k with
  | zero => exact fun _ s s' hs hs' l L => ⟨s, s', hs, hs', l, L, rfl, rfl⟩
  | succ k ih =>
    intro hk s s' hs hs' l L
    obtain ⟨u, u', hu, hu', seg, e, e'⟩ := paired_step hS hr (k := k) (by omega) m hs hs'
    obtain ⟨t, t', ht, ht', l', L', f, f'⟩ := ih (by omega) hu hu' (k + 1) (L ++ seg)
    refine ⟨t, t', ht, ht', l', L', ?_, ?_⟩
    · rw [loopDownM_succ, e, Outcome.bind_ok, f]
    · rw [loopDownM_succ, e', Outcome.bind_ok, f']

/-- related runs have the same record -/
theorem paired_view (hS : Setup full F X A B K ch) {E : Pairing G1 G2 GT} {T : Tools F E X K} {junk : Prover F G1 G2}
    {w w' : Rand F X} (hr : Rel T A B ch junk w w') (tables : VTables F) :
    ∃ L, view full E A (honest E A (w.coins K) junk) tables ch = .ok L ∧
      view full E B (honest E B (w'.coins K) junk) tables ch = .ok L := by
  have hdA := hS.oA.depth
  have hdB := hS.oB.depth
  have hd := hS.wfA.deep
  have hn := hS.len 0 (by omega)
  have hin : ∀ (C : Circuit), ∀ i < 2 ^ X.bl 0, inTab C X junk i < p := fun C g hg => by
    rw [inTab, if_pos hg]; exact LawfulGmp.lt _
  obtain ⟨a1, a2, a3, a4⟩ := InputVpd.commit_form hn.1 T.genI.2 (inTab A X junk) (mpz (pad w.r)) (hin A) w.rf.val w.rf2.val
  obtain ⟨b1, b2, b3, b4⟩ := InputVpd.commit_form hn.1 T.genI.2 (inTab B X junk) (mpz (pad w'.r)) (hin B) w'.rf.val w'.rf2.val
  rw [ZMod.natCast_zmod_val] at a1 a2 b1 b2
  rw [hr.rf, ← a1] at b1
  rw [hr.rf2, ← a2] at b2
  rw [b1, ← a3] at b3
  rw [b2, ← a4] at b4
  have hL : startL T B junk w' = startL T A junk w := by
    unfold startL
    rw [show (inCommit T B junk w').digest = (inCommit T A junk w).digest from b1,
      show (inCommit T B junk w').digest2 = (inCommit T A junk w).digest2 from b2,
      show (inCommit T B junk w').digesta = (inCommit T A junk w).digesta from b3,
      show (inCommit T B junk w').digest2a = (inCommit T A junk w).digest2a from b4]
    congr 1
    rw [hS.oA.bl_eq, hS.oB.bl_eq, hdA, hdB]
    refine List.map_congr_left (fun j hj => ?_)
    have hj := List.mem_range.1 hj
    have hA := valueFn_allValues (F := F) A (i := X.depth - 1) (j := j) (by omega) (by rw [hS.oA.bl_eq]; exact hj)
    have hB := valueFn_allValues (F := F) B (i := X.depth - 1) (j := j) (by omega) (by rw [hS.oB.bl_eq]; exact hj)
    rw [hdA] at hA
    rw [hdB] at hB
    rw [hA, hB, hS.out j hj]
  obtain ⟨t, t', ht, ht', l, L, e, e'⟩ := paired_loop hS hr (2 ^ A.bl (A.depth - 1)) _ le_rfl
    (start_run hS.wfA hS.oA T ch junk tables w) (start_run hS.wfB hS.oB T ch junk tables w') 0 (startL T A junk w)
  have em : 2 ^ B.bl (B.depth - 1) = 2 ^ A.bl (A.depth - 1) := by rw [hS.oA.bl_eq, hS.oB.bl_eq, hdA, hdB]
  obtain ⟨O, o1, o2⟩ := view_of_loop hS.len hS.wfA hS.oA T junk tables w ht e
  obtain ⟨O', o1', o2'⟩ := view_of_loop (full := full) (l := l) (L := L) hS.len hS.wfB hS.oB T junk tables w' ht'
    (by rw [hL, em]; exact e')
  refine ⟨_, o2, o2'.trans ?_⟩
  -- the opening of the inputs
  obtain ⟨ans, l1, v1, f1⟩ := T.formI (inTab A X junk) (hin A) (mpz (pad w.r)) (Gmp.toMpz (ZAt (ch.ru 1) (X.bl 0)))
    (mpz (ch.ru 1))
  obtain ⟨ans', l2, v2, f2⟩ := T.formI (inTab B X junk) (hin B) (mpz (pad w'.r)) (Gmp.toMpz (ZAt (ch.ru 1) (X.bl 0)))
    (mpz (ch.ru 1))
  have hval : ∀ (C : Circuit) (r : ℕ → F), InputVpd.maskedValue (X.bl 0) (inTab C X junk) (mpz r)
      (Gmp.toMpz (ZAt (ch.ru 1) (X.bl 0))) (fun i => (mpz (ch.ru 1) i : F)) =
      mle (X.bl 0) (value C 0) (ch.ru 1) + ZAt (ch.ru 1) (X.bl 0) * (r 0 + r 1 * ch.ru 1 (X.bl 0 - 1)) := by
    intro C r
    rw [InputVpd.maskedValue]
    simp only [mpz, LawfulGmp.cast]
    congr 1
    exact mle_congr (fun g hg => by rw [inTab, if_pos hg, LawfulGmp.cast]) (fun _ _ => rfl)
  obtain rfl : ans = ans' := nat_inj (F := F) l1 l2 (by
    rw [v1, v2, hval, hval]; exact (hr.toShift.inputs hS).symm)
  have s0 := cast_ne_zero (hS.sec.s _ le_rfl) hS.sec.last
  have := opened_eq (F := F) (G2 := G2) (x := (w.rf.val, w.rf2.val)) (x' := (w'.rf.val, w'.rf2.val))
    (t := fun j => (pad w.t j).val) (t' := fun j => (pad w'.t j).val) f1 f2 s0 trivial trivial (by
      have h1 := hr.rf
      have h2 := hr.rf2
      simp only [ZMod.natCast_zmod_val, InputVpd.maskedValue]
      linear_combination h1 + (Gmp.toMpz (ZAt (ch.ru 1) (X.bl 0)) : ZMod p) * h2)
    (fun i hi => by rw [pad_cast _ hi, pad_cast _ hi]; exact hr.t ⟨i, hi⟩) o1 o1'
  rw [this.1]

/-- The run of the honest prover, up to the last layer: the claims of layer 1 are the masked inputs at its two points. -/
theorem loop_last (hlen : ∀ i, i + 1 < X.depth → 1 ≤ X.bl i ∧ 2 * X.bl i + 1 < 2 ^ 250)
    (wf : WellFormed true A) (par : ParallelOk A) (oA : OtherInputs X A) (hK : K.Ok X) {E : Pairing G1 G2 GT}
    {junk : Prover F G1 G2} {w : Rand F X} (m : ℕ) {P0 : Prover F G1 G2} :
    ∀ k, k < X.depth - 1 → ∀ {s : VState (Prover F G1 G2) F}, Run X A ch w P0 (k + 1) s → ∀ l L,
      ∃ t, Run X A ch w P0 0 t ∧ ∃ l' L' vu vv tail,
      vu = mle (X.bl 0) (value A 0) (ch.ru 1) +
        ZAt (ch.ru 1) (X.bl 0) * (pad w.r 0 + pad w.r 1 * ch.ru 1 (X.bl 0 - 1)) ∧ vv = value A 0 0 ∧
      tail.length = 10 ∧
      loopDownM (k + 1) (layerStep E A (logged full m (honest E A (w.coins K) junk)) ch) (withLog s l L) =
        .ok (withLog t l' (L' ++ (.number vu :: (if full then [.number vv] else []) ++ tail))) := by
  have eA : Libra.evaluate .zk A = .ok (allValues A A.depth : List (List F)) :=
    evaluate_ok (by simpa using wf.toEvaluable)
  intro k
  induction k with
  | zero =>
    intro hk s hs l L
    obtain ⟨hn, hn2⟩ := hlen 0 (by omega)
    obtain ⟨t, ht, haf, keyR, keyM, -, -, S, q, -, vu, vv, hvu, hvv, -, O1, O2, O3, -, -, -, -, hlog⟩ :=
      honest_layer_log full m E wf par (coinsOk hK oA w) junk ch (i := 0 + 1) (by omega)
        (by rw [oA.depth]; omega) (n := X.bl 0) (oA.bl_eq 0) hn hn2 hs.maskr hs.inv eA hs.val hs.om0
        (hs.om1 (by omega)) (rv := rvOf ch (0 + 1)) rfl (rc := rcOf ch (0 + 1)) rfl
    rw [Nat.add_sub_cancel, hs.masked hk, if_pos rfl] at hvu hvv
    have z : rvOf ch (0 + 1) = corner 0 := by funext j; simp [rvOf, corner]
    have zz : ZAt (corner 0 : ℕ → F) (X.bl 0) = 0 := by
      rw [ZAt, prod_eq_zero (mem_range.2 hn)]
      simp [corner]
    rw [z, zz, mle_corner _ _ _ (Nat.two_pow_pos _), zero_mul, add_zero] at hvv
    have hl := hlog l L
    have hfull : (if full = true ∨ 0 + 1 ≠ 1 then [(.number vv : Msg F G1 G2)] else []) =
        if full = true then [.number vv] else [] := by simp
    rw [segment, hfull, List.append_assoc, ← List.append_assoc L] at hl
    exact ⟨t, hs.next oA hk ht haf, _, _, vu, vv, _, hvu, hvv, rfl, (loopDownM_succ ..).trans (bind_of_ok hl rfl)⟩
  | succ k ih =>
    intro hk s hs l L
    obtain ⟨hn, hn2⟩ := hlen (k + 1) (by omega)
    obtain ⟨t, ht, haf, keyR, keyM, -, -, S, q, -, vu, vv, -, -, -, O1, O2, O3, -, -, -, -, hlog⟩ :=
      honest_layer_log full m E wf par (coinsOk hK oA w) junk ch (i := k + 1 + 1) (by omega)
        (by rw [oA.depth]; omega) (n := X.bl (k + 1)) (oA.bl_eq (k + 1)) hn hn2 hs.maskr hs.inv eA hs.val hs.om0
        (hs.om1 (by omega)) (rv := rvOf ch (k + 1 + 1)) rfl (rc := rcOf ch (k + 1 + 1)) rfl
    obtain ⟨t', ht', l', L', vu, vv, tail, h1, h2, h3, e⟩ := ih (by omega) (hs.next oA hk ht haf) (k + 1 + 1) _
    refine ⟨t', ht', l', L', vu, vv, tail, h1, h2, h3, ?_⟩
    rw [loopDownM_succ, hlog l L, Outcome.bind_ok]
    exact e

end Libra.Zk
