import Verif.Proofs.ZkViewBij

/-!
# Two runs side by side
-/

namespace Libra.Zk
open Libra Spec Finset FastTrack Props
variable {F : Type} [Field F] {G1 G2 GT : Type} [AddCommGroup G1] [AddCommGroup G2] [AddCommGroup GT]
  [Module (ZMod p) G1] [Module (ZMod p) G2] [Module (ZMod p) GT] [Gmp F] [LawfulGmp F]
  {full : Bool} {X A B : Circuit} {K : Secrets} {ch : Challenges F}

/-- the messages depend on the masks only -/
theorem roundMessages_congr (E : Pairing G1 G2 GT) {C : Circuit} (hwf : WellFormed true C) {coins coins' : Coins F} {i : ℕ}
    (h1 : 1 ≤ i) (hd : i < C.depth) {n : ℕ} (hC : C.bl (i - 1) = n) (hn : 1 ≤ n)
    (hsR : ∀ j ≤ 2, (coins.layer i).sR j < p) (hsM : ∀ j ≤ 2 * n + 1, (coins.layer i).sM j < p)
    (hsR' : ∀ j ≤ 2, (coins'.layer i).sR j < p) (hsM' : ∀ j ≤ 2 * n + 1, (coins'.layer i).sM j < p)
    {P P' : Prover F G1 G2} {vals : List (List F)} (hv : Libra.evaluate .zk C = .ok vals)
    (hP : P.base.circuitValue = valueFn vals) (hP' : P'.base.circuitValue = valueFn vals)
    (α β : F) (r0 r1 ru rv : ℕ → F) (rho : F) (hM : masksOf coins P i rho = masksOf coins' P' i rho) :
    roundMessages E C coins P i α β r0 r1 rho ru rv n = roundMessages E C coins' P' i α β r0 r1 rho ru rv n := by
  subst hC
  obtain ⟨S, t, e, eS, -, et⟩ := roundMessages_ok E hwf coins h1 hd hn hsR hsM P hv hP α β r0 r1 ru rv rho
  obtain ⟨S', t', e', eS', -, et'⟩ := roundMessages_ok E hwf coins' h1 hd hn hsR' hsM' P' hv hP' α β r0 r1 ru rv rho
  have hg : (coins.layer i).maskpoly = (coins'.layer i).maskpoly := congrArg Masks.g hM
  rw [e, e', eS, eS', hg]
  congr 2
  funext k
  refine quint_ext LawfulGmp.char (fun x => ?_)
  rw [et _ rfl, et' _ rfl, hM, hg]

/-- the honest prover before layer `l` -/
structure Run (X A : Circuit) (ch : Challenges F) (w : Rand F X) (P0 : Prover F G1 G2) (l : ℕ)
    (s : VState (Prover F G1 G2) F) : Prop where
  inv : LayerInv A P0 l s
  maskr : P0.maskr = pad w.r
  val : s.prover.base.circuitValue = valueFn (allValues A A.depth)
  alpha : s.alpha = (pub X ch l).alpha
  beta : s.beta = (pub X ch l).beta
  r0 : s.r0 = (pub X ch l).r0
  r1 : s.r1 = (pub X ch l).r1
  om0 : s.omr0 = fun j => 1 - s.r0 j
  om1 : l ≠ 0 → s.omr1 = fun j => 1 - s.r1 j
  x0 : s.prover.preu1 = (pub X ch l).x0
  Z0 : s.prover.Zu = (pub X ch l).Z0
  x1 : s.prover.prev1 = (pub X ch l).x1
  Z1 : s.prover.Zv = (pub X ch l).Z1
  maskR : l ≠ 0 → s.prover.maskR = w.Rs l

omit [LawfulGmp F] in
theorem layer_coins (K : Secrets) (w : Rand F X) {k : ℕ} (hk : k < X.depth - 1) :
    (w.coins K).layer (k + 1) = (w.layer ⟨k, hk⟩).coins K (k + 1) := by
  simp only [Rand.coins, Nat.add_sub_cancel, dif_pos hk]
  rfl

theorem coinsOk (hK : K.Ok X) (oA : OtherInputs X A) (w : Rand F X) : CoinsOk A (w.coins K) where
  sR i h1 hi := by
    rw [oA.depth] at hi
    obtain ⟨k, rfl⟩ : ∃ k, i = k + 1 := ⟨i - 1, by omega⟩
    rw [layer_coins K w (by omega)]
    exact hK.sR _ h1 hi
  sM i h1 hi := by
    rw [oA.depth] at hi
    obtain ⟨k, rfl⟩ : ∃ k, i = k + 1 := ⟨i - 1, by omega⟩
    rw [layer_coins K w (by omega), oA.bl_eq]
    exact hK.sM _ h1 hi
  rfM i h1 hi := by
    rw [oA.depth] at hi
    obtain ⟨k, rfl⟩ : ∃ k, i = k + 1 := ⟨i - 1, by omega⟩
    rw [layer_coins K w (by omega)]
    exact ZMod.val_lt (w.layer ⟨k, by omega⟩).rfM
  a := hK.a
  s := by rw [oA.bl_eq]; exact hK.s

/-- the masked values of layer `k`, as the prover computes them in layer `k + 1` -/
theorem Run.masked {w : Rand F X} {P0 : Prover F G1 G2} {k : ℕ} {s : VState (Prover F G1 G2) F}
    (hs : Run X A ch w P0 (k + 1) s) (hk : k < X.depth - 1) (K : Secrets) (rho : F) (n : ℕ) (u : ℕ → F) :
    maskedValue n (value A k) (masksOf (w.coins K) s.prover (k + 1) rho) u =
      mle n (value A k) u + ZAt u n * (if k = 0 then pad w.r 0 + pad w.r 1 * u (n - 1) else sr (w.Rs k) (u (n - 1))) := by
  rw [maskedValue, masksOf]
  simp only [layer_coins K w hk, hs.inv.frame.maskr, hs.maskr, Nat.add_eq_right, ZAt]
  split_ifs with h
  · rfl
  · rw [sr, Rand.Rs, dif_pos hk]; rfl

theorem Run.msgs (E : Pairing G1 G2 GT) (wf : WellFormed true A) (oA : OtherInputs X A) (hK : K.Ok X)
    {w : Rand F X} {P0 : Prover F G1 G2} {k : ℕ} {s : VState (Prover F G1 G2) F}
    (hs : Run X A ch w P0 (k + 1) s) (hk : k < X.depth - 1) (hn : 1 ≤ X.bl k) (junk : Prover F G1 G2) :
    roundMessages E A (w.coins K) s.prover (k + 1) s.alpha s.beta s.r0 s.r1 (ch.rho (k + 1)) (ch.ru (k + 1))
        (rvOf ch (k + 1)) (X.bl k) =
      Zk.msgs E A X K ch junk (k + 1) (X.bl k) (w.Rs (k + 1)) (w.Rs k) (pad w.r) (w.layer ⟨k, hk⟩).g := by
  have eA : Libra.evaluate .zk A = .ok (allValues A A.depth : List (List F)) :=
    evaluate_ok (by simpa using wf.toEvaluable)
  have hsM := hK.sM (k + 1) (by omega) (by omega)
  rw [Nat.add_sub_cancel] at hsM
  rw [Zk.msgs, hs.alpha, hs.beta, hs.r0, hs.r1]
  refine roundMessages_congr E wf (by omega) (by rw [oA.depth]; omega) (by rw [Nat.add_sub_cancel, oA.bl_eq]) hn
    ?_ ?_ ?_ ?_ eA hs.val rfl _ _ _ _ _ _ _ ?_
  · rw [layer_coins K w hk]; exact hK.sR _ (by omega) (by omega)
  · rw [layer_coins K w hk]; exact hsM
  · simpa [withMask, bare] using hK.sR _ (by omega) (by omega)
  · simpa [withMask, bare] using hsM
  · simp only [masksOf, canon, layer_coins K w hk, hs.inv.frame.maskr, hs.maskr, hs.x0, hs.x1, hs.Z0, hs.Z1,
      hs.maskR (by omega), withMask, bare, Function.update_self, LayerRand.coins, Rand.Rs, dif_pos hk]
    rfl

omit [Field F] [Gmp F] [LawfulGmp F] in
/-- openings with the same answer and blindings that make up for the difference look the same -/
theorem opened_eq {g1 : G1} {a d : ℕ} {s : ℕ → ZMod p} {r : ℕ → ℕ} {f f' : ZMod p} {Bl : Type}
    {b b' : Bl → ZMod p} {ok ok' : Bl → Prop} {prove prove' : Bl → (ℕ → ℕ) → Outcome (VpdR.Opening G1)} {ans : ℕ}
    {q q' : ℕ → ZMod p} (h : Form g1 a d s r f b ok prove ans q) (h' : Form g1 a d s r f' b' ok' prove' ans q')
    (hs : s d ≠ 0) {x x' : Bl} (hx : ok x) (hx' : ok' x') {t t' : ℕ → ℕ}
    (hb : f' + b' x' * s d = f + b x * s d)
    (ht : ∀ i < d, q' i + t' i * s d = q i + t i * s d) {O O' : VpdR.Opening G1} (e : prove x t = .ok O)
    (e' : prove' x' t' = .ok O') : (Msg.opened (d + 1) O' : Msg F G1 G2) = .opened (d + 1) O ∧ O'.ans = O.ans := by
  obtain ⟨P, P', p1, p2, h1, h2, h3⟩ := h.same h' hs hx hx' hb ht
  cases e.symm.trans p1
  cases e'.symm.trans p2
  refine ⟨?_, h1⟩
  rw [Msg.opened, Msg.opened, h1, List.map_congr_left (fun i hi => h2 i (List.mem_range.1 hi)),
    List.map_congr_left (fun i hi => h3 i (List.mem_range.1 hi))]

theorem pad_cast {N : ℕ} (t : Fin N → ZMod p) {j : ℕ} (hj : j < N) : (((pad t j).val : ℕ) : ZMod p) = t ⟨j, hj⟩ := by
  rw [ZMod.natCast_zmod_val, pad, dif_pos hj]

omit [Gmp F] [LawfulGmp F] in
theorem layerPolyAt_eq (oA : OtherInputs X A) (oB : OtherInputs X B) {l : ℕ} (hl : l ≠ 0) (α β : F)
    (r0 r1 u v : ℕ → F) (a b : F) : layerPolyAt B l α β r0 r1 u v a b = layerPolyAt A l α β r0 r1 u v a b := by
  simp only [layerPolyAt, Circuit.gate, oA.bl_eq, oB.bl_eq, oA.layer l hl, oB.layer l hl]

/-- the prover after layer `k + 1` -/
theorem Run.next {E : Pairing G1 G2 GT} {v : Rand F X} {Q : Prover F G1 G2} {k : ℕ} {z z' : VState (Prover F G1 G2) F}
    (hz : Run X A ch v Q (k + 1) z) (oC : OtherInputs X A) (hk : k < X.depth - 1) (hi : LayerInv A Q k z')
    (ha : After E A (v.coins K) ch (k + 1) z z') : Run X A ch v Q k z' := by
  have hp : pub X ch k = ⟨ch.alpha (k + 1), ch.beta (k + 1), ch.ru (k + 1), rvOf ch (k + 1),
    ch.ru (k + 1) (X.bl k - 1), ZAt (ch.ru (k + 1)) (X.bl k), rvOf ch (k + 1) (X.bl k - 1),
    ZAt (rvOf ch (k + 1)) (X.bl k)⟩ := by rw [pub, if_neg (by omega)]
  refine ⟨hi, hz.maskr, ha.values.trans hz.val, ?_, ?_, ?_, ?_, ?_, fun h0 => ?_, ?_, ?_, ?_, ?_, fun h0 => ?_⟩
  · rw [hp]; exact ha.alpha
  · rw [hp]; exact ha.beta
  · rw [hp]; exact ha.r0
  · rw [hp]; exact ha.r1
  · rw [ha.om0, ha.r0]; rfl
  · rw [ha.om1, ha.r1]
    funext j
    simp [oneMinus, h0]
  · rw [hp, ha.preu1, Nat.add_sub_cancel, oC.bl_eq]
  · rw [hp, ha.Zu, Nat.add_sub_cancel, oC.bl_eq]
  · rw [hp, ha.prev1, Nat.add_sub_cancel, oC.bl_eq]; rfl
  · rw [hp, ha.Zv, Nat.add_sub_cancel, oC.bl_eq]; rfl
  · rw [ha.maskR (by omega), layer_coins K v hk, Rand.Rs, dif_pos hk]; rfl

variable [DecidableEq F] [DecidableEq GT]

/-- the iterations for layer `k + 1` of two runs -/
theorem paired_step (hS : Setup full F X A B K ch) {E : Pairing G1 G2 GT} {T : Tools F E X K} {junk : Prover F G1 G2}
    {w w' : Rand F X} (hr : Rel T A B ch junk w w') {k : ℕ} (hk : k < X.depth - 1) (m : ℕ) {P0 P0' : Prover F G1 G2}
    {s s' : VState (Prover F G1 G2) F} (hs : Run X A ch w P0 (k + 1) s) (hs' : Run X B ch w' P0' (k + 1) s') :
    ∃ t t', Run X A ch w P0 k t ∧ Run X B ch w' P0' k t' ∧ ∃ seg,
      (∀ l L, layerStep E A (logged full m (honest E A (w.coins K) junk)) ch (k + 1) (withLog s l L) =
        .ok (withLog t (k + 1) (L ++ seg))) ∧
      ∀ l L, layerStep E B (logged full m (honest E B (w'.coins K) junk)) ch (k + 1) (withLog s' l L) =
        .ok (withLog t' (k + 1) (L ++ seg)) := by
  obtain ⟨hn, hn2⟩ := hS.len k (by omega)
  have hK := hS.sec
  have eA : Libra.evaluate .zk A = .ok (allValues A A.depth : List (List F)) :=
    evaluate_ok (by simpa using hS.wfA.toEvaluable)
  have eB : Libra.evaluate .zk B = .ok (allValues B B.depth : List (List F)) :=
    evaluate_ok (by simpa using hS.wfB.toEvaluable)
  obtain ⟨t, ht, haf, keyR, keyM, gR, gM, S, q, eq, vu, vv, hvu, hvv, -, O1, O2, O3, p1, p2, p3, hchk, hlog⟩ :=
    honest_layer_log full m E hS.wfA hS.parA (coinsOk hK hS.oA w) junk ch (i := k + 1) (by omega)
      (by rw [hS.oA.depth]; omega) (n := X.bl k) (hS.oA.bl_eq k) hn hn2 hs.maskr hs.inv eA hs.val hs.om0
      (hs.om1 (by omega)) (rv := rvOf ch (k + 1)) rfl (rc := rcOf ch (k + 1)) rfl
  obtain ⟨t', ht', haf', keyR', keyM', gR', gM', S', q', eq', vu', vv', hvu', hvv', -, O1', O2', O3', p1', p2', p3', hchk',
    hlog'⟩ :=
    honest_layer_log full m E hS.wfB hS.parB (coinsOk hK hS.oB w') junk ch (i := k + 1) (by omega)
      (by rw [hS.oB.depth]; omega) (n := X.bl k) (hS.oB.bl_eq k) hn hn2 hs'.maskr hs'.inv eB hs'.val hs'.om0
      (hs'.om1 (by omega)) (rv := rvOf ch (k + 1)) rfl (rc := rcOf ch (k + 1)) rfl
  have lr := hr.layers ⟨k, hk⟩
  simp only at lr
  rw [layer_coins K w hk] at gR gM p1 p2 p3 hlog
  rw [layer_coins K w' hk] at gR' gM' p1' p2' p3' hlog'
  -- keys and messages
  have kR := T.genR (k + 1) (by omega) (by omega)
  have kM := T.genM (k + 1) (by omega) (by omega)
  rw [Nat.add_sub_cancel] at kM
  obtain rfl : keyR = T.keyR (k + 1) := Outcome.ok.inj (gR.symm.trans kR.1)
  obtain rfl : keyR' = T.keyR (k + 1) := Outcome.ok.inj (gR'.symm.trans kR.1)
  obtain rfl : keyM = T.keyM (k + 1) := Outcome.ok.inj (gM.symm.trans kM.1)
  obtain rfl : keyM' = T.keyM (k + 1) := Outcome.ok.inj (gM'.symm.trans kM.1)
  rw [hs.msgs E hS.wfA hS.oA hK hk hn junk] at eq
  rw [hs'.msgs E hS.wfB hS.oB hK hk hn junk, lr.msgs, eq] at eq'
  obtain ⟨rfl, rfl⟩ := Prod.mk.inj (Outcome.ok.inj eq')
  -- the claimed values
  have hvu1 : vu' = vu := by
    rw [hvu, hvu', Nat.add_sub_cancel, hs.masked hk, hs'.masked hk]
    split_ifs with h0
    · subst h0; exact hr.toShift.inputs hS
    · exact (hr.toShift.values hS (by omega) hk).1.2
  subst hvu1
  have hvv1 : full = true ∨ k ≠ 0 → vv' = vv := by
    intro h
    rw [hvv, hvv', Nat.add_sub_cancel, hs.masked hk, hs'.masked hk]
    split_ifs with h0
    · subst h0
      have z : rvOf ch (0 + 1) = corner 0 := by funext j; simp [rvOf, corner]
      have zz : ZAt (corner 0 : ℕ → F) (X.bl 0) = 0 := by
        rw [ZAt, prod_eq_zero (mem_range.2 hn)]
        simp [corner]
      rw [z, zz, mle_corner _ _ _ (Nat.two_pow_pos _), mle_corner _ _ _ (Nat.two_pow_pos _), zero_mul, zero_mul,
        hS.first (h.resolve_right (by simp))]
    · have z : rvOf ch (k + 1) = ch.rv (k + 1) := by funext j; simp [rvOf, h0]
      rw [z]
      exact (hr.toShift.values hS (by omega) hk).2.2
  -- the openings of the mask of the values
  have sR : (K.sR (k + 1) 2 : ZMod p) ≠ 0 := cast_ne_zero (hK.sR (k + 1) (by omega) (by omega) 2 le_rfl)
    (hK.lastR (k + 1) (by omega) (by omega))
  have sM : (K.sM (k + 1) (2 * X.bl k + 1) : ZMod p) ≠ 0 :=
    cast_ne_zero (hK.sM (k + 1) (by omega) (by omega) _ (by rw [Nat.add_sub_cancel]))
      (by have := hK.lastM (k + 1) (by omega) (by omega); rwa [Nat.add_sub_cancel] at this)
  rw [hs.maskR (by omega), hs.x0] at p1
  rw [hs.maskR (by omega), hs.x1] at p2
  rw [hs'.maskR (by omega), hs'.x0] at p1'
  rw [hs'.maskR (by omega), hs'.x1] at p2'
  have hat : ∀ c : Fin 2, maskRPoly (w'.Rs (k + 1)) (if c = 0 then (pub X ch (k + 1)).x0 else (pub X ch (k + 1)).x1)
      (rcOf ch (k + 1)) = maskRPoly (w.Rs (k + 1)) (if c = 0 then (pub X ch (k + 1)).x0 else (pub X ch (k + 1)).x1)
      (rcOf ch (k + 1)) := by
    intro c
    by_cases htop : k + 1 < X.depth - 1
    · have h := hr.toShift.values hS (k := k + 1) (by omega) htop
      rw [pub, if_neg (show ¬k + 1 + 1 = X.depth by omega)]
      have z : rvOf ch (k + 1 + 1) = ch.rv (k + 1 + 1) := by funext j; simp [rvOf]
      split_ifs
      · exact h.1.1
      · rw [z]; exact h.2.1
    · simp only [Rand.Rs, dif_neg htop]
  have hR : ∀ (c : Fin 2) (O O' : VpdR.Opening G1),
      VpdR.prove (T.keyR (k + 1)) (ptR X ch (k + 1) c) (mpz (w.Rs (k + 1))) (w.layer ⟨k, hk⟩).rfR.val
        (fun j => (pad ((w.layer ⟨k, hk⟩).tR c) j).val) = .ok O →
      VpdR.prove (T.keyR (k + 1)) (ptR X ch (k + 1) c) (mpz (w'.Rs (k + 1))) (w'.layer ⟨k, hk⟩).rfR.val
        (fun j => (pad ((w'.layer ⟨k, hk⟩).tR c) j).val) = .ok O' →
      (Msg.opened 3 O' : Msg F G1 G2) = .opened 3 O ∧ O'.ans = O.ans := by
    intro c O O' e e'
    obtain ⟨ans, l1, a1, f1⟩ := T.formR (k + 1) (by omega) (by omega) (mpz (w.Rs (k + 1))) (ptR X ch (k + 1) c)
    obtain ⟨ans', l2, a2, f2⟩ := T.formR (k + 1) (by omega) (by omega) (mpz (w'.Rs (k + 1))) (ptR X ch (k + 1) c)
    have hc : ∀ R : ℕ → F, maskRPoly (fun i => (mpz R i : F)) (ptR X ch (k + 1) c 0) (ptR X ch (k + 1) c 1) =
        maskRPoly R (if c = 0 then (pub X ch (k + 1)).x0 else (pub X ch (k + 1)).x1) (rcOf ch (k + 1)) := by
      intro R
      simp only [mpz, ptR, LawfulGmp.cast, if_true, one_ne_zero, if_false]
    obtain rfl : ans = ans' := nat_inj (F := F) l1 l2 (by rw [a1, a2, hc, hc, hat])
    refine opened_eq (x := (w.layer ⟨k, hk⟩).rfR.val) (x' := (w'.layer ⟨k, hk⟩).rfR.val) f1 f2 sR trivial trivial ?_ ?_ e e'
    · rw [ZMod.natCast_zmod_val, ZMod.natCast_zmod_val]
      exact lr.rfR
    · intro i hi
      rw [pad_cast _ hi, pad_cast _ hi]
      exact lr.tR c ⟨i, hi⟩
  have h1 := hR 0 O1 O1' p1 p1'
  have h2 := hR 1 O2 O2' p2 p2'
  -- the opening of the mask of the sum-check
  have hin : ∀ g : ℕ → F, ∀ i < 2 * (2 * X.bl (k + 1 - 1) + 1), mpz g i < p := fun g i _ => LawfulGmp.lt _
  obtain ⟨ans, l1, -, f1⟩ := T.formM (k + 1) (by omega) (by omega) _ (hin (pad (w.layer ⟨k, hk⟩).g)) (ptM ch (k + 1) (X.bl k))
  obtain ⟨ans', l2, -, f2⟩ := T.formM (k + 1) (by omega) (by omega) _ (hin (pad (w'.layer ⟨k, hk⟩).g)) (ptM ch (k + 1) (X.bl k))
  rw [Nat.add_sub_cancel] at f1 f2
  have a1 : O3.ans = ans := by
    obtain ⟨O, e, ea, -⟩ := f1.run (w.layer ⟨k, hk⟩).rfM.val (fun j => (pad (w.layer ⟨k, hk⟩).tM j).val) (ZMod.val_lt _)
    cases e.symm.trans p3
    exact ea
  have a2 : O3'.ans = ans' := by
    obtain ⟨O, e, ea, -⟩ := f2.run (w'.layer ⟨k, hk⟩).rfM.val (fun j => (pad (w'.layer ⟨k, hk⟩).tM j).val) (ZMod.val_lt _)
    cases e.symm.trans p3'
    exact ea
  obtain rfl : ans = ans' := by
    refine nat_inj (F := F) l1 l2 ?_
    rw [← a1, ← a2]
    refine mul_left_cancel₀ (hS.gen.rho (k + 1) (by omega) (by omega)) ?_
    rw [hs.alpha, hs.beta, hs.r0, hs.r1, hs.Z0, hs.Z1] at hchk
    rw [hs'.alpha, hs'.beta, hs'.r0, hs'.r1, hs'.Z0, hs'.Z1, h1.2, h2.2, hchk, layerPolyAt_eq hS.oA hS.oB (by omega)] at hchk'
    by_cases h0 : k = 0
    · have z : rcOf ch (k + 1) = 0 := by rw [rcOf, if_pos (by omega)]
      rw [z, zero_mul, zero_mul] at hchk'
      linear_combination hchk'
    · rw [hvv1 (.inr h0)] at hchk'
      linear_combination hchk'
  have h3 := opened_eq (F := F) (G2 := G2) (x := (w.layer ⟨k, hk⟩).rfM.val) (x' := (w'.layer ⟨k, hk⟩).rfM.val)
    (t := fun j => (pad (w.layer ⟨k, hk⟩).tM j).val) (t' := fun j => (pad (w'.layer ⟨k, hk⟩).tM j).val) f1 f2 sM
    (ZMod.val_lt _) (ZMod.val_lt _) (by rw [ZMod.natCast_zmod_val, ZMod.natCast_zmod_val]; exact lr.rfM)
    (fun i hi => by rw [pad_cast _ hi, pad_cast _ hi]; exact lr.tM ⟨i, hi⟩) p3 p3'
  -- the commitments
  have c1 : VpdR.commit (T.keyR (k + 1)) (mpz (w'.Rs (k + 1))) (w'.layer ⟨k, hk⟩).rfR.val =
      VpdR.commit (T.keyR (k + 1)) (mpz (w.Rs (k + 1))) (w.layer ⟨k, hk⟩).rfR.val := by
    have := lr.rfR
    simp only [fR] at this
    rw [VpdR.commit_form kR.2, VpdR.commit_form kR.2, ZMod.natCast_zmod_val, ZMod.natCast_zmod_val, this]
  have c2 : VpdTest.commit (T.keyM (k + 1)) (mpz (pad (w'.layer ⟨k, hk⟩).g)) (w'.layer ⟨k, hk⟩).rfM.val =
      VpdTest.commit (T.keyM (k + 1)) (mpz (pad (w.layer ⟨k, hk⟩).g)) (w.layer ⟨k, hk⟩).rfM.val := by
    have := lr.rfM
    simp only [fM] at this
    rw [VpdTest.commit_form kM.2, VpdTest.commit_form kM.2, ZMod.natCast_zmod_val, ZMod.natCast_zmod_val, this]
  refine ⟨t, t', hs.next hS.oA hk ht haf, hs'.next hS.oB hk ht' haf', _, hlog, fun l L => ?_⟩
  rw [hlog']
  have d1 : VpdR.commit (T.keyR (k + 1)) (fun j => Gmp.toMpz (s'.prover.maskR j))
        (LayerRand.coins K (k + 1) (w'.layer ⟨k, hk⟩)).rfR =
      VpdR.commit (T.keyR (k + 1)) (fun j => Gmp.toMpz (s.prover.maskR j))
        (LayerRand.coins K (k + 1) (w.layer ⟨k, hk⟩)).rfR := by
    rw [hs.maskR (by omega), hs'.maskR (by omega)]
    exact c1
  have d2 : VpdTest.commit (T.keyM (k + 1)) (fun j => Gmp.toMpz ((LayerRand.coins K (k + 1) (w'.layer ⟨k, hk⟩)).maskpoly j))
        (LayerRand.coins K (k + 1) (w'.layer ⟨k, hk⟩)).rfM =
      VpdTest.commit (T.keyM (k + 1)) (fun j => Gmp.toMpz ((LayerRand.coins K (k + 1) (w.layer ⟨k, hk⟩)).maskpoly j))
        (LayerRand.coins K (k + 1) (w.layer ⟨k, hk⟩)).rfM := c2
  rw [d1, d2, hs.x0, hs.x1, hs.Z0, hs.Z1, hs'.x0, hs'.x1, hs'.Z0, hs'.Z1, h1.1, h2.1]
  have h3' : (Msg.opened (2 * X.bl k + 2) O3' : Msg F G1 G2) = .opened (2 * X.bl k + 2) O3 := h3.1
  rw [h3']
  have hvv' : (if full = true ∨ k + 1 ≠ 1 then [(.number vv' : Msg F G1 G2)] else []) =
      if full = true ∨ k + 1 ≠ 1 then [.number vv] else [] := by
    split_ifs with h
    · rw [hvv1 (by simpa using h)]
    · rfl
  simp only [segment, hvv']

end Libra.Zk
