import Verif.Proofs.ZkViewEnd
import Verif.Proofs.ZkViewCount
import Verif.Props.ZkHiding

/-!
# C99: a whole run of the zero-knowledge protocol reveals only the outputs (and the first input)
-/

namespace Libra.Props
open Libra Spec Finset FastTrack Zk

section
variable {F : Type} [Field F] {G1 G2 GT : Type} [AddCommGroup G1] [AddCommGroup G2] [AddCommGroup GT]
  [Module (ZMod p) G1] [Module (ZMod p) G2] [Module (ZMod p) GT] [Gmp F] [DecidableEq F] [DecidableEq GT]

theorem loop_log (full : Bool) (m : ℕ) {σ : Type} {E : Pairing G1 G2 GT} {C : Circuit} {A : Zk.ProverApi σ F G1 G2}
    {ch : Zk.Challenges F} : ∀ k (s t : Zk.VState σ F), loopDownM k (layerStep E C A ch) s = .ok t → ∀ l L, ∃ l' L',
      loopDownM k (layerStep E C (logged full m A) ch) (withLog s l L) = .ok (withLog t l' L')
  | 0, s, t, h, l, L => by cases h; exact ⟨l, L, rfl⟩
  | k + 1, s, t, h, l, L => by
    obtain ⟨u, h1, h2⟩ := Outcome.bind_eq_ok h
    obtain ⟨_, -, _, -, _, -, _, -, _, _, -, _, _, -, _, -, _, -, _, _, _, -, _, -, _, _, -, _, _, -, _, _, -, _, _, -,
      -, -, -, hl⟩ := layerStep_log full m h1
    obtain ⟨l', L', e⟩ := loop_log full m k u t h2 (k + 1) _
    exact ⟨l', L', bind_of_ok (hl l L) e⟩

/-- Whatever prover `verify` accepts: the run can be recorded. -/
theorem C99_recorded (full : Bool) {σ : Type} (E : Pairing G1 G2 GT) (C : Circuit) (A : Zk.ProverApi σ F G1 G2)
    (tables : VTables F) (ch : Zk.Challenges F) (h : Zk.verify E C A tables ch = .ok ()) :
    ∃ L, view full E C A tables ch = .ok L := by
  rw [Zk.verify] at h
  obtain ⟨⟨p1, out⟩, e1, h⟩ := Outcome.bind_eq_ok' h
  obtain ⟨⟨p2, D⟩, e2, h⟩ := Outcome.bind_eq_ok' h
  obtain ⟨t, e3, h⟩ := Outcome.bind_eq_ok' h
  obtain ⟨⟨p3, o⟩, e4, h⟩ := Outcome.bind_eq_ok' h
  obtain ⟨v, e5, h⟩ := Outcome.bind_eq_ok' h
  obtain ⟨_, e6, h⟩ := Outcome.bind_eq_ok' h
  set m := 2 ^ C.bl (C.depth - 1) with hm
  have k1 : (logged full m A).evaluate (logged full m A).start =
      .ok (⟨p1, 0, [] ++ (List.range m).map fun j => .number (out j)⟩, out) := by
    change (A.evaluate A.start >>= _) = _
    rw [e1]; rfl
  have k2 : (logged full m A).keygenAndCommit ⟨p1, 0, [] ++ (List.range m).map fun j => .number (out j)⟩ (C.bl 0) =
      .ok (⟨p2, 0, [] ++ ((List.range m).map fun j => .number (out j)) ++
        [.inputKey (A.keyInput p2), .digests (D.digest, D.digesta) (D.digest2, D.digest2a)]⟩, D) := by
    change (A.keygenAndCommit p1 (C.bl 0) >>= _) = _
    rw [e2]; rfl
  obtain ⟨l', L', k3⟩ := loop_log full m _ _ _ e3 0 ([] ++ ((List.range m).map fun j => .number (out j)) ++
    [.inputKey (A.keyInput p2), .digests (D.digest, D.digesta) (D.digest2, D.digest2a)])
  have k4 : (logged full m A).proveInput (withLog t l' L').prover (fun j => Gmp.toMpz (t.r0 j))
      (Gmp.toMpz (A.Zu t.prover)) = .ok (⟨p3, l', L' ++ [.number (A.Zu p3), .opened ((A.keyInput p3).numOfVar + 1) o]⟩, o) := by
    change (A.proveInput t.prover _ _ >>= _) = _
    rw [e4]; rfl
  refine ⟨L' ++ [.number (A.Zu p3), .opened ((A.keyInput p3).numOfVar + 1) o], ?_⟩
  rw [view]
  refine bind_of_ok k1 (bind_of_ok k2 (bind_of_ok k3 (bind_of_ok k4 (bind_of_ok e5 (bind_of_ok e6 (bind_of_ok h ?_))))))
  rfl

/-- A run is recorded if and only if `verify` accepts the recorded prover. -/
theorem C99_view_verify (full : Bool) {σ : Type} (E : Pairing G1 G2 GT) (C : Circuit) (A : Zk.ProverApi σ F G1 G2)
    (tables : VTables F) (ch : Zk.Challenges F) :
    Zk.verify E C (logged full (2 ^ C.bl (C.depth - 1)) A) tables ch = .ok () ↔
      ∃ L, view full E C A tables ch = .ok L := by
  constructor
  · intro h
    rw [Zk.verify] at h
    obtain ⟨⟨p1, out⟩, e1, h⟩ := Outcome.bind_eq_ok' h
    obtain ⟨⟨p2, D⟩, e2, h⟩ := Outcome.bind_eq_ok' h
    obtain ⟨t, e3, h⟩ := Outcome.bind_eq_ok' h
    obtain ⟨⟨p3, o⟩, e4, h⟩ := Outcome.bind_eq_ok' h
    obtain ⟨v, e5, h⟩ := Outcome.bind_eq_ok' h
    obtain ⟨_, e6, h⟩ := Outcome.bind_eq_ok' h
    exact ⟨p3.log, bind_of_ok e1 (bind_of_ok e2 (bind_of_ok e3 (bind_of_ok e4 (bind_of_ok e5 (bind_of_ok e6
      (bind_of_ok h rfl))))))⟩
  · rintro ⟨L, h⟩
    rw [view] at h
    obtain ⟨⟨p1, out⟩, e1, h⟩ := Outcome.bind_eq_ok' h
    obtain ⟨⟨p2, D⟩, e2, h⟩ := Outcome.bind_eq_ok' h
    obtain ⟨t, e3, h⟩ := Outcome.bind_eq_ok' h
    obtain ⟨⟨p3, o⟩, e4, h⟩ := Outcome.bind_eq_ok' h
    obtain ⟨v, e5, h⟩ := Outcome.bind_eq_ok' h
    obtain ⟨_, e6, h⟩ := Outcome.bind_eq_ok' h
    obtain ⟨_, e7, h⟩ := Outcome.bind_eq_ok' h
    exact bind_of_ok e1 (bind_of_ok e2 (bind_of_ok e3 (bind_of_ok e4 (bind_of_ok e5 (bind_of_ok e6 e7)))))

variable [LawfulGmp F]

/-- **Zero knowledge.** Two circuits `C`, `C'` with the same gates and possibly other inputs, but the same outputs. For all
secrets of the keys and all challenges that avoid the values at which masks vanish: there is a bijection between the
choices of all masks and blindings, such that the honest prover for `C` with some choice and the honest prover for `C'`
with the corresponding choice are both accepted and hand out exactly the same numbers, messages, keys, commitments
and openings. With `full`, which includes a claim that the verifier does not use, this needs the same first input. -/
theorem C99_zero_knowledge_partial (full : Bool) (E : Pairing G1 G2 GT) {C C' : Circuit} (hC : OtherInputs C C')
    (hwf : WellFormed true C) (hwf' : WellFormed true C') (hpar : ParallelOk C) (hpar' : ParallelOk C')
    (hlen : ∀ i, i + 1 < C.depth → 1 ≤ C.bl i ∧ 2 * C.bl i + 1 < 2 ^ 250)
    (hout : ∀ j < 2 ^ C.bl (C.depth - 1), (value C (C.depth - 1) j : F) = value C' (C.depth - 1) j)
    (hfirst : full = true → (value C 0 0 : F) = value C' 0 0)
    {K : Secrets} (hK : K.Ok C) {ch : Zk.Challenges F} (hch : Generic C ch) (junk : Zk.Prover F G1 G2) (tables : VTables F) :
    ∃ φ : Rand F C → Rand F C, Function.Bijective φ ∧ ∀ w, ∃ L,
      view full E C (Zk.honest E C (w.coins K) junk) tables ch = .ok L ∧
      view full E C' (Zk.honest E C' ((φ w).coins K) junk) tables ch = .ok L := by
  have hS : Setup full F C C C' K ch :=
    { oA := ⟨rfl, fun _ _ => rfl, ⟨_, rfl⟩⟩, oB := hC, wfA := hwf, wfB := hwf', parA := hpar, parB := hpar'
      len := hlen, sec := hK, gen := hch, out := hout, first := hfirst }
  obtain ⟨T⟩ := exists_tools (F := F) E hK hwf.deep hlen
  obtain ⟨φ, hφ, h⟩ := exists_bijection hS T junk
  exact ⟨φ, hφ, fun w => paired_view hS (h w) tables⟩

/-- What the verifier gets is distributed in the same way for both circuits, if the masks and blindings are uniform: every record
comes from as many choices for `C` as for `C'`. -/
theorem C99_same_distribution_partial (full : Bool) (E : Pairing G1 G2 GT) {C C' : Circuit} (hC : OtherInputs C C')
    (hwf : WellFormed true C) (hwf' : WellFormed true C') (hpar : ParallelOk C) (hpar' : ParallelOk C')
    (hlen : ∀ i, i + 1 < C.depth → 1 ≤ C.bl i ∧ 2 * C.bl i + 1 < 2 ^ 250)
    (hout : ∀ j < 2 ^ C.bl (C.depth - 1), (value C (C.depth - 1) j : F) = value C' (C.depth - 1) j)
    (hfirst : full = true → (value C 0 0 : F) = value C' 0 0)
    {K : Secrets} (hK : K.Ok C) {ch : Zk.Challenges F} (hch : Generic C ch) (junk : Zk.Prover F G1 G2) (tables : VTables F)
    (L : List (Msg F G1 G2)) :
    Nat.card {w : Rand F C // view full E C (Zk.honest E C (w.coins K) junk) tables ch = .ok L} =
      Nat.card {w : Rand F C // view full E C' (Zk.honest E C' (w.coins K) junk) tables ch = .ok L} := by
  obtain ⟨φ, hφ, h⟩ := C99_zero_knowledge_partial full E hC hwf hwf' hpar hpar' hlen hout hfirst hK hch junk tables
  refine Nat.card_congr ((Equiv.ofBijective φ hφ).subtypeEquiv fun w => ?_)
  obtain ⟨M, h1, h2⟩ := h w
  rw [Equiv.ofBijective_apply, h1, h2]

/-- Almost all challenges are generic. -/
theorem C99_generic [Fintype F] (C : Circuit) (hlen : ∀ i, i + 1 < C.depth → 1 ≤ C.bl i)
    [DecidablePred fun ω : ZkCoin C → F => ¬ Generic C (zkChallenges C ω)] :
    ((univ.filter (fun ω : ZkCoin C → F => ¬ Generic C (zkChallenges C ω))).card : ℚ) / Fintype.card (ZkCoin C → F) ≤
      (genericError C : ℚ) / Fintype.card F := by
  have h := generic_count (F := F) hlen
  rw [div_le_div_iff₀ (by exact_mod_cast Fintype.card_pos) (by exact_mod_cast Fintype.card_pos)]
  exact_mod_cast h

/-- Nobody can tell the two circuits apart: for uniform challenges, masks and blindings, any function `D` of the challenges and of everything
the verifier gets says "yes" with the same probability for both, up to `genericError C / |F|`. -/
theorem C99_distinguisher_partial [Fintype F] (full : Bool) (E : Pairing G1 G2 GT) {C C' : Circuit} (hC : OtherInputs C C')
    (hwf : WellFormed true C) (hwf' : WellFormed true C') (hpar : ParallelOk C) (hpar' : ParallelOk C')
    (hlen : ∀ i, i + 1 < C.depth → 1 ≤ C.bl i ∧ 2 * C.bl i + 1 < 2 ^ 250)
    (hout : ∀ j < 2 ^ C.bl (C.depth - 1), (value C (C.depth - 1) j : F) = value C' (C.depth - 1) j)
    (hfirst : full = true → (value C 0 0 : F) = value C' 0 0)
    {K : Secrets} (hK : K.Ok C) (junk : Zk.Prover F G1 G2) (tables : VTables F)
    (D : (ZkCoin C → F) → Outcome (List (Msg F G1 G2)) → Bool) :
    |(Nat.card {x : (ZkCoin C → F) × Rand F C //
          D x.1 (view full E C (Zk.honest E C (x.2.coins K) junk) tables (zkChallenges C x.1)) = true} : ℚ) /
        Nat.card ((ZkCoin C → F) × Rand F C) -
      (Nat.card {x : (ZkCoin C → F) × Rand F C //
          D x.1 (view full E C' (Zk.honest E C' (x.2.coins K) junk) tables (zkChallenges C x.1)) = true} : ℚ) /
        Nat.card ((ZkCoin C → F) × Rand F C)| ≤ (genericError C : ℚ) / Fintype.card F := by
  classical
  have h := card_diff (β := Rand F C) (univ.filter (fun ω : ZkCoin C → F => ¬ Generic C (zkChallenges C ω)))
    (fun ω w => D ω (view full E C (Zk.honest E C (w.coins K) junk) tables (zkChallenges C ω)) = true)
    (fun ω w => D ω (view full E C' (Zk.honest E C' (w.coins K) junk) tables (zkChallenges C ω)) = true)
    (fun ω hω => by
      simp only [mem_filter, mem_univ, true_and, not_not] at hω
      obtain ⟨φ, hφ, h⟩ := C99_zero_knowledge_partial full E hC hwf hwf' hpar hpar' hlen hout hfirst hK hω junk tables
      refine Nat.card_congr ((Equiv.ofBijective φ hφ).subtypeEquiv fun w => ?_)
      obtain ⟨M, h1, h2⟩ := h w
      rw [Equiv.ofBijective_apply, h1, h2])
  have hg := C99_generic (F := F) C (fun i hi => (hlen i hi).1)
  have hne : Nonempty (Rand F C) := ⟨⟨fun _ => ⟨0, 0, 0, 0, 0, 0⟩, 0, 0, 0, 0⟩⟩
  have c1 : (0 : ℚ) < Nat.card (Rand F C) := by exact_mod_cast Nat.card_pos
  have c2 : (0 : ℚ) < Fintype.card (ZkCoin C → F) := by exact_mod_cast Fintype.card_pos
  refine le_trans ?_ hg
  rw [Nat.card_prod, Nat.card_eq_fintype_card (α := ZkCoin C → F), ← sub_div, abs_div, Nat.cast_mul,
    abs_of_pos (mul_pos c2 c1), div_le_div_iff₀ (mul_pos c2 c1) c2]
  calc _ ≤ _ * _ := mul_le_mul_of_nonneg_right h c2.le
    _ = _ := by ring

/-- The first input is handed out in the clear, for any challenges: it is the thirteenth last entry of the full record, the
second claim of layer 1. -/
theorem C99_first_input (E : Pairing G1 G2 GT) {C : Circuit} (hwf : WellFormed true C) (hpar : ParallelOk C)
    (hlen : ∀ i, i + 1 < C.depth → 1 ≤ C.bl i ∧ 2 * C.bl i + 1 < 2 ^ 250) {K : Secrets} (hK : K.Ok C)
    (ch : Zk.Challenges F) (junk : Zk.Prover F G1 G2) (tables : VTables F) (w : Rand F C) :
    ∃ L, view true E C (Zk.honest E C (w.coins K) junk) tables ch = .ok L ∧
      L.reverse[12]? = some (.number (value C 0 0)) := by
  have hd := hwf.deep
  have oC : OtherInputs C C := ⟨rfl, fun _ _ => rfl, ⟨_, rfl⟩⟩
  obtain ⟨T⟩ := exists_tools (F := F) E hK hwf.deep hlen
  have hs := start_run hwf oC T ch junk tables w
  obtain ⟨k, hk⟩ : ∃ k, C.depth - 1 = k + 1 := ⟨C.depth - 2, by omega⟩
  obtain ⟨t, ht, l, L, vu, vv, tail, -, rfl, h3, e⟩ := loop_last (full := true) hlen hwf hpar oC hK (E := E)
    (junk := junk) (2 ^ C.bl (C.depth - 1)) k (by omega) (by rw [← hk]; exact hs) 0 (startL T C junk w)
  obtain ⟨O, -, o⟩ := view_of_loop hlen hwf oC T junk tables w ht (by rw [hk]; rw [hk] at e; exact e)
  refine ⟨_, o, ?_⟩
  simp only [if_true, List.reverse_append, List.reverse_cons, List.reverse_nil, List.nil_append, List.append_assoc,
    List.cons_append]
  rw [List.getElem?_cons_succ, List.getElem?_cons_succ, List.getElem?_append_right (by simp [h3])]
  simp [h3]

/-- Without the condition on the challenges the claim is wrong: if the point of layer 1 is the bits of `g`, then input `g` is
handed out in the clear. -/
theorem C99_corner (E : Pairing G1 G2 GT) {C : Circuit} (hwf : WellFormed true C) (hpar : ParallelOk C)
    (hlen : ∀ i, i + 1 < C.depth → 1 ≤ C.bl i ∧ 2 * C.bl i + 1 < 2 ^ 250) {K : Secrets} (hK : K.Ok C)
    (ch : Zk.Challenges F) {g : ℕ} (hg : g < 2 ^ C.bl 0) (hru : ∀ j < C.bl 0, ch.ru 1 j = if g.testBit j then 1 else 0)
    (junk : Zk.Prover F G1 G2) (tables : VTables F) (w : Rand F C) :
    ∃ L, view false E C (Zk.honest E C (w.coins K) junk) tables ch = .ok L ∧
      L.reverse[12]? = some (.number (value C 0 g)) := by
  have hd := hwf.deep
  have oC : OtherInputs C C := ⟨rfl, fun _ _ => rfl, ⟨_, rfl⟩⟩
  obtain ⟨T⟩ := exists_tools (F := F) E hK hwf.deep hlen
  have hs := start_run hwf oC T ch junk tables w
  obtain ⟨k, hk⟩ : ∃ k, C.depth - 1 = k + 1 := ⟨C.depth - 2, by omega⟩
  obtain ⟨t, ht, l, L, vu, vv, tail, h1, -, h3, e⟩ := loop_last (full := false) hlen hwf hpar oC hK (E := E)
    (junk := junk) (2 ^ C.bl (C.depth - 1)) k (by omega) (by rw [← hk]; exact hs) 0 (startL T C junk w)
  obtain ⟨O, -, o⟩ := view_of_loop hlen hwf oC T junk tables w ht (by rw [hk]; rw [hk] at e; exact e)
  have hn := (hlen 0 (by omega)).1
  have hz : ZAt (ch.ru 1) (C.bl 0) = 0 := by
    rw [ZAt, prod_eq_zero (mem_range.2 hn)]
    rw [hru 0 hn]; split_ifs <;> simp
  have hv : vu = value C 0 g := by
    rw [h1, hz, zero_mul, add_zero, show mle (C.bl 0) (value C 0) (ch.ru 1) = mle (C.bl 0) (value C 0) (corner g : ℕ → F) from
      mle_congr (fun _ _ => rfl) (fun j hj => by rw [hru j hj]; rfl), mle_corner _ _ _ hg]
  refine ⟨_, o, ?_⟩
  rw [hv]
  simp only [Bool.false_eq_true, if_false, List.reverse_append, List.reverse_cons, List.reverse_nil, List.nil_append,
    List.append_assoc, List.cons_append]
  rw [List.getElem?_cons_succ, List.getElem?_cons_succ, List.getElem?_append_right (by simp [h3])]
  simp [h3]

end

/-! ## Examples -/

/-- secrets that are all 1 -/
def someSecrets : Secrets := ⟨1, fun _ => 1, fun _ => 1, fun _ _ => 1, fun _ => 1, fun _ _ => 1⟩

theorem someSecrets_ok (C : Circuit) : someSecrets.Ok C := by
  have h : 1 < p := by decide
  exact ⟨h, fun _ _ => h, one_ne_zero, fun _ _ _ _ _ => h, fun _ _ _ => one_ne_zero, fun _ _ _ _ _ => h,
    fun _ _ _ => one_ne_zero⟩

theorem hidingCircuit_other (a b a' b' : ℤ) : OtherInputs (hidingCircuit a b) (hidingCircuit a' b') :=
  ⟨rfl, fun i hi => by obtain ⟨i, rfl⟩ : ∃ k, i = k + 1 := ⟨i - 1, by omega⟩; rfl, ⟨_, rfl⟩⟩

theorem hidingCircuit_par (a b : ℤ) : ParallelOk (hidingCircuit a b) := by
  intro i h1 h2 h3
  have h2 : i < 4 := h2
  interval_cases i <;> exact absurd h3 Bool.false_ne_true

theorem hidingCircuit_len (a b : ℤ) : ∀ i, i + 1 < (hidingCircuit a b).depth →
    1 ≤ (hidingCircuit a b).bl i ∧ 2 * (hidingCircuit a b).bl i + 1 < 2 ^ 250 := by
  intro i hi
  have : i < 3 := by change i + 1 < 4 at hi; omega
  interval_cases i
  all_goals
    change 1 ≤ 2 ∧ 2 * 2 + 1 < 2 ^ 250
    decide

theorem hidingCircuit_generic (a b : ℤ) : Generic (hidingCircuit a b) someChallenges := by
  refine ⟨fun _ _ _ => ?_, fun _ _ _ _ _ => ?_, fun _ _ _ _ _ => ?_, fun _ _ _ => ?_, fun _ _ _ => ?_⟩
  · change (8 : Fp) ≠ 0; decide +kernel
  · change (4 : Fp) ≠ 0 ∧ (4 : Fp) ≠ 1; decide +kernel
  · change (5 : Fp) ≠ 0 ∧ (5 : Fp) ≠ 1; decide +kernel
  · change (4 : Fp) ≠ 5; decide +kernel
  · change 2 * (9 : Fp) ≠ 1; decide +kernel

/-- Two inputs with the same outputs, and different values in between. -/
example (tables : VTables Fp) (L : List (Msg Fp (ZMod p) (ZMod p))) :
    value (F := Fp) (hidingCircuit 5 1) 2 1 ≠ value (hidingCircuit 3 2) 2 1 ∧
    Nat.card {w : Rand Fp (hidingCircuit 5 1) // view false toyPairing (hidingCircuit 5 1)
        (Zk.honest toyPairing (hidingCircuit 5 1) (w.coins someSecrets) blankProver) tables someChallenges = .ok L} =
      Nat.card {w : Rand Fp (hidingCircuit 5 1) // view false toyPairing (hidingCircuit 3 2)
        (Zk.honest toyPairing (hidingCircuit 3 2) (w.coins someSecrets) blankProver) tables someChallenges = .ok L} :=
  ⟨by decide +kernel, C99_same_distribution_partial false toyPairing (hidingCircuit_other 5 1 3 2)
    (by apply wellFormed_of_check <;> decide +kernel) (by apply wellFormed_of_check <;> decide +kernel)
    (hidingCircuit_par _ _) (hidingCircuit_par _ _) (hidingCircuit_len _ _) (by decide +kernel) (by simp)
    (someSecrets_ok _) (hidingCircuit_generic _ _) blankProver tables L⟩

/-- The first input, 5, is handed out. -/
example (tables : VTables Fp) (w : Rand Fp (hidingCircuit 5 1)) : ∃ L, view true toyPairing (hidingCircuit 5 1)
    (Zk.honest toyPairing (hidingCircuit 5 1) (w.coins someSecrets) blankProver) tables someChallenges = .ok L ∧
      L.reverse[12]? = some (.number 5) := by
  have := C99_first_input toyPairing (C := hidingCircuit 5 1) (by apply wellFormed_of_check <;> decide +kernel)
    (hidingCircuit_par _ _) (hidingCircuit_len _ _) (someSecrets_ok _) someChallenges blankProver tables w
  rwa [show (value (hidingCircuit 5 1) 0 0 : Fp) = 5 from by decide +kernel] at this

/-- With these challenges the last input, 9, is handed out. -/
example (tables : VTables Fp) (w : Rand Fp (hidingCircuit 5 1)) : ∃ L, view false toyPairing (hidingCircuit 5 1)
    (Zk.honest toyPairing (hidingCircuit 5 1) (w.coins someSecrets) blankProver) tables
      { someChallenges with ru := fun _ _ => 1 } = .ok L ∧ L.reverse[12]? = some (.number 9) := by
  have := C99_corner toyPairing (C := hidingCircuit 5 1) (by apply wellFormed_of_check <;> decide +kernel)
    (hidingCircuit_par _ _) (hidingCircuit_len _ _) (someSecrets_ok _) { someChallenges with ru := fun _ _ => 1 } (g := 3)
    (by decide) (fun j hj => by
      have hj : j < 2 := hj
      interval_cases j <;> decide +kernel) blankProver tables w
  rwa [show (value (hidingCircuit 5 1) 0 3 : Fp) = 9 from by decide +kernel] at this

example [Fintype Fp] (tables : VTables Fp)
    (D : (ZkCoin (hidingCircuit 5 1) → Fp) → Outcome (List (Msg Fp (ZMod p) (ZMod p))) → Bool) :=
  C99_distinguisher_partial false toyPairing (hidingCircuit_other 5 1 3 2)
    (by apply wellFormed_of_check <;> decide +kernel) (by apply wellFormed_of_check <;> decide +kernel)
    (hidingCircuit_par _ _) (hidingCircuit_par _ _) (hidingCircuit_len _ _) (by decide +kernel) (by simp)
    (someSecrets_ok _) blankProver tables D

end Libra.Props
