import Verif.Proofs.Sha256Sem

/-!
# The SHA-256 program: when its tests are zero
-/

namespace Libra.Sha256Gen
open Compiler Spec

/-! ### The inputs -/

/-- `n` vectors of `k` variables each -/
def vecs (v n k : ℕ) : List (List ℕ) := (List.range n).map fun i => List.range' (v + k * i) k

/-- the variables `allocInputs` returns -/
def theInputs : Inputs where
  W := List.range' 34 64
  Wbits := [] :: (vecs 98 15 32 ++ vecs 578 48 34)
  K := List.range' 2210 64
  H := List.range' 2274 8
  Hout := List.range' 2282 8
  HoutBits := vecs 2290 8 33
  a := List.range' 2554 32
  b := List.range' 2586 32
  c := List.range' 2618 32
  e := List.range' 2650 32
  f := List.range' 2682 32
  g := List.range' 2714 32
  aout := vecs 2746 64 35
  eout := vecs 4986 64 35

theorem mapG_alloc {β : Type} (l : List β) (v : ℕ) : mapG (fun _ => alloc) l v =
    .ok (List.range' v l.length, v + l.length, { inVals := List.range' v l.length }) := by
  induction l generalizing v with
  | nil => rfl
  | cons x l ih =>
    rw [mapG, Gen.bind]
    simp only [alloc, Outcome.bind, Gen.bind, ih, Gen.pure]
    simp [Log.append, List.range'_succ, Nat.add_comm, Nat.add_left_comm]

theorem repeatG_alloc (n v : ℕ) : repeatG n alloc v =
    .ok (List.range' v n, v + n, { inVals := List.range' v n }) := by
  rw [repeatG, mapG_alloc, List.length_range]

theorem vecs_succ (v n k : ℕ) : vecs v (n + 1) k = List.range' v k :: vecs (v + k) n k := by
  rw [vecs, List.range_succ_eq_map, List.map_cons, List.map_map, vecs]
  refine congrArg₂ _ (by simp) (List.map_congr_left fun i _ => ?_)
  rw [Function.comp_apply, Nat.succ_eq_add_one, Nat.mul_add, mul_one, Nat.add_assoc, Nat.add_comm k]

theorem mapG_allocN {β : Type} (l : List β) (k v : ℕ) : mapG (fun _ => allocN k) l v =
    .ok (vecs v l.length k, v + k * l.length, { inVals := List.range' v (k * l.length) }) := by
  induction l generalizing v with
  | nil => rfl
  | cons x l ih =>
    rw [mapG, Gen.bind]
    simp only [allocN, Outcome.bind, Gen.bind, ih, Gen.pure]
    rw [List.length_cons, vecs_succ, Nat.mul_add, mul_one, Nat.add_comm (k * l.length), Nat.add_assoc]
    simp [Log.append, ← List.range'_append_1]

theorem repeatG_allocN (n k v : ℕ) : repeatG n (allocN k) v =
    .ok (vecs v n k, v + k * n, { inVals := List.range' v (k * n) }) := by
  rw [repeatG, mapG_allocN, List.length_range]

theorem range'_join {a m b n : ℕ} (h : b = a + m) : List.range' a m ++ List.range' b n = List.range' a (m + n) := by
  rw [h, List.range'_append_1]

theorem allocInputs_eq : allocInputs 34 = .ok (theInputs, 7226, { inVals := List.range' 34 7192 }) := by
  unfold allocInputs
  simp only [bind_def, pure_def, Gen.bind, Outcome.bind, repeatG_alloc, repeatG_allocN, allocN, Gen.pure, Log.append,
    List.append_nil, Nat.reduceAdd, Nat.reduceMul]
  have e : ∀ l : List ℕ, l = List.range' 34 7192 → ({ inVals := l } : Log) = { inVals := List.range' 34 7192 } :=
    fun _ h => by rw [h]
  exact congrArg Outcome.ok (Prod.ext rfl (Prod.ext rfl (e _ (by simp only [range'_join, Nat.reduceAdd]))))

theorem getD_vecs {v n k i : ℕ} (h : i < n) : (vecs v n k).getD i [] = List.range' (v + k * i) k := by
  rw [vecs, List.getD_eq_getElem?_getD, List.getElem?_map, List.getElem?_range h]; rfl

theorem getD_range' {v n i : ℕ} (h : i < n) : (List.range' v n).getD i 0 = v + i := by
  rw [List.getD_eq_getElem?_getD, List.getElem?_range' h, Option.getD_some, one_mul]

theorem Wbits_early {i : ℕ} (h1 : 1 ≤ i) (h : i < 16) :
    theInputs.Wbits.getD i [] = List.range' (98 + 32 * (i - 1)) 32 := by
  obtain ⟨i, rfl⟩ := Nat.exists_eq_add_of_le' h1
  rw [theInputs, List.getD_cons_succ, List.getD_eq_getElem?_getD, List.getElem?_append_left (by simp [vecs]; omega),
    ← List.getD_eq_getElem?_getD, getD_vecs (by omega), Nat.add_sub_cancel]

theorem Wbits_late {i : ℕ} (h1 : 16 ≤ i) (h : i < 64) :
    theInputs.Wbits.getD i [] = List.range' (578 + 34 * (i - 16)) 34 := by
  obtain ⟨i, rfl⟩ := Nat.exists_eq_add_of_le' (Nat.le_trans (by decide : 1 ≤ 16) h1)
  rw [theInputs, List.getD_cons_succ, List.getD_eq_getElem?_getD, List.getElem?_append_right (by simp [vecs]; omega),
    ← List.getD_eq_getElem?_getD, getD_vecs (by simp [vecs]; omega)]
  simp only [vecs, List.length_map, List.length_range]
  rw [show i + 1 - 16 = i - 15 by omega]

/-! ### The values of the inputs -/

/-- the words given by the bits of the inputs -/
structure Wit where
  /-- words 1 to 15 of the message -/
  M : ℕ → BitVec 32
  /-- words 16 to 63 of the schedule, with carry -/
  S : ℕ → BitVec 34
  /-- the result, with carry -/
  Ho : ℕ → BitVec 33
  a : BitVec 32
  b : BitVec 32
  c : BitVec 32
  e : BitVec 32
  f : BitVec 32
  g : BitVec 32
  A : ℕ → BitVec 35
  E : ℕ → BitVec 35

/-- word `i ≥ 1` of the schedule -/
def Wit.word (x : Wit) (i : ℕ) : Sha256.Word := if i < 16 then x.M i else (x.S i).setWidth 32

section
variable {F : Type} [Field F]

/-- `w` has the bits `x` in its inputs -/
structure Rep (w : ℕ → F) (x : Wit) : Prop where
  M : ∀ i, 1 ≤ i → i < 16 → (theInputs.Wbits.getD i []).map w = wb F (x.M i)
  S : ∀ i, 16 ≤ i → i < 64 → (theInputs.Wbits.getD i []).map w = wb F (x.S i)
  Ho : ∀ i < 8, (theInputs.HoutBits.getD i []).map w = wb F (x.Ho i)
  a : theInputs.a.map w = wb F x.a
  b : theInputs.b.map w = wb F x.b
  c : theInputs.c.map w = wb F x.c
  e : theInputs.e.map w = wb F x.e
  f : theInputs.f.map w = wb F x.f
  g : theInputs.g.map w = wb F x.g
  A : ∀ i < 64, (theInputs.aout.getD i []).map w = wb F (x.A i)
  E : ∀ i < 64, (theInputs.eout.getD i []).map w = wb F (x.E i)

/-- the working variables; two of them are field elements -/
structure FVars (F : Type) where
  a : Sha256.Word
  b : Sha256.Word
  c : Sha256.Word
  d : F
  e : Sha256.Word
  f : Sha256.Word
  g : Sha256.Word
  h : F

/-- the working variables before round `i` -/
def trace (w : ℕ → F) (x : Wit) : ℕ → FVars F
  | 0 => ⟨x.a, x.b, x.c, w (2274 + 3), x.e, x.f, x.g, w (2274 + 7)⟩
  | i + 1 =>
    let s := trace w x i
    ⟨(x.A i).setWidth 32, s.a, s.b, (s.c.toNat : F), (x.E i).setWidth 32, s.e, s.f, (s.g.toNat : F)⟩

/-- The equations the tests stand for. -/
structure Eqs (w : ℕ → F) (x : Wit) : Prop where
  W : ∀ i, 1 ≤ i → i < 64 → ((x.word i).toNat : F) = w (34 + i)
  H0 : (x.a.toNat : F) = w (2274 + 0)
  H1 : (x.b.toNat : F) = w (2274 + 1)
  H2 : (x.c.toNat : F) = w (2274 + 2)
  H4 : (x.e.toNat : F) = w (2274 + 4)
  H5 : (x.f.toNat : F) = w (2274 + 5)
  H6 : (x.g.toNat : F) = w (2274 + 6)
  Hout : ∀ i < 8, ((x.Ho i).setWidth 32).toNat = w (2282 + i)
  S : ∀ t, 16 ≤ t → t < 64 → ((x.S t).toNat : F) = w (34 + (t - 16)) + w (34 + (t - 7)) +
    ((Sha256.sigma0 (x.word (t - 15))).toNat + (Sha256.sigma1 (x.word (t - 2))).toNat)
  A : ∀ i < 64, ((x.A i).toNat : F) =
    (Sha256.bigSigma0 (trace w x i).a).toNat + (Sha256.Maj (trace w x i).a (trace w x i).b (trace w x i).c).toNat +
    (trace w x i).h + (w (2210 + i) + w (34 + i)) +
    ((Sha256.bigSigma1 (trace w x i).e).toNat + (Sha256.Ch (trace w x i).e (trace w x i).f (trace w x i).g).toNat)
  E : ∀ i < 64, ((x.E i).toNat : F) = (w (2210 + i) + w (34 + i)) + ((trace w x i).d + (trace w x i).h) +
    ((Sha256.bigSigma1 (trace w x i).e).toNat + (Sha256.Ch (trace w x i).e (trace w x i).f (trace w x i).g).toNat)
  O0 : ((x.Ho 0).toNat : F) = (trace w x 64).a.toNat + w (2274 + 0)
  O1 : ((x.Ho 1).toNat : F) = (trace w x 64).b.toNat + w (2274 + 1)
  O2 : ((x.Ho 2).toNat : F) = (trace w x 64).c.toNat + w (2274 + 2)
  O3 : ((x.Ho 3).toNat : F) = (trace w x 64).d + w (2274 + 3)
  O4 : ((x.Ho 4).toNat : F) = (trace w x 64).e.toNat + w (2274 + 4)
  O5 : ((x.Ho 5).toNat : F) = (trace w x 64).f.toNat + w (2274 + 5)
  O6 : ((x.Ho 6).toNat : F) = (trace w x 64).g.toNat + w (2274 + 6)
  O7 : ((x.Ho 7).toNat : F) = (trace w x 64).h + w (2274 + 7)

/-- the variables `R` have the values `s` -/
structure RegRep (w : ℕ → F) (R : Regs) (s : FVars F) : Prop where
  aBits : (R.aBits.take 32).map w = wb F s.a
  bBits : (R.bBits.take 32).map w = wb F s.b
  cBits : (R.cBits.take 32).map w = wb F s.c
  eBits : (R.eBits.take 32).map w = wb F s.e
  fBits : (R.fBits.take 32).map w = wb F s.f
  gBits : (R.gBits.take 32).map w = wb F s.g
  a : w R.a = (s.a.toNat : F)
  b : w R.b = (s.b.toNat : F)
  c : w R.c = (s.c.toNat : F)
  d : w R.d = s.d
  e : w R.e = (s.e.toNat : F)
  f : w R.f = (s.f.toNat : F)
  g : w R.g = (s.g.toNat : F)
  h : w R.h = s.h

variable {w : ℕ → F} {x : Wit}

theorem take_self {l : List ℕ} {n : ℕ} {X : BitVec n} (h : l.map w = wb F X) : l.take n = l := by
  have := congrArg List.length h
  rw [List.length_map, length_wb] at this
  exact List.take_of_length_le this.le

theorem map_take_wb {l : List ℕ} {n m : ℕ} {X : BitVec n} (h : l.map w = wb F X) (hm : m ≤ n) :
    (l.take m).map w = wb F (X.setWidth m) := by
  rw [List.map_take, h, take_wb hm]

theorem Rep.word (h : Rep w x) {i : ℕ} (h1 : 1 ≤ i) (h2 : i < 64) :
    ((theInputs.Wbits.getD i []).take 32).map w = wb F (x.word i) := by
  unfold Wit.word
  split_ifs with hi
  · rw [take_self (h.M i h1 hi)]; exact h.M i h1 hi
  · exact map_take_wb (h.S i (by omega) h2) (by decide)

theorem initialRegs_run (h : Rep w x) : Run w (initialRegs theInputs) fun R z => z ∧ RegRep w R (trace w x 0) := by
  unfold initialRegs
  simp only [bind_def, pure_def]
  refine Run.bind ((doAddition_wb h.a (by decide)).mono fun a z1 ⟨h1, ha⟩ => ?_)
  refine Run.bind ((doAddition_wb h.b (by decide)).mono fun b z2 ⟨h2, hb⟩ => ?_)
  refine Run.bind ((doAddition_wb h.c (by decide)).mono fun c z3 ⟨h3, hc⟩ => ?_)
  refine Run.bind ((doAddition_wb h.e (by decide)).mono fun e z4 ⟨h4, he⟩ => ?_)
  refine Run.bind ((doAddition_wb h.f (by decide)).mono fun f z5 ⟨h5, hf⟩ => ?_)
  refine Run.bind ((doAddition_wb h.g (by decide)).mono fun g z6 ⟨h6, hg⟩ => ?_)
  refine Run.pure ⟨⟨h1, h2, h3, h4, h5, h6, True.intro⟩, ?_⟩
  exact ⟨by rw [take_self h.a]; exact h.a, by rw [take_self h.b]; exact h.b, by rw [take_self h.c]; exact h.c,
    by rw [take_self h.e]; exact h.e, by rw [take_self h.f]; exact h.f, by rw [take_self h.g]; exact h.g,
    ha, hb, hc, rfl, he, hf, hg, rfl⟩

theorem checkVec_run {l : List ℕ} : Run w (checkVec l) fun _ z => z ↔ ∀ i ∈ l, w i = 0 ∨ w i = 1 := by
  unfold checkVec
  simp only [bind_def]
  refine Run.bind (verifyBits_run.mono fun o z ⟨hz, ho⟩ => ?_)
  refine Run.bitTest ?_
  rw [ho]
  exact and_iff_right hz

theorem checkW_bits {i : ℕ} : Run w (checkW theInputs i) fun _ z => z →
    ∀ j ∈ theInputs.Wbits.getD i [], w j = 0 ∨ w j = 1 := by
  unfold checkW
  simp only [bind_def]
  refine Run.bind (verifyBits_run.mono fun o z ⟨hz, ho⟩ => ?_)
  refine Run.bind (Run.bitTest ?_)
  exact Run.trivial.mono fun _ z' _ hz' => ho.1 hz'.2.1

theorem Wbits_bits (h : Rep w x) {i : ℕ} (h1 : 1 ≤ i) (h2 : i < 64) :
    ∀ j ∈ theInputs.Wbits.getD i [], w j = 0 ∨ w j = 1 := by
  by_cases hi : i < 16
  · exact bits_of_wb (h.M i h1 hi)
  · exact bits_of_wb (h.S i (by omega) h2)

theorem checkW_run (h : Rep w x) {i : ℕ} (h1 : 1 ≤ i) (h2 : i < 64) :
    Run w (checkW theInputs i) fun _ z => z ↔ ((x.word i).toNat : F) = w (34 + i) := by
  unfold checkW
  simp only [bind_def]
  refine Run.bind (verifyBits_run.mono fun o z ⟨hz, ho⟩ => ?_)
  refine Run.bind (Run.bitTest ?_)
  refine Run.bind ((testBitvecField_run (h.word h1 h2) (by decide)).mono fun t z' ⟨hz', ht⟩ => ?_)
  refine Run.roundTest ?_
  have hW : theInputs.W.getD i 0 = 34 + i := getD_range' h2
  rw [hW] at ht
  rw [ht]
  have hb := ho.2 (Wbits_bits h h1 h2)
  tauto

theorem checkSchedule_run (h0 : w 0 = 0) (h : Rep w x) {t : ℕ} (h1 : 16 ≤ t) (h2 : t < 64) :
    Run w (checkSchedule theInputs t) fun _ z => z ↔ ((x.S t).toNat : F) = w (34 + (t - 16)) + w (34 + (t - 7)) +
      ((Sha256.sigma0 (x.word (t - 15))).toNat + (Sha256.sigma1 (x.word (t - 2))).toNat) := by
  unfold checkSchedule
  simp only [bind_def]
  refine Run.bind ((sigma0_run h0 (h.word (by omega) (by omega))).mono fun s0 z1 ⟨e1, hs0⟩ => ?_)
  refine Run.bind ((sigma1_run h0 (h.word (by omega) (by omega))).mono fun s1 z2 ⟨e2, hs1⟩ => ?_)
  refine Run.bind ((doAddition_wb hs0 (by decide)).mono fun v0 z3 ⟨e3, hv0⟩ => ?_)
  refine Run.bind ((doAddition_wb hs1 (by decide)).mono fun v1 z4 ⟨e4, hv1⟩ => ?_)
  refine Run.bind (Run.gate fun u hu => ?_)
  refine Run.bind (Run.gate fun u' hu' => ?_)
  refine Run.bind (Run.gate fun wi hwi => ?_)
  refine Run.bind ((testBitvecField_run (h.S t h1 h2) (by decide)).mono fun c z5 ⟨e5, hc⟩ => ?_)
  refine Run.roundTest ?_
  have hW : ∀ j < 64, theInputs.W.getD j 0 = 34 + j := fun j hj => getD_range' hj
  rw [hW _ (by omega), hW _ (by omega)] at hu'
  rw [hc, hwi, hu, hu', hv0, hv1]
  simp only [opValue]
  tauto

theorem writeRound_run (h : Rep w x) {i : ℕ} (hi : i < 64) {R : Regs} (hR : RegRep w R (trace w x i)) :
    Run w (writeRound theInputs i R) fun R' z => (z ↔ (((x.A i).toNat : F) =
    (Sha256.bigSigma0 (trace w x i).a).toNat + (Sha256.Maj (trace w x i).a (trace w x i).b (trace w x i).c).toNat +
    (trace w x i).h + (w (2210 + i) + w (34 + i)) +
    ((Sha256.bigSigma1 (trace w x i).e).toNat + (Sha256.Ch (trace w x i).e (trace w x i).f (trace w x i).g).toNat)) ∧
    ((x.E i).toNat : F) = (w (2210 + i) + w (34 + i)) + ((trace w x i).d + (trace w x i).h) +
    ((Sha256.bigSigma1 (trace w x i).e).toNat + (Sha256.Ch (trace w x i).e (trace w x i).f (trace w x i).g).toNat)) ∧
    RegRep w R' (trace w x (i + 1)) := by
  unfold writeRound
  simp only [bind_def, pure_def]
  refine Run.bind ((bigSigma0_run hR.aBits).mono fun s0 z1 ⟨e1, hs0⟩ => ?_)
  refine Run.bind ((bigSigma1_run hR.eBits).mono fun s1 z2 ⟨e2, hs1⟩ => ?_)
  refine Run.bind ((writeMAJ_run hR.aBits hR.bBits hR.cBits).mono fun mj z3 ⟨e3, hmj⟩ => ?_)
  refine Run.bind ((writeCH_run hR.eBits hR.fBits hR.gBits).mono fun ch z4 ⟨e4, hch⟩ => ?_)
  refine Run.bind ((doAddition_wb hs0 (by decide)).mono fun vs0 z5 ⟨e5, h5⟩ => ?_)
  refine Run.bind ((doAddition_wb hs1 (by decide)).mono fun vs1 z6 ⟨e6, h6⟩ => ?_)
  refine Run.bind ((doAddition_wb hmj (by decide)).mono fun vmj z7 ⟨e7, h7⟩ => ?_)
  refine Run.bind ((doAddition_wb hch (by decide)).mono fun vch z8 ⟨e8, h8⟩ => ?_)
  refine Run.bind (Run.gate fun t2 ht2 => ?_)
  refine Run.bind (Run.gate fun t1 ht1 => ?_)
  refine Run.bind (Run.gate fun kiwi hkiwi => ?_)
  refine Run.bind (Run.gate fun dh hdh => ?_)
  refine Run.bind (Run.gate fun u hu => ?_)
  refine Run.bind (Run.gate fun enext henext => ?_)
  refine Run.bind (Run.gate fun th hth => ?_)
  refine Run.bind (Run.gate fun tk htk => ?_)
  refine Run.bind (Run.gate fun anext hanext => ?_)
  refine Run.bind ((testBitvecField_run (h.A i hi) (by decide)).mono fun ta z9 ⟨e9, hta⟩ => ?_)
  refine Run.bind (Run.roundTest ?_)
  refine Run.bind ((testBitvecField_run (h.E i hi) (by decide)).mono fun te z10 ⟨e10, hte⟩ => ?_)
  refine Run.bind (Run.roundTest ?_)
  refine Run.bind ((doAddition_wb (map_take_wb (h.E i hi) (by decide : 32 ≤ 35)) (by decide)).mono
    fun e z11 ⟨e11, he⟩ => ?_)
  refine Run.bind ((doAddition_wb (map_take_wb (h.A i hi) (by decide : 32 ≤ 35)) (by decide)).mono
    fun a z12 ⟨e12, ha⟩ => ?_)
  have hK : theInputs.K.getD i 0 = 2210 + i := getD_range' hi
  have hW : theInputs.W.getD i 0 = 34 + i := getD_range' hi
  rw [hK, hW] at hkiwi
  simp only [opValue] at ht2 ht1 hkiwi hdh hu henext hth htk hanext
  rw [hanext, htk, hth, ht2, ht1, hkiwi, h5, h6, h7, h8, hR.h] at hta
  rw [henext, hu, hdh, ht1, hkiwi, h6, h8, hR.h, hR.d] at hte
  refine Run.pure ⟨?_, ?_⟩
  · rw [hta, hte]
    simp only [e1, e2, e3, e4, e5, e6, e7, e8, e9, e10, e11, e12, true_and, and_true]
  · exact ⟨map_take_wb (h.A i hi) (by decide), hR.aBits, hR.bBits, map_take_wb (h.E i hi) (by decide), hR.eBits, hR.fBits,
      ha, hR.a, hR.b, hR.c, he, hR.e, hR.f, hR.g⟩

theorem checkOut_run {p : ℕ × ℕ × List ℕ} {X : BitVec 33} (h : p.2.2.map w = wb F X) :
    Run w (checkOut p) fun _ z => z ↔ (X.toNat : F) = w p.1 + w p.2.1 := by
  unfold checkOut
  simp only [bind_def]
  refine Run.bind (Run.gate fun u hu => ?_)
  refine Run.bind ((testBitvecField_run h (by decide)).mono fun t z' ⟨hz', ht⟩ => ?_)
  refine Run.roundTest ?_
  rw [ht, hu, opValue]
  tauto

/-- a loop whose body only tests -/
theorem Run.mapU {α β : Type} {f : α → Gen β} {C : α → Prop} {xs : List α}
    (h : ∀ x ∈ xs, Run w (f x) fun _ z => z ↔ C x) :
    Run w (Sha256Gen.mapG f xs) fun _ z => z ↔ ∀ x ∈ xs, C x :=
  (Run.mapG (R := fun _ _ => True) fun x hx => (h x hx).mono fun _ _ hz => ⟨hz, True.intro⟩).mono fun _ _ hz => hz.1

theorem checkInputs_run (h : Rep w x) {R : Regs} (hR : RegRep w R (trace w x 0)) :
    Run w (checkInputs theInputs R) fun _ z => z ↔
      (∀ i, 1 ≤ i → i < 64 → ((x.word i).toNat : F) = w (34 + i)) ∧
      ((x.a.toNat : F) = w (2274 + 0) ∧ (x.b.toNat : F) = w (2274 + 1) ∧ (x.c.toNat : F) = w (2274 + 2) ∧
        (x.e.toNat : F) = w (2274 + 4) ∧ (x.f.toNat : F) = w (2274 + 5) ∧ (x.g.toNat : F) = w (2274 + 6)) ∧
      ∀ i < 8, (((x.Ho i).setWidth 32).toNat : F) = w (2282 + i) := by
  unfold checkInputs
  simp only [bind_def, pure_def]
  refine Run.bind ((Run.mapU (C := fun i => ((x.word i).toNat : F) = w (34 + i)) fun i hi => ?_).mono fun _ z1 h1 => ?_)
  · rw [List.mem_range'_1] at hi
    exact checkW_run h hi.1 (by omega)
  refine Run.bind ((Run.mapU (C := fun _ => True) fun v hv => checkVec_run.mono fun _ z hz => ?_).mono fun _ z2 h2 => ?_)
  · obtain ⟨i, hi, rfl⟩ := List.mem_map.1 hv
    rw [List.mem_range] at hi
    have := h.Ho i hi
    rw [show theInputs.HoutBits.getD i [] = _ from getD_vecs hi] at this
    exact hz.trans (iff_true_intro (bits_of_wb this))
  refine Run.bind ((Run.mapU (C := fun _ => True) fun v hv => checkVec_run.mono fun _ z hz => ?_).mono fun _ z3 h3 => ?_)
  · refine hz.trans (iff_true_intro ?_)
    simp only [List.mem_cons, List.not_mem_nil, or_false] at hv
    rcases hv with rfl | rfl | rfl | rfl | rfl | rfl
    exacts [bits_of_wb h.a, bits_of_wb h.b, bits_of_wb h.c, bits_of_wb h.e, bits_of_wb h.f, bits_of_wb h.g]
  refine Run.bind ((Run.mapU (C := fun _ => True) fun v hv => checkVec_run.mono fun _ z hz => ?_).mono fun _ z4 h4 => ?_)
  · obtain ⟨i, hi, rfl⟩ := List.mem_map.1 hv
    rw [List.mem_range] at hi
    have := h.A i hi
    rw [show theInputs.aout.getD i [] = _ from getD_vecs hi] at this
    exact hz.trans (iff_true_intro (bits_of_wb this))
  refine Run.bind ((Run.mapU (C := fun _ => True) fun v hv => checkVec_run.mono fun _ z hz => ?_).mono fun _ z5 h5 => ?_)
  · obtain ⟨i, hi, rfl⟩ := List.mem_map.1 hv
    rw [List.mem_range] at hi
    have := h.E i hi
    rw [show theInputs.eout.getD i [] = _ from getD_vecs hi] at this
    exact hz.trans (iff_true_intro (bits_of_wb this))
  refine Run.bind ((Run.mapU (C := fun p => w p.1 = w p.2) fun p hp => ?_).mono fun _ z6 h6 => ?_)
  · refine Run.bind (testFieldField_run.mono fun t z ⟨hz, ht⟩ => Run.roundTest ?_)
    rw [ht]; exact and_iff_right hz
  refine Run.bind ((Run.mapU (C := fun p => ∀ i < 8, p = (List.range' (2290 + 33 * i) 33, 2282 + i) →
    (((x.Ho i).setWidth 32).toNat : F) = w (2282 + i)) fun p hp => ?_).mono fun _ z7 h7 => ?_)
  · obtain ⟨i, hi, rfl⟩ : ∃ i < 8, p = (List.range' (2290 + 33 * i) 33, 2282 + i) := by
      obtain ⟨i, hi, rfl⟩ := List.mem_iff_getElem.1 hp
      have hi8 : i < 8 := by simpa [theInputs, vecs] using hi
      refine ⟨i, hi8, ?_⟩
      simp [theInputs, vecs]
    have e := h.Ho i hi
    rw [show theInputs.HoutBits.getD i [] = _ from getD_vecs hi] at e
    refine Run.bind ((testBitvecField_run (map_take_wb e (by decide : 32 ≤ 33)) (by decide)).mono
      fun t z ⟨hz, ht⟩ => Run.roundTest ?_)
    rw [ht]
    refine (and_iff_right hz).trans ⟨fun hh j hj ej => ?_, fun hh => hh i hi rfl⟩
    have : i = j := by have := congrArg Prod.snd ej; simp only at this; omega
    subst this; exact hh
  refine Run.pure ?_
  have g6 : (∀ p ∈ [R.a, R.b, R.c, R.e, R.f, R.g].zip (theInputs.H.take 3 ++ (theInputs.H.drop 4).take 3), w p.1 = w p.2) ↔
      ((x.a.toNat : F) = w (2274 + 0) ∧ (x.b.toNat : F) = w (2274 + 1) ∧ (x.c.toNat : F) = w (2274 + 2) ∧
        (x.e.toNat : F) = w (2274 + 4) ∧ (x.f.toNat : F) = w (2274 + 5) ∧ (x.g.toNat : F) = w (2274 + 6)) := by
    have : [R.a, R.b, R.c, R.e, R.f, R.g].zip (theInputs.H.take 3 ++ (theInputs.H.drop 4).take 3) =
        [(R.a, 2274 + 0), (R.b, 2274 + 1), (R.c, 2274 + 2), (R.e, 2274 + 4), (R.f, 2274 + 5), (R.g, 2274 + 6)] := rfl
    rw [this]
    simp only [List.forall_mem_cons, List.not_mem_nil, false_imp_iff, imp_true_iff, and_true]
    rw [hR.a, hR.b, hR.c, hR.e, hR.f, hR.g]; rfl
  have g7 : (∀ p ∈ theInputs.HoutBits.zip theInputs.Hout, ∀ i < 8, p = (List.range' (2290 + 33 * i) 33, 2282 + i) →
      (((x.Ho i).setWidth 32).toNat : F) = w (2282 + i)) ↔ ∀ i < 8, (((x.Ho i).setWidth 32).toNat : F) = w (2282 + i) := by
    refine ⟨fun hh i hi => hh _ ?_ i hi rfl, fun hh p _ i hi _ => hh i hi⟩
    refine List.mem_iff_getElem.2 ⟨i, by simpa [theInputs, vecs] using hi, by simp [theInputs, vecs]⟩
  have g1 : (∀ i ∈ List.range' 1 63, ((x.word i).toNat : F) = w (34 + i)) ↔
      ∀ i, 1 ≤ i → i < 64 → ((x.word i).toNat : F) = w (34 + i) := by
    simp only [List.mem_range'_1, and_imp]
  have t2 := h2.2 (fun _ _ => True.intro)
  have t3 := h3.2 (fun _ _ => True.intro)
  have t4 := h4.2 (fun _ _ => True.intro)
  have t5 := h5.2 (fun _ _ => True.intro)
  rw [h1, h6, h7, g1, g6, g7]
  simp only [t2, t3, t4, t5, true_and, and_true]

theorem writeBody_run (h0 : w 0 = 0) (h : Rep w x) : Run w (writeBody theInputs) fun _ z => z ↔ Eqs w x := by
  unfold writeBody
  simp only [bind_def, pure_def]
  refine Run.bind ((initialRegs_run h).mono fun R z1 ⟨h1, hR⟩ => ?_)
  refine Run.bind ((checkInputs_run h hR).mono fun _ z2 h2 => ?_)
  refine Run.bind ((Run.mapU (C := fun t => ((x.S t).toNat : F) = w (34 + (t - 16)) + w (34 + (t - 7)) +
      ((Sha256.sigma0 (x.word (t - 15))).toNat + (Sha256.sigma1 (x.word (t - 2))).toNat))
      fun t ht => ?_).mono fun _ z3 h3 => ?_)
  · rw [List.mem_range'_1] at ht
    exact checkSchedule_run h0 h ht.1 (by omega)
  refine Run.bind ((Run.forG (Inv := fun i R => RegRep w R (trace w x i)) hR
    fun i hi R hR => writeRound_run h hi hR).mono fun R' z4 ⟨h4, hR'⟩ => ?_)
  refine Run.bind ((Run.mapU (C := fun p => ∀ i < 8, p.2.1 = 2274 + i → ((x.Ho i).toNat : F) = w p.1 + w p.2.1)
    fun p hp => ?_).mono fun _ z5 h5 => ?_)
  · obtain ⟨i, hi, hp'⟩ : ∃ i < 8, p.2 = (2274 + i, List.range' (2290 + 33 * i) 33) := by
      have hp2 := (List.of_mem_zip (a := p.1) (b := p.2) hp).2
      obtain ⟨i, hi, e⟩ := List.mem_iff_getElem.1 hp2
      have hi8 : i < 8 := by simpa [theInputs, vecs] using hi
      refine ⟨i, hi8, ?_⟩
      rw [← e]
      simp [theInputs, vecs]
    have e := h.Ho i hi
    rw [show theInputs.HoutBits.getD i [] = _ from getD_vecs hi] at e
    refine (checkOut_run (X := x.Ho i) (by rw [hp']; exact e)).mono fun _ z hz => hz.trans ⟨fun hh j hj ej => ?_, fun hh => ?_⟩
    · have : i = j := by rw [hp'] at ej; simp only at ej; omega
      subst this; exact hh
    · exact hh i hi (by rw [hp'])
  refine Run.pure ?_
  have g5 : (∀ p ∈ [R'.a, R'.b, R'.c, R'.d, R'.e, R'.f, R'.g, R'.h].zip (theInputs.H.zip theInputs.HoutBits),
      ∀ i < 8, p.2.1 = 2274 + i → ((x.Ho i).toNat : F) = w p.1 + w p.2.1) ↔
      ((x.Ho 0).toNat : F) = (trace w x 64).a.toNat + w (2274 + 0) ∧
      ((x.Ho 1).toNat : F) = (trace w x 64).b.toNat + w (2274 + 1) ∧
      ((x.Ho 2).toNat : F) = (trace w x 64).c.toNat + w (2274 + 2) ∧
      ((x.Ho 3).toNat : F) = (trace w x 64).d + w (2274 + 3) ∧
      ((x.Ho 4).toNat : F) = (trace w x 64).e.toNat + w (2274 + 4) ∧
      ((x.Ho 5).toNat : F) = (trace w x 64).f.toNat + w (2274 + 5) ∧
      ((x.Ho 6).toNat : F) = (trace w x 64).g.toNat + w (2274 + 6) ∧
      ((x.Ho 7).toNat : F) = (trace w x 64).h + w (2274 + 7) := by
    have e : [R'.a, R'.b, R'.c, R'.d, R'.e, R'.f, R'.g, R'.h].zip (theInputs.H.zip theInputs.HoutBits) =
        [(R'.a, 2274 + 0, List.range' 2290 33), (R'.b, 2274 + 1, List.range' 2323 33),
          (R'.c, 2274 + 2, List.range' 2356 33), (R'.d, 2274 + 3, List.range' 2389 33),
          (R'.e, 2274 + 4, List.range' 2422 33), (R'.f, 2274 + 5, List.range' 2455 33),
          (R'.g, 2274 + 6, List.range' 2488 33), (R'.h, 2274 + 7, List.range' 2521 33)] := rfl
    have one : ∀ (v k : ℕ) (y : F), k < 8 → w v = y →
        ((∀ i < 8, 2274 + k = 2274 + i → ((x.Ho i).toNat : F) = w v + w (2274 + k)) ↔
          ((x.Ho k).toNat : F) = y + w (2274 + k)) := fun v k y hk hy =>
      ⟨fun hh => by rw [← hy]; exact hh k hk rfl, fun hh i _ ei => by
        obtain rfl : k = i := by omega
        rw [hy]; exact hh⟩
    rw [e]
    simp only [List.forall_mem_cons, List.not_mem_nil, false_imp_iff, imp_true_iff, and_true]
    rw [one _ 0 _ (by decide) hR'.a, one _ 1 _ (by decide) hR'.b, one _ 2 _ (by decide) hR'.c, one _ 3 _ (by decide) hR'.d,
      one _ 4 _ (by decide) hR'.e, one _ 5 _ (by decide) hR'.f, one _ 6 _ (by decide) hR'.g, one _ 7 _ (by decide) hR'.h]
  have g3 : (∀ t ∈ List.range' 16 48, ((x.S t).toNat : F) = w (34 + (t - 16)) + w (34 + (t - 7)) +
      ((Sha256.sigma0 (x.word (t - 15))).toNat + (Sha256.sigma1 (x.word (t - 2))).toNat)) ↔
      ∀ t, 16 ≤ t → t < 64 → ((x.S t).toNat : F) = w (34 + (t - 16)) + w (34 + (t - 7)) +
      ((Sha256.sigma0 (x.word (t - 15))).toNat + (Sha256.sigma1 (x.word (t - 2))).toNat) := by
    simp only [List.mem_range'_1, and_imp]
  rw [h2, h3, h4, h5, g3, g5]
  constructor
  · rintro ⟨-, ⟨hW, ⟨i0, i1, i2, i4, i5, i6⟩, hHo⟩, hS, hr, ⟨o0, o1, o2, o3, o4, o5, o6, o7⟩, -⟩
    exact ⟨hW, i0, i1, i2, i4, i5, i6, hHo, hS, fun i hi => (hr i hi).1, fun i hi => (hr i hi).2,
      o0, o1, o2, o3, o4, o5, o6, o7⟩
  · rintro ⟨hW, i0, i1, i2, i4, i5, i6, hHo, hS, hA, hE, o0, o1, o2, o3, o4, o5, o6, o7⟩
    exact ⟨h1, ⟨hW, ⟨i0, i1, i2, i4, i5, i6⟩, hHo⟩, hS, fun i hi => ⟨hA i hi, hE i hi⟩,
      ⟨o0, o1, o2, o3, o4, o5, o6, o7⟩, True.intro⟩

theorem checkInputs_bits {R : Regs} : Run w (checkInputs theInputs R) fun _ z => z → ∃ x, Rep w x := by
  unfold checkInputs
  simp only [bind_def, pure_def]
  refine Run.bind ((Run.mapG' fun i _ => checkW_bits).mono fun _ z1 h1 => ?_)
  refine Run.bind ((Run.mapU fun v _ => checkVec_run).mono fun _ z2 h2 => ?_)
  refine Run.bind ((Run.mapU fun v _ => checkVec_run).mono fun _ z3 h3 => ?_)
  refine Run.bind ((Run.mapU fun v _ => checkVec_run).mono fun _ z4 h4 => ?_)
  refine Run.bind ((Run.mapU fun v _ => checkVec_run).mono fun _ z5 h5 => ?_)
  refine Run.trivial.mono fun _ z6 _ => fun hz => ?_
  obtain ⟨hz1, hz2, hz3, hz4, hz5, -⟩ := hz
  have w1 := h1 hz1
  have w2 := h2.1 hz2
  have w3 := h3.1 hz3
  have w4 := h4.1 hz4
  have w5 := h5.1 hz5
  have hM : ∀ i, ∃ X : BitVec 32, 1 ≤ i → i < 16 → (theInputs.Wbits.getD i []).map w = wb F X := fun i => by
    by_cases hi : 1 ≤ i ∧ i < 16
    · obtain ⟨X, hX⟩ := exists_wb' (n := 32) (w1 i (List.mem_range'_1.2 ⟨hi.1, by omega⟩))
        (by rw [Wbits_early hi.1 hi.2, List.length_range'])
      exact ⟨X, fun _ _ => hX⟩
    · exact ⟨0, fun a b => absurd ⟨a, b⟩ hi⟩
  have hS : ∀ i, ∃ X : BitVec 34, 16 ≤ i → i < 64 → (theInputs.Wbits.getD i []).map w = wb F X := fun i => by
    by_cases hi : 16 ≤ i ∧ i < 64
    · obtain ⟨X, hX⟩ := exists_wb' (n := 34) (w1 i (List.mem_range'_1.2 ⟨by omega, by omega⟩))
        (by rw [Wbits_late hi.1 hi.2, List.length_range'])
      exact ⟨X, fun _ _ => hX⟩
    · exact ⟨0, fun a b => absurd ⟨a, b⟩ hi⟩
  have vec : ∀ (v n k : ℕ), (∀ l ∈ vecs v n k, ∀ j ∈ l, w j = 0 ∨ w j = 1) → ∀ i, ∃ X : BitVec k, i < n →
      ((vecs v n k).getD i []).map w = wb F X := fun v n k hv i => by
    by_cases hi : i < n
    · obtain ⟨X, hX⟩ := exists_wb' (n := k) (hv ((vecs v n k).getD i []) (by
        rw [getD_vecs hi]; exact List.mem_map.2 ⟨i, List.mem_range.2 hi, rfl⟩)) (by rw [getD_vecs hi, List.length_range'])
      exact ⟨X, fun _ => hX⟩
    · exact ⟨0, fun a => absurd a hi⟩
  have reg : ∀ l ∈ [theInputs.a, theInputs.b, theInputs.c, theInputs.e, theInputs.f, theInputs.g], l.length = 32 →
      ∃ X : BitVec 32, l.map w = wb F X := fun l hl hlen => exists_wb' (w3 l hl) hlen
  choose M hM using hM
  choose S hS using hS
  choose Ho hHo using vec _ _ _ w2
  choose A hA using vec _ _ _ w4
  choose E hE using vec _ _ _ w5
  obtain ⟨a, ha⟩ := reg theInputs.a (by simp) List.length_range'
  obtain ⟨b, hb⟩ := reg theInputs.b (by simp) List.length_range'
  obtain ⟨c, hc⟩ := reg theInputs.c (by simp) List.length_range'
  obtain ⟨e, he⟩ := reg theInputs.e (by simp) List.length_range'
  obtain ⟨f, hf⟩ := reg theInputs.f (by simp) List.length_range'
  obtain ⟨g, hg⟩ := reg theInputs.g (by simp) List.length_range'
  exact ⟨⟨M, S, Ho, a, b, c, e, f, g, A, E⟩, hM, hS, hHo, ha, hb, hc, he, hf, hg, hA, hE⟩

theorem writeBody_bits : Run w (writeBody theInputs) fun _ z => z → ∃ x, Rep w x := by
  unfold writeBody
  simp only [bind_def, pure_def]
  refine Run.bind (Run.trivial.mono fun R z1 _ => ?_)
  refine Run.bind (checkInputs_bits.mono fun _ z2 h2 => ?_)
  exact Run.trivial.mono fun _ z3 _ hz => h2 hz.2.1

end
end Libra.Sha256Gen
