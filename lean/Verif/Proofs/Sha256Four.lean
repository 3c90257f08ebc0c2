import Verif.Model.Sha256Four
import Verif.Proofs.Sha256Program
import Mathlib.Tactic.IntervalCases

/-!
# The SHA-256 program for four rounds: when its tests are zero
-/

namespace Libra.Sha256Gen
open Compiler Spec

/-! ### The inputs -/

/-- the variables `allocInputs4` returns -/
def theInputs4 : Inputs4 where
  inFirst := 34
  notEarly := 35
  inFinal := 36
  Wm16 := List.range' 37 4
  Wm7 := List.range' 41 4
  W := List.range' 45 4
  Bm15 := vecs 49 4 32
  Bm2 := vecs 177 2 32
  Wbits := vecs 241 4 34
  K := List.range' 377 4
  H := List.range' 381 8
  Hout := List.range' 389 8
  HoutBits := vecs 397 8 33
  d := 661
  h := 662
  a := List.range' 663 32
  b := List.range' 695 32
  c := List.range' 727 32
  e := List.range' 759 32
  f := List.range' 791 32
  g := List.range' 823 32
  dOut := 855
  hOut := 856
  aout := vecs 857 4 35
  eout := vecs 997 4 35

theorem alloc_eq (v : ℕ) : alloc v = .ok (v, v + 1, { inVals := List.range' v 1 }) := rfl

theorem allocInputs4_eq : allocInputs4 34 = .ok (theInputs4, 1137, { inVals := List.range' 34 1103 }) := by
  unfold allocInputs4
  simp only [bind_def, pure_def, Gen.bind, Outcome.bind, repeatG_alloc, repeatG_allocN, allocN, alloc_eq, Gen.pure, Log.append,
    List.append_nil, Nat.reduceAdd, Nat.reduceMul]
  have e : ∀ l : List ℕ, l = List.range' 34 1103 → ({ inVals := l } : Log) = { inVals := List.range' 34 1103 } :=
    fun _ h => by rw [h]
  exact congrArg Outcome.ok (Prod.ext rfl (Prod.ext rfl (e _ (by simp only [range'_join, Nat.reduceAdd]))))

/-- `LineOk`, computed -/
def lineOkB (v : ℕ) : Stmt → Bool
  | .gate _ t a b => t == v && Nat.blt a v && Nat.blt b v
  | .expSum t a b => t == v && Nat.blt b v && Nat.ble a b && Nat.ble b (a + 62)
  | .bit t a b => t == v && Nat.blt a v && Nat.blt b v
  | _ => false

/-- `Straight`, computed -/
def straightB : ℕ → List Stmt → Bool
  | _, [] => true
  | v, s :: l => lineOkB v s && straightB (v + 1) l

theorem lineOk_of {v : ℕ} {s : Stmt} (h : lineOkB v s = true) : LineOk v s := by
  cases s <;> simp [lineOkB, Nat.blt_eq] at h <;> simp only [LineOk] <;> omega

theorem straight_of : ∀ {v : ℕ} {l : List Stmt}, straightB v l = true → Straight v l
  | _, [], _ => True.intro
  | v, s :: l, h => by
    rw [straightB, Bool.and_eq_true] at h
    exact ⟨lineOk_of h.1, straight_of h.2⟩

/-- what the run of `writeBody4` gives -/
def check4 : Bool :=
  match writeBody4 theInputs4 1137 with
  | .ok (_, v, L) => straightB 1137 L.lines && v == 1137 + L.lines.length && (L.roundTests ++ L.bitTests).all (fun t => Nat.blt t v) &&
    L.bitTests.length == 1064 && L.inVals.length == 0
  | _ => false

set_option maxRecDepth 100000 in
theorem check4_true : check4 = true := by decide +kernel

theorem writeBody4_eq : ∃ L : Log, writeBody4 theInputs4 1137 = .ok ((), 1137 + L.lines.length, L) ∧ L.inVals = [] ∧
    Straight 1137 L.lines ∧ (∀ t ∈ L.roundTests ++ L.bitTests, t < 1137 + L.lines.length) ∧ L.bitTests.length = 1064 := by
  have h := check4_true
  unfold check4 at h
  split at h
  · rename_i u v L e
    simp only [Bool.and_eq_true, beq_iff_eq, List.all_eq_true, Nat.blt_eq] at h
    obtain ⟨⟨⟨⟨h1, h2⟩, h3⟩, h4⟩, h5⟩ := h
    rw [h2] at e h3
    exact ⟨L, e, List.length_eq_zero_iff.1 h5, straight_of h1, h3, h4⟩
  · cases h

theorem write4_eq : ∃ L : Log, writeBody4 theInputs4 1137 = .ok ((), 1137 + L.lines.length, L) ∧
    Straight 1137 L.lines ∧ (∀ t ∈ L.roundTests ++ L.bitTests, t < 1137 + L.lines.length) ∧ L.bitTests.length = 1064 ∧
    write4 false = .ok ((List.range 1137).map (fun i => .input i i) ++ L.lines ++
      ((L.roundTests ++ L.bitTests).zipIdx (1137 + L.lines.length)).map (fun p => .output p.2 p.1)) := by
  obtain ⟨L, h1, h2, h3, h4, h5⟩ := writeBody4_eq
  refine ⟨L, h1, h3, h4, h5, ?_⟩
  unfold write4
  rw [bind_ok allocInputs4_eq h1]
  refine congrArg Outcome.ok ?_
  simp only [program, Log.append, h2, List.append_nil, List.nil_append]
  rw [input_lines 34 1103]

/-! ### The values of the inputs -/

/-- the words given by the bits of the inputs -/
structure Wit4 where
  /-- words -15 to -12 -/
  B15 : ℕ → BitVec 32
  /-- words -2 and -1 -/
  B2 : ℕ → BitVec 32
  /-- words 0 to 3, with carry -/
  B : ℕ → BitVec 34
  /-- the result, with carry -/
  Ho : ℕ → BitVec 33
  a : BitVec 32
  b : BitVec 32
  c : BitVec 32
  e : BitVec 32
  f : BitVec 32
  g : BitVec 32
  A : ℕ → BitVec 35
  E : ℕ → BitVec 35

/-- word `i - 2` -/
def Wit4.prev (x : Wit4) (i : ℕ) : Sha256.Word := if i < 2 then x.B2 i else (x.B (i - 2)).setWidth 32

section
variable {F : Type} [Field F]

/-- `w` has the bits `x` in its inputs -/
structure Rep4 (w : ℕ → F) (x : Wit4) : Prop where
  B15 : ∀ i < 4, (theInputs4.Bm15.getD i []).map w = wb F (x.B15 i)
  B2 : ∀ i < 2, (theInputs4.Bm2.getD i []).map w = wb F (x.B2 i)
  B : ∀ i < 4, (theInputs4.Wbits.getD i []).map w = wb F (x.B i)
  Ho : ∀ i < 8, (theInputs4.HoutBits.getD i []).map w = wb F (x.Ho i)
  a : theInputs4.a.map w = wb F x.a
  b : theInputs4.b.map w = wb F x.b
  c : theInputs4.c.map w = wb F x.c
  e : theInputs4.e.map w = wb F x.e
  f : theInputs4.f.map w = wb F x.f
  g : theInputs4.g.map w = wb F x.g
  A : ∀ i < 4, (theInputs4.aout.getD i []).map w = wb F (x.A i)
  E : ∀ i < 4, (theInputs4.eout.getD i []).map w = wb F (x.E i)

/-- the working variables as field elements -/
def FVars.field (s : FVars F) (i : ℕ) : F :=
  if i = 0 then (s.a.toNat : F) else if i = 1 then (s.b.toNat : F) else if i = 2 then (s.c.toNat : F) else if i = 3 then s.d
  else if i = 4 then (s.e.toNat : F) else if i = 5 then (s.f.toNat : F) else if i = 6 then (s.g.toNat : F) else s.h

/-- the working variables before round `i` -/
def trace4 (w : ℕ → F) (x : Wit4) : ℕ → FVars F
  | 0 => ⟨x.a, x.b, x.c, w 661, x.e, x.f, x.g, w 662⟩
  | i + 1 =>
    let s := trace4 w x i
    ⟨(x.A i).setWidth 32, s.a, s.b, (s.c.toNat : F), (x.E i).setWidth 32, s.e, s.f, (s.g.toNat : F)⟩

/-- The equations the tests stand for. -/
structure Eqs4 (w : ℕ → F) (x : Wit4) : Prop where
  dOut : (((x.A 0).setWidth 32).toNat : F) = w 855
  hOut : (((x.E 0).setWidth 32).toNat : F) = w 856
  H : ∀ i < 8, ((trace4 w x 0).field i - w (381 + i)) * w 34 = 0
  Hout : ∀ i < 8, ((((x.Ho i).setWidth 32).toNat : F) - w (389 + i)) * w 36 = 0
  W0 : ((((x.B 0).setWidth 32).toNat : F) - w 45) * (1 - w 34) = 0
  W : ∀ i, 1 ≤ i → i < 4 → (((x.B i).setWidth 32).toNat : F) = w (45 + i)
  S : ∀ i < 4, (((x.B i).toNat : F) - (w (37 + i) + w (41 + i) +
    ((Sha256.sigma0 (x.B15 i)).toNat + (Sha256.sigma1 (x.prev i)).toNat))) * w 35 = 0
  A : ∀ i < 4, ((x.A i).toNat : F) =
    (Sha256.bigSigma0 (trace4 w x i).a).toNat + (Sha256.Maj (trace4 w x i).a (trace4 w x i).b (trace4 w x i).c).toNat +
    (trace4 w x i).h + (w (377 + i) + w (45 + i)) +
    ((Sha256.bigSigma1 (trace4 w x i).e).toNat + (Sha256.Ch (trace4 w x i).e (trace4 w x i).f (trace4 w x i).g).toNat)
  E : ∀ i < 4, ((x.E i).toNat : F) = (w (377 + i) + w (45 + i)) + ((trace4 w x i).d + (trace4 w x i).h) +
    ((Sha256.bigSigma1 (trace4 w x i).e).toNat + (Sha256.Ch (trace4 w x i).e (trace4 w x i).f (trace4 w x i).g).toNat)
  O : ∀ i < 8, (((x.Ho i).toNat : F) - ((trace4 w x 4).field i + w (381 + i))) * w 36 = 0

variable {w : ℕ → F} {x : Wit4}

theorem testFieldFieldIf_run {f1 f2 c : ℕ} :
    Run w (testFieldFieldIf f1 f2 c) fun v z => z ∧ w v = (w f1 - w f2) * w c := by
  unfold testFieldFieldIf
  simp only [bind_def]
  refine Run.bind (Run.gate fun u hu => Run.gate fun v hv => ⟨⟨True.intro, True.intro⟩, ?_⟩)
  rw [hv, hu]; rfl

theorem testBitvecFieldIf_run {x : List ℕ} {n : ℕ} {X : BitVec n} {f c : ℕ} (hx : x.map w = wb F X) (hn : 0 < n) :
    Run w (testBitvecFieldIf x f c) fun v z => z ∧ w v = ((X.toNat : F) - w f) * w c := by
  unfold testBitvecFieldIf
  simp only [bind_def]
  refine Run.bind ((doAddition_wb hx hn).mono fun u z1 ⟨h1, hu⟩ => ?_)
  refine testFieldFieldIf_run.mono fun v z2 ⟨h2, hv⟩ => ⟨⟨h1, h2⟩, ?_⟩
  rw [hv, hu]

theorem initialRegs4_run (h : Rep4 w x) : Run w (initialRegs4 theInputs4) fun R z => z ∧ RegRep w R (trace4 w x 0) := by
  unfold initialRegs4
  simp only [bind_def, pure_def]
  refine Run.bind ((doAddition_wb h.a (by decide)).mono fun a z1 ⟨h1, ha⟩ => ?_)
  refine Run.bind ((doAddition_wb h.b (by decide)).mono fun b z2 ⟨h2, hb⟩ => ?_)
  refine Run.bind ((doAddition_wb h.c (by decide)).mono fun c z3 ⟨h3, hc⟩ => ?_)
  refine Run.bind ((doAddition_wb h.e (by decide)).mono fun e z4 ⟨h4, he⟩ => ?_)
  refine Run.bind ((doAddition_wb h.f (by decide)).mono fun f z5 ⟨h5, hf⟩ => ?_)
  refine Run.bind ((doAddition_wb h.g (by decide)).mono fun g z6 ⟨h6, hg⟩ => ?_)
  refine Run.pure ⟨⟨h1, h2, h3, h4, h5, h6, True.intro⟩, ?_⟩
  exact ⟨by rw [take_self h.a]; exact h.a, by rw [take_self h.b]; exact h.b, by rw [take_self h.c]; exact h.c,
    by rw [take_self h.e]; exact h.e, by rw [take_self h.f]; exact h.f, by rw [take_self h.g]; exact h.g,
    ha, hb, hc, rfl, he, hf, hg, rfl⟩

/-- all vectors of purported bits -/
def allVecs : List (List ℕ) :=
  (theInputs4.Wbits ++ theInputs4.Bm15 ++ theInputs4.Bm2) ++ (theInputs4.HoutBits ++
    ([theInputs4.a, theInputs4.b, theInputs4.c, theInputs4.e, theInputs4.f, theInputs4.g] ++ (theInputs4.aout ++ theInputs4.eout)))

theorem checkBits4_run : Run w (checkBits4 theInputs4) fun _ z => z ↔ ∀ l ∈ allVecs, ∀ i ∈ l, w i = 0 ∨ w i = 1 := by
  unfold checkBits4
  simp only [bind_def, pure_def]
  refine Run.bind ((Run.mapU fun v _ => checkVec_run).mono fun _ z1 h1 => ?_)
  refine Run.bind ((Run.mapU fun v _ => checkVec_run).mono fun _ z2 h2 => ?_)
  refine Run.bind ((Run.mapU fun v _ => checkVec_run).mono fun _ z3 h3 => ?_)
  refine Run.bind ((Run.mapU fun v _ => checkVec_run).mono fun _ z4 h4 => ?_)
  refine Run.bind ((Run.mapU fun v _ => checkVec_run).mono fun _ z5 h5 => ?_)
  refine Run.pure ?_
  rw [h1, h2, h3, h4, h5, allVecs]
  simp only [List.forall_mem_append, and_true]

theorem mem_vecs {v n k : ℕ} {l : List ℕ} : l ∈ vecs v n k ↔ ∃ i < n, l = (vecs v n k).getD i [] := by
  constructor
  · intro h
    obtain ⟨i, hi, rfl⟩ := List.mem_map.1 h
    rw [List.mem_range] at hi
    exact ⟨i, hi, (getD_vecs hi).symm⟩
  · rintro ⟨i, hi, rfl⟩
    rw [getD_vecs hi]
    exact List.mem_map.2 ⟨i, List.mem_range.2 hi, rfl⟩

theorem Rep4.bits (h : Rep4 w x) : ∀ l ∈ allVecs, ∀ i ∈ l, w i = 0 ∨ w i = 1 := by
  intro l hl
  simp only [allVecs, List.mem_append] at hl
  rcases hl with ((hl | hl) | hl) | hl | hl | hl | hl
  · obtain ⟨i, hi, rfl⟩ := mem_vecs.1 hl; exact bits_of_wb (h.B i hi)
  · obtain ⟨i, hi, rfl⟩ := mem_vecs.1 hl; exact bits_of_wb (h.B15 i hi)
  · obtain ⟨i, hi, rfl⟩ := mem_vecs.1 hl; exact bits_of_wb (h.B2 i hi)
  · obtain ⟨i, hi, rfl⟩ := mem_vecs.1 hl; exact bits_of_wb (h.Ho i hi)
  · simp only [List.mem_cons, List.not_mem_nil, or_false] at hl
    rcases hl with rfl | rfl | rfl | rfl | rfl | rfl
    exacts [bits_of_wb h.a, bits_of_wb h.b, bits_of_wb h.c, bits_of_wb h.e, bits_of_wb h.f, bits_of_wb h.g]
  · obtain ⟨i, hi, rfl⟩ := mem_vecs.1 hl; exact bits_of_wb (h.A i hi)
  · obtain ⟨i, hi, rfl⟩ := mem_vecs.1 hl; exact bits_of_wb (h.E i hi)

/-- a loop over two lists of the same length -/
theorem forall_zip {α β : Type} {l : List α} {l' : List β} {n : ℕ} (h : l.length = n) (h' : l'.length = n) (d : α) (d' : β)
    {C : α × β → Prop} : (∀ p ∈ l.zip l', C p) ↔ ∀ i < n, C (l.getD i d, l'.getD i d') := by
  subst h
  constructor
  · intro hh i hi
    refine hh _ (List.mem_iff_getElem.2 ⟨i, by rw [List.length_zip, h', min_self]; exact hi, ?_⟩)
    rw [List.getElem_zip, List.getD_eq_getElem _ _ hi, List.getD_eq_getElem _ _ (h'.symm ▸ hi)]
  · intro hh p hp
    obtain ⟨i, hi, rfl⟩ := List.mem_iff_getElem.1 hp
    rw [List.length_zip, h', min_self] at hi
    have := hh i hi
    rwa [List.getD_eq_getElem _ _ hi, List.getD_eq_getElem _ _ (h'.symm ▸ hi), ← List.getElem_zip] at this

theorem RegRep.field {R : Regs} {s : FVars F} (hR : RegRep w R s) :
    ∀ i < 8, w ([R.a, R.b, R.c, R.d, R.e, R.f, R.g, R.h].getD i 0) = s.field i := by
  intro i hi
  interval_cases i
  exacts [hR.a, hR.b, hR.c, hR.d, hR.e, hR.f, hR.g, hR.h]

theorem checkW4_run (h : Rep4 w x) {i : ℕ} (hi : i < 4) : Run w (checkW4 theInputs4 i) fun _ z => z ↔
    if i = 0 then ((((x.B 0).setWidth 32).toNat : F) - w 45) * (1 - w 34) = 0
    else (((x.B i).setWidth 32).toNat : F) = w (45 + i) := by
  have hW : theInputs4.W.getD i 0 = 45 + i := getD_range' hi
  have hB := map_take_wb (h.B i hi) (by decide : 32 ≤ 34)
  unfold checkW4
  rw [hW]
  split_ifs with h0
  · subst h0
    simp only [bind_def]
    refine Run.bind (Run.gate fun u hu => ?_)
    refine Run.bind ((testBitvecFieldIf_run hB (by decide)).mono fun t z ⟨hz, ht⟩ => Run.roundTest ?_)
    rw [ht, hu]
    simp only [opValue, theInputs4]
    tauto
  · simp only [bind_def]
    refine Run.bind ((testBitvecField_run hB (by decide)).mono fun t z ⟨hz, ht⟩ => Run.roundTest ?_)
    rw [ht]; exact and_iff_right hz

theorem checkInputs4_run (h : Rep4 w x) {R : Regs} (hR : RegRep w R (trace4 w x 0)) :
    Run w (checkInputs4 theInputs4 R) fun _ z => z ↔
      (((x.A 0).setWidth 32).toNat : F) = w 855 ∧ (((x.E 0).setWidth 32).toNat : F) = w 856 ∧
      (∀ i < 8, ((trace4 w x 0).field i - w (381 + i)) * w 34 = 0) ∧
      (∀ i < 8, ((((x.Ho i).setWidth 32).toNat : F) - w (389 + i)) * w 36 = 0) ∧
      ∀ i < 4, if i = 0 then ((((x.B 0).setWidth 32).toNat : F) - w 45) * (1 - w 34) = 0
        else (((x.B i).setWidth 32).toNat : F) = w (45 + i) := by
  unfold checkInputs4
  simp only [bind_def, pure_def]
  refine Run.bind ((testBitvecField_run (map_take_wb (h.A 0 (by decide)) (by decide : 32 ≤ 35)) (by decide)).mono
    fun t1 z1 ⟨h1, ht1⟩ => Run.bind (Run.roundTest ?_))
  refine Run.bind ((testBitvecField_run (map_take_wb (h.E 0 (by decide)) (by decide : 32 ≤ 35)) (by decide)).mono
    fun t2 z2 ⟨h2, ht2⟩ => Run.bind (Run.roundTest ?_))
  refine Run.bind ((Run.mapU (C := fun p => (w p.1 - w p.2) * w 34 = 0) fun p hp => ?_).mono fun _ z3 h3 => ?_)
  · refine Run.bind (testFieldFieldIf_run.mono fun t z ⟨hz, ht⟩ => Run.roundTest ?_)
    rw [ht]; exact and_iff_right hz
  refine Run.bind ((Run.mapU (C := fun p => ∃ (i : ℕ), p = (theInputs4.HoutBits.getD i [], 389 + i) ∧
    ((((x.Ho i).setWidth 32).toNat : F) - w (389 + i)) * w 36 = 0) fun p hp => ?_).mono fun _ z4 h4 => ?_)
  · obtain ⟨i, hi, hp⟩ : ∃ i < 8, p = (theInputs4.HoutBits.getD i [], 389 + i) := by
      have := (forall_zip (n := 8) (l := theInputs4.HoutBits) (l' := theInputs4.Hout) (C := fun p => ∃ i < 8, p =
        (theInputs4.HoutBits.getD i [], 389 + i)) (by simp [theInputs4, vecs]) (by simp [theInputs4]) [] 0).2 (fun i hi =>
          ⟨i, hi, by rw [show theInputs4.Hout.getD i 0 = 389 + i from getD_range' hi]⟩)
      exact this p hp
    subst hp
    refine Run.bind ((testBitvecFieldIf_run (map_take_wb (h.Ho i hi) (by decide : 32 ≤ 33)) (by decide)).mono
      fun t z ⟨hz, ht⟩ => Run.roundTest ?_)
    rw [ht]
    refine (and_iff_right hz).trans ⟨fun hh => ⟨i, rfl, hh⟩, ?_⟩
    rintro ⟨j, hj, hh⟩
    have : i = j := by have := congrArg Prod.snd hj; simp only at this; omega
    subst this; exact hh
  refine Run.bind ((Run.mapU fun i hi => checkW4_run h (List.mem_range.1 hi)).mono fun _ z5 h5 => ?_)
  refine Run.pure ?_
  rw [forall_zip (n := 8) rfl (by simp [theInputs4]) 0 0] at h3
  have e3 : (∀ i < 8, (w ([R.a, R.b, R.c, R.d, R.e, R.f, R.g, R.h].getD i 0) - w (theInputs4.H.getD i 0)) * w 34 = 0) ↔
      ∀ i < 8, ((trace4 w x 0).field i - w (381 + i)) * w 34 = 0 :=
    forall₂_congr fun i hi => by rw [hR.field i hi, show theInputs4.H.getD i 0 = 381 + i from getD_range' hi]
  rw [forall_zip (n := 8) (by simp [theInputs4, vecs]) (by simp [theInputs4]) [] 0] at h4
  have e4 : (∀ i < 8, ∃ j, (theInputs4.HoutBits.getD i [], theInputs4.Hout.getD i 0) = (theInputs4.HoutBits.getD j [], 389 + j) ∧
      ((((x.Ho j).setWidth 32).toNat : F) - w (389 + j)) * w 36 = 0) ↔
      ∀ i < 8, ((((x.Ho i).setWidth 32).toNat : F) - w (389 + i)) * w 36 = 0 :=
    forall₂_congr fun i hi => by
      rw [show theInputs4.Hout.getD i 0 = 389 + i from getD_range' hi]
      refine ⟨?_, fun hh => ⟨i, rfl, hh⟩⟩
      rintro ⟨j, hj, hh⟩
      have : i = j := by have := congrArg Prod.snd hj; simp only at this; omega
      subst this; exact hh
  rw [h3, e3, h4, e4, h5, ht1, ht2]
  simp only [h1, h2, List.mem_range, true_and, and_true]
  rfl

theorem Rep4.prev (h : Rep4 w x) {i : ℕ} (hi : i < 4) :
    (((theInputs4.Bm2 ++ theInputs4.Wbits).getD i []).take 32).map w = wb F (x.prev i) := by
  unfold Wit4.prev
  split_ifs with h2
  · have e : (theInputs4.Bm2 ++ theInputs4.Wbits).getD i [] = theInputs4.Bm2.getD i [] := by interval_cases i <;> rfl
    rw [e, take_self (h.B2 i h2)]
    exact h.B2 i h2
  · have e : (theInputs4.Bm2 ++ theInputs4.Wbits).getD i [] = theInputs4.Wbits.getD (i - 2) [] := by interval_cases i <;> first | rfl | omega
    rw [e]
    exact map_take_wb (h.B (i - 2) (by omega)) (by decide)

theorem checkSchedule4_run (h0 : w 0 = 0) (h : Rep4 w x) {i : ℕ} (hi : i < 4) :
    Run w (checkSchedule4 theInputs4 i) fun _ z => z ↔ (((x.B i).toNat : F) - (w (37 + i) + w (41 + i) +
      ((Sha256.sigma0 (x.B15 i)).toNat + (Sha256.sigma1 (x.prev i)).toNat))) * w 35 = 0 := by
  unfold checkSchedule4
  simp only [bind_def]
  have h15 : ((theInputs4.Bm15.getD i []).take 32).map w = wb F (x.B15 i) := by
    rw [take_self (h.B15 i hi)]; exact h.B15 i hi
  refine Run.bind ((sigma0_run h0 h15).mono fun s0 z1 ⟨e1, hs0⟩ => ?_)
  refine Run.bind ((sigma1_run h0 (h.prev hi)).mono fun s1 z2 ⟨e2, hs1⟩ => ?_)
  refine Run.bind ((doAddition_wb hs0 (by decide)).mono fun v0 z3 ⟨e3, hv0⟩ => ?_)
  refine Run.bind ((doAddition_wb hs1 (by decide)).mono fun v1 z4 ⟨e4, hv1⟩ => ?_)
  refine Run.bind (Run.gate fun u hu => ?_)
  refine Run.bind (Run.gate fun u' hu' => ?_)
  refine Run.bind (Run.gate fun wi hwi => ?_)
  refine Run.bind ((testBitvecFieldIf_run (h.B i hi) (by decide)).mono fun c z5 ⟨e5, hc⟩ => ?_)
  refine Run.roundTest ?_
  rw [show theInputs4.Wm16.getD i 0 = 37 + i from getD_range' hi, show theInputs4.Wm7.getD i 0 = 41 + i from getD_range' hi] at hu'
  rw [hc, hwi, hu, hu', hv0, hv1]
  simp only [opValue, e1, e2, e3, e4, e5, true_and]
  rfl

/-- one round, for any inputs -/
theorem writeRound_gen {I : Inputs} {i : ℕ} {R : Regs} {s : FVars F} {A E : BitVec 35} (hA : (I.aout.getD i []).map w = wb F A)
    (hE : (I.eout.getD i []).map w = wb F E) (hR : RegRep w R s) :
    Run w (writeRound I i R) fun R' z => (z ↔ ((A.toNat : F) =
    (Sha256.bigSigma0 s.a).toNat + (Sha256.Maj s.a s.b s.c).toNat + s.h + (w (I.K.getD i 0) + w (I.W.getD i 0)) +
    ((Sha256.bigSigma1 s.e).toNat + (Sha256.Ch s.e s.f s.g).toNat)) ∧
    (E.toNat : F) = (w (I.K.getD i 0) + w (I.W.getD i 0)) + (s.d + s.h) +
    ((Sha256.bigSigma1 s.e).toNat + (Sha256.Ch s.e s.f s.g).toNat)) ∧
    RegRep w R' ⟨A.setWidth 32, s.a, s.b, (s.c.toNat : F), E.setWidth 32, s.e, s.f, (s.g.toNat : F)⟩ := by
  unfold writeRound
  simp only [bind_def, pure_def]
  refine Run.bind ((bigSigma0_run hR.aBits).mono fun s0 z1 ⟨e1, hs0⟩ => ?_)
  refine Run.bind ((bigSigma1_run hR.eBits).mono fun s1 z2 ⟨e2, hs1⟩ => ?_)
  refine Run.bind ((writeMAJ_run hR.aBits hR.bBits hR.cBits).mono fun mj z3 ⟨e3, hmj⟩ => ?_)
  refine Run.bind ((writeCH_run hR.eBits hR.fBits hR.gBits).mono fun ch z4 ⟨e4, hch⟩ => ?_)
  refine Run.bind ((doAddition_wb hs0 (by decide)).mono fun vs0 z5 ⟨e5, h5⟩ => ?_)
  refine Run.bind ((doAddition_wb hs1 (by decide)).mono fun vs1 z6 ⟨e6, h6⟩ => ?_)
  refine Run.bind ((doAddition_wb hmj (by decide)).mono fun vmj z7 ⟨e7, h7⟩ => ?_)
  refine Run.bind ((doAddition_wb hch (by decide)).mono fun vch z8 ⟨e8, h8⟩ => ?_)
  refine Run.bind (Run.gate fun t2 ht2 => ?_)
  refine Run.bind (Run.gate fun t1 ht1 => ?_)
  refine Run.bind (Run.gate fun kiwi hkiwi => ?_)
  refine Run.bind (Run.gate fun dh hdh => ?_)
  refine Run.bind (Run.gate fun u hu => ?_)
  refine Run.bind (Run.gate fun enext henext => ?_)
  refine Run.bind (Run.gate fun th hth => ?_)
  refine Run.bind (Run.gate fun tk htk => ?_)
  refine Run.bind (Run.gate fun anext hanext => ?_)
  refine Run.bind ((testBitvecField_run hA (by decide)).mono fun ta z9 ⟨e9, hta⟩ => ?_)
  refine Run.bind (Run.roundTest ?_)
  refine Run.bind ((testBitvecField_run hE (by decide)).mono fun te z10 ⟨e10, hte⟩ => ?_)
  refine Run.bind (Run.roundTest ?_)
  refine Run.bind ((doAddition_wb (map_take_wb hE (by decide : 32 ≤ 35)) (by decide)).mono fun e z11 ⟨e11, he⟩ => ?_)
  refine Run.bind ((doAddition_wb (map_take_wb hA (by decide : 32 ≤ 35)) (by decide)).mono fun a z12 ⟨e12, ha⟩ => ?_)
  simp only [opValue] at ht2 ht1 hkiwi hdh hu henext hth htk hanext
  rw [hanext, htk, hth, ht2, ht1, hkiwi, h5, h6, h7, h8, hR.h] at hta
  rw [henext, hu, hdh, ht1, hkiwi, h6, h8, hR.h, hR.d] at hte
  refine Run.pure ⟨?_, ?_⟩
  · rw [hta, hte]
    simp only [e1, e2, e3, e4, e5, e6, e7, e8, e9, e10, e11, e12, true_and, and_true]
  · exact ⟨map_take_wb hA (by decide), hR.aBits, hR.bBits, map_take_wb hE (by decide), hR.eBits, hR.fBits,
      ha, hR.a, hR.b, hR.c, he, hR.e, hR.f, hR.g⟩

theorem writeRound4_run (h : Rep4 w x) {i : ℕ} (hi : i < 4) {R : Regs} (hR : RegRep w R (trace4 w x i)) :
    Run w (writeRound theInputs4.toInputs i R) fun R' z => (z ↔ (((x.A i).toNat : F) =
    (Sha256.bigSigma0 (trace4 w x i).a).toNat + (Sha256.Maj (trace4 w x i).a (trace4 w x i).b (trace4 w x i).c).toNat +
    (trace4 w x i).h + (w (377 + i) + w (45 + i)) +
    ((Sha256.bigSigma1 (trace4 w x i).e).toNat + (Sha256.Ch (trace4 w x i).e (trace4 w x i).f (trace4 w x i).g).toNat)) ∧
    ((x.E i).toNat : F) = (w (377 + i) + w (45 + i)) + ((trace4 w x i).d + (trace4 w x i).h) +
    ((Sha256.bigSigma1 (trace4 w x i).e).toNat + (Sha256.Ch (trace4 w x i).e (trace4 w x i).f (trace4 w x i).g).toNat)) ∧
    RegRep w R' (trace4 w x (i + 1)) := by
  have hK : theInputs4.K.getD i 0 = 377 + i := getD_range' hi
  have hW : theInputs4.W.getD i 0 = 45 + i := getD_range' hi
  have := writeRound_gen (I := theInputs4.toInputs) (h.A i hi) (h.E i hi) hR
  rw [hK, hW] at this
  exact this

theorem writeBody4_run (h0 : w 0 = 0) (h : Rep4 w x) : Run w (writeBody4 theInputs4) fun _ z => z ↔ Eqs4 w x := by
  unfold writeBody4
  simp only [bind_def, pure_def]
  refine Run.bind ((initialRegs4_run h).mono fun R z1 ⟨h1, hR⟩ => ?_)
  refine Run.bind (checkBits4_run.mono fun _ z2 h2 => ?_)
  refine Run.bind ((checkInputs4_run h hR).mono fun _ z3 h3 => ?_)
  refine Run.bind ((Run.mapU fun t ht => checkSchedule4_run h0 h (List.mem_range.1 ht)).mono fun _ z4 h4 => ?_)
  refine Run.bind ((Run.forG (Inv := fun i R => RegRep w R (trace4 w x i)) hR
    fun i hi R hR => writeRound4_run h hi hR).mono fun R' z5 ⟨h5, hR'⟩ => ?_)
  refine Run.bind ((Run.mapU (C := fun p => ∃ (i : ℕ), p.2 = (381 + i, theInputs4.HoutBits.getD i []) ∧
    (((x.Ho i).toNat : F) - (w p.1 + w (381 + i))) * w 36 = 0) fun p hp => ?_).mono fun _ z6 h6 => ?_)
  · obtain ⟨i, hi, hp⟩ : ∃ i < 8, p.2 = (381 + i, theInputs4.HoutBits.getD i []) := by
      have hp2 := (List.of_mem_zip (a := p.1) (b := p.2) hp).2
      have := (forall_zip (n := 8) (l := theInputs4.H) (l' := theInputs4.HoutBits) (C := fun p => ∃ i < 8, p =
        (381 + i, theInputs4.HoutBits.getD i [])) (by simp [theInputs4]) (by simp [theInputs4, vecs]) 0 []).2 (fun i hi =>
          ⟨i, hi, by rw [show theInputs4.H.getD i 0 = 381 + i from getD_range' hi]⟩)
      exact this _ hp2
    obtain ⟨q, p2⟩ := p
    simp only at hp
    subst hp
    unfold checkOut4
    simp only [bind_def]
    refine Run.bind (Run.gate fun u hu => ?_)
    refine Run.bind ((testBitvecFieldIf_run (h.Ho i hi) (by decide)).mono fun t z ⟨hz, ht⟩ => Run.roundTest ?_)
    rw [ht, hu]
    simp only [opValue, hz, true_and]
    refine ⟨fun hh => ⟨i, rfl, hh⟩, ?_⟩
    rintro ⟨j, hj, hh⟩
    have : i = j := by have := congrArg Prod.fst hj; simp only at this; omega
    subst this; exact hh
  refine Run.pure ?_
  rw [forall_zip (n := 8) rfl (by simp [theInputs4, vecs]) 0 (0, [])] at h6
  have e6 : (∀ i < 8, ∃ j, (theInputs4.H.zip theInputs4.HoutBits).getD i (0, []) = (381 + j, theInputs4.HoutBits.getD j []) ∧
      (((x.Ho j).toNat : F) - (w ([R'.a, R'.b, R'.c, R'.d, R'.e, R'.f, R'.g, R'.h].getD i 0) + w (381 + j))) * w 36 = 0) ↔
      ∀ i < 8, (((x.Ho i).toNat : F) - ((trace4 w x 4).field i + w (381 + i))) * w 36 = 0 :=
    forall₂_congr fun i hi => by
      have e : (theInputs4.H.zip theInputs4.HoutBits).getD i (0, []) = (381 + i, theInputs4.HoutBits.getD i []) := by
        interval_cases i <;> rfl
      rw [hR'.field i hi, e]
      refine ⟨?_, fun hh => ⟨i, rfl, hh⟩⟩
      rintro ⟨j, hj, hh⟩
      have : i = j := by have := congrArg Prod.fst hj; simp only at this; omega
      subst this; exact hh
  have t2 := h2.2 h.bits
  rw [h3, h4, h5, h6, e6]
  simp only [h1, t2, true_and, and_true, List.mem_range]
  constructor
  · rintro ⟨⟨a1, a2, a3, a4, a5⟩, a6, a7, a8⟩
    refine ⟨a1, a2, a3, a4, a5 0 (by decide), fun i h1 h2 => ?_, a6, fun i hi => ?_, fun i hi => ?_, a8⟩
    · have := a5 i h2
      rwa [if_neg (by omega)] at this
    · exact (a7 i hi).1
    · exact (a7 i hi).2
  · rintro ⟨a1, a2, a3, a4, a5, a5', a6, a7, a7', a8⟩
    refine ⟨⟨a1, a2, a3, a4, fun i hi => ?_⟩, a6, fun i hi => ?_, a8⟩
    · split_ifs with h0
      · exact a5
      · exact a5' i (by omega) hi
    · exact ⟨a7 i hi, a7' i hi⟩

theorem writeBody4_bits : Run w (writeBody4 theInputs4) fun _ z => z → ∀ l ∈ allVecs, ∀ i ∈ l, w i = 0 ∨ w i = 1 := by
  unfold writeBody4
  simp only [bind_def, pure_def]
  refine Run.bind (Run.trivial.mono fun R z1 _ => ?_)
  refine Run.bind (checkBits4_run.mono fun _ z2 h2 => ?_)
  exact Run.trivial.mono fun _ z3 _ hz => h2.1 hz.2.1

end
end Libra.Sha256Gen
