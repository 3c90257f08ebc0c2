import Verif.Proofs.Sha256Program

/-!
# The SHA-256 program: the summands of every sum have the same depth
-/

namespace Libra.Sha256Gen
open Compiler Spec

/-- the depth of a line, for sums that of the first summand -/
def Weak (lv : ℕ → ℕ) : Stmt → Prop
  | .gate _ t a b => lv t = max (lv a) (lv b) + 1
  | .expSum t a _ => lv t = lv a + 1
  | .bit t a _ => lv t = lv a + 1
  | _ => True

theorem weak_congr {lv lv' : ℕ → ℕ} {v : ℕ} {s : Stmt} (h : LineOk v s) (e : ∀ k < v + 1, lv k = lv' k) :
    Weak lv s → Weak lv' s := by
  cases s with
  | gate op t a b => obtain ⟨rfl, ha, hb⟩ := h; simp only [Weak]; rw [e t (by omega), e a (by omega), e b (by omega)]; exact id
  | expSum t a b => obtain ⟨rfl, hb, hab, -⟩ := h; simp only [Weak]; rw [e t (by omega), e a (by omega)]; exact id
  | bit t a b => obtain ⟨rfl, ha, hb⟩ := h; simp only [Weak]; rw [e t (by omega), e a (by omega)]; exact id
  | _ => exact h.elim

theorem exists_depth {v : ℕ} {s : Stmt} (h : LineOk v s) (lv : ℕ → ℕ) : ∃ lv', (∀ k < v, lv' k = lv k) ∧ Weak lv' s := by
  have key : ∀ x, ∀ k < v, Function.update lv v x k = lv k := fun x k hk => Function.update_of_ne (by omega) _ _
  cases s with
  | gate op t a b =>
    obtain ⟨rfl, ha, hb⟩ := h
    exact ⟨Function.update lv t (max (lv a) (lv b) + 1), key _, by
      simp only [Weak]; rw [key _ a ha, key _ b hb, Function.update_self]⟩
  | expSum t a b =>
    obtain ⟨rfl, hb, hab, -⟩ := h
    exact ⟨Function.update lv t (lv a + 1), key _, by simp only [Weak]; rw [key _ a (by omega), Function.update_self]⟩
  | bit t a b =>
    obtain ⟨rfl, ha, hb⟩ := h
    exact ⟨Function.update lv t (lv a + 1), key _, by simp only [Weak]; rw [key _ a ha, Function.update_self]⟩
  | _ => exact h.elim

theorem exists_depths : ∀ {v : ℕ} {l : List Stmt}, Straight v l → ∀ lv : ℕ → ℕ, ∃ lv', (∀ k < v, lv' k = lv k) ∧
    ∀ s ∈ l, Weak lv' s
  | v, [], _, w => ⟨w, fun _ _ => rfl, fun _ h => by simp at h⟩
  | v, s :: l, h, w => by
    obtain ⟨w1, h1, h2⟩ := exists_depth h.1 w
    obtain ⟨w2, h3, h4⟩ := exists_depths h.2 w1
    refine ⟨w2, fun k hk => (h3 k (by omega)).trans (h1 k hk), ?_⟩
    intro s' hs'
    rcases List.mem_cons.1 hs' with rfl | hs'
    · exact weak_congr h.1 (fun k hk => (h3 k hk).symm) h2
    · exact h4 s' hs'

/-- What a run gives: if `lv` is the depth of the lines, for sums that of the first summand, then all summands have
the same depth, and `Q` holds of the result. -/
def Lev {α : Type} (lv : ℕ → ℕ) (g : Gen α) (Q : α → Prop) : Prop :=
  ∀ v a v' L, g v = .ok (a, v', L) → (∀ s ∈ L.lines, Weak lv s) → (∀ s ∈ L.lines, LevelOk lv s) ∧ Q a

variable {lv : ℕ → ℕ} {α β : Type}

theorem Lev.mono {g : Gen α} {Q Q' : α → Prop} (h : Lev lv g Q) (hq : ∀ a, Q a → Q' a) : Lev lv g Q' :=
  fun v a v' L e s => ⟨(h v a v' L e s).1, hq _ (h v a v' L e s).2⟩

theorem Lev.pure {a : α} {Q : α → Prop} (h : Q a) : Lev lv (Gen.pure a) Q := by
  rintro v b v' L e -
  obtain ⟨rfl, h2⟩ := Prod.mk.inj (Outcome.ok.inj e)
  obtain ⟨rfl, rfl⟩ := Prod.mk.inj h2
  exact ⟨by simp, h⟩

theorem Lev.bind {g : Gen α} {f : α → Gen β} {Q : β → Prop}
    (h : Lev lv g fun a => Lev lv (f a) Q) : Lev lv (Gen.bind g f) Q := by
  intro v b v' L e s
  unfold Gen.bind at e
  cases hg : g v with
  | ok r =>
    rw [hg] at e
    simp only [Outcome.bind] at e
    cases hf : f r.1 r.2.1 with
    | ok q =>
      rw [hf] at e
      obtain ⟨rfl, h2⟩ := Prod.mk.inj (Outcome.ok.inj e)
      obtain ⟨rfl, rfl⟩ := Prod.mk.inj h2
      have hs := List.forall_mem_append.1 s
      obtain ⟨h1, h2⟩ := h v r.1 r.2.1 r.2.2 hg hs.1
      obtain ⟨h3, h4⟩ := h2 r.2.1 q.1 q.2.1 q.2.2 hf hs.2
      exact ⟨List.forall_mem_append.2 ⟨h1, h3⟩, h4⟩
    | _ => rw [hf] at e; cases e
  | _ => rw [hg] at e; cases e

theorem Lev.define {s : ℕ → Stmt} {Q : ℕ → Prop} (h : ∀ v, Weak lv (s v) → LevelOk lv (s v) ∧ Q v) :
    Lev lv (define s) Q := by
  rintro v b v' L e hs
  obtain ⟨rfl, h2⟩ := Prod.mk.inj (Outcome.ok.inj e)
  obtain ⟨rfl, rfl⟩ := Prod.mk.inj h2
  obtain ⟨h1, h2⟩ := h v (hs (s v) (by simp))
  exact ⟨by simpa using h1, h2⟩

theorem Lev.gate {op : Op} {a b : ℕ} {Q : ℕ → Prop} (h : ∀ v, lv v = max (lv a) (lv b) + 1 → Q v) :
    Lev lv (gate op a b) Q := Lev.define fun v hv => ⟨hv, h v hv⟩

theorem Lev.gate' {op : Op} {a b : ℕ} : Lev lv (Sha256Gen.gate op a b) fun _ => True := Lev.gate fun _ _ => trivial

theorem Lev.roundTest {t : ℕ} : Lev lv (roundTest t) fun _ => True := by
  rintro v b v' L e -
  obtain ⟨rfl, h2⟩ := Prod.mk.inj (Outcome.ok.inj e)
  obtain ⟨rfl, rfl⟩ := Prod.mk.inj h2
  exact ⟨by simp, trivial⟩

theorem Lev.bitTest {ts : List ℕ} : Lev lv (bitTest ts) fun _ => True := by
  rintro v b v' L e -
  obtain ⟨rfl, h2⟩ := Prod.mk.inj (Outcome.ok.inj e)
  obtain ⟨rfl, rfl⟩ := Prod.mk.inj h2
  exact ⟨by simp, trivial⟩

theorem Lev.mapG {f : α → Gen β} {xs : List α} {Q : β → Prop} (h : ∀ x ∈ xs, Lev lv (f x) Q) :
    Lev lv (mapG f xs) fun ys => ys.length = xs.length ∧ ∀ y ∈ ys, Q y := by
  induction xs with
  | nil => exact Lev.pure ⟨rfl, by simp⟩
  | cons x xs ih =>
    refine Lev.bind ((h x (by simp)).mono fun y hy => Lev.bind ((ih fun x hx => h x (by simp [hx])).mono fun ys hys =>
      Lev.pure ⟨by simp [hys.1], ?_⟩))
    intro z hz
    rcases List.mem_cons.1 hz with rfl | hz
    · exact hy
    · exact hys.2 z hz

theorem Lev.forG {σ : Type} {n : ℕ} {body : ℕ → σ → Gen σ} {s : σ} {Inv : σ → Prop} (h0 : Inv s)
    (h : ∀ i < n, ∀ s, Inv s → Lev lv (body i s) Inv) : Lev lv (forG n body s) Inv := by
  induction n with
  | zero => exact Lev.pure h0
  | succ n ih => exact Lev.bind ((ih fun i hi => h i (by omega)).mono fun s hs => h n (by omega) s hs)

/-- all variables of a vector have depth `c` -/
def Flat (lv : ℕ → ℕ) (c : ℕ) (x : List ℕ) : Prop := ∀ i ∈ x, lv i = c

theorem Flat.take {c n : ℕ} {x : List ℕ} (h : Flat lv c x) : Flat lv c (x.take n) := fun i hi => h i (List.mem_of_mem_take hi)

theorem Flat.rotr {c k : ℕ} {x : List ℕ} (h : Flat lv c x) : Flat lv c (rotr k x) := by
  intro i hi
  rcases List.mem_append.1 hi with hi | hi
  · exact h i (List.mem_of_mem_drop hi)
  · exact h i (List.mem_of_mem_take hi)

theorem Flat.shr {k : ℕ} {x : List ℕ} (h : Flat lv 0 x) (h0 : lv 0 = 0) : Flat lv 0 (shr k x) := by
  intro i hi
  rcases List.mem_append.1 hi with hi | hi
  · exact h i (List.mem_of_mem_drop hi)
  · rw [(List.mem_replicate.1 hi).2]; exact h0

theorem Lev.gates {op : Op} {x y : List ℕ} {a b : ℕ} (hx : Flat lv a x) (hy : Flat lv b y) :
    Lev lv (Sha256Gen.mapG (fun p => Sha256Gen.gate op p.1 p.2) (x.zip y)) (Flat lv (max a b + 1)) := by
  refine (Lev.mapG (Q := fun i => lv i = max a b + 1) fun p hp => Lev.gate fun v hv => ?_).mono fun ys h => h.2
  rw [hv, hx _ (List.of_mem_zip hp).1, hy _ (List.of_mem_zip hp).2]

theorem writeXORS_lev {x y z : List ℕ} {a b c : ℕ} (hx : Flat lv a x) (hy : Flat lv b y) (hz : Flat lv c z) :
    Lev lv (writeXORS x y z) (Flat lv (max (max a b + 1) c + 1)) := by
  unfold writeXORS
  simp only [bind_def]
  exact Lev.bind ((Lev.gates hx hy).mono fun l hl => Lev.gates hl hz)

theorem writeCH_lev {x y z : List ℕ} (hx : Flat lv 0 x) (hy : Flat lv 0 y) (hz : Flat lv 0 z) :
    Lev lv (writeCH x y z) (Flat lv 2) := by
  unfold writeCH
  simp only [bind_def]
  exact Lev.bind ((Lev.gates hx hy).mono fun l hl => Lev.bind ((Lev.gates hx hz).mono fun l' hl' => Lev.gates hl hl'))

theorem writeMAJ_lev {x y z : List ℕ} (hx : Flat lv 0 x) (hy : Flat lv 0 y) (hz : Flat lv 0 z) :
    Lev lv (writeMAJ x y z) (Flat lv 3) := by
  unfold writeMAJ
  simp only [bind_def]
  refine Lev.bind ((Lev.mapG (Q := fun p : ℕ × ℕ × ℕ => lv p.1 = 1 ∧ lv p.2.1 = 1 ∧ lv p.2.2 = 1) fun p hp => ?_).mono fun l hl => ?_)
  · have h1 := List.of_mem_zip hp
    have h2 := List.of_mem_zip h1.2
    unfold majBit
    simp only [bind_def, pure_def]
    refine Lev.bind (Lev.gate fun u hu => Lev.bind (Lev.gate fun u' hu' => Lev.bind (Lev.gate fun u'' hu'' => Lev.pure ?_)))
    rw [hx _ h1.1, hy _ h2.1] at hu
    rw [hy _ h2.1, hz _ h2.2] at hu'
    rw [hx _ h1.1, hz _ h2.2] at hu''
    exact ⟨hu, hu', hu''⟩
  · refine writeXORS_lev (a := 1) (b := 1) (c := 1) ?_ ?_ ?_ <;> intro i hi <;> obtain ⟨p, hp, rfl⟩ := List.mem_map.1 hi
    · exact (hl.2 p hp).1
    · exact (hl.2 p hp).2.1
    · exact (hl.2 p hp).2.2

theorem doAddition_lev {x : List ℕ} {c : ℕ} (hx : Flat lv c x) : Lev lv (doAddition x) fun _ => True := by
  unfold doAddition
  simp only [bind_def]
  cases x with
  | nil =>
    refine Lev.bind ?_
    rintro v ⟨⟩ v' L e -
    obtain ⟨-, h2⟩ := Prod.mk.inj (Outcome.ok.inj e)
    obtain ⟨rfl, rfl⟩ := Prod.mk.inj h2
    refine ⟨by simp, Lev.define fun t ht => ⟨fun k _ hk2 => ?_, trivial⟩⟩
    have : k = 0 := by simpa using hk2
    rw [this]; exact ht
  | cons a l =>
    refine Lev.bind ?_
    rintro v ⟨⟩ v' L e -
    unfold assertThat at e
    split_ifs at e with hc
    obtain ⟨-, h2⟩ := Prod.mk.inj (Outcome.ok.inj e)
    obtain ⟨rfl, rfl⟩ := Prod.mk.inj h2
    refine ⟨by simp, Lev.define fun t ht => ?_⟩
    have he := consecutive_eq hc
    simp only [Weak, List.headD_cons] at ht
    rw [hx a (by simp)] at ht
    refine ⟨fun k hk1 hk2 => ?_, trivial⟩
    rw [ht, hx k]
    rw [List.headD_cons] at hk1
    rw [he] at hk2 ⊢
    rw [List.mem_range'_1]
    rw [List.getLastD_eq_getLast?, List.getLast?_range'] at hk2
    simp at hk2
    omega

theorem testBitvecField_lev {x : List ℕ} {c t : ℕ} (hx : Flat lv c x) : Lev lv (testBitvecField x t) fun _ => True := by
  unfold testBitvecField testFieldField
  simp only [bind_def]
  exact Lev.bind ((doAddition_lev hx).mono fun _ _ => Lev.gate')

theorem verifyBits_lev (x : List ℕ) : Lev lv (verifyBits x) fun _ => True := by
  unfold verifyBits
  refine (Lev.mapG (Q := fun _ => True) fun i _ => Lev.define fun v hv => ?_).mono fun _ _ => trivial
  exact ⟨show i = i ∧ lv v = lv i + 1 from ⟨rfl, hv⟩, trivial⟩

/-- the depth of the inputs is 0 -/
def Base (lv : ℕ → ℕ) : Prop := ∀ i < 7226, lv i = 0

theorem flat_range' {a n : ℕ} (h : Base lv) (ha : a + n ≤ 7226) : Flat lv 0 (List.range' a n) := by
  intro i hi
  rw [List.mem_range'_1] at hi
  exact h i (by omega)

theorem Wbits_flat (h : Base lv) {i : ℕ} (h1 : 1 ≤ i) (h2 : i < 64) : Flat lv 0 (theInputs.Wbits.getD i []) := by
  rcases Nat.lt_or_ge i 16 with h3 | h3
  · rw [Wbits_early h1 h3]; exact flat_range' h (by omega)
  · rw [Wbits_late h3 h2]; exact flat_range' h (by omega)

/-- the bits of the working variables -/
structure RegVecs (lv : ℕ → ℕ) (R : Regs) : Prop where
  a : Flat lv 0 R.aBits
  b : Flat lv 0 R.bBits
  c : Flat lv 0 R.cBits
  e : Flat lv 0 R.eBits
  f : Flat lv 0 R.fBits
  g : Flat lv 0 R.gBits

theorem initialRegs_lev (h : Base lv) : Lev lv (initialRegs theInputs) (RegVecs lv) := by
  have ha : Flat lv 0 theInputs.a := flat_range' h (by decide)
  have hb : Flat lv 0 theInputs.b := flat_range' h (by decide)
  have hc : Flat lv 0 theInputs.c := flat_range' h (by decide)
  have he : Flat lv 0 theInputs.e := flat_range' h (by decide)
  have hf : Flat lv 0 theInputs.f := flat_range' h (by decide)
  have hg : Flat lv 0 theInputs.g := flat_range' h (by decide)
  unfold initialRegs
  simp only [bind_def, pure_def]
  exact Lev.bind ((doAddition_lev ha).mono fun _ _ => Lev.bind ((doAddition_lev hb).mono fun _ _ =>
    Lev.bind ((doAddition_lev hc).mono fun _ _ => Lev.bind ((doAddition_lev he).mono fun _ _ =>
    Lev.bind ((doAddition_lev hf).mono fun _ _ => Lev.bind ((doAddition_lev hg).mono fun _ _ =>
      Lev.pure ⟨ha, hb, hc, he, hf, hg⟩))))))

theorem checkVec_lev (x : List ℕ) : Lev lv (checkVec x) fun _ => True := by
  unfold checkVec
  simp only [bind_def]
  exact Lev.bind ((verifyBits_lev x).mono fun _ _ => Lev.bitTest)

theorem Lev.each {f : α → Gen Unit} {xs : List α} (h : ∀ x ∈ xs, Lev lv (f x) fun _ => True) :
    Lev lv (Sha256Gen.mapG f xs) fun _ => True := (Lev.mapG h).mono fun _ _ => trivial

theorem vecs_flat (h : Base lv) {v n k : ℕ} (hv : v + k * n ≤ 7226) : ∀ x ∈ vecs v n k, Flat lv 0 x := by
  intro x hx
  obtain ⟨i, hi, rfl⟩ := List.mem_map.1 hx
  rw [List.mem_range] at hi
  refine flat_range' h ?_
  have : k * (i + 1) ≤ k * n := Nat.mul_le_mul_left _ hi
  rw [Nat.mul_add, mul_one] at this
  omega

theorem getD_flat (h : Base lv) {v n k i : ℕ} (hv : v + k * n ≤ 7226) : Flat lv 0 ((vecs v n k).getD i []) := by
  rw [List.getD_eq_getElem?_getD]
  cases hx : (vecs v n k)[i]? with
  | none => intro j hj; simp at hj
  | some x => exact vecs_flat h hv x (List.mem_of_getElem? hx)

theorem checkInputs_lev (h : Base lv) (R : Regs) : Lev lv (checkInputs theInputs R) fun _ => True := by
  unfold checkInputs
  simp only [bind_def, pure_def]
  refine Lev.bind ((Lev.each fun i hi => ?_).mono fun _ _ => ?_)
  · rw [List.mem_range'_1] at hi
    unfold checkW
    simp only [bind_def]
    exact Lev.bind ((verifyBits_lev _).mono fun _ _ => Lev.bind (Lev.bitTest.mono fun _ _ =>
      Lev.bind ((testBitvecField_lev (Wbits_flat h (by omega) (by omega)).take).mono fun _ _ => Lev.roundTest)))
  iterate 4 refine Lev.bind ((Lev.each fun x _ => checkVec_lev x).mono fun _ _ => ?_)
  refine Lev.bind ((Lev.each fun x _ => Lev.bind (Lev.gate'.mono fun _ _ => Lev.roundTest)).mono fun _ _ => ?_)
  refine Lev.bind ((Lev.each fun x hx => Lev.bind ((testBitvecField_lev (c := 0) ?_).mono fun _ _ => Lev.roundTest)).mono
    fun _ _ => Lev.pure trivial)
  exact (vecs_flat h (v := 2290) (n := 8) (k := 33) (by decide) _ (List.of_mem_zip hx).1).take

theorem checkSchedule_lev (h : Base lv) {r : ℕ} (h1 : 16 ≤ r) (h2 : r < 64) : Lev lv (checkSchedule theInputs r) fun _ => True := by
  have hz : lv 0 = 0 := h 0 (by decide)
  have h15 := (Wbits_flat h (i := r - 15) (by omega) (by omega)).take (n := 32)
  have h14 := (Wbits_flat h (i := r - 2) (by omega) (by omega)).take (n := 32)
  unfold checkSchedule writeSigma0 writeSigma1
  simp only [bind_def]
  refine Lev.bind ((writeXORS_lev h15.rotr h15.rotr (h15.shr hz)).mono fun s0 h0 => ?_)
  refine Lev.bind ((writeXORS_lev h14.rotr h14.rotr (h14.shr hz)).mono fun s1 h1 => ?_)
  refine Lev.bind ((doAddition_lev h0).mono fun _ _ => Lev.bind ((doAddition_lev h1).mono fun _ _ => ?_))
  iterate 3 refine Lev.bind (Lev.gate'.mono fun _ _ => ?_)
  exact Lev.bind ((testBitvecField_lev (Wbits_flat h (by omega) h2)).mono fun _ _ => Lev.roundTest)

theorem writeRound_lev (h : Base lv) {r : ℕ} {R : Regs} (hR : RegVecs lv R) : Lev lv (writeRound theInputs r R) (RegVecs lv) := by
  have hA : Flat lv 0 (theInputs.aout.getD r []) := getD_flat h (by decide)
  have hE : Flat lv 0 (theInputs.eout.getD r []) := getD_flat h (by decide)
  unfold writeRound writeBigSigma0 writeBigSigma1
  simp only [bind_def, pure_def]
  refine Lev.bind ((writeXORS_lev hR.a.take.rotr hR.a.take.rotr hR.a.take.rotr).mono fun s0 h0 => ?_)
  refine Lev.bind ((writeXORS_lev hR.e.take.rotr hR.e.take.rotr hR.e.take.rotr).mono fun s1 h1 => ?_)
  refine Lev.bind ((writeMAJ_lev hR.a.take hR.b.take hR.c.take).mono fun mj h2 => ?_)
  refine Lev.bind ((writeCH_lev hR.e.take hR.f.take hR.g.take).mono fun ch h3 => ?_)
  refine Lev.bind ((doAddition_lev h0).mono fun _ _ => Lev.bind ((doAddition_lev h1).mono fun _ _ =>
    Lev.bind ((doAddition_lev h2).mono fun _ _ => Lev.bind ((doAddition_lev h3).mono fun _ _ => ?_))))
  iterate 9 refine Lev.bind (Lev.gate'.mono fun _ _ => ?_)
  exact Lev.bind ((testBitvecField_lev hA).mono fun _ _ => Lev.bind (Lev.roundTest.mono fun _ _ =>
    Lev.bind ((testBitvecField_lev hE).mono fun _ _ => Lev.bind (Lev.roundTest.mono fun _ _ =>
    Lev.bind ((doAddition_lev hE.take).mono fun _ _ => Lev.bind ((doAddition_lev hA.take).mono fun _ _ =>
      Lev.pure ⟨hA, hR.a, hR.b, hE, hR.e, hR.f⟩))))))

theorem writeBody_lev (h : Base lv) : Lev lv (writeBody theInputs) fun _ => True := by
  unfold writeBody
  simp only [bind_def, pure_def]
  refine Lev.bind ((initialRegs_lev h).mono fun R hR => Lev.bind ((checkInputs_lev h R).mono fun _ _ =>
    Lev.bind ((Lev.each fun r hr => ?_).mono fun _ _ => Lev.bind ((Lev.forG hR fun i _ R hR => writeRound_lev h hR).mono fun R hR =>
    Lev.bind ((Lev.each fun x hx => ?_).mono fun _ _ => Lev.pure trivial)))))
  · rw [List.mem_range'_1] at hr
    exact checkSchedule_lev h (by omega) (by omega)
  · unfold checkOut
    simp only [bind_def]
    refine Lev.bind (Lev.gate'.mono fun _ _ => Lev.bind ((testBitvecField_lev (c := 0) ?_).mono fun _ _ => Lev.roundTest))
    exact vecs_flat h (v := 2290) (n := 8) (k := 33) (by decide) _ (List.of_mem_zip (List.of_mem_zip hx).2).2

end Libra.Sha256Gen
