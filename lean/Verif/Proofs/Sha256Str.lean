import Verif.Proofs.Sha256Run

/-!
# The SHA-256 program is a straight-line program
-/

namespace Libra.Sha256Gen
open Compiler Spec

/-- a line that defines variable `v` from variables with smaller numbers -/
def LineOk (v : ℕ) : Stmt → Prop
  | .gate _ t a b => t = v ∧ a < v ∧ b < v
  | .expSum t a b => t = v ∧ b < v ∧ a ≤ b ∧ b ≤ a + 62
  | .bit t a b => t = v ∧ a < v ∧ b < v
  | _ => False

/-- the lines define the variables from `v` on, in this order -/
def Straight : ℕ → List Stmt → Prop
  | _, [] => True
  | v, s :: l => LineOk v s ∧ Straight (v + 1) l

theorem Straight.append : ∀ {v : ℕ} {l l' : List Stmt}, Straight v l → Straight (v + l.length) l' → Straight v (l ++ l')
  | _, [], _, _, h' => h'
  | v, s :: l, l', h, h' => ⟨h.1, Straight.append h.2 (by rwa [List.length_cons, Nat.add_comm l.length, ← Nat.add_assoc] at h')⟩

/-- Started with `v`, `g` succeeds and writes straight-line code; the result and the new `v` satisfy `Q`. -/
def Emits {α : Type} (v : ℕ) (g : Gen α) (Q : α → ℕ → Prop) : Prop :=
  ∃ a L, g v = .ok (a, v + L.lines.length, L) ∧ L.inVals = [] ∧ Straight v L.lines ∧
    (∀ t ∈ L.roundTests ++ L.bitTests, t < v + L.lines.length) ∧ Q a (v + L.lines.length)

variable {α β : Type} {v : ℕ}

theorem Emits.mono {g : Gen α} {Q Q' : α → ℕ → Prop} (h : Emits v g Q) (hq : ∀ a v', v ≤ v' → Q a v' → Q' a v') :
    Emits v g Q' := by
  obtain ⟨a, L, h1, h2, h3, h4, h5⟩ := h
  exact ⟨a, L, h1, h2, h3, h4, hq _ _ (Nat.le_add_right _ _) h5⟩

theorem Emits.pure {a : α} {Q : α → ℕ → Prop} (h : Q a v) : Emits v (Gen.pure a) Q :=
  ⟨a, {}, rfl, rfl, True.intro, by simp, h⟩

theorem Emits.bind {g : Gen α} {f : α → Gen β} {Q : β → ℕ → Prop}
    (h : Emits v g fun a v' => Emits v' (f a) Q) : Emits v (Gen.bind g f) Q := by
  obtain ⟨a, L, h1, h2, h3, h4, b, L', k1, k2, k3, k4, k5⟩ := h
  have e : v + (L.append L').lines.length = v + L.lines.length + L'.lines.length := by
    rw [Log.append, List.length_append, Nat.add_assoc]
  refine ⟨b, L.append L', ?_, ?_, ?_, ?_, ?_⟩
  · rw [Gen.bind, h1]
    show ((f a (v + L.lines.length)).bind fun s => .ok (s.1, s.2.1, L.append s.2.2)) = _
    rw [k1, e]
    rfl
  · rw [Log.append, h2, k2]; rfl
  · exact h3.append k3
  · rw [e]
    intro t ht
    simp only [Log.append, List.mem_append] at ht h4 k4
    rcases ht with (ht | ht) | (ht | ht)
    · exact (h4 t (.inl ht)).trans_le (Nat.le_add_right _ _)
    · exact k4 t (.inl ht)
    · exact (h4 t (.inr ht)).trans_le (Nat.le_add_right _ _)
    · exact k4 t (.inr ht)
  · rw [e]; exact k5

theorem Emits.define {s : ℕ → Stmt} {Q : ℕ → ℕ → Prop} (hs : LineOk v (s v)) (h : Q v (v + 1)) :
    Emits v (Sha256Gen.define s) Q :=
  ⟨v, { lines := [s v] }, rfl, rfl, ⟨hs, True.intro⟩, by simp, h⟩

theorem Emits.gate {op : Op} {a b : ℕ} {Q : ℕ → ℕ → Prop} (ha : a < v) (hb : b < v) (h : Q v (v + 1)) :
    Emits v (Sha256Gen.gate op a b) Q :=
  Emits.define ⟨rfl, ha, hb⟩ h

theorem Emits.assertThat {c : Bool} {Q : Unit → ℕ → Prop} (hc : c = true) (h : Q () v) :
    Emits v (Sha256Gen.assertThat c) Q := by
  subst hc
  exact ⟨(), {}, rfl, rfl, True.intro, by simp, h⟩

theorem Emits.roundTest {t : ℕ} {Q : Unit → ℕ → Prop} (ht : t < v) (h : Q () v) :
    Emits v (Sha256Gen.roundTest t) Q :=
  ⟨(), { roundTests := [t] }, rfl, rfl, True.intro, by simpa using ht, h⟩

theorem Emits.bitTest {ts : List ℕ} {Q : Unit → ℕ → Prop} (ht : ∀ t ∈ ts, t < v) (h : Q () v) :
    Emits v (Sha256Gen.bitTest ts) Q :=
  ⟨(), { bitTests := ts }, rfl, rfl, True.intro, by simpa using ht, h⟩

/-- a loop whose body writes one line -/
theorem Emits.mapG_one {s : α → ℕ → Stmt} {xs : List α} (h : ∀ x ∈ xs, ∀ v', v ≤ v' → LineOk v' (s x v')) :
    Emits v (mapG (fun x => Sha256Gen.define (s x)) xs) fun ys v' => ys = List.range' v xs.length ∧ v' = v + xs.length := by
  induction xs generalizing v with
  | nil => exact Emits.pure ⟨rfl, rfl⟩
  | cons x xs ih =>
    refine Emits.bind (Emits.define (h x List.mem_cons_self v (Nat.le_refl v)) ?_)
    refine Emits.bind ((ih fun x' hx' v' hv' => h x' (List.mem_cons_of_mem _ hx') v' ?_).mono ?_)
    · omega
    · rintro ys v' - ⟨rfl, rfl⟩
      exact Emits.pure ⟨by rw [List.length_cons, List.range'_succ], by rw [List.length_cons]; omega⟩

theorem Emits.mapG_gate {op : Op} {x y : List ℕ} (hx : ∀ i ∈ x, i < v) (hy : ∀ i ∈ y, i < v) :
    Emits v (mapG (fun p => Sha256Gen.gate op p.1 p.2) (x.zip y)) fun ys v' =>
      ys = List.range' v (min x.length y.length) ∧ v' = v + min x.length y.length := by
  have := Emits.mapG_one (v := v) (s := fun (p : ℕ × ℕ) u => Stmt.gate op u p.1 p.2) (xs := x.zip y) fun p hp v' hv' =>
    ⟨rfl, (hx _ (List.of_mem_zip hp).1).trans_le hv', (hy _ (List.of_mem_zip hp).2).trans_le hv'⟩
  rw [List.length_zip] at this
  exact this

/-- a loop whose body does not use the results of earlier rounds -/
theorem Emits.mapG_all {f : α → Gen β} {Q : β → ℕ → Prop} {xs : List α} (hQ : ∀ b v v', v ≤ v' → Q b v → Q b v')
    (h : ∀ x ∈ xs, ∀ v', v ≤ v' → Emits v' (f x) Q) :
    Emits v (mapG f xs) fun ys v' => ys.length = xs.length ∧ ∀ y ∈ ys, Q y v' := by
  induction xs generalizing v with
  | nil => exact Emits.pure ⟨rfl, by simp⟩
  | cons x xs ih =>
    refine Emits.bind ((h x List.mem_cons_self v (Nat.le_refl v)).mono fun y v1 hv1 hy => ?_)
    refine Emits.bind ((ih fun x' hx' v' hv' => h x' (List.mem_cons_of_mem _ hx') v' (hv1.trans hv')).mono
      fun ys v2 hv2 ⟨hl, hys⟩ => Emits.pure ⟨by simp [hl], ?_⟩)
    intro z hz
    rcases List.mem_cons.1 hz with rfl | hz
    · exact hQ _ _ _ hv2 hy
    · exact hys z hz

theorem Emits.forG {σ : Type} {n : ℕ} {body : ℕ → σ → Gen σ} {s : σ} {Inv : σ → ℕ → Prop} (h0 : Inv s v)
    (h : ∀ i < n, ∀ s v', v ≤ v' → Inv s v' → Emits v' (body i s) Inv) : Emits v (forG n body s) Inv := by
  induction n with
  | zero => exact Emits.pure h0
  | succ n ih =>
    exact Emits.bind ((ih fun i hi => h i (by omega)).mono fun s' v' hv' hs' => h n (by omega) s' v' hv' hs')

/-! ### The functions -/

/-- a vector of `n` variables below `v` -/
def VecOk (n : ℕ) (x : List ℕ) (v : ℕ) : Prop := x.length = n ∧ ∀ i ∈ x, i < v

theorem VecOk.mono {n v v' : ℕ} {x : List ℕ} (h : VecOk n x v) (hv : v ≤ v') : VecOk n x v' :=
  ⟨h.1, fun i hi => (h.2 i hi).trans_le hv⟩

theorem vecOk_range' {a n v : ℕ} (h : a + n ≤ v) : VecOk n (List.range' a n) v :=
  ⟨List.length_range', fun i hi => by rw [List.mem_range'_1] at hi; omega⟩

theorem VecOk.take {n m : ℕ} {x : List ℕ} (h : VecOk n x v) (hm : m ≤ n) : VecOk m (x.take m) v :=
  ⟨by rw [List.length_take, h.1, min_eq_left hm], fun i hi => h.2 i (List.mem_of_mem_take hi)⟩

theorem VecOk.rotr {n : ℕ} {x : List ℕ} (h : VecOk n x v) {k : ℕ} (hk : k ≤ n) : VecOk n (rotr k x) v := by
  refine ⟨by rw [Sha256Gen.rotr, List.length_append, List.length_drop, List.length_take, h.1]; omega, fun i hi => ?_⟩
  rcases List.mem_append.1 hi with hi | hi
  · exact h.2 i (List.mem_of_mem_drop hi)
  · exact h.2 i (List.mem_of_mem_take hi)

theorem VecOk.shr {n : ℕ} {x : List ℕ} (h : VecOk n x v) {k : ℕ} (hk : k ≤ n) (h0 : 0 < v) : VecOk n (shr k x) v := by
  refine ⟨by rw [Sha256Gen.shr, List.length_append, List.length_drop, List.length_replicate, h.1]; omega, fun i hi => ?_⟩
  rcases List.mem_append.1 hi with hi | hi
  · exact h.2 i (List.mem_of_mem_drop hi)
  · rw [(List.mem_replicate.1 hi).2]; exact h0

/-- the result is a vector of consecutive variables -/
def Fresh (n : ℕ) (x : List ℕ) (v : ℕ) : Prop := ∃ a, x = List.range' a n ∧ a + n ≤ v

theorem Fresh.vec {n : ℕ} {x : List ℕ} (h : Fresh n x v) : VecOk n x v := by
  obtain ⟨a, rfl, h⟩ := h
  exact vecOk_range' h

theorem Fresh.mono {n v v' : ℕ} {x : List ℕ} (h : Fresh n x v) (hv : v ≤ v') : Fresh n x v' := by
  obtain ⟨a, rfl, h⟩ := h
  exact ⟨a, rfl, h.trans hv⟩

theorem Fresh.take {n m : ℕ} {x : List ℕ} (h : Fresh n x v) (hm : m ≤ n) : Fresh m (x.take m) v := by
  obtain ⟨a, rfl, h⟩ := h
  exact ⟨a, by rw [← Nat.add_sub_of_le hm, ← List.range'_append_1, List.take_left' List.length_range'], by omega⟩

theorem mapG_gate_emits {op : Op} {n : ℕ} {x y : List ℕ} (hx : VecOk n x v) (hy : VecOk n y v) :
    Emits v (mapG (fun p => gate op p.1 p.2) (x.zip y)) (Fresh n) :=
  (Emits.mapG_gate hx.2 hy.2).mono fun ys v' _ ⟨h1, h2⟩ => by
    rw [hx.1, hy.1, min_self] at h1 h2
    exact ⟨v, h1, h2.ge⟩

theorem writeXORS_emits {n : ℕ} {x y z : List ℕ} (hx : VecOk n x v) (hy : VecOk n y v) (hz : VecOk n z v) :
    Emits v (writeXORS x y z) (Fresh n) := by
  unfold writeXORS
  simp only [bind_def]
  exact Emits.bind ((mapG_gate_emits hx hy).mono fun u v1 h1 hu => mapG_gate_emits hu.vec (hz.mono h1))

theorem writeCH_emits {n : ℕ} {x y z : List ℕ} (hx : VecOk n x v) (hy : VecOk n y v) (hz : VecOk n z v) :
    Emits v (writeCH x y z) (Fresh n) := by
  unfold writeCH
  simp only [bind_def]
  refine Emits.bind ((mapG_gate_emits hx hy).mono fun u v1 h1 hu => ?_)
  exact Emits.bind ((mapG_gate_emits (hx.mono h1) (hz.mono h1)).mono fun u' v2 h2 hu' =>
    mapG_gate_emits (hu.vec.mono h2) hu'.vec)

theorem writeMAJ_emits {n : ℕ} {x y z : List ℕ} (hx : VecOk n x v) (hy : VecOk n y v) (hz : VecOk n z v) :
    Emits v (writeMAJ x y z) (Fresh n) := by
  unfold writeMAJ
  simp only [bind_def]
  refine Emits.bind ((Emits.mapG_all (Q := fun q v => q.1 < v ∧ q.2.1 < v ∧ q.2.2 < v)
    (fun b v v' hv h => by omega) fun p hp v' hv' => ?_).mono fun l v1 h1 ⟨hl, hlt⟩ => ?_)
  · obtain ⟨px, py, pz⟩ := p
    have e1 := (List.of_mem_zip hp).1
    have e2 := List.of_mem_zip (List.of_mem_zip hp).2
    have e1 := hx.2 _ e1
    have e3 := hy.2 _ e2.1
    have e4 := hz.2 _ e2.2
    unfold majBit
    simp only [bind_def, pure_def]
    refine Emits.bind (Emits.gate (by omega) (by omega) ?_)
    refine Emits.bind (Emits.gate (by omega) (by omega) ?_)
    refine Emits.bind (Emits.gate (by omega) (by omega) ?_)
    exact Emits.pure (by dsimp only; omega)
  · rw [List.length_zip, List.length_zip, hx.1, hy.1, hz.1, min_self, min_self] at hl
    refine writeXORS_emits ⟨by simpa using hl, ?_⟩ ⟨by simpa using hl, ?_⟩ ⟨by simpa using hl, ?_⟩
    all_goals
      intro i hi
      obtain ⟨q, hq, rfl⟩ := List.mem_map.1 hi
      have := hlt q hq
      tauto

theorem bigSigma0_emits {x : List ℕ} (hx : VecOk 32 x v) : Emits v (writeBigSigma0 x) (Fresh 32) :=
  writeXORS_emits (hx.rotr (by decide)) (hx.rotr (by decide)) (hx.rotr (by decide))

theorem bigSigma1_emits {x : List ℕ} (hx : VecOk 32 x v) : Emits v (writeBigSigma1 x) (Fresh 32) :=
  writeXORS_emits (hx.rotr (by decide)) (hx.rotr (by decide)) (hx.rotr (by decide))

theorem sigma0_emits {x : List ℕ} (hx : VecOk 32 x v) (h0 : 0 < v) : Emits v (writeSigma0 x) (Fresh 32) :=
  writeXORS_emits (hx.rotr (by decide)) (hx.rotr (by decide)) (hx.shr (by decide) h0)

theorem sigma1_emits {x : List ℕ} (hx : VecOk 32 x v) (h0 : 0 < v) : Emits v (writeSigma1 x) (Fresh 32) :=
  writeXORS_emits (hx.rotr (by decide)) (hx.rotr (by decide)) (hx.shr (by decide) h0)

theorem consecutive_range' : ∀ (n a : ℕ), consecutive (List.range' a n) = true
  | 0, _ => rfl
  | 1, _ => rfl
  | n + 2, a => by
    rw [List.range'_succ, List.range'_succ, consecutive, Bool.and_eq_true, decide_eq_true_iff]
    exact ⟨rfl, by rw [← List.range'_succ]; exact consecutive_range' (n + 1) (a + 1)⟩

/-- below the next variable -/
def Below (t v : ℕ) : Prop := t < v

theorem doAddition_emits {n : ℕ} {x : List ℕ} (hx : Fresh n x v) (h1 : 0 < n) (h2 : n ≤ 63) :
    Emits v (doAddition x) Below := by
  obtain ⟨a, rfl, ha⟩ := hx
  unfold doAddition
  simp only [bind_def]
  refine Emits.bind (Emits.assertThat (consecutive_range' n a) (Emits.define ?_ (Nat.lt_succ_self v)))
  obtain ⟨n, rfl⟩ := Nat.exists_eq_add_of_lt h1
  have e1 : (List.range' a (0 + n + 1)).headD 0 = a := by rw [List.range'_succ]; rfl
  have e2 : (List.range' a (0 + n + 1)).getLastD 0 = a + n := by rw [List.range'_concat]; simp
  rw [e1, e2]
  exact ⟨rfl, by omega, by omega, by omega⟩

theorem testFieldField_emits {f1 f2 : ℕ} (h1 : f1 < v) (h2 : f2 < v) : Emits v (testFieldField f1 f2) Below :=
  Emits.gate h1 h2 (Nat.lt_succ_self v)

theorem testBitvecField_emits {n : ℕ} {x : List ℕ} {f : ℕ} (hx : Fresh n x v) (h1 : 0 < n) (h2 : n ≤ 63) (hf : f < v) :
    Emits v (testBitvecField x f) Below := by
  unfold testBitvecField
  simp only [bind_def]
  exact Emits.bind ((doAddition_emits hx h1 h2).mono fun u v1 hv1 hu => testFieldField_emits hu (hf.trans_le hv1))

theorem verifyBits_emits {x : List ℕ} (hx : ∀ i ∈ x, i < v) : Emits v (verifyBits x) fun o v' => ∀ t ∈ o, t < v' := by
  refine (Emits.mapG_one (s := fun i v => .bit v i i) fun i hi v' hv' =>
    ⟨rfl, (hx i hi).trans_le hv', (hx i hi).trans_le hv'⟩).mono ?_
  rintro ys v' - ⟨rfl, rfl⟩ t ht
  rw [List.mem_range'_1] at ht
  exact ht.2

/-! ### The program -/

theorem fresh_inputs {a n v : ℕ} (h : a + n ≤ 7226) (hv : 7226 ≤ v) : Fresh n (List.range' a n) v := ⟨a, rfl, h.trans hv⟩

theorem fresh_word {i v : ℕ} (h1 : 1 ≤ i) (h2 : i < 64) (hv : 7226 ≤ v) :
    Fresh 32 ((theInputs.Wbits.getD i []).take 32) v := by
  by_cases hi : i < 16
  · rw [Wbits_early h1 hi]
    exact (fresh_inputs (by omega) hv).take (Nat.le_refl _)
  · rw [Wbits_late (by omega) h2]
    exact (fresh_inputs (by omega) hv).take (by decide)

/-- the working variables are defined -/
structure RegOk (R : Regs) (v : ℕ) : Prop where
  aBits : VecOk 32 (R.aBits.take 32) v
  bBits : VecOk 32 (R.bBits.take 32) v
  cBits : VecOk 32 (R.cBits.take 32) v
  eBits : VecOk 32 (R.eBits.take 32) v
  fBits : VecOk 32 (R.fBits.take 32) v
  gBits : VecOk 32 (R.gBits.take 32) v
  a : R.a < v
  b : R.b < v
  c : R.c < v
  d : R.d < v
  e : R.e < v
  f : R.f < v
  g : R.g < v
  h : R.h < v

theorem initialRegs_emits (hv : 7226 ≤ v) : Emits v (initialRegs theInputs) RegOk := by
  unfold initialRegs
  simp only [bind_def, pure_def]
  have hf : ∀ {a u : ℕ}, a + 32 ≤ 7226 → v ≤ u → Fresh 32 (List.range' a 32) u := fun h1 h2 =>
    fresh_inputs h1 (hv.trans h2)
  refine Emits.bind ((doAddition_emits (hf (by decide) (Nat.le_refl v)) (by decide) (by decide)).mono fun a v1 g1 ha => ?_)
  refine Emits.bind ((doAddition_emits (hf (by decide) (by omega)) (by decide) (by decide)).mono fun b v2 g2 hb => ?_)
  refine Emits.bind ((doAddition_emits (hf (by decide) (by omega)) (by decide) (by decide)).mono fun c v3 g3 hc => ?_)
  refine Emits.bind ((doAddition_emits (hf (by decide) (by omega)) (by decide) (by decide)).mono fun e v4 g4 he => ?_)
  refine Emits.bind ((doAddition_emits (hf (by decide) (by omega)) (by decide) (by decide)).mono fun f v5 g5 hf' => ?_)
  refine Emits.bind ((doAddition_emits (hf (by decide) (by omega)) (by decide) (by decide)).mono fun g v6 g6 hg => ?_)
  unfold Below at ha hb hc he hf' hg
  have ht : ∀ {a : ℕ}, a + 32 ≤ 7226 → VecOk 32 ((List.range' a 32).take 32) v6 := fun h1 =>
    ((hf h1 (by omega)).take (Nat.le_refl _)).vec
  have e3 : theInputs.H.getD 3 0 = 2277 := rfl
  have e7 : theInputs.H.getD 7 0 = 2281 := rfl
  refine Emits.pure ⟨ht (by decide), ht (by decide), ht (by decide), ht (by decide), ht (by decide), ht (by decide), ?_, ?_, ?_, ?_,
    ?_, ?_, ?_, ?_⟩ <;> dsimp only <;> omega

theorem checkVec_emits {x : List ℕ} (hx : ∀ i ∈ x, i < v) : Emits v (checkVec x) fun _ _ => True := by
  unfold checkVec
  simp only [bind_def]
  exact Emits.bind ((verifyBits_emits hx).mono fun o v1 _ ho => Emits.bitTest ho True.intro)

theorem checkW_emits {i : ℕ} (h1 : 1 ≤ i) (h2 : i < 64) (hv : 7226 ≤ v) : Emits v (checkW theInputs i) fun _ _ => True := by
  unfold checkW
  simp only [bind_def]
  have hlt : ∀ j ∈ theInputs.Wbits.getD i [], j < v := by
    intro j hj
    by_cases hi : i < 16
    · rw [Wbits_early h1 hi, List.mem_range'_1] at hj; omega
    · rw [Wbits_late (by omega) h2, List.mem_range'_1] at hj; omega
  have hW : theInputs.W.getD i 0 = 34 + i := getD_range' h2
  refine Emits.bind ((verifyBits_emits hlt).mono fun o v1 g1 ho => ?_)
  refine Emits.bind (Emits.bitTest ho ?_)
  refine Emits.bind ((testBitvecField_emits (fresh_word h1 h2 (hv.trans g1)) (by decide) (by decide) (by omega)).mono
    fun t v2 g2 ht => Emits.roundTest ht True.intro)

theorem checkSchedule_emits {t : ℕ} (h1 : 16 ≤ t) (h2 : t < 64) (hv : 7226 ≤ v) :
    Emits v (checkSchedule theInputs t) fun _ _ => True := by
  unfold checkSchedule
  simp only [bind_def]
  have hW : ∀ j < 64, theInputs.W.getD j 0 = 34 + j := fun j hj => getD_range' hj
  rw [hW _ (by omega), hW _ (by omega)]
  refine Emits.bind ((sigma0_emits (fresh_word (by omega) (by omega) hv).vec (by omega)).mono fun s0 v1 g1 hs0 => ?_)
  refine Emits.bind ((sigma1_emits (fresh_word (by omega) (by omega) (by omega)).vec (by omega)).mono fun s1 v2 g2 hs1 => ?_)
  refine Emits.bind ((doAddition_emits (hs0.mono g2) (by decide) (by decide)).mono fun u0 v3 g3 hu0 => ?_)
  refine Emits.bind ((doAddition_emits (hs1.mono g3) (by decide) (by decide)).mono fun u1 v4 g4 hu1 => ?_)
  unfold Below at hu0 hu1
  refine Emits.bind (Emits.gate (by omega) (by omega) ?_)
  refine Emits.bind (Emits.gate (by omega) (by omega) ?_)
  refine Emits.bind (Emits.gate (by omega) (by omega) ?_)
  rw [Wbits_late h1 h2]
  refine Emits.bind ((testBitvecField_emits (fresh_inputs (by omega) (by omega)) (by decide) (by decide) (by omega)).mono
    fun t v2 g2 ht => Emits.roundTest ht True.intro)

theorem RegOk.mono {R : Regs} {v v' : ℕ} (h : RegOk R v) (hv : v ≤ v') : RegOk R v' :=
  ⟨h.aBits.mono hv, h.bBits.mono hv, h.cBits.mono hv, h.eBits.mono hv, h.fBits.mono hv, h.gBits.mono hv,
    h.a.trans_le hv, h.b.trans_le hv, h.c.trans_le hv, h.d.trans_le hv, h.e.trans_le hv, h.f.trans_le hv,
    h.g.trans_le hv, h.h.trans_le hv⟩

theorem writeRound_emits {i : ℕ} (hi : i < 64) (hv : 7226 ≤ v) {R : Regs} (hR : RegOk R v) :
    Emits v (writeRound theInputs i R) RegOk := by
  unfold writeRound
  simp only [bind_def, pure_def]
  have hK : theInputs.K.getD i 0 = 2210 + i := getD_range' hi
  have hW : theInputs.W.getD i 0 = 34 + i := getD_range' hi
  have hA : theInputs.aout.getD i [] = List.range' (2746 + 35 * i) 35 := getD_vecs hi
  have hE : theInputs.eout.getD i [] = List.range' (4986 + 35 * i) 35 := getD_vecs hi
  rw [hK, hW, hA, hE]
  refine Emits.bind ((bigSigma0_emits hR.aBits).mono fun s0 v1 g1 hs0 => ?_)
  have hR := hR.mono g1
  refine Emits.bind ((bigSigma1_emits hR.eBits).mono fun s1 v2 g2 hs1 => ?_)
  have hR := hR.mono g2
  refine Emits.bind ((writeMAJ_emits hR.aBits hR.bBits hR.cBits).mono fun mj v3 g3 hmj => ?_)
  have hR := hR.mono g3
  refine Emits.bind ((writeCH_emits hR.eBits hR.fBits hR.gBits).mono fun ch v4 g4 hch => ?_)
  have hR := hR.mono g4
  refine Emits.bind ((doAddition_emits (hs0.mono (by omega)) (by decide) (by decide)).mono fun u0 v5 g5 hu0 => ?_)
  refine Emits.bind ((doAddition_emits (hs1.mono (by omega)) (by decide) (by decide)).mono fun u1 v6 g6 hu1 => ?_)
  refine Emits.bind ((doAddition_emits (hmj.mono (by omega)) (by decide) (by decide)).mono fun u2 v7 g7 hu2 => ?_)
  refine Emits.bind ((doAddition_emits (hch.mono (by omega)) (by decide) (by decide)).mono fun u3 v8 g8 hu3 => ?_)
  have hR := hR.mono (g5.trans (g6.trans (g7.trans g8)))
  have hd := hR.d
  have hh := hR.h
  unfold Below at hu0 hu1 hu2 hu3
  refine Emits.bind (Emits.gate (by omega) (by omega) ?_)
  refine Emits.bind (Emits.gate (by omega) (by omega) ?_)
  refine Emits.bind (Emits.gate (by omega) (by omega) ?_)
  refine Emits.bind (Emits.gate (by omega) (by omega) ?_)
  refine Emits.bind (Emits.gate (by omega) (by omega) ?_)
  refine Emits.bind (Emits.gate (by omega) (by omega) ?_)
  refine Emits.bind (Emits.gate (by omega) (by omega) ?_)
  refine Emits.bind (Emits.gate (by omega) (by omega) ?_)
  refine Emits.bind (Emits.gate (by omega) (by omega) ?_)
  refine Emits.bind ((testBitvecField_emits (fresh_inputs (by omega) (by omega)) (by decide) (by decide) (by omega)).mono
    fun t1 v9 g9 ht1 => ?_)
  refine Emits.bind (Emits.roundTest ht1 ?_)
  refine Emits.bind ((testBitvecField_emits (fresh_inputs (by omega) (by omega)) (by decide) (by decide) (by omega)).mono
    fun t2 v10 g10 ht2 => ?_)
  refine Emits.bind (Emits.roundTest ht2 ?_)
  have fA : ∀ u, 7226 ≤ u → Fresh 32 ((List.range' (2746 + 35 * i) 35).take 32) u := fun u hu =>
    (fresh_inputs (by omega) hu).take (by decide)
  have fE : ∀ u, 7226 ≤ u → Fresh 32 ((List.range' (4986 + 35 * i) 35).take 32) u := fun u hu =>
    (fresh_inputs (by omega) hu).take (by decide)
  refine Emits.bind ((doAddition_emits (fE _ (by omega)) (by decide) (by decide)).mono fun e v11 g11 he => ?_)
  refine Emits.bind ((doAddition_emits (fA _ (by omega)) (by decide) (by decide)).mono fun a v12 g12 ha => ?_)
  have hR := hR.mono (show v8 ≤ v12 by omega)
  unfold Below at he ha
  exact Emits.pure ⟨(fA _ (by omega)).vec, hR.aBits, hR.bBits, (fE _ (by omega)).vec, hR.eBits, hR.fBits,
    ha, hR.a, hR.b, hR.c, he.trans_le g12, hR.e, hR.f, hR.g⟩

theorem checkInputs_emits (hv : 7226 ≤ v) {R : Regs} (hR : RegOk R v) : Emits v (checkInputs theInputs R) fun _ _ => True := by
  unfold checkInputs
  simp only [bind_def, pure_def]
  have hvec : ∀ {a n k : ℕ}, a + k * n ≤ 7226 → ∀ {v1}, v ≤ v1 →
      Emits v1 (mapG checkVec (vecs a n k)) fun _ _ => True := by
    intro a n k hk v1 hv1
    refine (Emits.mapG_all (Q := fun _ _ => True) (fun _ _ _ _ _ => True.intro) fun x hx v' hv' => checkVec_emits ?_).mono
      fun _ _ _ _ => True.intro
    obtain ⟨j, hj, rfl⟩ := List.mem_map.1 hx
    rw [List.mem_range] at hj
    have := Nat.mul_le_mul_left k (Nat.succ_le_of_lt hj)
    rw [Nat.mul_succ] at this
    intro i hi
    rw [List.mem_range'_1] at hi
    omega
  refine Emits.bind ((Emits.mapG_all (Q := fun _ _ => True) (fun _ _ _ _ _ => True.intro) fun i hi v' hv' => ?_).mono
    fun _ v1 g1 _ => ?_)
  · rw [List.mem_range'_1] at hi
    exact checkW_emits hi.1 (by omega) (by omega)
  refine Emits.bind ((hvec (by decide) (by omega)).mono fun _ v2 g2 _ => ?_)
  refine Emits.bind ((Emits.mapG_all (Q := fun _ _ => True) (fun _ _ _ _ _ => True.intro) fun x hx v' hv' =>
    checkVec_emits ?_).mono fun _ v3 g3 _ => ?_)
  · intro i hi
    simp only [List.mem_cons, List.not_mem_nil, or_false] at hx
    rcases hx with rfl | rfl | rfl | rfl | rfl | rfl <;> simp only [theInputs, List.mem_range'_1] at hi <;> omega
  refine Emits.bind ((hvec (by decide) (by omega)).mono fun _ v4 g4 _ => ?_)
  refine Emits.bind ((hvec (by decide) (by omega)).mono fun _ v5 g5 _ => ?_)
  refine Emits.bind ((Emits.mapG_all (Q := fun _ _ => True) (fun _ _ _ _ _ => True.intro) fun p hp v' hv' => ?_).mono
    fun _ v6 g6 _ => ?_)
  · have e1 := (List.of_mem_zip (a := p.1) (b := p.2) hp).1
    have e2 := (List.of_mem_zip (a := p.1) (b := p.2) hp).2
    have b1 : p.1 < v' := by
      have := hR.a; have := hR.b; have := hR.c; have := hR.e; have := hR.f; have := hR.g
      simp only [List.mem_cons, List.not_mem_nil, or_false] at e1
      omega
    have b2 : p.2 < v' := by
      have : p.2 ∈ List.range' 2274 8 := by
        rcases List.mem_append.1 e2 with e | e
        · exact List.mem_of_mem_take e
        · exact List.mem_of_mem_drop (List.mem_of_mem_take e)
      rw [List.mem_range'_1] at this
      omega
    exact Emits.bind ((testFieldField_emits b1 b2).mono fun t _ _ ht => Emits.roundTest ht True.intro)
  refine Emits.bind ((Emits.mapG_all (Q := fun _ _ => True) (fun _ _ _ _ _ => True.intro) fun p hp v' hv' => ?_).mono
    fun _ v7 g7 _ => Emits.pure True.intro)
  have e1 := (List.of_mem_zip (a := p.1) (b := p.2) hp).1
  have e2 := (List.of_mem_zip (a := p.1) (b := p.2) hp).2
  obtain ⟨j, hj, e1⟩ := List.mem_map.1 e1
  rw [List.mem_range] at hj
  rw [← e1]
  have e2 : p.2 ∈ List.range' 2282 8 := e2
  rw [List.mem_range'_1] at e2
  exact Emits.bind ((testBitvecField_emits (n := 32) ((fresh_inputs (by omega) (by omega)).take (by decide)) (by decide)
    (by decide) (by omega)).mono fun t _ _ ht => Emits.roundTest ht True.intro)

theorem writeBody_emits : Emits 7226 (writeBody theInputs) fun _ _ => True := by
  unfold writeBody
  simp only [bind_def, pure_def]
  refine Emits.bind ((initialRegs_emits (Nat.le_refl _)).mono fun R v1 g1 hR => ?_)
  refine Emits.bind ((checkInputs_emits g1 hR).mono fun _ v2 g2 _ => ?_)
  refine Emits.bind ((Emits.mapG_all (Q := fun _ _ => True) (fun _ _ _ _ _ => True.intro) fun t ht v' hv' => ?_).mono
    fun _ v3 g3 _ => ?_)
  · rw [List.mem_range'_1] at ht
    exact checkSchedule_emits ht.1 (by omega) (by omega)
  refine Emits.bind ((Emits.forG (hR.mono (g2.trans g3)) fun i hi R v' hv' hR => writeRound_emits hi (by omega) hR).mono
    fun R' v4 g4 hR' => ?_)
  refine Emits.bind ((Emits.mapG_all (Q := fun _ _ => True) (fun _ _ _ _ _ => True.intro) fun p hp v' hv' => ?_).mono
    fun _ v5 g5 _ => Emits.pure True.intro)
  have e1 := (List.of_mem_zip (a := p.1) (b := p.2) hp).1
  have e2 := (List.of_mem_zip (a := p.1) (b := p.2) hp).2
  have e3 := (List.of_mem_zip (a := p.2.1) (b := p.2.2) e2).1
  have e4 := (List.of_mem_zip (a := p.2.1) (b := p.2.2) e2).2
  obtain ⟨j, hj, e4⟩ := List.mem_map.1 e4
  rw [List.mem_range] at hj
  have e3 : p.2.1 ∈ List.range' 2274 8 := e3
  rw [List.mem_range'_1] at e3
  have b1 : p.1 < v' := by
    have := hR'.a; have := hR'.b; have := hR'.c; have := hR'.d; have := hR'.e; have := hR'.f; have := hR'.g; have := hR'.h
    simp only [List.mem_cons, List.not_mem_nil, or_false] at e1
    omega
  unfold checkOut
  simp only [bind_def]
  refine Emits.bind (Emits.gate b1 (by omega) ?_)
  rw [← e4]
  exact Emits.bind ((testBitvecField_emits (n := 33) (fresh_inputs (by omega) (by omega)) (by decide)
    (by decide) (by omega)).mono fun t _ _ ht => Emits.roundTest ht True.intro)

/-! ### Values for all variables -/

section
variable {F : Type} [CommRing F]

theorem holds_congr {s : Stmt} {v : ℕ} (hs : LineOk v s) {w w' : ℕ → F} (h : ∀ k ≤ v, w k = w' k) {inp inp' : ℕ → F} :
    Spec.Holds inp w s ↔ Spec.Holds inp' w' s := by
  cases s with
  | gate op t a b =>
    obtain ⟨rfl, ha, hb⟩ := hs
    simp only [Spec.Holds]
    rw [h _ (Nat.le_refl _), h _ ha.le, h _ hb.le]
  | expSum t a b =>
    obtain ⟨rfl, hb, -, -⟩ := hs
    simp only [Spec.Holds]
    rw [h _ (Nat.le_refl _), Finset.sum_congr rfl fun k hk => by
      rw [h k ((Finset.mem_Icc.1 hk).2.trans hb.le)]]
  | bit t a b =>
    obtain ⟨rfl, ha, hb⟩ := hs
    simp only [Spec.Holds]
    rw [h _ (Nat.le_refl _), h _ ha.le, h _ hb.le]
  | _ => exact hs.elim

/-- the value a line gives to its variable -/
theorem exists_value {s : Stmt} {v : ℕ} (hs : LineOk v s) (w : ℕ → F) :
    ∃ w', (∀ k < v, w' k = w k) ∧ Spec.Holds (fun _ => (0 : F)) w' s := by
  have upd : ∀ y, ∀ k < v, Function.update w v y k = w k := fun y k hk => Function.update_of_ne hk.ne _ _
  cases s with
  | gate op t a b =>
    obtain ⟨rfl, ha, hb⟩ := hs
    refine ⟨Function.update w t (opValue op (w a) (w b)), upd _, ?_⟩
    simp only [Spec.Holds]
    rw [Function.update_self, upd _ _ ha, upd _ _ hb]
  | expSum t a b =>
    obtain ⟨rfl, hb, -, -⟩ := hs
    refine ⟨Function.update w t (∑ k ∈ Finset.Icc a b, 2 ^ (k - a) * w k), upd _, ?_⟩
    simp only [Spec.Holds]
    rw [Function.update_self]
    exact Finset.sum_congr rfl fun k hk => by rw [upd _ _ ((Finset.mem_Icc.1 hk).2.trans_lt hb)]
  | bit t a b =>
    obtain ⟨rfl, ha, hb⟩ := hs
    refine ⟨Function.update w t (w a * (1 - w b)), upd _, ?_⟩
    simp only [Spec.Holds]
    rw [Function.update_self, upd _ _ ha, upd _ _ hb]
  | _ => exact hs.elim

/-- A straight-line program has values for all inputs. -/
theorem exists_values : ∀ {v : ℕ} {l : List Stmt}, Straight v l → ∀ w : ℕ → F, ∃ w', (∀ k < v, w' k = w k) ∧ Sat w' l
  | v, [], _, w => ⟨w, fun _ _ => rfl, fun _ h => by simp at h⟩
  | v, s :: l, h, w => by
    obtain ⟨w1, h1, h2⟩ := exists_value h.1 w
    obtain ⟨w2, h3, h4⟩ := exists_values h.2 w1
    refine ⟨w2, fun k hk => (h3 k (by omega)).trans (h1 k hk), ?_⟩
    intro s' hs'
    rcases List.mem_cons.1 hs' with rfl | hs'
    · exact (holds_congr h.1 fun k hk => h3 k (by omega)).2 h2
    · exact h4 s' hs'

end
end Libra.Sha256Gen
