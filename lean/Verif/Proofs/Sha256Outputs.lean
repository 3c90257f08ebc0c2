import Verif.Proofs.Sha256Levels
import Verif.Proofs.Outcome

/-!
# The SHA-256 program: its deepest variables

They are the tests of the new value of `a`, one for each round.
-/

namespace Libra.Sha256Gen
open Compiler Spec

/-- the variables of depth 9 -/
def tops (lv : ℕ → ℕ) (l : List Stmt) : List ℕ := (l.filterMap target).filter fun t => lv t = 9

theorem tops_append (lv : ℕ → ℕ) (l l' : List Stmt) : tops lv (l ++ l') = tops lv l ++ tops lv l' := by
  unfold tops
  rw [List.filterMap_append, List.filter_append]

/-- A run that only defines variables of depth less than 9. -/
def Low {α : Type} (lv : ℕ → ℕ) (g : Gen α) (Q : α → Prop) : Prop :=
  ∀ v a v' L, g v = .ok (a, v', L) → (∀ s ∈ L.lines, LevelOk lv s) → (∀ t ∈ L.lines.filterMap target, lv t ≤ 8) ∧ Q a

section
variable {lv : ℕ → ℕ} {α β : Type}

theorem Low.mono {g : Gen α} {Q Q' : α → Prop} (h : Low lv g Q) (hq : ∀ a, Q a → Q' a) : Low lv g Q' :=
  fun v a v' L e s => ⟨(h v a v' L e s).1, hq _ (h v a v' L e s).2⟩

theorem Low.pure {a : α} {Q : α → Prop} (h : Q a) : Low lv (Gen.pure a) Q := by
  rintro v b v' L e -
  obtain ⟨rfl, h2⟩ := Prod.mk.inj (Outcome.ok.inj e)
  obtain ⟨rfl, rfl⟩ := Prod.mk.inj h2
  exact ⟨by simp, h⟩

theorem Low.bind {g : Gen α} {f : α → Gen β} {Q : β → Prop}
    (h : Low lv g fun a => Low lv (f a) Q) : Low lv (Gen.bind g f) Q := by
  intro v b v' L e s
  unfold Gen.bind at e
  obtain ⟨⟨a, v1, L1⟩, h1, e⟩ := Outcome.bind_eq_ok' e
  obtain ⟨⟨b', v2, L2⟩, h2, e⟩ := Outcome.bind_eq_ok' e
  obtain ⟨rfl, e2⟩ := Prod.mk.inj (Outcome.ok.inj e)
  obtain ⟨rfl, rfl⟩ := Prod.mk.inj e2
  have hs := List.forall_mem_append.1 s
  obtain ⟨q1, q2⟩ := h v a v1 L1 h1 hs.1
  obtain ⟨q3, q4⟩ := q2 v1 b' v2 L2 h2 hs.2
  refine ⟨?_, q4⟩
  show ∀ t ∈ (L1.lines ++ L2.lines).filterMap target, lv t ≤ 8
  rw [List.filterMap_append]
  exact List.forall_mem_append.2 ⟨q1, q3⟩

theorem Low.define {s : ℕ → Stmt} {Q : ℕ → Prop} (hs : ∀ v, target (s v) = some v) (h : ∀ v, LevelOk lv (s v) → lv v ≤ 8 ∧ Q v) :
    Low lv (define s) Q := by
  rintro v b v' L e hl
  obtain ⟨rfl, h2⟩ := Prod.mk.inj (Outcome.ok.inj e)
  obtain ⟨rfl, rfl⟩ := Prod.mk.inj h2
  obtain ⟨h1, h2⟩ := h v (hl (s v) (by simp))
  refine ⟨?_, h2⟩
  simp only [List.filterMap_cons, hs, List.filterMap_nil, List.mem_singleton, forall_eq]
  exact h1

theorem Low.gate {op : Op} {a b : ℕ} (h : max (lv a) (lv b) ≤ 7) : Low lv (gate op a b) fun v => lv v = max (lv a) (lv b) + 1 :=
  Low.define (fun _ => rfl) fun v (hv : lv v = max (lv a) (lv b) + 1) => ⟨by omega, hv⟩

theorem Low.assertThat {c : Bool} : Low lv (assertThat c) fun _ => c = true := by
  intro v b v' L e _
  unfold Sha256Gen.assertThat at e
  split at e
  · next hc =>
    obtain ⟨-, h2⟩ := Prod.mk.inj (Outcome.ok.inj e)
    obtain ⟨rfl, rfl⟩ := Prod.mk.inj h2
    exact ⟨by simp, hc⟩
  · cases e

theorem Low.roundTest {t : ℕ} : Low lv (roundTest t) fun _ => True := by
  rintro v b v' L e -
  obtain ⟨rfl, h2⟩ := Prod.mk.inj (Outcome.ok.inj e)
  obtain ⟨rfl, rfl⟩ := Prod.mk.inj h2
  exact ⟨by simp, trivial⟩

theorem Low.bitTest {ts : List ℕ} : Low lv (bitTest ts) fun _ => True := by
  rintro v b v' L e -
  obtain ⟨rfl, h2⟩ := Prod.mk.inj (Outcome.ok.inj e)
  obtain ⟨rfl, rfl⟩ := Prod.mk.inj h2
  exact ⟨by simp, trivial⟩

theorem Low.mapG {f : α → Gen β} {xs : List α} {Q : β → Prop} (h : ∀ x ∈ xs, Low lv (f x) Q) :
    Low lv (mapG f xs) fun ys => ys.length = xs.length ∧ ∀ y ∈ ys, Q y := by
  induction xs with
  | nil => exact Low.pure ⟨rfl, by simp⟩
  | cons x xs ih =>
    refine Low.bind ((h x (by simp)).mono fun y hy => Low.bind ((ih fun x hx => h x (by simp [hx])).mono fun ys hys =>
      Low.pure ⟨by simp [hys.1], ?_⟩))
    intro z hz
    rcases List.mem_cons.1 hz with rfl | hz
    · exact hy
    · exact hys.2 z hz

theorem Low.each {f : α → Gen Unit} {xs : List α} (h : ∀ x ∈ xs, Low lv (f x) fun _ => True) :
    Low lv (Sha256Gen.mapG f xs) fun _ => True := (Low.mapG h).mono fun _ _ => trivial

theorem Low.gates {op : Op} {x y : List ℕ} {a b : ℕ} (hx : Flat lv a x) (hy : Flat lv b y) (hab : max a b ≤ 7) :
    Low lv (Sha256Gen.mapG (fun p => Sha256Gen.gate op p.1 p.2) (x.zip y)) (Flat lv (max a b + 1)) := by
  refine (Low.mapG (Q := fun i => lv i = max a b + 1) fun p hp => ?_).mono fun ys h => h.2
  have h1 := hx _ (List.of_mem_zip hp).1
  have h2 := hy _ (List.of_mem_zip hp).2
  exact (Low.gate (by rw [h1, h2]; exact hab)).mono fun v hv => by rw [hv, h1, h2]

theorem writeXORS_low {x y z : List ℕ} {a b c : ℕ} (hx : Flat lv a x) (hy : Flat lv b y) (hz : Flat lv c z)
    (h : max (max a b + 1) c ≤ 7) : Low lv (writeXORS x y z) (Flat lv (max (max a b + 1) c + 1)) := by
  unfold writeXORS
  simp only [bind_def]
  exact Low.bind ((Low.gates hx hy (by omega)).mono fun l hl => Low.gates hl hz h)

theorem writeCH_low {x y z : List ℕ} (hx : Flat lv 0 x) (hy : Flat lv 0 y) (hz : Flat lv 0 z) :
    Low lv (writeCH x y z) (Flat lv 2) := by
  unfold writeCH
  simp only [bind_def]
  exact Low.bind ((Low.gates hx hy (by decide)).mono fun l hl => Low.bind ((Low.gates hx hz (by decide)).mono fun l' hl' =>
    Low.gates hl hl' (by decide)))

theorem writeMAJ_low {x y z : List ℕ} (hx : Flat lv 0 x) (hy : Flat lv 0 y) (hz : Flat lv 0 z) :
    Low lv (writeMAJ x y z) (Flat lv 3) := by
  unfold writeMAJ
  simp only [bind_def]
  refine Low.bind ((Low.mapG (Q := fun p : ℕ × ℕ × ℕ => lv p.1 = 1 ∧ lv p.2.1 = 1 ∧ lv p.2.2 = 1) fun p hp => ?_).mono fun l hl => ?_)
  · have h1 := List.of_mem_zip hp
    have h2 := List.of_mem_zip h1.2
    have l1 : lv p.1 = 0 := hx _ h1.1
    have l2 : lv p.2.1 = 0 := hy _ h2.1
    have l3 : lv p.2.2 = 0 := hz _ h2.2
    unfold majBit
    simp only [bind_def, pure_def]
    refine Low.bind ((Low.gate (by omega)).mono fun u hu => Low.bind ((Low.gate (by omega)).mono fun u' hu' =>
      Low.bind ((Low.gate (by omega)).mono fun u'' hu'' => Low.pure ?_)))
    exact ⟨show lv u = 1 by omega, show lv u' = 1 by omega, show lv u'' = 1 by omega⟩
  · refine writeXORS_low (a := 1) (b := 1) (c := 1) ?_ ?_ ?_ (by decide) <;> intro i hi <;> obtain ⟨p, hp, rfl⟩ := List.mem_map.1 hi
    · exact (hl.2 p hp).1
    · exact (hl.2 p hp).2.1
    · exact (hl.2 p hp).2.2

theorem doAddition_low {x : List ℕ} {c : ℕ} (hx : Flat lv c x) (hne : x ≠ []) (hc : c ≤ 7) :
    Low lv (doAddition x) fun v => lv v = c + 1 := by
  unfold doAddition
  simp only [bind_def]
  refine Low.bind (Low.assertThat.mono fun _ hcons => Low.define (fun _ => rfl) fun v hv => ?_)
  obtain ⟨a, l, rfl⟩ := List.exists_cons_of_ne_nil hne
  have he := consecutive_eq hcons
  have hlast : a ≤ (a :: l).getLastD 0 := by
    rw [he, List.getLastD_eq_getLast?, List.getLast?_range']
    simp
  have : lv v = lv a + 1 := hv a (Nat.le_refl a) hlast
  rw [hx a (by simp)] at this
  exact ⟨by omega, this⟩

theorem testBitvecField_low {x : List ℕ} {c t : ℕ} (hx : Flat lv c x) (hne : x ≠ []) (hc : c ≤ 6) (ht : lv t ≤ 7) :
    Low lv (testBitvecField x t) fun _ => True := by
  unfold testBitvecField testFieldField
  simp only [bind_def]
  exact Low.bind ((doAddition_low hx hne (by omega)).mono fun u hu => (Low.gate (by omega)).mono fun _ _ => trivial)

theorem verifyBits_low {x : List ℕ} (hx : Flat lv 0 x) : Low lv (verifyBits x) fun _ => True := by
  unfold verifyBits
  refine (Low.mapG (Q := fun _ => True) fun i hi => Low.define (fun _ => rfl) fun v hv => ⟨?_, trivial⟩).mono fun _ _ => trivial
  have := hv.2
  rw [hx i hi] at this
  omega

/-- the depths of the working variables -/
structure RegLow (lv : ℕ → ℕ) (R : Regs) : Prop where
  vecs : RegVecs lv R
  a : lv R.a ≤ 1
  b : lv R.b ≤ 1
  c : lv R.c ≤ 1
  d : lv R.d ≤ 1
  e : lv R.e ≤ 1
  f : lv R.f ≤ 1
  g : lv R.g ≤ 1
  h : lv R.h ≤ 1

theorem ne_nil_range' {a n : ℕ} (h : n ≠ 0) : List.range' a n ≠ [] := by
  intro e
  have := congrArg List.length e
  rw [List.length_range'] at this
  exact h this

theorem initialRegs_low (h : Base lv) : Low lv (initialRegs theInputs) (RegLow lv) := by
  have ha : Flat lv 0 theInputs.a := flat_range' h (by decide)
  have hb : Flat lv 0 theInputs.b := flat_range' h (by decide)
  have hc : Flat lv 0 theInputs.c := flat_range' h (by decide)
  have he : Flat lv 0 theInputs.e := flat_range' h (by decide)
  have hf : Flat lv 0 theInputs.f := flat_range' h (by decide)
  have hg : Flat lv 0 theInputs.g := flat_range' h (by decide)
  unfold initialRegs
  simp only [bind_def, pure_def]
  refine Low.bind ((doAddition_low ha (ne_nil_range' (by decide)) (by decide)).mono fun _ h1 => ?_)
  refine Low.bind ((doAddition_low hb (ne_nil_range' (by decide)) (by decide)).mono fun _ h2 => ?_)
  refine Low.bind ((doAddition_low hc (ne_nil_range' (by decide)) (by decide)).mono fun _ h3 => ?_)
  refine Low.bind ((doAddition_low he (ne_nil_range' (by decide)) (by decide)).mono fun _ h4 => ?_)
  refine Low.bind ((doAddition_low hf (ne_nil_range' (by decide)) (by decide)).mono fun _ h5 => ?_)
  refine Low.bind ((doAddition_low hg (ne_nil_range' (by decide)) (by decide)).mono fun _ h6 => ?_)
  have hH : ∀ i < 8, lv (theInputs.H.getD i 0) ≤ 1 := fun i hi => by
    rw [show theInputs.H.getD i 0 = 2274 + i from getD_range' hi, h _ (by omega)]
    omega
  exact Low.pure ⟨⟨ha, hb, hc, he, hf, hg⟩, h1.le, h2.le, h3.le, hH 3 (by decide), h4.le, h5.le, h6.le, hH 7 (by decide)⟩

theorem checkVec_low {x : List ℕ} (hx : Flat lv 0 x) : Low lv (checkVec x) fun _ => True := by
  unfold checkVec
  simp only [bind_def]
  exact Low.bind ((verifyBits_low hx).mono fun _ _ => Low.bitTest)

theorem Wbits_ne {i : ℕ} (h1 : 1 ≤ i) (h2 : i < 64) : (theInputs.Wbits.getD i []).length ≥ 32 := by
  rcases Nat.lt_or_ge i 16 with h3 | h3
  · rw [Wbits_early h1 h3, List.length_range']
  · rw [Wbits_late h3 h2, List.length_range']; decide

theorem take_ne {x : List ℕ} (h : x.length ≥ 32) : x.take 32 ≠ [] := by
  intro e
  have := congrArg List.length e
  rw [List.length_take, List.length_nil] at this
  omega

theorem vecs_ne {v n k : ℕ} {x : List ℕ} (hx : x ∈ vecs v n k) : x.length = k := by
  obtain ⟨i, hi, rfl⟩ := List.mem_map.1 hx
  exact List.length_range'

theorem checkInputs_low (h : Base lv) {R : Regs} (hR : RegLow lv R) : Low lv (checkInputs theInputs R) fun _ => True := by
  unfold checkInputs
  simp only [bind_def, pure_def]
  refine Low.bind ((Low.each fun i hi => ?_).mono fun _ _ => ?_)
  · rw [List.mem_range'_1] at hi
    have hw := Wbits_flat h (i := i) (by omega) (by omega)
    have hW : lv (theInputs.W.getD i 0) ≤ 7 := by
      rw [show theInputs.W.getD i 0 = 34 + i from getD_range' (by omega), h _ (by omega)]
      omega
    unfold checkW
    simp only [bind_def]
    exact Low.bind ((verifyBits_low hw).mono fun _ _ => Low.bind (Low.bitTest.mono fun _ _ =>
      Low.bind ((testBitvecField_low hw.take (take_ne (Wbits_ne (by omega) (by omega))) (by decide) hW).mono fun _ _ => Low.roundTest)))
  refine Low.bind ((Low.each fun x hx => checkVec_low (vecs_flat h (v := 2290) (n := 8) (k := 33) (by decide) x hx)).mono fun _ _ => ?_)
  refine Low.bind ((Low.each fun x hx => checkVec_low ?_).mono fun _ _ => ?_)
  · simp only [List.mem_cons, List.not_mem_nil, or_false] at hx
    rcases hx with rfl | rfl | rfl | rfl | rfl | rfl <;> exact flat_range' h (by decide)
  refine Low.bind ((Low.each fun x hx => checkVec_low (vecs_flat h (v := 2746) (n := 64) (k := 35) (by decide) x hx)).mono fun _ _ => ?_)
  refine Low.bind ((Low.each fun x hx => checkVec_low (vecs_flat h (v := 4986) (n := 64) (k := 35) (by decide) x hx)).mono fun _ _ => ?_)
  refine Low.bind ((Low.each fun x hx => Low.bind ((Low.gate ?_).mono fun _ _ => Low.roundTest)).mono fun _ _ => ?_)
  · have h1 := (List.of_mem_zip hx).1
    have h2 := (List.of_mem_zip hx).2
    have e1 : lv x.1 ≤ 1 := by
      simp only [List.mem_cons, List.not_mem_nil, or_false] at h1
      rcases h1 with e | e | e | e | e | e <;> rw [e]
      exacts [hR.a, hR.b, hR.c, hR.e, hR.f, hR.g]
    have e2 : lv x.2 = 0 := by
      have : x.2 ∈ theInputs.H := by
        rcases List.mem_append.1 h2 with h2 | h2
        · exact List.mem_of_mem_take h2
        · exact List.mem_of_mem_drop (List.mem_of_mem_take h2)
      have := List.mem_range'_1.1 this
      exact h _ (by omega)
    omega
  refine Low.bind ((Low.each fun x hx => Low.bind ((testBitvecField_low (c := 0) ?_ ?_ (by decide) ?_).mono fun _ _ => Low.roundTest)).mono
    fun _ _ => Low.pure trivial)
  · exact (vecs_flat h (v := 2290) (n := 8) (k := 33) (by decide) _ (List.of_mem_zip hx).1).take
  · refine take_ne ?_
    rw [vecs_ne (v := 2290) (n := 8) (k := 33) (List.of_mem_zip hx).1]
    decide
  · have := List.mem_range'_1.1 (List.of_mem_zip hx).2
    rw [h _ (by omega)]
    decide

end

/-! ### With values -/

/-- What a run gives, if `lv` is the depth of its lines and `w` satisfies them: no variable has a depth of more than 9, and `Q` holds of the
result, the variables of depth 9 and the tests. -/
def Deep {F α : Type} [CommRing F] (lv : ℕ → ℕ) (w : ℕ → F) (g : Gen α) (Q : α → List ℕ → List ℕ → Prop) : Prop :=
  ∀ v a v' L, g v = .ok (a, v', L) → (∀ s ∈ L.lines, LevelOk lv s) → Sat w L.lines →
    (∀ t ∈ L.lines.filterMap target, lv t ≤ 9) ∧ Q a (tops lv L.lines) L.roundTests

section
variable {F α β : Type} [CommRing F] {lv : ℕ → ℕ} {w : ℕ → F}

theorem Deep.mono {g : Gen α} {Q Q' : α → List ℕ → List ℕ → Prop} (h : Deep lv w g Q) (hq : ∀ a T S, Q a T S → Q' a T S) : Deep lv w g Q' :=
  fun v a v' L e l s => ⟨(h v a v' L e l s).1, hq _ _ _ (h v a v' L e l s).2⟩

theorem Deep.bind {g : Gen α} {f : α → Gen β} {Q : β → List ℕ → List ℕ → Prop}
    (h : Deep lv w g fun a T S => Deep lv w (f a) fun b T' S' => Q b (T ++ T') (S ++ S')) : Deep lv w (Gen.bind g f) Q := by
  intro v b v' L e l s
  unfold Gen.bind at e
  obtain ⟨⟨a, v1, L1⟩, h1, e⟩ := Outcome.bind_eq_ok' e
  obtain ⟨⟨b', v2, L2⟩, h2, e⟩ := Outcome.bind_eq_ok' e
  obtain ⟨rfl, e2⟩ := Prod.mk.inj (Outcome.ok.inj e)
  obtain ⟨rfl, rfl⟩ := Prod.mk.inj e2
  have hl := List.forall_mem_append.1 l
  have hs := Sat.append.1 s
  obtain ⟨q1, q2⟩ := h v a v1 L1 h1 hl.1 hs.1
  obtain ⟨q3, q4⟩ := q2 v1 b' v2 L2 h2 hl.2 hs.2
  refine ⟨?_, ?_⟩
  · show ∀ t ∈ (L1.lines ++ L2.lines).filterMap target, lv t ≤ 9
    rw [List.filterMap_append]
    exact List.forall_mem_append.2 ⟨q1, q3⟩
  · rw [← tops_append] at q4
    exact q4

theorem tops_low {l : List Stmt} (h : ∀ t ∈ l.filterMap target, lv t ≤ 8) : tops lv l = [] := by
  unfold tops
  rw [List.filter_eq_nil_iff]
  intro t ht e
  have := h t ht
  rw [decide_eq_true_iff] at e
  omega

theorem Low.deep {g : Gen α} {Q : α → Prop} (h : Low lv g Q) : Deep lv w g fun a T _ => T = [] ∧ Q a := by
  intro v a v' L e l _
  obtain ⟨h1, h2⟩ := h v a v' L e l
  exact ⟨fun t ht => (h1 t ht).trans (by decide), tops_low h1, h2⟩

/-- depths and values -/
theorem Low.both {g : Gen α} {Q : α → Prop} {Q' : α → Prop → Prop} (h : Low lv g Q) (h' : Run w g Q') :
    Deep lv w g fun a T _ => T = [] ∧ Q a ∧ ∃ z, Q' a z := by
  intro v a v' L e l s
  obtain ⟨h1, h2⟩ := h v a v' L e l
  exact ⟨fun t ht => (h1 t ht).trans (by decide), tops_low h1, h2, _, h' v a v' L e s⟩

theorem Deep.pure {a : α} {Q : α → List ℕ → List ℕ → Prop} (h : Q a [] []) : Deep lv w (Gen.pure a) Q := by
  rintro v b v' L e - -
  obtain ⟨rfl, h2⟩ := Prod.mk.inj (Outcome.ok.inj e)
  obtain ⟨rfl, rfl⟩ := Prod.mk.inj h2
  exact ⟨by simp, h⟩

theorem Deep.roundTest {t : ℕ} : Deep lv w (roundTest t) fun _ T S => T = [] ∧ S = [t] := by
  rintro v b v' L e - -
  obtain ⟨rfl, h2⟩ := Prod.mk.inj (Outcome.ok.inj e)
  obtain ⟨rfl, rfl⟩ := Prod.mk.inj h2
  exact ⟨by simp, rfl, rfl⟩

/-- a gate of depth 9 -/
theorem Deep.top {op : Op} {a b : ℕ} (h : max (lv a) (lv b) = 8) :
    Deep lv w (gate op a b) fun v T S => T = [v] ∧ S = [] ∧ w v = opValue op (w a) (w b) := by
  intro v u v' L e hl hs
  obtain ⟨rfl, h2⟩ := Prod.mk.inj (Outcome.ok.inj e)
  obtain ⟨rfl, rfl⟩ := Prod.mk.inj h2
  have h1 : lv v = max (lv a) (lv b) + 1 := hl _ (List.mem_singleton.2 rfl)
  have h2 : w v = opValue op (w a) (w b) := hs _ (List.mem_singleton.2 rfl)
  have h9 : lv v = 9 := by omega
  refine ⟨?_, ?_, rfl, h2⟩
  · intro t ht
    simp only [List.filterMap_cons, target, List.filterMap_nil, List.mem_singleton] at ht
    rw [ht, h9]
  · simp [tops, target, h9]

end

section
variable {lv : ℕ → ℕ}

theorem doAddition_le {x : List ℕ} {c : ℕ} (hz : lv 0 = 0) (hx : Flat lv c x) (hc : c ≤ 7) :
    Low lv (doAddition x) fun v => lv v ≤ c + 1 := by
  cases x with
  | nil =>
    unfold doAddition
    simp only [bind_def]
    refine Low.bind (Low.assertThat.mono fun _ hcons => Low.define (fun _ => rfl) fun v hv => ?_)
    have : lv v = lv 0 + 1 := hv 0 (Nat.le_refl 0) (Nat.le_refl 0)
    omega
  | cons a l => exact (doAddition_low hx (by simp) hc).mono fun v hv => hv.le

theorem checkSchedule_low (h : Base lv) {r : ℕ} (h1 : 16 ≤ r) (h2 : r < 64) : Low lv (checkSchedule theInputs r) fun _ => True := by
  have hz : lv 0 = 0 := h 0 (by decide)
  have f15 := (Wbits_flat h (i := r - 15) (by omega) (by omega)).take (n := 32)
  have f14 := (Wbits_flat h (i := r - 2) (by omega) (by omega)).take (n := 32)
  have hW : ∀ i < 64, lv (theInputs.W.getD i 0) = 0 := fun i hi => by
    rw [show theInputs.W.getD i 0 = 34 + i from getD_range' (by omega), h _ (by omega)]
  have w1 := hW (r - 16) (by omega)
  have w2 := hW (r - 7) (by omega)
  unfold checkSchedule writeSigma0 writeSigma1
  simp only [bind_def]
  refine Low.bind ((writeXORS_low f15.rotr f15.rotr (f15.shr hz) (by decide)).mono fun s0 h0 => ?_)
  refine Low.bind ((writeXORS_low f14.rotr f14.rotr (f14.shr hz) (by decide)).mono fun s1 h1 => ?_)
  refine Low.bind ((doAddition_le hz h0 (by decide)).mono fun a0 e0 => Low.bind ((doAddition_le hz h1 (by decide)).mono fun a1 e1 => ?_))
  change lv a0 ≤ 3 at e0
  change lv a1 ≤ 3 at e1
  refine Low.bind ((Low.gate (by omega)).mono fun u hu => Low.bind ((Low.gate (by omega)).mono fun u' hu' =>
    Low.bind ((Low.gate (by omega)).mono fun wi hwi => ?_)))
  refine Low.bind ((testBitvecField_low (Wbits_flat h (by omega) h2) ?_ (by decide) (by omega)).mono fun _ _ => Low.roundTest)
  intro e
  have := Wbits_ne (i := r) (by omega) h2
  rw [e] at this
  simp at this

theorem checkOut_low (h : Base lv) {p : ℕ × ℕ × List ℕ} (h1 : lv p.1 ≤ 1) (h2 : lv p.2.1 = 0) (h3 : p.2.2 ∈ vecs 2290 8 33) :
    Low lv (checkOut p) fun _ => True := by
  unfold checkOut
  simp only [bind_def]
  refine Low.bind ((Low.gate (by omega)).mono fun u hu => ?_)
  refine Low.bind ((testBitvecField_low (vecs_flat h (by decide) _ h3) ?_ (by decide) (by omega)).mono fun _ _ => Low.roundTest)
  intro e
  have := vecs_ne h3
  rw [e] at this
  simp at this

end

section
variable {F : Type} [Field F] {lv : ℕ → ℕ} {w : ℕ → F} {x : Wit}

/-- by how much the bits given for the new value of `a` in round `i` are wrong -/
def gapA (w : ℕ → F) (x : Wit) (i : ℕ) : F := ((x.A i).toNat : F) -
  ((Sha256.bigSigma0 (trace w x i).a).toNat + (Sha256.Maj (trace w x i).a (trace w x i).b (trace w x i).c).toNat +
    (trace w x i).h + (w (2210 + i) + w (34 + i)) +
    ((Sha256.bigSigma1 (trace w x i).e).toNat + (Sha256.Ch (trace w x i).e (trace w x i).f (trace w x i).g).toNat))

theorem ne_of_wb {n : ℕ} (hn : n ≠ 0) {l : List ℕ} {X : BitVec n} (h : l.map w = wb F X) : l ≠ [] := by
  rintro rfl
  have := congrArg List.length h
  rw [length_wb] at this
  exact hn this.symm

theorem writeRound_deep (hb : Base lv) (h : Rep w x) {i : ℕ} (hi : i < 64) {R : Regs} (hR : RegRep w R (trace w x i))
    (hL : RegLow lv R) : Deep lv w (writeRound theInputs i R) fun R' T S => (∃ t, T = [t] ∧ t ∈ S ∧ w t = gapA w x i) ∧
      RegRep w R' (trace w x (i + 1)) ∧ RegLow lv R' := by
  have hz : lv 0 = 0 := hb 0 (by decide)
  have hA : Flat lv 0 (theInputs.aout.getD i []) := getD_flat hb (by decide)
  have hE : Flat lv 0 (theInputs.eout.getD i []) := getD_flat hb (by decide)
  have hK : theInputs.K.getD i 0 = 2210 + i := getD_range' hi
  have hW : theInputs.W.getD i 0 = 34 + i := getD_range' hi
  have lK : lv (theInputs.K.getD i 0) = 0 := by rw [hK]; exact hb _ (by omega)
  have lW : lv (theInputs.W.getD i 0) = 0 := by rw [hW]; exact hb _ (by omega)
  have lh := hL.h
  have ld := hL.d
  have V := hL.vecs
  unfold writeRound testBitvecField testFieldField
  simp only [bind_def, pure_def]
  refine Deep.bind ((Low.both (writeXORS_low V.a.take.rotr V.a.take.rotr V.a.take.rotr (by decide)) (bigSigma0_run hR.aBits)).mono ?_)
  rintro s0 _ _ ⟨rfl, l1, z1, -, hs0⟩
  refine Deep.bind ((Low.both (writeXORS_low V.e.take.rotr V.e.take.rotr V.e.take.rotr (by decide)) (bigSigma1_run hR.eBits)).mono ?_)
  rintro s1 _ _ ⟨rfl, l2, z2, -, hs1⟩
  refine Deep.bind ((Low.both (writeMAJ_low V.a.take V.b.take V.c.take) (writeMAJ_run hR.aBits hR.bBits hR.cBits)).mono ?_)
  rintro mj _ _ ⟨rfl, l3, z3, -, hmj⟩
  refine Deep.bind ((Low.both (writeCH_low V.e.take V.f.take V.g.take) (writeCH_run hR.eBits hR.fBits hR.gBits)).mono ?_)
  rintro ch _ _ ⟨rfl, l4, z4, -, hch⟩
  refine Deep.bind ((Low.both (doAddition_low l1 (ne_of_wb (by decide) hs0) (by decide)) (doAddition_wb hs0 (by decide))).mono ?_)
  rintro vs0 _ _ ⟨rfl, l5, z5, -, h5⟩
  refine Deep.bind ((Low.both (doAddition_low l2 (ne_of_wb (by decide) hs1) (by decide)) (doAddition_wb hs1 (by decide))).mono ?_)
  rintro vs1 _ _ ⟨rfl, l6, z6, -, h6⟩
  refine Deep.bind ((Low.both (doAddition_low l3 (ne_of_wb (by decide) hmj) (by decide)) (doAddition_wb hmj (by decide))).mono ?_)
  rintro vmj _ _ ⟨rfl, l7, z7, -, h7⟩
  refine Deep.bind ((Low.both (doAddition_low l4 (ne_of_wb (by decide) hch) (by decide)) (doAddition_wb hch (by decide))).mono ?_)
  rintro vch _ _ ⟨rfl, l8, z8, -, h8⟩
  change lv vs0 = 3 at l5
  change lv vs1 = 3 at l6
  have g : ∀ {op : Op} {a b : ℕ}, max (lv a) (lv b) ≤ 7 → Deep lv w (gate op a b)
      fun v T _ => T = [] ∧ lv v = max (lv a) (lv b) + 1 ∧ ∃ z : Prop, w v = opValue op (w a) (w b) :=
    fun hab => Low.both (Low.gate hab) (Run.gate fun _ hv => hv)
  refine Deep.bind ((g (by omega)).mono ?_)
  rintro t2 _ _ ⟨rfl, m1, -, ht2⟩
  refine Deep.bind ((g (by omega)).mono ?_)
  rintro t1 _ _ ⟨rfl, m2, -, ht1⟩
  refine Deep.bind ((g (by omega)).mono ?_)
  rintro kiwi _ _ ⟨rfl, m3, -, hkiwi⟩
  refine Deep.bind ((g (by omega)).mono ?_)
  rintro dh _ _ ⟨rfl, m4, -, hdh⟩
  refine Deep.bind ((g (by omega)).mono ?_)
  rintro u _ _ ⟨rfl, m5, -, hu⟩
  refine Deep.bind ((g (by omega)).mono ?_)
  rintro enext _ _ ⟨rfl, m6, -, henext⟩
  refine Deep.bind ((g (by omega)).mono ?_)
  rintro th _ _ ⟨rfl, m7, -, hth⟩
  refine Deep.bind ((g (by omega)).mono ?_)
  rintro tk _ _ ⟨rfl, m8, -, htk⟩
  refine Deep.bind ((g (by omega)).mono ?_)
  rintro anext _ _ ⟨rfl, m9, -, hanext⟩
  have nA := ne_of_wb (by decide) (h.A i hi)
  have nE := ne_of_wb (by decide) (h.E i hi)
  refine Deep.bind (Deep.bind ((Low.both (doAddition_low hA nA (by decide)) (doAddition_wb (h.A i hi) (by decide))).mono ?_))
  rintro va _ _ ⟨rfl, l9, z9, -, hva⟩
  refine (Deep.top (by omega)).mono ?_
  rintro ta _ _ ⟨rfl, rfl, hta⟩
  refine Deep.bind (Deep.roundTest.mono ?_)
  rintro ⟨⟩ _ _ ⟨rfl, rfl⟩
  refine Deep.bind (Deep.bind ((doAddition_low hE nE (by decide)).deep.mono ?_))
  rintro ve _ _ ⟨rfl, l10⟩
  refine (g (by omega)).mono ?_
  rintro te _ _ ⟨rfl, -, -⟩
  refine Deep.bind (Deep.roundTest.mono ?_)
  rintro ⟨⟩ _ _ ⟨rfl, rfl⟩
  refine Deep.bind ((Low.both (doAddition_le hz hE.take (by decide)) (doAddition_wb (map_take_wb (h.E i hi) (by decide : 32 ≤ 35))
    (by decide))).mono ?_)
  rintro e _ _ ⟨rfl, l11, z11, -, he⟩
  refine Deep.bind ((Low.both (doAddition_le hz hA.take (by decide)) (doAddition_wb (map_take_wb (h.A i hi) (by decide : 32 ≤ 35))
    (by decide))).mono ?_)
  rintro a _ _ ⟨rfl, l12, z12, -, ha⟩
  refine Deep.pure ⟨⟨ta, by simp, by simp, ?_⟩, ?_, ?_⟩
  · rw [hK, hW] at hkiwi
    simp only [opValue] at ht2 ht1 hkiwi hth htk hanext hta
    rw [hta, hva, hanext, htk, hth, ht2, ht1, hkiwi, h5, h6, h7, h8, hR.h]
    rfl
  · exact ⟨map_take_wb (h.A i hi) (by decide), hR.aBits, hR.bBits, map_take_wb (h.E i hi) (by decide), hR.eBits, hR.fBits,
      ha, hR.a, hR.b, hR.c, he, hR.e, hR.f, hR.g⟩
  · exact ⟨⟨hA, V.a, V.b, hE, V.e, V.f⟩, l12, hL.a, hL.b, hL.c, l11, hL.e, hL.f, hL.g⟩

theorem Deep.forG {σ : Type} {n : ℕ} {body : ℕ → σ → Gen σ} {s : σ} {Inv : ℕ → σ → Prop} {f : ℕ → F} (h0 : Inv 0 s)
    (h : ∀ i < n, ∀ s, Inv i s → Deep lv w (body i s) fun s' T S => (∃ t, T = [t] ∧ t ∈ S ∧ w t = f i) ∧ Inv (i + 1) s') :
    Deep lv w (forG n body s) fun s' T S => T.map w = (List.range n).map f ∧ T ⊆ S ∧ Inv n s' := by
  induction n with
  | zero => exact Deep.pure ⟨rfl, by simp, h0⟩
  | succ n ih =>
    refine Deep.bind ((ih fun i hi => h i (by omega)).mono ?_)
    rintro s' T S ⟨h1, h2, h3⟩
    refine (h n (by omega) s' h3).mono ?_
    rintro s'' _ S' ⟨⟨t, rfl, h4, h5⟩, h6⟩
    refine ⟨?_, ?_, h6⟩
    · rw [List.map_append, List.range_succ, List.map_append, h1, List.map_singleton, List.map_singleton, h5]
    · intro u hu
      rcases List.mem_append.1 hu with hu | hu
      · exact List.mem_append_left _ (h2 hu)
      · rw [List.mem_singleton.1 hu]
        exact List.mem_append_right _ h4

theorem writeBody_deep (hb : Base lv) (h : Rep w x) : Deep lv w (writeBody theInputs) fun _ T S =>
    T.map w = (List.range 64).map (gapA w x) ∧ T ⊆ S := by
  unfold writeBody
  simp only [bind_def, pure_def]
  refine Deep.bind ((Low.both (initialRegs_low hb) (initialRegs_run h)).mono ?_)
  rintro R _ S1 ⟨rfl, hL, z, -, hR⟩
  refine Deep.bind ((checkInputs_low hb hL).deep.mono ?_)
  rintro _ _ S2 ⟨rfl, -⟩
  refine Deep.bind ((Low.each fun r hr => ?_).deep.mono ?_)
  · rw [List.mem_range'_1] at hr
    exact checkSchedule_low hb (by omega) (by omega)
  rintro _ _ S3 ⟨rfl, -⟩
  refine Deep.bind ((Deep.forG (Inv := fun i R => RegRep w R (trace w x i) ∧ RegLow lv R) ⟨hR, hL⟩
    fun i hi R hR => writeRound_deep hb h hi hR.1 hR.2).mono ?_)
  rintro R' T S4 ⟨h1, h2, -, hL'⟩
  refine Deep.bind ((Low.each fun p hp => checkOut_low hb ?_ ?_ ?_).deep.mono ?_)
  · have := (List.of_mem_zip hp).1
    simp only [List.mem_cons, List.not_mem_nil, or_false] at this
    rcases this with e | e | e | e | e | e | e | e <;> rw [e]
    exacts [hL'.a, hL'.b, hL'.c, hL'.d, hL'.e, hL'.f, hL'.g, hL'.h]
  · have := (List.of_mem_zip (List.of_mem_zip hp).2).1
    have : p.2.1 < 2274 + 8 := (List.mem_range'_1.1 this).2
    exact hb p.2.1 (by omega)
  · exact (List.of_mem_zip (List.of_mem_zip hp).2).2
  rintro _ _ S5 ⟨rfl, -⟩
  refine Deep.pure ⟨by simpa using h1, fun t ht => ?_⟩
  have ht : t ∈ T := by simpa using ht
  simp [h2 ht]

end
end Libra.Sha256Gen
