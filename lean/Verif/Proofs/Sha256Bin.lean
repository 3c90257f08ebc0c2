import Verif.Model.Sha256Bin
import Verif.Proofs.Sha256Program

/-!
# The SHA-256 programs of the generator in `bin`
-/

namespace Libra.Sha256Bin
open Compiler Spec Sha256Gen

/-! ### What the lines of a run say -/

/-- If the lines of a run satisfy `S` and its tests satisfy `Z`, the result satisfies `Q`. -/
def Tells {α : Type} (S : Stmt → Prop) (Z : ℕ → Prop) (g : Gen α) (Q : α → Prop) : Prop :=
  ∀ v a v' L, g v = .ok (a, v', L) → (∀ s ∈ L.lines, S s) → (∀ t ∈ L.roundTests ++ L.bitTests, Z t) → Q a

variable {α β : Type} {S : Stmt → Prop} {Z : ℕ → Prop}

theorem Tells.bind {g : Gen α} {f : α → Gen β} {Q : α → Prop} {Q' : β → Prop} (h : Tells S Z g Q)
    (h' : ∀ a, Q a → Tells S Z (f a) Q') : Tells S Z (Gen.bind g f) Q' := by
  intro v b v' L e hS hZ
  unfold Gen.bind at e
  cases hg : g v with
  | ok r =>
    obtain ⟨a, v1, L1⟩ := r
    rw [hg] at e
    change ((f a v1).bind fun s => Outcome.ok (s.1, s.2.1, L1.append s.2.2)) = _ at e
    cases hf : f a v1 with
    | ok r =>
      obtain ⟨b', v2, L2⟩ := r
      rw [hf] at e
      obtain ⟨rfl, rfl, rfl⟩ : b' = b ∧ v2 = v' ∧ L1.append L2 = L := by
        have := Outcome.ok.inj e
        simpa using this
      simp only [Log.append, List.mem_append] at hS hZ
      exact h' a (h v a v1 L1 hg (fun s hs => hS s (.inl hs)) fun t ht => hZ t (by
          rcases List.mem_append.1 ht with ht | ht <;> tauto)) v1 b' v2 L2 hf (fun s hs => hS s (.inr hs))
        fun t ht => hZ t (by rcases List.mem_append.1 ht with ht | ht <;> tauto)
    | _ => rw [hf] at e; cases e
  | _ => rw [hg] at e; cases e

theorem Tells.trivial (g : Gen α) : Tells S Z g fun _ => True := fun _ _ _ _ _ _ _ => True.intro

theorem Tells.pure (a : α) : Tells S Z (Gen.pure a) fun b => b = a := by
  intro v b v' L e _ _
  exact (Prod.mk.inj (Outcome.ok.inj e)).1.symm

theorem Tells.mono {g : Gen α} {Q Q' : α → Prop} (h : Tells S Z g Q) (hq : ∀ a, Q a → Q' a) : Tells S Z g Q' :=
  fun v a v' L e h1 h2 => hq a (h v a v' L e h1 h2)

theorem Tells.define {s : ℕ → Stmt} : Tells S Z (Sha256Gen.define s) fun v => S (s v) := by
  intro v a v' L e hS _
  obtain ⟨rfl, -, rfl⟩ : v = a ∧ v + 1 = v' ∧ ({ lines := [s v] } : Log) = L := by
    have := Outcome.ok.inj e
    simpa using this
  exact hS _ (List.mem_singleton.2 rfl)

theorem Tells.roundTest {t : ℕ} : Tells S Z (roundTest t) fun _ => Z t := by
  intro v a v' L e _ hZ
  obtain ⟨-, rfl⟩ : v = v' ∧ ({ roundTests := [t] } : Log) = L := by
    have := Outcome.ok.inj e
    simpa using this
  exact hZ _ (by simp)

theorem Tells.bitTest {ts : List ℕ} : Tells S Z (bitTest ts) fun _ => ∀ t ∈ ts, Z t := by
  intro v a v' L e _ hZ t ht
  obtain ⟨-, rfl⟩ : v = v' ∧ ({ bitTests := ts } : Log) = L := by
    have := Outcome.ok.inj e
    simpa using this
  exact hZ _ (by simpa using ht)

theorem Tells.mapG {f : α → Gen β} {R : α → β → Prop} {xs : List α} (h : ∀ x ∈ xs, Tells S Z (f x) (R x)) :
    Tells S Z (mapG f xs) (List.Forall₂ R xs) := by
  induction xs with
  | nil => exact (Tells.pure _).mono fun _ e => e ▸ .nil
  | cons x xs ih =>
    exact (h x List.mem_cons_self).bind fun y hy => (ih fun x' hx' => h x' (List.mem_cons_of_mem _ hx')).bind fun ys hys =>
      (Tells.pure _).mono fun _ e => e ▸ .cons hy hys

/-! ### Sums of bits -/

section
variable {F : Type} [Field F]

/-- The lines mean what they should, or what they mean to the compiler. -/
def Means (inp w : ℕ → F) (S : Stmt → Prop) : Prop :=
  (∀ s, S s ↔ Spec.Holds inp w s) ∨ ∀ s, S s ↔ HoldsCompiled inp w s

variable {inp w : ℕ → F}

theorem Means.gate (h : Means inp w S) {op : Op} {t a b : ℕ} (hs : S (.gate op t a b)) : w t = opValue op (w a) (w b) := by
  rcases h with h | h
  · exact (h _).1 hs
  · exact (h _).1 hs

theorem Means.input (h : Means inp w S) {t i : ℕ} (hs : S (.input t i)) : w t = inp i := by
  rcases h with h | h
  · exact (h _).1 hs
  · exact (h _).1 hs

theorem sum_bits {s : Finset ℕ} (h : ∀ k ∈ s, w k = 0 ∨ w k = 1) : ∃ n ≤ s.card, ∑ k ∈ s, w k = (n : F) := by
  classical
  induction s using Finset.induction_on with
  | empty => exact ⟨0, Nat.le_refl _, by simp⟩
  | insert a s ha ih =>
    obtain ⟨n, hn, e⟩ := ih fun k hk => h k (Finset.mem_insert_of_mem hk)
    rw [Finset.sum_insert ha, Finset.card_insert_of_notMem ha, e]
    rcases h a (Finset.mem_insert_self _ _) with e | e
    · exact ⟨n, by omega, by rw [e, zero_add]⟩
    · exact ⟨n + 1, by omega, by rw [e, Nat.cast_succ, add_comm]⟩

/-- A `SS` line over bits is at most the number of the bits. -/
theorem Means.sum (h : Means inp w S) {t a n : ℕ} (hs : S (.sum t a (a + n)))
    (hb : ∀ k, a ≤ k → k ≤ a + n → w k = 0 ∨ w k = 1) : ∃ m ≤ n + 1, w t = (m : F) := by
  rcases h with h | h
  · have e : w t = ∑ k ∈ Finset.Icc a (a + n), w k := (h _).1 hs
    obtain ⟨m, hm, e'⟩ := sum_bits (w := w) (s := Finset.Icc a (a + n)) fun k hk => hb k (Finset.mem_Icc.1 hk).1 (Finset.mem_Icc.1 hk).2
    exact ⟨m, hm.trans (by rw [Nat.card_Icc]; omega), e.trans e'⟩
  · have e : w t = ∑ k ∈ Finset.Ico a (a + n), w k := (h _).1 hs
    obtain ⟨m, hm, e'⟩ := sum_bits (w := w) (s := Finset.Ico a (a + n)) fun k hk => hb k (Finset.mem_Ico.1 hk).1 (Finset.mem_Ico.1 hk).2.le
    exact ⟨m, hm.trans (by rw [Nat.card_Ico]; omega), e.trans e'⟩

/-! ### The functions -/

/-- variable `t` is the `SS` of the vector `x` -/
def SumOf (S : Stmt → Prop) (x : List ℕ) (t : ℕ) : Prop := S (.sum t (x.headD 0) (x.getLastD 0))

theorem doAddition_tells (x : List ℕ) : Tells S Z (doAddition x) (SumOf S x) := by
  unfold doAddition
  simp only [bind_def]
  exact (Tells.trivial _).bind fun _ _ => Tells.define

theorem range'_ends {a n : ℕ} : (List.range' a (n + 1)).headD 0 = a ∧ (List.range' a (n + 1)).getLastD 0 = a + n := by
  exact ⟨by rw [List.range'_succ]; rfl, by rw [List.range'_concat]; simp⟩

theorem SumOf.le (h : Means inp w S) {t a n : ℕ} (hs : SumOf S (List.range' a (n + 1)) t)
    (hb : ∀ k ∈ List.range' a (n + 1), w k = 0 ∨ w k = 1) : ∃ m ≤ n + 1, w t = (m : F) := by
  unfold SumOf at hs
  rw [range'_ends.1, range'_ends.2] at hs
  exact h.sum hs fun k h1 h2 => hb k (by rw [List.mem_range'_1]; omega)

theorem verifyBit_tells (h : Means inp w S) (i : ℕ) : Tells S Z (verifyBit i) fun t => w t = (1 - w i) * w i := by
  unfold verifyBit
  simp only [bind_def]
  refine Tells.define.bind fun n hn => (Tells.define (s := fun v => Stmt.gate .mult v n i)).mono fun t ht => ?_
  have e1 := h.gate hn
  have e2 := h.gate ht
  rw [e2, ← show w n = 1 - w i from e1]
  rfl

/-- The checks of a vector show that it consists of bits. -/
theorem checkVec_tells (h : Means inp w S) (hZ : ∀ t, Z t → w t = 0) (x : List ℕ) :
    Tells S Z (checkVec x) fun _ => ∀ i ∈ x, w i = 0 ∨ w i = 1 := by
  unfold checkVec verifyBits
  simp only [bind_def]
  refine (Tells.mapG fun i _ => verifyBit_tells h i).bind fun ts hts => Tells.bitTest.mono fun _ hz i hi => ?_
  obtain ⟨k, hk, rfl⟩ := List.mem_iff_getElem.1 hi
  have hl := hts.length_eq
  have e := (List.forall₂_iff_get.1 hts).2 k hk (by omega)
  have z := hZ _ (hz (ts[k]'(by omega)) (List.getElem_mem _))
  simp only [List.get_eq_getElem] at e
  rw [z] at e
  rcases mul_eq_zero.1 e.symm with e | e
  · exact .inr (sub_eq_zero.1 e).symm
  · exact .inl e

theorem testBitvec_tells (x : List ℕ) (f : ℕ) :
    Tells S Z (do let tmp ← testBitvecField x f; roundTest tmp) fun _ => ∃ b t, SumOf S x b ∧ S (.gate .minus t b f) ∧ Z t := by
  unfold testBitvecField testFieldField
  simp only [bind_def]
  refine Tells.bind (Q := fun t => ∃ b, SumOf S x b ∧ S (.gate .minus t b f)) ?_ fun t ⟨b, h1, h2⟩ =>
    Tells.roundTest.mono fun _ hz => ⟨b, t, h1, h2, hz⟩
  exact (doAddition_tells x).bind fun b hb => (Tells.define (s := fun v => Stmt.gate .minus v b f)).mono fun t ht => ⟨b, hb, ht⟩

theorem checkW_tells (h : Means inp w S) (hZ : ∀ t, Z t → w t = 0) {idx : ℕ} (h1 : 1 ≤ idx) (h2 : idx < 64) :
    Tells S Z (checkW theInputs idx) fun _ => ∃ n ≤ 32, w (34 + idx) = ((n : ℕ) : F) := by
  have hW : theInputs.W.getD idx 0 = 34 + idx := getD_range' h2
  have hv : ∃ a, (theInputs.Wbits.getD idx []).take 32 = List.range' a 32 := by
    obtain ⟨a, ha, -⟩ := fresh_word (v := 7226) h1 h2 (Nat.le_refl _)
    exact ⟨a, ha⟩
  obtain ⟨a, ha⟩ := hv
  have e : checkW theInputs idx = Gen.bind (checkVec (theInputs.Wbits.getD idx [])) fun _ =>
      (do let tmp ← testBitvecField ((theInputs.Wbits.getD idx []).take 32) (theInputs.W.getD idx 0); roundTest tmp) := by
    unfold checkW checkVec
    simp only [bind_def]
    funext v
    simp only [Gen.bind]
    cases verifyBits (theInputs.Wbits.getD idx []) v with
    | ok r =>
      obtain ⟨t, v1, L⟩ := r
      simp only [Outcome.bind]
      cases bitTest t v1 with
      | ok r =>
        obtain ⟨t2, v2, L2⟩ := r
        simp only [Outcome.bind]
        cases testBitvecField (List.take 32 (theInputs.Wbits.getD idx [])) (theInputs.W.getD idx 0) v2 with
        | ok r =>
          obtain ⟨t3, v3, L3⟩ := r
          simp only [Outcome.bind]
          cases Sha256Gen.roundTest t3 v3 with
          | ok r => simp [Outcome.bind, Log.append, List.append_assoc]
          | _ => rfl
        | _ => rfl
      | _ => rfl
    | _ => rfl
  rw [e, ha, hW]
  refine (checkVec_tells h hZ _).bind fun _ hb => (testBitvec_tells _ _).mono fun _ ⟨b, t, k1, k2, k3⟩ => ?_
  obtain ⟨m, hm, e⟩ := SumOf.le h k1 fun k hk => hb k (List.mem_of_mem_take (ha ▸ hk))
  have e2 := h.gate k2
  rw [hZ t k3] at e2
  exact ⟨m, hm, (sub_eq_zero.1 e2.symm).symm.trans e⟩

end

/-! ### The generator succeeds -/

/-- Started with `v`, `g` succeeds without allocating inputs; the result and the new `v` satisfy `Q`. -/
def Runs {α : Type} (v : ℕ) (g : Gen α) (Q : α → ℕ → Prop) : Prop :=
  ∃ a v' L, g v = .ok (a, v', L) ∧ v ≤ v' ∧ L.inVals = [] ∧ Q a v'

variable {v : ℕ}

theorem Runs.of {g : Gen α} {Q : α → ℕ → Prop} (h : Emits v g Q) : Runs v g Q := by
  obtain ⟨a, L, h1, h2, -, -, h3⟩ := h
  exact ⟨a, _, L, h1, Nat.le_add_right _ _, h2, h3⟩

theorem Runs.mono {g : Gen α} {Q Q' : α → ℕ → Prop} (h : Runs v g Q) (hq : ∀ a v', v ≤ v' → Q a v' → Q' a v') : Runs v g Q' := by
  obtain ⟨a, v', L, h1, h2, h3, h4⟩ := h
  exact ⟨a, v', L, h1, h2, h3, hq _ _ h2 h4⟩

theorem Runs.pure {a : α} {Q : α → ℕ → Prop} (h : Q a v) : Runs v (Gen.pure a) Q := ⟨a, v, {}, rfl, Nat.le_refl _, rfl, h⟩

theorem Runs.bind {g : Gen α} {f : α → Gen β} {Q : β → ℕ → Prop}
    (h : Runs v g fun a v' => Runs v' (f a) Q) : Runs v (Gen.bind g f) Q := by
  obtain ⟨a, v1, L, h1, h2, h3, b, v2, L', k1, k2, k3, k4⟩ := h
  exact ⟨b, v2, L.append L', bind_ok h1 k1, h2.trans k2, by rw [Log.append, h3, k3]; rfl, k4⟩

theorem Runs.define {s : ℕ → Stmt} {Q : ℕ → ℕ → Prop} (h : Q v (v + 1)) : Runs v (Sha256Gen.define s) Q :=
  ⟨v, v + 1, { lines := [s v] }, rfl, Nat.le_succ v, rfl, h⟩

theorem Runs.gate {op : Op} {a b : ℕ} {Q : ℕ → ℕ → Prop} (_ : a < v) (_ : b < v) (h : Q v (v + 1)) : Runs v (Sha256Gen.gate op a b) Q :=
  Runs.define h

theorem Runs.roundTest {t : ℕ} {Q : Unit → ℕ → Prop} (_ : t < v) (h : Q () v) : Runs v (Sha256Gen.roundTest t) Q :=
  ⟨(), v, { roundTests := [t] }, rfl, Nat.le_refl _, rfl, h⟩

theorem Runs.bitTest {ts : List ℕ} {Q : Unit → ℕ → Prop} (_ : ∀ t ∈ ts, t < v) (h : Q () v) : Runs v (Sha256Gen.bitTest ts) Q :=
  ⟨(), v, { bitTests := ts }, rfl, Nat.le_refl _, rfl, h⟩

theorem Runs.mapG_all {f : α → Gen β} {Q : β → ℕ → Prop} {xs : List α} (hQ : ∀ b v v', v ≤ v' → Q b v → Q b v')
    (h : ∀ x ∈ xs, ∀ v', v ≤ v' → Runs v' (f x) Q) :
    Runs v (mapG f xs) fun ys v' => ys.length = xs.length ∧ ∀ y ∈ ys, Q y v' := by
  induction xs generalizing v with
  | nil => exact Runs.pure ⟨rfl, by simp⟩
  | cons x xs ih =>
    refine Runs.bind ((h x List.mem_cons_self v (Nat.le_refl v)).mono fun y v1 hv1 hy => ?_)
    refine Runs.bind ((ih fun x' hx' v' hv' => h x' (List.mem_cons_of_mem _ hx') v' (hv1.trans hv')).mono
      fun ys v2 hv2 ⟨hl, hys⟩ => Runs.pure ⟨by simp [hl], ?_⟩)
    intro z hz
    rcases List.mem_cons.1 hz with rfl | hz
    · exact hQ _ _ _ hv2 hy
    · exact hys z hz

theorem Runs.forG {σ : Type} {n : ℕ} {body : ℕ → σ → Gen σ} {s : σ} {Inv : σ → ℕ → Prop} (h0 : Inv s v)
    (h : ∀ i < n, ∀ s v', v ≤ v' → Inv s v' → Runs v' (body i s) Inv) : Runs v (forG n body s) Inv := by
  induction n with
  | zero => exact Runs.pure h0
  | succ n ih =>
    exact Runs.bind ((ih fun i hi => h i (by omega)).mono fun s' v' hv' hs' => h n (by omega) s' v' hv' hs')

theorem doAddition_runs {n : ℕ} {x : List ℕ} (hx : Fresh n x v) (_ : 0 < n) (_ : n ≤ 63) : Runs v (doAddition x) Below := by
  obtain ⟨a, rfl, ha⟩ := hx
  unfold doAddition
  simp only [bind_def]
  exact Runs.bind ((Runs.of (Emits.assertThat (Q := fun _ _ => True) (consecutive_range' n a) True.intro)).mono fun _ v1 hv1 _ => Runs.define (Nat.lt_succ_self v1))

theorem testFieldField_runs {f1 f2 : ℕ} (h1 : f1 < v) (h2 : f2 < v) : Runs v (testFieldField f1 f2) Below :=
  Runs.of (testFieldField_emits h1 h2)

theorem verifyBits_runs {x : List ℕ} (hx : ∀ i ∈ x, i < v) : Runs v (verifyBits x) fun o v' => ∀ t ∈ o, t < v' := by
  unfold verifyBits
  refine (Runs.mapG_all (Q := fun t v => t < v) (fun b v v' hv h => h.trans_le hv) fun i hi v' hv' => ?_).mono fun _ _ _ h => h.2
  have := hx i hi
  unfold verifyBit
  simp only [bind_def]
  exact Runs.bind (Runs.gate (by omega) (by omega) (Runs.gate (by omega) (by omega) (Nat.lt_succ_self _)))

theorem testBitvecField_runs {n : ℕ} {x : List ℕ} {f : ℕ} (hx : Fresh n x v) (h1 : 0 < n) (h2 : n ≤ 63) (hf : f < v) :
    Runs v (testBitvecField x f) Below := by
  unfold testBitvecField
  simp only [bind_def]
  exact Runs.bind ((doAddition_runs hx h1 h2).mono fun u v1 hv1 hu => testFieldField_runs hu (hf.trans_le hv1))

theorem initialRegs_runs (hv : 7226 ≤ v) : Runs v (initialRegs theInputs) RegOk := by
  unfold initialRegs
  simp only [bind_def, pure_def]
  have hf : ∀ {a u : ℕ}, a + 32 ≤ 7226 → v ≤ u → Fresh 32 (List.range' a 32) u := fun h1 h2 =>
    fresh_inputs h1 (hv.trans h2)
  refine Runs.bind ((doAddition_runs (hf (by decide) (Nat.le_refl v)) (by decide) (by decide)).mono fun a v1 g1 ha => ?_)
  refine Runs.bind ((doAddition_runs (hf (by decide) (by omega)) (by decide) (by decide)).mono fun b v2 g2 hb => ?_)
  refine Runs.bind ((doAddition_runs (hf (by decide) (by omega)) (by decide) (by decide)).mono fun c v3 g3 hc => ?_)
  refine Runs.bind ((doAddition_runs (hf (by decide) (by omega)) (by decide) (by decide)).mono fun e v4 g4 he => ?_)
  refine Runs.bind ((doAddition_runs (hf (by decide) (by omega)) (by decide) (by decide)).mono fun f v5 g5 hf' => ?_)
  refine Runs.bind ((doAddition_runs (hf (by decide) (by omega)) (by decide) (by decide)).mono fun g v6 g6 hg => ?_)
  unfold Below at ha hb hc he hf' hg
  have ht : ∀ {a : ℕ}, a + 32 ≤ 7226 → VecOk 32 ((List.range' a 32).take 32) v6 := fun h1 =>
    ((hf h1 (by omega)).take (Nat.le_refl _)).vec
  have e3 : theInputs.H.getD 3 0 = 2277 := rfl
  have e7 : theInputs.H.getD 7 0 = 2281 := rfl
  refine Runs.pure ⟨ht (by decide), ht (by decide), ht (by decide), ht (by decide), ht (by decide), ht (by decide), ?_, ?_, ?_, ?_,
    ?_, ?_, ?_, ?_⟩ <;> dsimp only <;> omega

theorem checkVec_runs {x : List ℕ} (hx : ∀ i ∈ x, i < v) : Runs v (checkVec x) fun _ _ => True := by
  unfold checkVec
  simp only [bind_def]
  exact Runs.bind ((verifyBits_runs hx).mono fun o v1 _ ho => Runs.bitTest ho True.intro)

theorem checkW_runs {i : ℕ} (h1 : 1 ≤ i) (h2 : i < 64) (hv : 7226 ≤ v) : Runs v (checkW theInputs i) fun _ _ => True := by
  unfold checkW
  simp only [bind_def]
  have hlt : ∀ j ∈ theInputs.Wbits.getD i [], j < v := by
    intro j hj
    by_cases hi : i < 16
    · rw [Wbits_early h1 hi, List.mem_range'_1] at hj; omega
    · rw [Wbits_late (by omega) h2, List.mem_range'_1] at hj; omega
  have hW : theInputs.W.getD i 0 = 34 + i := getD_range' h2
  refine Runs.bind ((verifyBits_runs hlt).mono fun o v1 g1 ho => ?_)
  refine Runs.bind (Runs.bitTest ho ?_)
  refine Runs.bind ((testBitvecField_runs (fresh_word h1 h2 (hv.trans g1)) (by decide) (by decide) (by omega)).mono
    fun t v2 g2 ht => Runs.roundTest ht True.intro)

theorem checkSchedule_runs {t : ℕ} (h1 : 16 ≤ t) (h2 : t < 64) (hv : 7226 ≤ v) :
    Runs v (checkSchedule theInputs t) fun _ _ => True := by
  unfold checkSchedule
  simp only [bind_def]
  have hW : ∀ j < 64, theInputs.W.getD j 0 = 34 + j := fun j hj => getD_range' hj
  rw [hW _ (by omega), hW _ (by omega)]
  refine Runs.bind ((Runs.of (sigma0_emits (fresh_word (by omega) (by omega) hv).vec (by omega))).mono fun s0 v1 g1 hs0 => ?_)
  refine Runs.bind ((Runs.of (sigma1_emits (fresh_word (by omega) (by omega) (by omega)).vec (by omega))).mono fun s1 v2 g2 hs1 => ?_)
  refine Runs.bind ((doAddition_runs (hs0.mono g2) (by decide) (by decide)).mono fun u0 v3 g3 hu0 => ?_)
  refine Runs.bind ((doAddition_runs (hs1.mono g3) (by decide) (by decide)).mono fun u1 v4 g4 hu1 => ?_)
  unfold Below at hu0 hu1
  refine Runs.bind (Runs.gate (by omega) (by omega) ?_)
  refine Runs.bind (Runs.gate (by omega) (by omega) ?_)
  refine Runs.bind (Runs.gate (by omega) (by omega) ?_)
  rw [Wbits_late h1 h2]
  refine Runs.bind ((testBitvecField_runs (fresh_inputs (by omega) (by omega)) (by decide) (by decide) (by omega)).mono
    fun t v2 g2 ht => Runs.roundTest ht True.intro)

theorem writeRound_runs {i : ℕ} (hi : i < 64) (hv : 7226 ≤ v) {R : Regs} (hR : RegOk R v) :
    Runs v (writeRound theInputs i R) RegOk := by
  unfold writeRound
  simp only [bind_def, pure_def]
  have hK : theInputs.K.getD i 0 = 2210 + i := getD_range' hi
  have hW : theInputs.W.getD i 0 = 34 + i := getD_range' hi
  have hA : theInputs.aout.getD i [] = List.range' (2746 + 35 * i) 35 := getD_vecs hi
  have hE : theInputs.eout.getD i [] = List.range' (4986 + 35 * i) 35 := getD_vecs hi
  rw [hK, hW, hA, hE]
  refine Runs.bind ((Runs.of (bigSigma0_emits hR.aBits)).mono fun s0 v1 g1 hs0 => ?_)
  have hR := hR.mono g1
  refine Runs.bind ((Runs.of (bigSigma1_emits hR.eBits)).mono fun s1 v2 g2 hs1 => ?_)
  have hR := hR.mono g2
  refine Runs.bind ((Runs.of (writeMAJ_emits hR.aBits hR.bBits hR.cBits)).mono fun mj v3 g3 hmj => ?_)
  have hR := hR.mono g3
  refine Runs.bind ((Runs.of (writeCH_emits hR.eBits hR.fBits hR.gBits)).mono fun ch v4 g4 hch => ?_)
  have hR := hR.mono g4
  refine Runs.bind ((doAddition_runs (hs0.mono (by omega)) (by decide) (by decide)).mono fun u0 v5 g5 hu0 => ?_)
  refine Runs.bind ((doAddition_runs (hs1.mono (by omega)) (by decide) (by decide)).mono fun u1 v6 g6 hu1 => ?_)
  refine Runs.bind ((doAddition_runs (hmj.mono (by omega)) (by decide) (by decide)).mono fun u2 v7 g7 hu2 => ?_)
  refine Runs.bind ((doAddition_runs (hch.mono (by omega)) (by decide) (by decide)).mono fun u3 v8 g8 hu3 => ?_)
  have hR := hR.mono (g5.trans (g6.trans (g7.trans g8)))
  have hd := hR.d
  have hh := hR.h
  unfold Below at hu0 hu1 hu2 hu3
  refine Runs.bind (Runs.gate (by omega) (by omega) ?_)
  refine Runs.bind (Runs.gate (by omega) (by omega) ?_)
  refine Runs.bind (Runs.gate (by omega) (by omega) ?_)
  refine Runs.bind (Runs.gate (by omega) (by omega) ?_)
  refine Runs.bind (Runs.gate (by omega) (by omega) ?_)
  refine Runs.bind (Runs.gate (by omega) (by omega) ?_)
  refine Runs.bind (Runs.gate (by omega) (by omega) ?_)
  refine Runs.bind (Runs.gate (by omega) (by omega) ?_)
  refine Runs.bind (Runs.gate (by omega) (by omega) ?_)
  refine Runs.bind ((testBitvecField_runs (fresh_inputs (by omega) (by omega)) (by decide) (by decide) (by omega)).mono
    fun t1 v9 g9 ht1 => ?_)
  refine Runs.bind (Runs.roundTest ht1 ?_)
  refine Runs.bind ((testBitvecField_runs (fresh_inputs (by omega) (by omega)) (by decide) (by decide) (by omega)).mono
    fun t2 v10 g10 ht2 => ?_)
  refine Runs.bind (Runs.roundTest ht2 ?_)
  have fA : ∀ u, 7226 ≤ u → Fresh 32 ((List.range' (2746 + 35 * i) 35).take 32) u := fun u hu =>
    (fresh_inputs (by omega) hu).take (by decide)
  have fE : ∀ u, 7226 ≤ u → Fresh 32 ((List.range' (4986 + 35 * i) 35).take 32) u := fun u hu =>
    (fresh_inputs (by omega) hu).take (by decide)
  refine Runs.bind ((doAddition_runs (fE _ (by omega)) (by decide) (by decide)).mono fun e v11 g11 he => ?_)
  refine Runs.bind ((doAddition_runs (fA _ (by omega)) (by decide) (by decide)).mono fun a v12 g12 ha => ?_)
  have hR := hR.mono (show v8 ≤ v12 by omega)
  unfold Below at he ha
  exact Runs.pure ⟨(fA _ (by omega)).vec, hR.aBits, hR.bBits, (fE _ (by omega)).vec, hR.eBits, hR.fBits,
    ha, hR.a, hR.b, hR.c, he.trans_le g12, hR.e, hR.f, hR.g⟩

theorem checkInputs_runs (hv : 7226 ≤ v) {R : Regs} (hR : RegOk R v) : Runs v (checkInputs theInputs R) fun _ _ => True := by
  unfold checkInputs
  simp only [bind_def, pure_def]
  have hvec : ∀ {a n k : ℕ}, a + k * n ≤ 7226 → ∀ {v1}, v ≤ v1 →
      Runs v1 (mapG checkVec (vecs a n k)) fun _ _ => True := by
    intro a n k hk v1 hv1
    refine (Runs.mapG_all (Q := fun _ _ => True) (fun _ _ _ _ _ => True.intro) fun x hx v' hv' => checkVec_runs ?_).mono
      fun _ _ _ _ => True.intro
    obtain ⟨j, hj, rfl⟩ := List.mem_map.1 hx
    rw [List.mem_range] at hj
    have := Nat.mul_le_mul_left k (Nat.succ_le_of_lt hj)
    rw [Nat.mul_succ] at this
    intro i hi
    rw [List.mem_range'_1] at hi
    omega
  refine Runs.bind ((Runs.mapG_all (Q := fun _ _ => True) (fun _ _ _ _ _ => True.intro) fun i hi v' hv' => ?_).mono
    fun _ v1 g1 _ => ?_)
  · rw [List.mem_range'_1] at hi
    exact checkW_runs hi.1 (by omega) (by omega)
  refine Runs.bind ((hvec (by decide) (by omega)).mono fun _ v2 g2 _ => ?_)
  refine Runs.bind ((Runs.mapG_all (Q := fun _ _ => True) (fun _ _ _ _ _ => True.intro) fun x hx v' hv' =>
    checkVec_runs ?_).mono fun _ v3 g3 _ => ?_)
  · intro i hi
    simp only [List.mem_cons, List.not_mem_nil, or_false] at hx
    rcases hx with rfl | rfl | rfl | rfl | rfl | rfl <;> simp only [theInputs, List.mem_range'_1] at hi <;> omega
  refine Runs.bind ((hvec (by decide) (by omega)).mono fun _ v4 g4 _ => ?_)
  refine Runs.bind ((hvec (by decide) (by omega)).mono fun _ v5 g5 _ => ?_)
  refine Runs.bind ((Runs.mapG_all (Q := fun _ _ => True) (fun _ _ _ _ _ => True.intro) fun p hp v' hv' => ?_).mono
    fun _ v6 g6 _ => ?_)
  · have e1 := (List.of_mem_zip (a := p.1) (b := p.2) hp).1
    have e2 := (List.of_mem_zip (a := p.1) (b := p.2) hp).2
    have b1 : p.1 < v' := by
      have := hR.a; have := hR.b; have := hR.c; have := hR.e; have := hR.f; have := hR.g
      simp only [List.mem_cons, List.not_mem_nil, or_false] at e1
      omega
    have b2 : p.2 < v' := by
      have : p.2 ∈ List.range' 2274 8 := by
        rcases List.mem_append.1 e2 with e | e
        · exact List.mem_of_mem_take e
        · exact List.mem_of_mem_drop (List.mem_of_mem_take e)
      rw [List.mem_range'_1] at this
      omega
    exact Runs.bind ((testFieldField_runs b1 b2).mono fun t _ _ ht => Runs.roundTest ht True.intro)
  refine Runs.bind ((Runs.mapG_all (Q := fun _ _ => True) (fun _ _ _ _ _ => True.intro) fun p hp v' hv' => ?_).mono
    fun _ v7 g7 _ => Runs.pure True.intro)
  have e1 := (List.of_mem_zip (a := p.1) (b := p.2) hp).1
  have e2 := (List.of_mem_zip (a := p.1) (b := p.2) hp).2
  obtain ⟨j, hj, e1⟩ := List.mem_map.1 e1
  rw [List.mem_range] at hj
  rw [← e1]
  have e2 : p.2 ∈ List.range' 2282 8 := e2
  rw [List.mem_range'_1] at e2
  exact Runs.bind ((testBitvecField_runs (n := 32) ((fresh_inputs (by omega) (by omega)).take (by decide)) (by decide)
    (by decide) (by omega)).mono fun t _ _ ht => Runs.roundTest ht True.intro)

theorem writeBody_runs : Runs 7226 (writeBody theInputs) fun _ _ => True := by
  unfold writeBody
  simp only [bind_def, pure_def]
  refine Runs.bind ((initialRegs_runs (Nat.le_refl _)).mono fun R v1 g1 hR => ?_)
  refine Runs.bind ((checkInputs_runs g1 hR).mono fun _ v2 g2 _ => ?_)
  refine Runs.bind ((Runs.mapG_all (Q := fun _ _ => True) (fun _ _ _ _ _ => True.intro) fun t ht v' hv' => ?_).mono
    fun _ v3 g3 _ => ?_)
  · rw [List.mem_range'_1] at ht
    exact checkSchedule_runs ht.1 (by omega) (by omega)
  refine Runs.bind ((Runs.forG (hR.mono (g2.trans g3)) fun i hi R v' hv' hR => writeRound_runs hi (by omega) hR).mono
    fun R' v4 g4 hR' => ?_)
  refine Runs.bind ((Runs.mapG_all (Q := fun _ _ => True) (fun _ _ _ _ _ => True.intro) fun p hp v' hv' => ?_).mono
    fun _ v5 g5 _ => Runs.pure True.intro)
  have e1 := (List.of_mem_zip (a := p.1) (b := p.2) hp).1
  have e2 := (List.of_mem_zip (a := p.1) (b := p.2) hp).2
  have e3 := (List.of_mem_zip (a := p.2.1) (b := p.2.2) e2).1
  have e4 := (List.of_mem_zip (a := p.2.1) (b := p.2.2) e2).2
  obtain ⟨j, hj, e4⟩ := List.mem_map.1 e4
  rw [List.mem_range] at hj
  have e3 : p.2.1 ∈ List.range' 2274 8 := e3
  rw [List.mem_range'_1] at e3
  have b1 : p.1 < v' := by
    have := hR'.a; have := hR'.b; have := hR'.c; have := hR'.d; have := hR'.e; have := hR'.f; have := hR'.g; have := hR'.h
    simp only [List.mem_cons, List.not_mem_nil, or_false] at e1
    omega
  unfold checkOut
  simp only [bind_def]
  refine Runs.bind (Runs.gate b1 (by omega) ?_)
  rw [← e4]
  exact Runs.bind ((testBitvecField_runs (n := 33) (fresh_inputs (by omega) (by omega)) (by decide)
    (by decide) (by omega)).mono fun t _ _ ht => Runs.roundTest ht True.intro)

/-- the program: input lines, the lines of `writeBody`, and the outputs -/
theorem write64_eq : ∃ v L, writeBody theInputs 7226 = .ok ((), v, L) ∧
    write64 = .ok ((List.range 7226).map (fun i => .input i i) ++ L.lines ++
      ((L.roundTests ++ L.bitTests).zipIdx v).map (fun p => .output p.2 p.1)) := by
  obtain ⟨a, v, L, h1, -, h2, -⟩ := writeBody_runs
  refine ⟨v, L, h1, ?_⟩
  unfold write64
  rw [bind_ok allocInputs_eq h1]
  refine congrArg Outcome.ok ?_
  simp only [program, Log.append, h2, List.append_nil, List.nil_append]
  rw [input_lines 34 7192]

/-! ### What the program says -/

section
variable {F : Type} [Field F] {inp w : ℕ → F}

theorem initialRegs_tells (I : Inputs) : Tells S Z (initialRegs I) fun R => SumOf S I.a R.a ∧ SumOf S I.b R.b ∧ SumOf S I.c R.c ∧
    SumOf S I.e R.e ∧ SumOf S I.f R.f ∧ SumOf S I.g R.g := by
  unfold initialRegs
  simp only [bind_def, pure_def]
  exact (doAddition_tells _).bind fun a ha => (doAddition_tells _).bind fun b hb => (doAddition_tells _).bind fun c hc =>
    (doAddition_tells _).bind fun e he => (doAddition_tells _).bind fun f hf => (doAddition_tells _).bind fun g hg =>
    (Tells.pure _).mono fun _ er => by subst er; exact ⟨ha, hb, hc, he, hf, hg⟩

theorem each_mem {f : α → Gen Unit} {xs : List α} {Q : α → Prop} (h : ∀ x ∈ xs, Tells S Z (f x) fun _ => Q x) :
    Tells S Z (mapG f xs) fun _ => ∀ x ∈ xs, Q x :=
  (Tells.mapG h).mono fun ys hys x hx => by
    obtain ⟨k, hk, rfl⟩ := List.mem_iff_getElem.1 hx
    have hl := hys.length_eq
    exact (List.forall₂_iff_get.1 hys).2 k hk (by omega)

theorem testField_tells {a b : ℕ} (h : Means inp w S) (hZ : ∀ t, Z t → w t = 0) :
    Tells S Z (do let tmp ← testFieldField a b; roundTest tmp) fun _ => w a = w b := by
  unfold testFieldField
  simp only [bind_def]
  refine (Tells.define (s := fun v => Stmt.gate .minus v a b)).bind fun t ht => Tells.roundTest.mono fun _ hz => ?_
  have e := h.gate ht
  rw [hZ t hz] at e
  exact sub_eq_zero.1 e.symm

/-- the facts about the inputs -/
structure Facts (w : ℕ → F) : Prop where
  words : ∀ t, 1 ≤ t → t < 64 → ∃ n ≤ 32, w (34 + t) = ((n : ℕ) : F)
  hash : ∀ i, i < 8 → i ≠ 3 → i ≠ 7 → ∃ n ≤ 32, w (2274 + i) = ((n : ℕ) : F)
  result : ∀ i, i < 8 → ∃ n ≤ 32, w (2282 + i) = ((n : ℕ) : F)

theorem checkInputs_tells (h : Means inp w S) (hZ : ∀ t, Z t → w t = 0) {R : Regs}
    (hR : SumOf S theInputs.a R.a ∧ SumOf S theInputs.b R.b ∧ SumOf S theInputs.c R.c ∧ SumOf S theInputs.e R.e ∧
      SumOf S theInputs.f R.f ∧ SumOf S theInputs.g R.g) :
    Tells S Z (checkInputs theInputs R) fun _ => Facts w := by
  unfold checkInputs
  simp only [bind_def, pure_def]
  refine (each_mem (Q := fun idx => ∃ n ≤ 32, w (34 + idx) = ((n : ℕ) : F)) fun idx hidx => ?_).bind fun _ hW => ?_
  · rw [List.mem_range'_1] at hidx
    exact checkW_tells h hZ hidx.1 (by omega)
  refine (each_mem fun x _ => checkVec_tells h hZ x).bind fun _ hH => ?_
  refine (each_mem fun x _ => checkVec_tells h hZ x).bind fun _ hB => ?_
  refine (Tells.trivial _).bind fun _ _ => (Tells.trivial _).bind fun _ _ => ?_
  refine (each_mem (Q := fun p : ℕ × ℕ => w p.1 = w p.2) fun p _ => testField_tells h hZ).bind fun _ hT => ?_
  refine (each_mem (Q := fun p : List ℕ × ℕ => ∃ b t, SumOf S (p.1.take 32) b ∧ S (.gate .minus t b p.2) ∧ Z t)
    fun p _ => testBitvec_tells _ _).bind fun _ hO => ?_
  refine (Tells.pure _).mono fun _ _ => ⟨fun t h1 h2 => hW t (by rw [List.mem_range'_1]; omega), fun i hi h3 h7 => ?_, fun i hi => ?_⟩
  · have key : ∀ {x y a : ℕ}, List.range' a 32 ∈ [theInputs.a, theInputs.b, theInputs.c, theInputs.e, theInputs.f, theInputs.g] →
        SumOf S (List.range' a 32) x → w x = w y → ∃ n ≤ 32, w y = ((n : ℕ) : F) := by
      intro x y a hx hs e
      obtain ⟨n, hn, e'⟩ := SumOf.le h hs (hB _ hx)
      exact ⟨n, hn, e.symm.trans e'⟩
    have hT : ∀ p ∈ [(R.a, 2274), (R.b, 2275), (R.c, 2276), (R.e, 2278), (R.f, 2279), (R.g, 2280)], w p.1 = w p.2 := hT
    simp only [List.forall_mem_cons] at hT
    obtain ⟨t0, t1, t2, t4, t5, t6, -⟩ := hT
    obtain ⟨r0, r1, r2, r4, r5, r6⟩ := hR
    have : i = 0 ∨ i = 1 ∨ i = 2 ∨ i = 4 ∨ i = 5 ∨ i = 6 := by omega
    rcases this with rfl | rfl | rfl | rfl | rfl | rfl
    · exact key (List.mem_cons.2 (.inl rfl)) r0 t0
    · exact key (List.mem_cons.2 (.inr (List.mem_cons.2 (.inl rfl)))) r1 t1
    · exact key (List.mem_cons.2 (.inr (List.mem_cons.2 (.inr (List.mem_cons.2 (.inl rfl)))))) r2 t2
    · exact key (List.mem_cons.2 (.inr (List.mem_cons.2 (.inr (List.mem_cons.2 (.inr (List.mem_cons.2 (.inl rfl)))))))) r4 t4
    · exact key (List.mem_cons.2 (.inr (List.mem_cons.2 (.inr (List.mem_cons.2 (.inr (List.mem_cons.2 (.inr (List.mem_cons.2 (.inl rfl)))))))))) r5 t5
    · exact key (List.mem_cons.2 (.inr (List.mem_cons.2 (.inr (List.mem_cons.2 (.inr (List.mem_cons.2 (.inr (List.mem_cons.2 (.inr
        (List.mem_cons.2 (.inl rfl)))))))))))) r6 t6
  · have hv : (List.range' (2290 + 33 * i) 33, 2282 + i) ∈ theInputs.HoutBits.zip theInputs.Hout := by
      refine List.mem_iff_getElem?.2 ⟨i, ?_⟩
      rw [List.getElem?_zip_eq_some]
      refine ⟨?_, ?_⟩
      · change ((List.range 8).map fun j => List.range' (2290 + 33 * j) 33)[i]? = _
        rw [List.getElem?_map, List.getElem?_range hi]; rfl
      · change (List.range' 2282 8)[i]? = _
        rw [List.getElem?_range' hi]; simp
    obtain ⟨b, t, k1, k2, k3⟩ := hO _ hv
    have e : (List.range' (2290 + 33 * i) 33).take 32 = List.range' (2290 + 33 * i) 32 := by
      rw [show 33 = 32 + 1 from rfl, ← List.range'_append_1, List.take_left' List.length_range']
    rw [e] at k1
    obtain ⟨n, hn, e'⟩ := SumOf.le h k1 fun k hk => hH _ (List.of_mem_zip hv).1 k (List.mem_of_mem_take (e ▸ hk))
    have e2 := h.gate k2
    rw [hZ t k3] at e2
    exact ⟨n, hn, (sub_eq_zero.1 e2.symm).symm.trans e'⟩

theorem writeBody_tells (h : Means inp w S) (hZ : ∀ t, Z t → w t = 0) : Tells S Z (writeBody theInputs) fun _ => Facts w := by
  unfold writeBody
  simp only [bind_def, pure_def]
  exact (initialRegs_tells _).bind fun R hR => (checkInputs_tells h hZ hR).bind fun _ hf => (Tells.trivial _).mono fun _ _ => hf

/-- In an accepted block the words and hash values are at most 32. -/
theorem program_facts {P : List Stmt} (hP : write64 = .ok P) (h : Means inp w S) (hS : ∀ s ∈ P, S s)
    (hout : ∀ o t, .output o t ∈ P → w t = 0) : (∀ i < 7226, w i = inp i) ∧ Facts w := by
  obtain ⟨v, L, h1, h2⟩ := write64_eq
  rw [h2] at hP
  obtain rfl := Outcome.ok.inj hP
  refine ⟨fun i hi => h.input (hS _ ?_), writeBody_tells (Z := fun t => w t = 0) h (fun _ h => h) 7226 () v L h1 (fun s hs => hS s ?_) fun t ht => ?_⟩
  · exact List.mem_append_left _ (List.mem_append_left _ (List.mem_map.2 ⟨i, List.mem_range.2 hi, rfl⟩))
  · exact List.mem_append_left _ (List.mem_append_right _ hs)
  · obtain ⟨i, hi, rfl⟩ := List.mem_iff_getElem.1 ht
    refine hout (v + i) _ (List.mem_append_right _ (List.mem_map.2 ⟨((L.roundTests ++ L.bitTests)[i], v + i), ?_, rfl⟩))
    refine List.mem_iff_getElem?.2 ⟨i, ?_⟩
    rw [List.getElem?_zipIdx, List.getElem?_eq_getElem hi]; rfl

end
end Libra.Sha256Bin
