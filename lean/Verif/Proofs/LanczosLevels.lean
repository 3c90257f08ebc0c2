import Verif.Proofs.LanczosProgram

/-!
# The depth of the program of the image scaling benchmark
-/

namespace Libra.LanczosGen
open Compiler Sha256Gen Spec

/-- what holds of the result and the lines of a run -/
def Writes {α : Type} (g : Gen α) (Q : α → List Stmt → Prop) : Prop := ∀ v a v' L, g v = .ok (a, v', L) → Q a L.lines

variable {α β : Type}

theorem Writes.mono {g : Gen α} {Q Q' : α → List Stmt → Prop} (h : Writes g Q) (hq : ∀ a l, Q a l → Q' a l) : Writes g Q' :=
  fun v a v' L e => hq _ _ (h v a v' L e)

theorem Writes.pure {a : α} {Q : α → List Stmt → Prop} (h : Q a []) : Writes (Gen.pure a) Q := by
  intro v b v' L e
  obtain ⟨rfl, h2⟩ := Prod.mk.inj (Outcome.ok.inj e)
  obtain ⟨rfl, rfl⟩ := Prod.mk.inj h2
  exact h

theorem Writes.bind {g : Gen α} {f : α → Gen β} {Q : β → List Stmt → Prop}
    (h : Writes g fun a l => Writes (f a) fun b l' => Q b (l ++ l')) : Writes (Gen.bind g f) Q := by
  intro v b v' L e
  unfold Gen.bind at e
  obtain ⟨⟨a, v1, L1⟩, h1, e⟩ := Outcome.bind_eq_ok' e
  obtain ⟨⟨b', v2, L2⟩, h2, e⟩ := Outcome.bind_eq_ok' e
  obtain ⟨rfl, e2⟩ := Prod.mk.inj (Outcome.ok.inj e)
  obtain ⟨rfl, rfl⟩ := Prod.mk.inj e2
  exact h v a v1 L1 h1 v1 b' v2 L2 h2

theorem Writes.gate {op : Op} {x y : ℕ} {Q : ℕ → List Stmt → Prop} (h : ∀ v, Q v [.gate op v x y]) : Writes (gate op x y) Q := by
  intro v b v' L e
  obtain ⟨rfl, h2⟩ := Prod.mk.inj (Outcome.ok.inj e)
  obtain ⟨rfl, rfl⟩ := Prod.mk.inj h2
  exact h v

theorem Writes.assertThat {c : Bool} {Q : Unit → List Stmt → Prop} (h : c = true → Q () []) : Writes (assertThat c) Q := by
  intro v b v' L e
  unfold Sha256Gen.assertThat at e
  split at e
  · next hc =>
    obtain ⟨rfl, h2⟩ := Prod.mk.inj (Outcome.ok.inj e)
    obtain ⟨rfl, rfl⟩ := Prod.mk.inj h2
    exact h hc
  · cases e

/-! ### All lines are gates -/

/-- additions and multiplications -/
def AllGates (l : List Stmt) : Prop := ∀ s ∈ l, ∃ op t a b, s = .gate op t a b

theorem AllGates.append {l l' : List Stmt} (h : AllGates l) (h' : AllGates l') : AllGates (l ++ l') := fun s hs =>
  (List.mem_append.1 hs).elim (h s) (h' s)

theorem AllGates.mapG {f : α → Gen β} {xs : List α} (h : ∀ x ∈ xs, Writes (f x) fun _ l => AllGates l) :
    Writes (mapG f xs) fun _ l => AllGates l := by
  induction xs with
  | nil => exact Writes.pure (by simp [AllGates])
  | cons x xs ih =>
    refine Writes.bind ((h x (by simp)).mono fun y l hl => Writes.bind ((ih fun x' hx' => h x' (by simp [hx'])).mono fun ys l' hl' =>
      Writes.pure ?_))
    rw [List.append_nil]
    exact hl.append hl'

theorem AllGates.gate {op : Op} {x y : ℕ} : Writes (Sha256Gen.gate op x y) fun _ l => AllGates l :=
  Writes.gate fun v s hs => ⟨op, v, x, y, List.mem_singleton.1 hs⟩

theorem lanczosMuls_gates {coeffs row : List ℕ} : Writes (lanczosMuls coeffs row) fun _ l => AllGates l := by
  unfold lanczosMuls
  simp only [bind_def]
  exact Writes.bind (Writes.assertThat fun _ => (AllGates.mapG fun _ _ => AllGates.gate).mono fun _ _ h => h)

theorem addTree_gates : ∀ {fuel : ℕ} {ivals : List ℕ}, Writes (addTree fuel ivals) fun _ l => AllGates l
  | 0, ivals => by intro v a v' L e; cases e
  | fuel + 1, ivals => by
    unfold addTree
    simp only [bind_def, pure_def]
    refine Writes.bind ((AllGates.mapG fun _ _ => AllGates.gate).mono fun ys l hl => ?_)
    split_ifs
    · exact Writes.pure (by rwa [List.append_nil])
    · exact addTree_gates.mono fun _ _ h => hl.append h
    · exact Writes.pure (by rwa [List.append_nil])
    · exact addTree_gates.mono fun _ _ h => hl.append h

theorem pwsBody_gates {ratio : ℕ} : Writes (pwsBody ratio) fun _ l => AllGates l := by
  unfold pwsBody pwsRow
  simp only [bind_def]
  refine Writes.bind ((AllGates.mapG fun _ _ => Writes.bind (lanczosMuls_gates.mono fun _ _ h => addTree_gates.mono fun _ _ h' =>
    h.append h')).mono fun _ _ h => Writes.bind (Writes.assertThat fun _ => Writes.bind (lanczosMuls_gates.mono fun _ _ h' =>
      addTree_gates.mono fun _ _ h'' => h.append (h'.append h''))))

/-! ### There are no tests -/

/-- the run adds nothing to the lists of tests -/
def NoTests (g : Gen α) : Prop := ∀ v a v' L, g v = .ok (a, v', L) → L.roundTests ++ L.bitTests = []

theorem NoTests.pure {a : α} : NoTests (Gen.pure a) := by
  intro v b v' L e
  obtain ⟨rfl, h2⟩ := Prod.mk.inj (Outcome.ok.inj e)
  obtain ⟨rfl, rfl⟩ := Prod.mk.inj h2
  rfl

theorem NoTests.bind {g : Gen α} {f : α → Gen β} (h : NoTests g) (h' : ∀ a, NoTests (f a)) : NoTests (Gen.bind g f) := by
  intro v b v' L e
  unfold Gen.bind at e
  obtain ⟨⟨a, v1, L1⟩, h1, e⟩ := Outcome.bind_eq_ok' e
  obtain ⟨⟨b', v2, L2⟩, h2, e⟩ := Outcome.bind_eq_ok' e
  obtain ⟨rfl, e2⟩ := Prod.mk.inj (Outcome.ok.inj e)
  obtain ⟨rfl, rfl⟩ := Prod.mk.inj e2
  have e1 := List.append_eq_nil_iff.1 (h _ _ _ _ h1)
  have e2 := List.append_eq_nil_iff.1 (h' _ _ _ _ _ h2)
  simp [Log.append, e1.1, e1.2, e2.1, e2.2]

theorem NoTests.gate {op : Op} {x y : ℕ} : NoTests (Sha256Gen.gate op x y) := by
  intro v b v' L e
  obtain ⟨rfl, h2⟩ := Prod.mk.inj (Outcome.ok.inj e)
  obtain ⟨rfl, rfl⟩ := Prod.mk.inj h2
  rfl

theorem NoTests.assertThat {c : Bool} : NoTests (Sha256Gen.assertThat c) := by
  intro v b v' L e
  unfold Sha256Gen.assertThat at e
  split at e
  · obtain ⟨rfl, h2⟩ := Prod.mk.inj (Outcome.ok.inj e)
    obtain ⟨rfl, rfl⟩ := Prod.mk.inj h2
    rfl
  · cases e

theorem NoTests.mapG {f : α → Gen β} (h : ∀ x, NoTests (f x)) : ∀ xs : List α, NoTests (mapG f xs)
  | [] => NoTests.pure
  | x :: xs => (h x).bind fun _ => (NoTests.mapG h xs).bind fun _ => NoTests.pure

theorem lanczosMuls_tests {coeffs row : List ℕ} : NoTests (lanczosMuls coeffs row) := by
  unfold lanczosMuls
  simp only [bind_def]
  exact NoTests.assertThat.bind fun _ => NoTests.mapG (fun _ => NoTests.gate) _

theorem addTree_tests : ∀ {fuel : ℕ} {ivals : List ℕ}, NoTests (addTree fuel ivals)
  | 0, ivals => by intro v a v' L e; cases e
  | fuel + 1, ivals => by
    unfold addTree
    simp only [bind_def, pure_def]
    refine (NoTests.mapG (fun _ => NoTests.gate) _).bind fun ys => ?_
    split_ifs
    · exact NoTests.pure
    · exact addTree_tests
    · exact NoTests.pure
    · exact addTree_tests

theorem pwsBody_tests {ratio : ℕ} : NoTests (pwsBody ratio) := by
  unfold pwsBody pwsRow
  simp only [bind_def]
  exact (NoTests.mapG (fun _ => lanczosMuls_tests.bind fun _ => addTree_tests) _).bind fun _ => NoTests.assertThat.bind fun _ =>
    lanczosMuls_tests.bind fun _ => addTree_tests

/-! ### Depths -/

/-- the depth of all lines is right -/
abbrev Lv (lv : ℕ → ℕ) (l : List Stmt) : Prop := ∀ s ∈ l, LevelOk lv s

/-- every variable the lines define is one of `ys`, or less deep than one of them -/
def Below (lv : ℕ → ℕ) (l : List Stmt) (ys : List ℕ) : Prop := ∀ s ∈ l, ∀ t, target s = some t → ∃ y ∈ ys, t = y ∨ lv t < lv y

variable {lv : ℕ → ℕ}

theorem Below.append {l l' : List Stmt} {ys : List ℕ} (h : Below lv l ys) (h' : Below lv l' ys) : Below lv (l ++ l') ys := fun s hs =>
  (List.mem_append.1 hs).elim (h s) (h' s)

theorem Below.trans {l : List Stmt} {ys zs : List ℕ} (h : Below lv l ys) (h' : ∀ y ∈ ys, ∃ z ∈ zs, y = z ∨ lv y < lv z) :
    Below lv l zs := by
  intro s hs t ht
  obtain ⟨y, hy, e⟩ := h s hs t ht
  obtain ⟨z, hz, e'⟩ := h' y hy
  refine ⟨z, hz, ?_⟩
  rcases e with rfl | e <;> rcases e' with rfl | e'
  · exact .inl rfl
  · exact .inr e'
  · exact .inr e
  · exact .inr (e.trans e')

theorem Below.mapG {f : α → Gen ℕ} {R : α → ℕ → Prop} {xs : List α}
    (h : ∀ x ∈ xs, Writes (f x) fun y l => Lv lv l → Below lv l [y] ∧ R x y) :
    Writes (mapG f xs) fun ys l => Lv lv l → Below lv l ys ∧ List.Forall₂ R xs ys := by
  induction xs with
  | nil => exact Writes.pure fun _ => ⟨by simp [Below], .nil⟩
  | cons x xs ih =>
    refine Writes.bind ((h x (by simp)).mono fun y l hl => Writes.bind ((ih fun x' hx' => h x' (by simp [hx'])).mono fun ys l' hl' =>
      Writes.pure fun hlv => ?_))
    rw [List.append_nil] at hlv ⊢
    obtain ⟨a1, a2⟩ := hl fun s hs => hlv s (by simp [hs])
    obtain ⟨b1, b2⟩ := hl' fun s hs => hlv s (by simp [hs])
    exact ⟨(a1.trans fun z hz => ⟨z, by simp_all, .inl rfl⟩).append (b1.trans fun z hz => ⟨z, by simp [hz], .inl rfl⟩), .cons a2 b2⟩

theorem Below.gate {op : Op} {x y : ℕ} : Writes (Sha256Gen.gate op x y) fun v l => Lv lv l → Below lv l [v] ∧
    lv v = max (lv x) (lv y) + 1 :=
  Writes.gate fun v hlv => ⟨fun s hs t ht => by
    obtain rfl := List.mem_singleton.1 hs
    obtain rfl := Option.some.inj ht
    exact ⟨_, by simp, .inl rfl⟩, hlv (.gate op v x y) (by simp)⟩

theorem lanczosMuls_below {coeffs row : List ℕ} : Writes (lanczosMuls coeffs row) fun ys l => Lv lv l → Below lv l ys ∧
    ∀ a ∈ row, ∃ y ∈ ys, lv a < lv y := by
  unfold lanczosMuls
  simp only [bind_def]
  refine Writes.bind (Writes.assertThat fun h => ?_)
  have hl : row.length = coeffs.length := by simpa using h
  refine (Below.mapG (lv := lv) (R := fun (p : ℕ × ℕ) y => lv y = max (lv p.1) (lv p.2) + 1) fun p _ => Below.gate).mono fun ys l hys hlv => ?_
  obtain ⟨h1, h2⟩ := hys hlv
  refine ⟨h1, fun a ha => ?_⟩
  obtain ⟨i, hi, rfl⟩ := List.mem_iff_getElem.1 ha
  have hlen := h2.length_eq
  rw [List.length_zip, ← hl, min_self] at hlen
  have := h2.get (i := i) (by rw [List.length_zip, ← hl, min_self]; exact hi) (by omega)
  refine ⟨ys[i]'(by omega), List.getElem_mem _, ?_⟩
  simp at this
  omega

theorem addTree_below : ∀ {fuel : ℕ} {ivals : List ℕ}, Writes (addTree fuel ivals) fun o l => Lv lv l → Below lv l [o] ∧
    ∀ a ∈ ivals, a = o ∨ lv a < lv o
  | 0, ivals => by intro v a v' L e; cases e
  | fuel + 1, ivals => by
    unfold addTree
    simp only [bind_def, pure_def]
    refine Writes.bind ((Below.mapG (lv := lv) (R := fun idx y => lv y = max (lv (ivals.getD (2 * idx) 0)) (lv (ivals.getD (2 * idx + 1) 0)) + 1)
      fun p _ => Below.gate).mono fun ys l hys => ?_)
    generalize ho : (if ivals.length % 2 ≠ 0 then ys ++ [ivals.getLastD 0] else ys) = outs
    have key : Lv lv l → Below lv l outs ∧ ∀ a ∈ ivals, ∃ y ∈ outs, a = y ∨ lv a < lv y := by
      intro hlv
      obtain ⟨h1, h2⟩ := hys hlv
      have hsub : ∀ y ∈ ys, y ∈ outs := by
        intro y hy
        rw [← ho]
        split
        · exact List.mem_append_left _ hy
        · exact hy
      refine ⟨h1.trans fun y hy => ⟨y, hsub y hy, .inl rfl⟩, fun a ha => ?_⟩
      obtain ⟨i, hi, rfl⟩ := List.mem_iff_getElem.1 ha
      have hlen := h2.length_eq
      rw [List.length_range] at hlen
      by_cases hh : i / 2 < ivals.length / 2
      · have := h2.get (i := i / 2) (by simpa using hh) (by omega)
        refine ⟨ys[i / 2]'(by omega), hsub _ (List.getElem_mem _), .inr ?_⟩
        have e : ivals[i] = ivals.getD i 0 := by rw [List.getD_eq_getElem?_getD, List.getElem?_eq_getElem hi]; rfl
        rw [e]
        simp only [List.get_eq_getElem, List.getElem_range] at this
        rcases Nat.mod_two_eq_zero_or_one i with h | h
        · have e2 : 2 * (i / 2) = i := by omega
          rw [e2] at this
          omega
        · have e2 : 2 * (i / 2) + 1 = i := by omega
          rw [e2] at this
          omega
      · refine ⟨ivals.getLastD 0, ?_, .inl ?_⟩
        · rw [← ho, if_pos (by omega)]
          simp
        · rw [List.getLastD_eq_getLast?, List.getLast?_eq_getElem?, List.getElem?_eq_getElem (by omega)]
          simp only [Option.getD_some]
          congr 1
          omega
    by_cases h1 : outs.length = 1
    · rw [if_pos h1]
      refine Writes.pure fun hlv => ?_
      rw [List.append_nil] at hlv ⊢
      obtain ⟨a, rfl⟩ := List.length_eq_one_iff.1 h1
      obtain ⟨k1, k2⟩ := key hlv
      exact ⟨k1, fun a ha => by simpa using k2 a ha⟩
    · rw [if_neg h1]
      refine addTree_below.mono fun o l' h hlv => ?_
      obtain ⟨k1, k2⟩ := key fun s hs => hlv s (by simp [hs])
      obtain ⟨h1, h2⟩ := h fun s hs => hlv s (by simp [hs])
      have h3 : ∀ y ∈ outs, ∃ z ∈ [o], y = z ∨ lv y < lv z := fun y hy => ⟨o, by simp, h2 y hy⟩
      refine ⟨(k1.trans h3).append h1, fun a ha => ?_⟩
      obtain ⟨y, hy, e⟩ := k2 a ha
      have e' := h2 y hy
      rcases e with rfl | e
      · exact e'
      · rcases e' with rfl | e'
        · exact .inr e
        · exact .inr (e.trans e')

/-- the products of a row and their sum -/
theorem mulsTree_below {coeffs row : List ℕ} : Writes (Gen.bind (lanczosMuls coeffs row) fun ovals => addTree ovals.length ovals)
    fun o l => Lv lv l → Below lv l [o] ∧ ∀ a ∈ row, lv a < lv o := by
  refine Writes.bind ((lanczosMuls_below (lv := lv)).mono fun ys l h => (addTree_below (lv := lv)).mono fun o l' h' hlv => ?_)
  obtain ⟨h1, h2⟩ := h fun s hs => hlv s (by simp [hs])
  obtain ⟨h3, h4⟩ := h' fun s hs => hlv s (by simp [hs])
  refine ⟨(h1.trans fun y hy => ⟨o, by simp, h4 y hy⟩).append h3, fun a ha => ?_⟩
  obtain ⟨y, hy, e⟩ := h2 a ha
  rcases h4 y hy with rfl | e'
  · exact e
  · exact e.trans e'

/-- the result is deeper than all other variables -/
theorem pwsBody_below {ratio : ℕ} (hr : ratio ≠ 0) : Writes (pwsBody ratio) fun o l => Lv lv l → Below lv l [o] ∧ 0 < lv o := by
  unfold pwsBody
  simp only [bind_def]
  refine Writes.bind ((Below.mapG (lv := lv) (R := fun _ _ => True) fun x _ => ?_).mono fun outs l h => ?_)
  · unfold pwsRow
    simp only [bind_def]
    exact (mulsTree_below (lv := lv)).mono fun o l h hlv => ⟨(h hlv).1, trivial⟩
  · refine Writes.bind (Writes.assertThat fun hlen => ?_)
    refine (mulsTree_below (lv := lv)).mono fun o l' h' hlv => ?_
    obtain ⟨h1, -⟩ := h fun s hs => hlv s (by simp [hs])
    obtain ⟨h3, h4⟩ := h' fun s hs => hlv s (by simp [hs])
    refine ⟨(h1.trans fun y hy => ⟨o, by simp, .inr (h4 y hy)⟩).append (by simpa using h3), ?_⟩
    have hlen : outs.length = 4 * ratio := by simpa using hlen
    have := h4 _ (List.getElem_mem (l := outs) (n := 0) (by omega))
    omega

end Libra.LanczosGen
