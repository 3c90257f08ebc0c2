import Verif.Model.Loop

namespace Libra
variable {σ : Type _}

namespace Outcome
variable {α β : Type _}

@[simp] theorem bind_ok (a : α) (f : α → Outcome β) : Outcome.bind (.ok a) f = f a := rfl
@[simp] theorem ok_bind (a : α) (f : α → Outcome β) : (Outcome.ok a >>= f) = f a := rfl
@[simp] theorem pure_eq (a : α) : (pure a : Outcome α) = .ok a := rfl
@[simp] theorem reject_bind (f : α → Outcome β) : (Outcome.reject >>= f) = .reject := rfl
@[simp] theorem assertFail_bind (f : α → Outcome β) : (Outcome.assertFail >>= f) = .assertFail := rfl
@[simp] theorem exit_bind (f : α → Outcome β) : (Outcome.exit >>= f) = .exit := rfl
@[simp] theorem undefined_bind (f : α → Outcome β) : (Outcome.undefined >>= f) = .undefined := rfl
@[simp] theorem diverges_bind (f : α → Outcome β) : (Outcome.diverges >>= f) = .diverges := rfl
@[simp] theorem assert_true : assert true = .ok () := rfl
@[simp] theorem check_true : check true = .ok () := rfl
@[simp] theorem read_some (a : α) : read (some a) = .ok a := rfl

theorem bind_eq_ok {x : Outcome α} {f : α → Outcome β} {b : β} (h : x.bind f = .ok b) :
    ∃ a, x = .ok a ∧ f a = .ok b := by
  cases x <;> simp_all [Outcome.bind]

theorem bind_eq_ok' {x : Outcome α} {f : α → Outcome β} {b : β} (h : (x >>= f) = .ok b) :
    ∃ a, x = .ok a ∧ f a = .ok b := bind_eq_ok h

theorem check_eq_ok {c : Bool} (h : check c = .ok ()) : c = true := by
  cases c <;> simp_all [check]

theorem check_ok_iff {c : Bool} {u : Unit} : check c = .ok u ↔ c = true := by
  cases c <;> simp [check]

theorem assert_ok_iff {c : Bool} {u : Unit} : assert c = .ok u ↔ c = true := by
  cases c <;> simp [assert]

theorem read_ok_iff {x : Option α} {a : α} : read x = .ok a ↔ x = some a := by
  cases x <;> simp [read]

end Outcome

@[simp] theorem loopM_zero (b : ℕ → σ → Outcome σ) (s : σ) : loopM 0 b s = .ok s := rfl
@[simp] theorem loopM_succ (n : ℕ) (b : ℕ → σ → Outcome σ) (s : σ) :
    loopM (n + 1) b s = (loopM n b s).bind (b n) := rfl
@[simp] theorem loopDownM_zero (b : ℕ → σ → Outcome σ) (s : σ) : loopDownM 0 b s = .ok s := rfl
@[simp] theorem loopDownM_succ (n : ℕ) (b : ℕ → σ → Outcome σ) (s : σ) :
    loopDownM (n + 1) b s = (b (n + 1) s).bind (loopDownM n b) := rfl

theorem loopM_ok {n : ℕ} {b : ℕ → σ → Outcome σ} {s : σ} (P : ℕ → σ → Prop) (h0 : P 0 s)
    (hs : ∀ i < n, ∀ s, P i s → ∃ s', b i s = .ok s' ∧ P (i + 1) s') :
    ∃ s', loopM n b s = .ok s' ∧ P n s' := by
  induction n with
  | zero => exact ⟨s, rfl, h0⟩
  | succ n ih =>
    obtain ⟨s1, e, h1⟩ := ih (fun i hi => hs i (Nat.lt_succ_of_lt hi))
    obtain ⟨s2, e2, h2⟩ := hs n (Nat.lt_succ_self n) s1 h1
    exact ⟨s2, by rw [loopM_succ, e, Outcome.bind_ok, e2], h2⟩

theorem loopM_pure {n : ℕ} {b : ℕ → σ → Outcome σ} {b' : ℕ → σ → σ} {s : σ}
    (h : ∀ i < n, ∀ s, b i s = .ok (b' i s)) : loopM n b s = .ok (loop n b' s) := by
  induction n with
  | zero => rfl
  | succ n ih =>
    rw [loopM_succ, ih (fun i hi => h i (Nat.lt_succ_of_lt hi)), Outcome.bind_ok,
      h n (Nat.lt_succ_self n)]
    rfl

/-- inversion: a loop that ends normally went through a chain of states -/
theorem loopM_eq_ok {n : ℕ} {b : ℕ → σ → Outcome σ} {s t : σ} (h : loopM n b s = .ok t)
    (P : ℕ → σ → Prop) (h0 : P 0 s)
    (hs : ∀ i < n, ∀ s s', P i s → b i s = .ok s' → P (i + 1) s') : P n t := by
  induction n generalizing t with
  | zero => cases h; exact h0
  | succ n ih =>
    obtain ⟨s1, e, e2⟩ := Outcome.bind_eq_ok h
    exact hs n (Nat.lt_succ_self n) s1 t (ih e (fun i hi => hs i (Nat.lt_succ_of_lt hi))) e2

end Libra
