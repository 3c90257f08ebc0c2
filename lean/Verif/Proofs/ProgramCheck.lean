import Verif.Proofs.CompilerDag
import Mathlib.Data.List.Nodup
import Mathlib.Data.Nat.Bitwise

/-!
# A check that a program meets the conditions of the compiler

The check runs in one pass over the lines, with the set of the variables seen and the table of the depths as numbers.
-/

namespace Libra.ProgramCheck
open Compiler Spec

/-- all variables a line reads satisfy `p` -/
def usesAll (p : ℕ → Bool) : Stmt → Bool
  | .gate _ _ a b => p a && p b
  | .sum _ a b => (List.range' a (b + 1 - a)).all p
  | .expSum _ a b => (List.range' a (b + 1 - a)).all p
  | .bit _ a b => p a && p b
  | .output _ a => p a
  | _ => true

theorem all_range' {p : ℕ → Bool} {a b : ℕ} (h : (List.range' a (b + 1 - a)).all p = true) {x : ℕ} (h1 : a ≤ x) (h2 : x ≤ b) : p x = true :=
  List.all_eq_true.1 h x (List.mem_range'_1.2 ⟨h1, by omega⟩)

theorem of_usesAll {p : ℕ → Bool} {s : Stmt} (h : usesAll p s = true) (x : ℕ) (hx : Uses s x) : p x = true := by
  cases s with
  | gate op t a b =>
    rw [usesAll, Bool.and_eq_true] at h
    rcases hx with rfl | rfl
    · exact h.1
    · exact h.2
  | sum t a b => exact all_range' h hx.1 hx.2
  | expSum t a b => exact all_range' h hx.1 hx.2
  | bit t a b =>
    rw [usesAll, Bool.and_eq_true] at h
    rcases hx with rfl | rfl
    · exact h.1
    · exact h.2
  | output o a => obtain rfl := hx; exact h
  | input _ _ => exact hx.elim
  | const _ _ => exact hx.elim

/-- Variables are defined once, before they are used; `seen` is the set of the variables defined so far. -/
def orderB : ℕ → List Stmt → Bool
  | _, [] => true
  | seen, s :: l => match target s with
    | some t => !seen.testBit t && usesAll (fun x => seen.testBit x && Nat.blt x t) s && orderB (seen ||| 2 ^ t) l
    | none => usesAll (fun x => seen.testBit x) s && orderB seen l

theorem of_orderB : ∀ {l : List Stmt} {seen : ℕ}, orderB seen l = true →
    (l.filterMap target).Nodup ∧ (∀ t ∈ l.filterMap target, seen.testBit t = false) ∧
    ∀ Q s, Q ++ [s] <+: l → ∀ x, Uses s x → (seen.testBit x = true ∨ ∃ s' ∈ Q, target s' = some x) ∧ ∀ t, target s = some t → x < t
  | [], seen, _ => ⟨by simp, by simp, fun Q s h => by simp at h⟩
  | s :: l, seen, h => by
    rw [orderB] at h
    have hQ : ∀ {seen' : ℕ}, (∀ x, seen'.testBit x = true → seen.testBit x = true ∨ target s = some x) →
        (∀ Q s, Q ++ [s] <+: l → ∀ x, Uses s x → (seen'.testBit x = true ∨ ∃ s' ∈ Q, target s' = some x) ∧ ∀ t, target s = some t → x < t) →
        (∀ x, Uses s x → seen.testBit x = true ∧ ∀ t, target s = some t → x < t) →
        ∀ Q s', Q ++ [s'] <+: s :: l → ∀ x, Uses s' x → (seen.testBit x = true ∨ ∃ s'' ∈ Q, target s'' = some x) ∧
          ∀ t, target s' = some t → x < t := by
      intro seen' h1 h2 h3 Q s' hp x hx
      match Q, hp with
      | [], hp =>
        rw [List.nil_append, List.cons_prefix_cons] at hp
        obtain ⟨rfl, -⟩ := hp
        exact ⟨.inl (h3 x hx).1, (h3 x hx).2⟩
      | q :: Q', hp =>
        rw [List.cons_append, List.cons_prefix_cons] at hp
        obtain ⟨rfl, hp'⟩ := hp
        obtain ⟨a, b⟩ := h2 Q' s' hp' x hx
        refine ⟨?_, b⟩
        rcases a with a | ⟨s'', m, e⟩
        · rcases h1 x a with a | a
          · exact .inl a
          · exact .inr ⟨_, List.mem_cons_self, a⟩
        · exact .inr ⟨s'', List.mem_cons_of_mem _ m, e⟩
    split at h
    · rename_i t ht
      simp only [Bool.and_eq_true, Bool.not_eq_true'] at h
      obtain ⟨⟨h1, h2⟩, h3⟩ := h
      obtain ⟨i1, i2, i3⟩ := of_orderB h3
      have hb : ∀ x, (seen ||| 2 ^ t).testBit x = (seen.testBit x || decide (t = x)) := fun x => by
        rw [Nat.testBit_or, Nat.testBit_two_pow]
      have i2' : ∀ x ∈ l.filterMap target, seen.testBit x = false ∧ t ≠ x := fun x hx => by
        have := i2 x hx
        rw [hb, Bool.or_eq_false_iff] at this
        exact ⟨this.1, of_decide_eq_false this.2⟩
      rw [List.filterMap_cons_some ht]
      refine ⟨List.nodup_cons.2 ⟨fun hm => (i2' t hm).2 rfl, i1⟩, fun x hx => ?_, hQ (fun x hx => ?_) i3 fun x hx => ?_⟩
      · rcases List.mem_cons.1 hx with rfl | hx
        · exact h1
        · exact (i2' x hx).1
      · rw [hb, Bool.or_eq_true] at hx
        rcases hx with hx | hx
        · exact .inl hx
        · rw [← of_decide_eq_true hx]; exact .inr ht
      · have := of_usesAll h2 x hx
        rw [Bool.and_eq_true, Nat.blt_eq] at this
        refine ⟨this.1, fun t' e => ?_⟩
        obtain rfl := Option.some.inj (ht.symm.trans e)
        exact this.2
    · rename_i ht
      rw [Bool.and_eq_true] at h
      obtain ⟨i1, i2, i3⟩ := of_orderB h.2
      rw [List.filterMap_cons_none ht]
      exact ⟨i1, i2, hQ (fun x hx => .inl hx) i3 fun x hx => ⟨of_usesAll h.1 x hx, fun t e => by rw [ht] at e; cases e⟩⟩

/-- the depth of a variable in a table of depths, 8 bits each -/
def depthIn (N t : ℕ) : ℕ := (N >>> (8 * t)) % 256

/-- the table of the depths -/
def depthTable : ℕ → List Stmt → ℕ
  | N, [] => N
  | N, .gate _ t a b :: l => depthTable (N ||| (max (depthIn N a) (depthIn N b) + 1) <<< (8 * t)) l
  | N, .expSum t a _ :: l => depthTable (N ||| (depthIn N a + 1) <<< (8 * t)) l
  | N, .bit t a _ :: l => depthTable (N ||| (depthIn N a + 1) <<< (8 * t)) l
  | N, _ :: l => depthTable N l

/-- the table gives the depth of the variable of a line, and the line is one of those that have a meaning to the compiler -/
def lineB (N : ℕ) : Stmt → Bool
  | .gate _ t a b => depthIn N t == max (depthIn N a) (depthIn N b) + 1
  | .expSum t a b => Nat.ble a b && Nat.ble b (a + 62) && (List.range' a (b + 1 - a)).all fun k => depthIn N t == depthIn N k + 1
  | .bit t a b => a == b && depthIn N t == depthIn N a + 1
  | .input t _ => depthIn N t == 0
  | .output _ _ => true
  | _ => false

theorem of_lineB {N : ℕ} {s : Stmt} (h : lineB N s = true) :
    LevelOk (depthIn N) s ∧ Known .sha256 s ∧ (∀ t a b, s ≠ .sum t a b) ∧ ∀ t a b, s = .expSum t a b → a ≤ b ∧ b ≤ a + 62 := by
  cases s with
  | gate op t a b => exact ⟨beq_iff_eq.1 h, True.intro, nofun, nofun⟩
  | expSum t a b =>
    rw [lineB, Bool.and_eq_true, Bool.and_eq_true, Nat.ble_eq, Nat.ble_eq] at h
    refine ⟨fun k h1 h2 => beq_iff_eq.1 (all_range' h.2 h1 h2), rfl, nofun, ?_⟩
    rintro _ _ _ ⟨⟩
    exact h.1
  | bit t a b =>
    rw [lineB, Bool.and_eq_true] at h
    exact ⟨⟨beq_iff_eq.1 h.1, beq_iff_eq.1 h.2⟩, rfl, nofun, nofun⟩
  | input t i => exact ⟨beq_iff_eq.1 h, True.intro, nofun, nofun⟩
  | output _ _ => exact ⟨True.intro, True.intro, nofun, nofun⟩
  | sum _ _ _ => cases h
  | const _ _ => cases h

/-- variable and number of an input line -/
def inputOf : Stmt → Option (ℕ × ℕ)
  | .input t i => some (t, i)
  | _ => none

/-- the inputs are numbered from `k` on, in the order of their variables, which are at least `m` -/
def inputsB : ℕ → ℕ → List (ℕ × ℕ) → Bool
  | _, _, [] => true
  | k, m, p :: J => p.2 == k && Nat.ble m p.1 && inputsB (k + 1) (p.1 + 1) J

theorem of_inputsB : ∀ {J : List (ℕ × ℕ)} {k m : ℕ}, inputsB k m J = true →
    ∀ p ∈ J, m ≤ p.1 ∧ p.2 = k + J.countP (fun q => decide (q.1 < p.1))
  | [], k, m, _ => by simp
  | q :: J, k, m, h => by
    rw [inputsB, Bool.and_eq_true, Bool.and_eq_true, beq_iff_eq, Nat.ble_eq] at h
    obtain ⟨⟨h1, h2⟩, h3⟩ := h
    have ih := of_inputsB h3
    intro p hp
    rcases List.mem_cons.1 hp with rfl | hp
    · refine ⟨h2, ?_⟩
      have : (p :: J).countP (fun q => decide (q.1 < p.1)) = 0 := by
        rw [List.countP_eq_zero]
        intro r hr
        rw [decide_eq_true_iff]
        rcases List.mem_cons.1 hr with rfl | hr
        · omega
        · have := (ih r hr).1; omega
      omega
    · obtain ⟨a, b⟩ := ih p hp
      refine ⟨by omega, ?_⟩
      rw [List.countP_cons_of_pos (by rw [decide_eq_true_iff]; omega)]
      omega

theorem countP_inputOf (t : ℕ) : ∀ P : List Stmt, P.countP (inputBefore t) = (P.filterMap inputOf).countP (fun q => decide (q.1 < t))
  | [] => rfl
  | s :: P => by
    cases s with
    | input t' i =>
      rw [List.filterMap_cons_some (f := inputOf) (a := .input t' i) (b := (t', i)) rfl, List.countP_cons, List.countP_cons, countP_inputOf t P]
      rfl
    | _ =>
      rw [List.filterMap_cons_none rfl, List.countP_cons, countP_inputOf t P]
      rfl

theorem inputCount_inputOf : ∀ P : List Stmt, inputCount P = (P.filterMap inputOf).length
  | [] => rfl
  | s :: P => by
    have ih := inputCount_inputOf P
    unfold inputCount at *
    cases s with
    | input t' i =>
      rw [List.filterMap_cons_some (f := inputOf) (a := .input t' i) (b := (t', i)) rfl, List.countP_cons, ih, List.length_cons]
      rfl
    | _ =>
      rw [List.filterMap_cons_none rfl, List.countP_cons, ih]
      rfl

/-- the check, with a table of depths -/
def checkWith (N c n : ℕ) (P : List Stmt) : Bool :=
  orderB 0 P && P.all (lineB N) && inputsB 0 0 (P.filterMap inputOf) && (P.filterMap inputOf).length == c && Nat.ble P.length n

/-- the check that a program meets the conditions of the compiler, has `c` inputs and at most `n` lines -/
def check (c n : ℕ) (P : List Stmt) : Bool := checkWith (depthTable 0 P) c n P

theorem of_check {c n : ℕ} {P : List Stmt} (h : check (c + 1) n P = true) :
    ProgramOk P ∧ Acceptable P ∧ (∀ s ∈ P, Known .sha256 s) ∧ (∀ t a b, .sum t a b ∉ P) ∧ inputCount P = c + 1 ∧ P.length ≤ n ∧
      ∀ o t, .output o t ∈ P → ∃ s ∈ P, target s = some t := by
  unfold check checkWith at h
  generalize depthTable 0 P = N at h
  simp only [Bool.and_eq_true, List.all_eq_true, beq_iff_eq, Nat.ble_eq] at h
  obtain ⟨⟨⟨⟨h1, h2⟩, h3⟩, h4⟩, h5⟩ := h
  obtain ⟨o1, -, o3⟩ := of_orderB h1
  have o3' : ∀ Q s, Q ++ [s] <+: P → ∀ x, Uses s x → (∃ s' ∈ Q, target s' = some x) ∧ ∀ t, target s = some t → x < t := fun Q s hp x hx => by
    obtain ⟨a, b⟩ := o3 Q s hp x hx
    exact ⟨a.resolve_left (by simp), b⟩
  have hin : ∀ t i, .input t i ∈ P → (t, i) ∈ P.filterMap inputOf := fun t i h => List.mem_filterMap.2 ⟨_, h, rfl⟩
  refine ⟨⟨o1, fun t i h => ?_, fun t a b h => absurd rfl ((of_lineB (h2 _ h)).2.2.1 t a b), fun t a b h => (of_lineB (h2 _ h)).2.2.2 t a b rfl⟩,
    ⟨o3', ⟨depthIn N, fun s h => (of_lineB (h2 s h)).1⟩, ?_⟩, fun s h => (of_lineB (h2 s h)).2.1,
    fun t a b h => (of_lineB (h2 _ h)).2.2.1 t a b rfl, (inputCount_inputOf P).trans h4, h5, fun o t h => ?_⟩
  · rw [countP_inputOf]
    exact (of_inputsB h3 _ (hin t i h)).2.trans (Nat.zero_add _)
  · obtain ⟨⟨t, i⟩, hp⟩ := List.exists_mem_of_length_pos (l := P.filterMap inputOf) (by omega)
    obtain ⟨s, hs, e⟩ := List.mem_filterMap.1 hp
    cases s with
    | input t' i' => exact ⟨t', i', hs⟩
    | _ => cases e
  · obtain ⟨Q, R, rfl⟩ := List.append_of_mem h
    obtain ⟨⟨s', m, e⟩, -⟩ := o3' Q (.output o t) ⟨R, by rw [List.append_assoc]; rfl⟩ t rfl
    exact ⟨s', List.mem_append_left _ m, e⟩

end Libra.ProgramCheck
