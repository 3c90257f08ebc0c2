import Verif.Proofs.ProgramCheck
import Verif.Proofs.Sha256FourProgram

/-!
# The program for four rounds and its wiring meet the conditions of the compiler
-/

namespace Libra.Sha256Gen
open Compiler Spec ProgramCheck

/-! ### The programs -/

/-- the generated program passes the check -/
def compilable4 : Bool := match write4 false with
  | .ok P => check 1137 20000 P
  | _ => false

set_option maxRecDepth 100000 in
theorem compilable4_true : compilable4 = true := by decide +kernel

theorem write4_ok {P : List Stmt} (hP : write4 false = .ok P) :
    ProgramOk P ∧ Acceptable P ∧ (∀ s ∈ P, Known .sha256 s) ∧ (∀ t a b, .sum t a b ∉ P) ∧ inputCount P = 1137 ∧
      P.length ≤ 20000 ∧ ∀ o t, .output o t ∈ P → ∃ s ∈ P, target s = some t := by
  have h := compilable4_true
  unfold compilable4 at h
  rw [hP] at h
  exact of_check (c := 1136) h

/-! ### The wiring -/

/-- a wiring file with 35 constants, `m` inputs and copies of the variables `vals` -/
def wiringOf (m : ℕ) (vals : List ℕ) (x : ℕ → ℤ) : List RStmt :=
  (RStmt.const 0 0 :: .const 1 1 :: (List.range' 2 33).map (fun i => .const i (4 * 2 ^ (i - 2)))) ++
  ((List.range' 35 m).zipIdx 35).map (fun p => RStmt.input p.1 p.2 (x p.2)) ++
  (vals.zipIdx (35 + m)).map (fun p => RStmt.pass p.2 p.1 p.1) ++
  ((List.range' (35 + m) vals.length).zipIdx (35 + m)).map (fun p => RStmt.output p.2 p.1)

section
variable {m : ℕ} {vals : List ℕ} {x : ℕ → ℤ}

theorem mem_wiringOf {l : RStmt} : l ∈ wiringOf m vals x ↔
    (∃ t < 35, l = .const t (if t < 2 then (t : ℤ) else 4 * 2 ^ (t - 2))) ∨ (∃ i < m, l = .input (35 + i) (35 + i) (x (35 + i))) ∨
    (∃ n, ∃ h : n < vals.length, l = .pass (35 + m + n) vals[n] vals[n]) ∨
    (∃ n < vals.length, l = .output (35 + m + n) (35 + m + n)) := by
  unfold wiringOf
  rw [List.mem_append, List.mem_append, List.mem_append, mem_zipIdx_map, mem_zipIdx_map, mem_zipIdx_map, or_assoc, or_assoc]
  simp only [List.length_range', List.getElem_range', one_mul, exists_prop]
  refine or_congr ?_ Iff.rfl
  rw [List.mem_cons, List.mem_cons]
  simp only [List.mem_map, List.mem_range'_1]
  constructor
  · rintro (rfl | rfl | ⟨i, hi, rfl⟩)
    · exact ⟨0, by decide, rfl⟩
    · exact ⟨1, by decide, rfl⟩
    · exact ⟨i, by omega, by rw [if_neg (by omega)]⟩
  · rintro ⟨t, ht, rfl⟩
    by_cases h0 : t = 0
    · subst h0; exact .inl rfl
    by_cases h1 : t = 1
    · subst h1; exact .inr (.inl rfl)
    · exact .inr (.inr ⟨t, by omega, by rw [if_neg (by omega)]⟩)

theorem wiringOf_length : (wiringOf m vals x).length = 35 + m + 2 * vals.length := by
  unfold wiringOf
  simp only [List.length_cons, List.length_append, List.length_map, List.length_zipIdx, List.length_range']
  omega

theorem wiringOf_count : outputCount (wiringOf m vals x) = vals.length := by
  unfold outputCount
  have h0 : ∀ (q : RStmt → Bool) (l : List RStmt), (∀ s ∈ l, q s = false) → l.countP q = 0 := by
    intro q l hl
    rw [List.countP_eq_zero]
    intro s hs
    rw [hl s hs]
    exact Bool.false_ne_true
  unfold wiringOf
  rw [List.countP_append, h0, Nat.zero_add]
  · rw [List.countP_map]
    refine (List.countP_eq_length.2 fun _ _ => rfl).trans ?_
    rw [List.length_zipIdx, List.length_range']
  · intro s hs
    rw [List.mem_append, List.mem_append] at hs
    rcases hs with (h | h) | h
    · rw [List.mem_cons, List.mem_cons] at h
      rcases h with rfl | rfl | h
      · rfl
      · rfl
      · obtain ⟨i, -, rfl⟩ := List.mem_map.1 h; rfl
    · obtain ⟨i, -, rfl⟩ := List.mem_map.1 h; rfl
    · obtain ⟨i, -, rfl⟩ := List.mem_map.1 h; rfl

theorem wiringOf_targets : (wiringOf m vals x).filterMap rtarget =
    0 :: 1 :: List.range' 2 33 ++ List.range' 35 m ++ List.range' (35 + m) vals.length := by
  have e0 : ((List.range' 2 33).map (fun i => RStmt.const i (4 * 2 ^ (i - 2)))).filterMap rtarget = List.range' 2 33 := by
    rw [List.filterMap_map]
    exact List.filterMap_some
  have e1 : (((List.range' 35 m).zipIdx 35).map (fun p => RStmt.input p.1 p.2 (x p.2))).filterMap rtarget = List.range' 35 m := by
    rw [List.filterMap_map]
    have : (rtarget ∘ fun p : ℕ × ℕ => RStmt.input p.1 p.2 (x p.2)) = fun p => some p.1 := rfl
    rw [this, List.filterMap_eq_map']
    exact List.zipIdx_map_fst _ _
  have e2 : ((vals.zipIdx (35 + m)).map (fun p => RStmt.pass p.2 p.1 p.1)).filterMap rtarget = List.range' (35 + m) vals.length := by
    rw [List.filterMap_map]
    have : (rtarget ∘ fun p : ℕ × ℕ => RStmt.pass p.2 p.1 p.1) = fun p => some p.2 := rfl
    rw [this, List.filterMap_eq_map']
    exact List.zipIdx_map_snd _ _
  have e3 : (((List.range' (35 + m) vals.length).zipIdx (35 + m)).map (fun p => RStmt.output p.2 p.1)).filterMap rtarget = [] := by
    rw [List.filterMap_eq_nil_iff]
    intro a ha
    obtain ⟨p, -, rfl⟩ := List.mem_map.1 ha
    rfl
  unfold wiringOf
  rw [List.filterMap_append, List.filterMap_append, List.filterMap_append, e1, e2, e3, List.append_nil,
    List.filterMap_cons_some (f := rtarget) (a := .const 0 0) (b := 0) rfl, List.filterMap_cons_some (f := rtarget) (a := .const 1 1) (b := 1) rfl, e0]

theorem wiringOf_ok (hv : ∀ a ∈ vals, a < 35 + m) (hx : ∀ i, -2 ^ 63 ≤ x i ∧ x i < 2 ^ 63) : WiringOk (wiringOf m vals x) := by
  refine ⟨?_, fun t c h => ?_, fun t i y h => ?_, fun t a b h => ?_, fun t a b h => ?_⟩
  · rw [wiringOf_targets, show 0 :: 1 :: List.range' 2 33 = List.range' 0 35 by decide, List.range'_append_1]
    have := List.range'_append_1 (s := 0) (m := 35 + m) (n := vals.length)
    rw [Nat.zero_add] at this
    rw [this]
    exact List.nodup_range'
  · rcases mem_wiringOf.1 h with ⟨t, ht, e⟩ | ⟨_, _, e⟩ | ⟨_, _, e⟩ | ⟨_, _, e⟩ <;> cases e
    have : ∀ t : ℕ, t < 35 → -2 ^ 63 ≤ (if t < 2 then (t : ℤ) else 4 * 2 ^ (t - 2)) ∧ (if t < 2 then (t : ℤ) else 4 * 2 ^ (t - 2)) < 2 ^ 63 := by decide
    exact this t ht
  · rcases mem_wiringOf.1 h with ⟨_, _, e⟩ | ⟨_, _, e⟩ | ⟨_, _, e⟩ | ⟨_, _, e⟩ <;> cases e
    exact hx _
  · rcases mem_wiringOf.1 h with ⟨_, _, e⟩ | ⟨_, _, e⟩ | ⟨n, hn, e⟩ | ⟨_, _, e⟩ <;> cases e
    exact ⟨_, mem_wiringOf.2 (.inr (.inr (.inr ⟨n, hn, rfl⟩)))⟩
  · rcases mem_wiringOf.1 h with ⟨_, _, e⟩ | ⟨_, _, e⟩ | ⟨n, hn, e⟩ | ⟨_, _, e⟩ <;> cases e
    have hlt := hv _ (List.getElem_mem hn)
    generalize vals[n] = a at hlt ⊢
    rcases Nat.lt_or_ge a 35 with h1 | h1
    · exact .inl ⟨_, mem_wiringOf.2 (.inl ⟨a, h1, rfl⟩)⟩
    · obtain ⟨i, rfl⟩ := Nat.exists_eq_add_of_le h1
      exact .inr ⟨_, _, mem_wiringOf.2 (.inr (.inl ⟨i, by omega, rfl⟩))⟩

theorem mem_wiringOf_output {o t : ℕ} : .output o t ∈ wiringOf m vals x ↔ t = o ∧ 35 + m ≤ o ∧ o < 35 + m + vals.length := by
  rw [mem_wiringOf]
  constructor
  · rintro (⟨_, _, e⟩ | ⟨_, _, e⟩ | ⟨_, _, e⟩ | ⟨n, hn, e⟩) <;> cases e
    exact ⟨rfl, by omega, by omega⟩
  · rintro ⟨rfl, h1, h2⟩
    obtain ⟨n, rfl⟩ := Nat.exists_eq_add_of_le h1
    exact .inr (.inr (.inr ⟨n, by omega, rfl⟩))

theorem wiringOf_complete : WiringComplete (wiringOf m vals x) (35 + m) := by
  refine ⟨fun o => ?_, fun o t h => ?_, fun o o' t h h' => ?_⟩
  · rw [wiringOf_count]
    exact ⟨fun ⟨a, h⟩ => (mem_wiringOf_output.1 h).2, fun h => ⟨o, mem_wiringOf_output.2 ⟨rfl, h⟩⟩⟩
  · obtain ⟨rfl, h1, h2⟩ := mem_wiringOf_output.1 h
    obtain ⟨n, rfl⟩ := Nat.exists_eq_add_of_le h1
    exact ⟨_, _, mem_wiringOf.2 (.inr (.inr (.inl ⟨n, by omega, rfl⟩)))⟩
  · rw [← (mem_wiringOf_output.1 h).1, (mem_wiringOf_output.1 h').1]

/-- the values of a wiring file -/
theorem wiringOf_values {F : Type} [CommRing F] (hv : ∀ a ∈ vals, a < 35 + m) : ∃ v : ℕ → F, ∀ l ∈ wiringOf m vals x, RHolds v v l.asRead := by
  let u : ℕ → F := fun n => if n < 35 then (readNumber (if n < 2 then (n : ℤ) else 4 * 2 ^ (n - 2)) : F) else (readNumber (x n) : F)
  refine ⟨fun n => if n < 35 + m then u n else u (vals.getD (n - (35 + m)) 0), fun l hl => ?_⟩
  rcases mem_wiringOf.1 hl with ⟨t, ht, rfl⟩ | ⟨i, hi, rfl⟩ | ⟨n, hn, rfl⟩ | ⟨n, hn, rfl⟩
  · exact (if_pos (by omega)).trans (if_pos ht)
  · exact (if_pos (by omega)).trans (if_neg (by omega))
  · show (if 35 + m + n < 35 + m then u (35 + m + n) else u (vals.getD (35 + m + n - (35 + m)) 0)) = if vals[n] < 35 + m then u vals[n] else _
    rw [if_neg (by omega), if_pos (hv _ (List.getElem_mem hn)), Nat.add_sub_cancel_left, List.getD_eq_getElem _ _ hn]
  · rfl

end

/-- The wiring meets the conditions of the compiler. -/
theorem write4Rdl_ok {x : ℕ → ℤ} {W : List RStmt} (hW : write4Rdl false x = .ok W) (hx : ∀ i, -2 ^ 63 ≤ x i ∧ x i < 2 ^ 63) :
    WiringOk W ∧ WiringComplete W 7261 ∧ IsLeast {o | ∃ a, .output o a ∈ W} 7261 ∧
      outputCount W = 1137 * 2 ^ 4 ∧ W.length ≤ 2 ^ 29 ∧
      ∀ (F : Type) [CommRing F], ∃ v : ℕ → F, ∀ l ∈ W, RHolds v v l.asRead := by
  rw [write4Rdl_eq] at hW
  obtain rfl := Outcome.ok.inj hW
  have e : rdl4 x = wiringOf 7226 vals4 x := rfl
  have l := rdl4_least x
  rw [e] at l ⊢
  refine ⟨wiringOf_ok vals4_lt hx, wiringOf_complete, l, ?_, ?_, ?_⟩
  · rw [wiringOf_count, vals4_length]; rfl
  · rw [wiringOf_length, vals4_length]; decide
  · exact fun F _ => wiringOf_values vals4_lt

end Libra.Sha256Gen
