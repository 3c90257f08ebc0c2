import Verif.Proofs.MerkleWiring
import Mathlib.Tactic.IntervalCases

/-!
# The wiring of a Merkle tree meets the conditions of the compiler
-/

namespace Libra.MerkleGen
open Compiler Sha256Gen Spec

variable {lgn : ℕ} {padding : Bool} {x : ℕ → ℤ}

/-- the constants -/
def constOf (t : ℕ) : ℤ := if t = 0 then 0 else 4 * 2 ^ (t - 1)

theorem mem_inputLines {vals : List ℕ} {k : ℕ} {l : RStmt} :
    l ∈ inputLines x vals k ↔ ∃ n, ∃ h : n < vals.length, l = .input vals[n] (k + n) (x (k + n)) := by
  unfold inputLines
  simp only [List.mem_map, Prod.exists, List.mem_zipIdx_iff_getElem?]
  constructor
  · rintro ⟨a, i, h, rfl⟩
    simp only [List.mem_zipIdx_iff_le_and_getElem?_sub] at h
    obtain ⟨h1, h2⟩ := h
    obtain ⟨h3, h4⟩ := List.getElem?_eq_some_iff.1 h2
    refine ⟨i - k, h3, ?_⟩
    rw [h4, show k + (i - k) = i by omega]
  · rintro ⟨n, h, rfl⟩
    refine ⟨vals[n], k + n, ?_, rfl⟩
    simp only [List.mem_zipIdx_iff_le_and_getElem?_sub]
    exact ⟨by omega, by rw [Nat.add_sub_cancel_left, List.getElem?_eq_getElem h]⟩

theorem mem_range_lines {s n k : ℕ} {l : RStmt} :
    l ∈ inputLines x (List.range' s n) k ↔ ∃ i < n, l = .input (s + i) (k + i) (x (k + i)) := by
  rw [mem_inputLines]
  simp only [List.length_range', List.getElem_range', one_mul]
  exact ⟨fun ⟨i, h, e⟩ => ⟨i, h, e⟩, fun ⟨i, h, e⟩ => ⟨i, h, e⟩⟩

theorem mem_pass_lines {l : RStmt} :
    l ∈ ((copied lgn).zipIdx (baseOf lgn padding)).map (fun p => RStmt.pass p.2 p.1 p.1) ↔
      ∃ n, ∃ h : n < (copied lgn).length, l = .pass (baseOf lgn padding + n) (copied lgn)[n] (copied lgn)[n] := by
  simp only [List.mem_map, Prod.exists, List.mem_zipIdx_iff_le_and_getElem?_sub]
  constructor
  · rintro ⟨a, i, ⟨h1, h2⟩, rfl⟩
    obtain ⟨h3, h4⟩ := List.getElem?_eq_some_iff.1 h2
    refine ⟨i - baseOf lgn padding, h3, ?_⟩
    rw [h4, show baseOf lgn padding + (i - baseOf lgn padding) = i by omega]
  · rintro ⟨n, h, rfl⟩
    exact ⟨_, _, ⟨by omega, by rw [Nat.add_sub_cancel_left, List.getElem?_eq_getElem h]⟩, rfl⟩

theorem mem_output_lines {l : RStmt} :
    l ∈ ((List.range' (baseOf lgn padding) (copied lgn).length).zipIdx (baseOf lgn padding)).map (fun p => RStmt.output p.2 p.1) ↔
      ∃ n < (copied lgn).length, l = .output (baseOf lgn padding + n) (baseOf lgn padding + n) := by
  simp only [List.mem_map, Prod.exists, List.mem_zipIdx_iff_le_and_getElem?_sub]
  constructor
  · rintro ⟨a, i, ⟨h1, h2⟩, rfl⟩
    obtain ⟨h3, h4⟩ := List.getElem?_eq_some_iff.1 h2
    rw [List.length_range'] at h3
    rw [List.getElem_range'] at h4
    refine ⟨i - baseOf lgn padding, h3, ?_⟩
    rw [← h4, one_mul, show baseOf lgn padding + (i - baseOf lgn padding) = i by omega]
  · rintro ⟨n, h, rfl⟩
    exact ⟨_, _, ⟨by omega, by rw [Nat.add_sub_cancel_left, List.getElem?_range' h, one_mul]⟩, rfl⟩

theorem mem_rdl {l : RStmt} : l ∈ rdlLines lgn padding x ↔
    (∃ t < 34, l = .const t (constOf t)) ∨
    (∃ i < 272, l = .input (34 + i) (34 + i) (x (34 + i))) ∨
    (∃ i < padOf lgn padding, l = .input (endOf lgn + i) (306 + i) (x (306 + i))) ∨
    (∃ i < endOf lgn - 306, l = .input (306 + i) (306 + padOf lgn padding + i) (x (306 + padOf lgn padding + i))) ∨
    (∃ n, ∃ h : n < (copied lgn).length, l = .pass (baseOf lgn padding + n) (copied lgn)[n] (copied lgn)[n]) ∨
    (∃ n < (copied lgn).length, l = .output (baseOf lgn padding + n) (baseOf lgn padding + n)) := by
  unfold rdlLines
  rw [List.append_assoc, List.append_assoc, List.append_assoc, List.append_assoc, List.mem_append, List.mem_append, List.mem_append,
    List.mem_append, List.mem_append, mem_range_lines, mem_range_lines, mem_range_lines, mem_pass_lines, mem_output_lines]
  refine or_congr_left ?_
  simp only [List.mem_cons, List.mem_map, List.mem_range'_1]
  constructor
  · rintro (rfl | ⟨i, hi, rfl⟩)
    · exact ⟨0, by decide, rfl⟩
    · exact ⟨i, by omega, by rw [constOf, if_neg (by omega)]⟩
  · rintro ⟨t, ht, rfl⟩
    rcases Nat.eq_zero_or_pos t with rfl | hpos
    · exact .inl rfl
    · exact .inr ⟨t, by omega, by rw [constOf, if_neg (by omega)]⟩

theorem targets_inputs (vals : List ℕ) (k : ℕ) : (inputLines x vals k).filterMap rtarget = vals := by
  unfold inputLines
  rw [List.filterMap_map]
  have : (rtarget ∘ fun p : ℕ × ℕ => RStmt.input p.1 p.2 (x p.2)) = fun p => some p.1 := rfl
  rw [this, List.filterMap_eq_map' ]
  exact List.zipIdx_map_fst k vals

theorem rdl_targets : (rdlLines lgn padding x).filterMap rtarget =
    List.range' 0 34 ++ List.range' 34 272 ++ List.range' (endOf lgn) (padOf lgn padding) ++ List.range' 306 (endOf lgn - 306) ++
      List.range' (baseOf lgn padding) (copied lgn).length := by
  unfold rdlLines
  have e1 : ((.const 0 0 :: (List.range' 1 33).map (fun i => RStmt.const i (4 * 2 ^ (i - 1)))) : List RStmt).filterMap rtarget =
      List.range' 0 34 := rfl
  have e2 : (((copied lgn).zipIdx (baseOf lgn padding)).map (fun p => RStmt.pass p.2 p.1 p.1)).filterMap rtarget =
      List.range' (baseOf lgn padding) (copied lgn).length := by
    rw [List.filterMap_map]
    have : (rtarget ∘ fun p : ℕ × ℕ => RStmt.pass p.2 p.1 p.1) = fun p => some p.2 := rfl
    rw [this, List.filterMap_eq_map']
    exact List.zipIdx_map_snd _ _
  have e3 : (((List.range' (baseOf lgn padding) (copied lgn).length).zipIdx (baseOf lgn padding)).map
      (fun p => RStmt.output p.2 p.1)).filterMap rtarget = [] := by
    rw [List.filterMap_eq_nil_iff]
    intro a ha
    obtain ⟨p, -, rfl⟩ := List.mem_map.1 ha
    rfl
  simp only [List.filterMap_append, targets_inputs, e1, e2, e3, List.append_nil]

theorem rdl_length : (rdlLines lgn padding x).length = baseOf lgn padding + 2 * (7226 * 2 ^ (lgn + 1)) := by
  have := end_large (lgn := lgn)
  unfold rdlLines inputLines baseOf
  simp only [List.length_cons, List.length_append, List.length_map, List.length_zipIdx, List.length_range', copied_length]
  omega

theorem rdl_count : outputCount (rdlLines lgn padding x) = 7226 * 2 ^ (lgn + 1) := by
  unfold outputCount
  have h0 : ∀ (q : RStmt → Bool) (l : List RStmt), (∀ s ∈ l, q s = false) → l.countP q = 0 := by
    intro q l hl
    rw [List.countP_eq_zero]
    intro s hs
    rw [hl s hs]
    exact Bool.false_ne_true
  unfold rdlLines
  rw [List.countP_append, h0, Nat.zero_add]
  · rw [List.countP_map, ← copied_length]
    refine (List.countP_eq_length.2 fun _ _ => rfl).trans ?_
    rw [List.length_zipIdx, List.length_range']
  · intro s hs
    simp only [List.mem_append] at hs
    rcases hs with (((h | h) | h) | h) | h
    · simp only [List.mem_cons, List.mem_map] at h
      rcases h with rfl | ⟨i, -, rfl⟩ <;> rfl
    · obtain ⟨i, -, rfl⟩ := mem_range_lines.1 h; rfl
    · obtain ⟨i, -, rfl⟩ := mem_range_lines.1 h; rfl
    · obtain ⟨i, -, rfl⟩ := mem_range_lines.1 h; rfl
    · obtain ⟨i, -, rfl⟩ := mem_pass_lines.1 h; rfl

theorem rdl_ok (hx : ∀ i, -2 ^ 63 ≤ x i ∧ x i < 2 ^ 63) : WiringOk (rdlLines lgn padding x) := by
  have hend := end_large (lgn := lgn)
  refine ⟨?_, ?_, ?_, ?_, ?_⟩
  · rw [rdl_targets]
    have hn : ∀ s n : ℕ, (List.range' s n).Nodup := fun s n => List.nodup_range'
    simp only [List.nodup_append', hn, List.disjoint_left, List.mem_append, List.mem_range'_1, true_and, baseOf]
    refine ⟨⟨⟨?_, ?_⟩, ?_⟩, ?_⟩ <;> intro a h1 h2 <;> omega
  · intro t c h
    simp only [mem_rdl, RStmt.const.injEq, reduceCtorEq, and_false, exists_false, or_false] at h
    obtain ⟨t, ht, rfl, rfl⟩ := h
    interval_cases t <;> decide
  · intro t i y h
    simp only [mem_rdl, RStmt.input.injEq, reduceCtorEq, and_false, exists_false, or_false, false_or] at h
    rcases h with ⟨i, -, -, -, rfl⟩ | ⟨i, -, -, -, rfl⟩ | ⟨i, -, -, -, rfl⟩ <;> exact hx _
  · intro t a b h
    simp only [mem_rdl, RStmt.pass.injEq, reduceCtorEq, and_false, exists_false, or_false, false_or] at h
    obtain ⟨n, hn, rfl, -⟩ := h
    exact ⟨_, mem_rdl.2 (.inr (.inr (.inr (.inr (.inr ⟨n, hn, rfl⟩)))))⟩
  · intro t a b h
    simp only [mem_rdl, RStmt.pass.injEq, reduceCtorEq, and_false, exists_false, or_false, false_or] at h
    obtain ⟨n, hn, -, rfl, -⟩ := h
    have hlt := copied_lt lgn _ (List.getElem_mem hn)
    generalize (copied lgn)[n] = a at *
    by_cases h1 : a < 34
    · exact .inl ⟨_, mem_rdl.2 (.inl ⟨a, h1, rfl⟩)⟩
    · right
      by_cases h2 : a < 306
      · refine ⟨a, x a, mem_rdl.2 (.inr (.inl ⟨a - 34, by omega, ?_⟩))⟩
        rw [show 34 + (a - 34) = a by omega]
      · refine ⟨306 + padOf lgn padding + (a - 306), x (306 + padOf lgn padding + (a - 306)),
          mem_rdl.2 (.inr (.inr (.inr (.inl ⟨a - 306, by omega, ?_⟩))))⟩
        rw [show 306 + (a - 306) = a by omega]

theorem mem_rdl_output {o t : ℕ} : .output o t ∈ rdlLines lgn padding x ↔
    t = o ∧ baseOf lgn padding ≤ o ∧ o < baseOf lgn padding + 7226 * 2 ^ (lgn + 1) := by
  simp only [mem_rdl, RStmt.output.injEq, reduceCtorEq, and_false, exists_false, false_or]
  rw [copied_length]
  constructor
  · rintro ⟨n, hn, rfl, rfl⟩; exact ⟨rfl, by omega, by omega⟩
  · rintro ⟨rfl, h1, h2⟩; exact ⟨t - baseOf lgn padding, by omega, by omega, by omega⟩

theorem rdl_complete : WiringComplete (rdlLines lgn padding x) (baseOf lgn padding) := by
  refine ⟨?_, ?_, ?_⟩
  · intro o
    rw [rdl_count]
    simp only [mem_rdl_output]
    exact ⟨fun ⟨a, h⟩ => h.2, fun h => ⟨o, rfl, h⟩⟩
  · intro o t h
    rw [mem_rdl_output, ← copied_length] at h
    obtain ⟨rfl, h1, h2⟩ := h
    have hn : t - baseOf lgn padding < (copied lgn).length := by omega
    refine ⟨(copied lgn)[t - baseOf lgn padding], (copied lgn)[t - baseOf lgn padding],
      mem_rdl.2 (.inr (.inr (.inr (.inr (.inl ⟨t - baseOf lgn padding, hn, ?_⟩)))))⟩
    rw [show baseOf lgn padding + (t - baseOf lgn padding) = t by omega]
  · intro o o' t h h'
    rw [mem_rdl_output] at h h'
    rw [← h.1, h'.1]

/-- the values of the inputs of a block -/
theorem rdl_least : IsLeast {o | ∃ a, .output o a ∈ rdlLines lgn padding x} (baseOf lgn padding) := by
  refine ⟨⟨_, mem_rdl_output.2 ⟨rfl, Nat.le_refl _, ?_⟩⟩, ?_⟩
  · have := Nat.two_pow_pos (lgn + 1); omega
  · rintro o ⟨a, ha⟩
    exact (mem_rdl_output.1 ha).2.1

theorem rdl_block {F : Type} [CommRing F] {out v : ℕ → F} (h : ∀ l ∈ rdlLines lgn padding x, RHolds out v l.asRead) {b i : ℕ}
    (hb : b < 2 ^ (lgn + 1)) (hi : i < 7226) :
    out (baseOf lgn padding + (b * 7226 + i)) = v ((blockVars lgn (min b (2 ^ (lgn + 1) - 2))).getD i 0) := by
  have hn : 7226 * b + i < (copied lgn).length := by
    rw [copied_length]
    have : 7226 * (b + 1) ≤ 7226 * 2 ^ (lgn + 1) := Nat.mul_le_mul_left _ hb
    omega
  have h1 := h _ (mem_rdl.2 (.inr (.inr (.inr (.inr (.inr ⟨7226 * b + i, hn, rfl⟩))))))
  have h2 := h _ (mem_rdl.2 (.inr (.inr (.inr (.inr (.inl ⟨7226 * b + i, hn, rfl⟩))))))
  simp only [RHolds, RStmt.asRead] at h1 h2
  rw [← copied_at hb hi, Nat.mul_comm b, h1, h2, List.getD_eq_getElem?_getD, List.getElem?_eq_getElem hn]
  rfl

end Libra.MerkleGen
