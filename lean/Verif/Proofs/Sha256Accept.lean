import Verif.Proofs.Sha256Levels
import Verif.Proofs.CompilerDag

/-!
# The compiler accepts the SHA-256 program
-/

namespace Libra.Sha256Gen
open Compiler Spec

theorem straight_get : ∀ {v : ℕ} {l : List Stmt}, Straight v l → ∀ {j : ℕ} {s : Stmt}, l[j]? = some s → LineOk (v + j) s
  | v, [], _, j, s, h => by simp at h
  | v, s' :: l, h, 0, s, e => by obtain rfl : s' = s := by simpa using e
                                 exact h.1
  | v, s' :: l, h, j + 1, s, e => by
    have := straight_get h.2 (j := j) (s := s) (by simpa using e)
    rwa [show v + (j + 1) = v + 1 + j by omega]

theorem lineOk_target' {v : ℕ} {s : Stmt} (h : LineOk v s) : target s = some v := by
  cases s with
  | gate op t a b => obtain ⟨rfl, -⟩ := h; rfl
  | expSum t a b => obtain ⟨rfl, -⟩ := h; rfl
  | bit t a b => obtain ⟨rfl, -⟩ := h; rfl
  | _ => exact h.elim

theorem lineOk_uses {v x : ℕ} {s : Stmt} (h : LineOk v s) (hx : Uses s x) : x < v := by
  cases s with
  | gate op t a b => obtain ⟨-, ha, hb⟩ := h; rcases hx with rfl | rfl <;> assumption
  | expSum t a b => obtain ⟨-, hb, -⟩ := h; exact lt_of_le_of_lt hx.2 hb
  | bit t a b => obtain ⟨-, ha, hb⟩ := h; rcases hx with rfl | rfl
                 · assumption
                 · assumption
  | _ => exact h.elim

/-- a program of `n` inputs, lines and outputs -/
def straightProgram (n : ℕ) (l : List Stmt) (o : List ℕ) (m : ℕ) : List Stmt :=
  (List.range n).map (fun i => Stmt.input i i) ++ l ++ (o.zipIdx m).map (fun p => Stmt.output p.2 p.1)

theorem straight_at {n : ℕ} {l : List Stmt} (h : Straight n l) (o : List ℕ) (m : ℕ) {x : ℕ} (hx : x < n + l.length) :
    ∃ s, (straightProgram n l o m)[x]? = some s ∧ target s = some x ∧ ∀ y, Uses s y → y < x := by
  unfold straightProgram
  by_cases hn : x < n
  · refine ⟨.input x x, ?_, rfl, fun y hy => hy.elim⟩
    rw [List.append_assoc, List.getElem?_append_left (by simpa using hn)]
    simp [hn]
  · have hj : x - n < l.length := by omega
    refine ⟨l[x - n], ?_, ?_⟩
    · rw [List.getElem?_append_left (by simp; omega), List.getElem?_append_right (by simp; omega)]
      simp [hj]
    · have := straight_get h (List.getElem?_eq_getElem hj)
      rw [show n + (x - n) = x by omega] at this
      exact ⟨lineOk_target' this, fun y hy => lineOk_uses this hy⟩

theorem straight_acceptable {n : ℕ} {l : List Stmt} (h : Straight n l) (hn : n ≠ 0) {o : List ℕ} (m : ℕ)
    (ho : ∀ t ∈ o, t < n + l.length) {lv : ℕ → ℕ} (h0 : ∀ i < n, lv i = 0) (hl : ∀ s ∈ l, LevelOk lv s) :
    Acceptable (straightProgram n l o m) := by
  refine ⟨?_, ⟨lv, ?_⟩, ⟨0, 0, ?_⟩⟩
  · intro Q s hp x hx
    obtain ⟨R, hR⟩ := hp
    have hs : (straightProgram n l o m)[Q.length]? = some s := by rw [← hR]; simp
    have hq : ∀ y < Q.length, ∀ s', (straightProgram n l o m)[y]? = some s' → s' ∈ Q := by
      intro y hy s' e
      rw [← hR, List.append_assoc, List.getElem?_append_left hy] at e
      exact List.mem_of_getElem? e
    by_cases hi : Q.length < n + l.length
    · obtain ⟨s', e, ht, hu⟩ := straight_at h o m hi
      obtain rfl := Option.some.inj (e.symm.trans hs)
      have hxi := hu x hx
      obtain ⟨s'', e', ht', -⟩ := straight_at h o m (lt_trans hxi hi)
      exact ⟨⟨s'', hq x hxi _ e', ht'⟩, fun t e => by rw [ht] at e; obtain rfl := Option.some.inj e; exact hxi⟩
    · unfold straightProgram at hs
      rw [List.getElem?_append_right (by simp; omega), List.getElem?_map] at hs
      obtain ⟨p, hp, rfl⟩ := Option.map_eq_some_iff.1 hs
      have hx' : x = p.1 := hx
      have := ho p.1 (List.fst_mem_of_mem_zipIdx (List.mem_of_getElem? hp))
      obtain ⟨s'', e', ht', -⟩ := straight_at h o m this
      exact ⟨⟨s'', hq _ (by omega) _ e', by rw [ht', hx']⟩, fun t e => by cases e⟩
  · intro s hs
    rcases List.mem_append.1 hs with hs | hs
    · rcases List.mem_append.1 hs with hs | hs
      · obtain ⟨i, hi, rfl⟩ := List.mem_map.1 hs
        exact h0 i (List.mem_range.1 hi)
      · exact hl s hs
    · obtain ⟨p, -, rfl⟩ := List.mem_map.1 hs
      exact True.intro
  · refine List.mem_append_left _ (List.mem_append_left _ (List.mem_map.2 ⟨0, List.mem_range.2 (by omega), rfl⟩))

theorem write64_acceptable {P : List Stmt} (hP : write64 = .ok P) : Acceptable P := by
  obtain ⟨L, h1, h2, h3, h4⟩ := write64_eq
  rw [h4] at hP
  obtain rfl := Outcome.ok.inj hP
  obtain ⟨lv, hb, hw⟩ := exists_depths h2 fun _ => 0
  have := (writeBody_lev (lv := lv) hb 7226 _ _ _ h1 hw).1
  exact straight_acceptable h2 (by decide) _ h3 hb this

theorem straight_known {v : ℕ} {l : List Stmt} (h : Straight v l) : ∀ s ∈ l, Known .sha256 s := by
  intro s hs
  obtain ⟨j, hj⟩ := List.mem_iff_getElem?.1 hs
  have := straight_get h hj
  cases s with
  | gate => exact True.intro
  | expSum => rfl
  | bit => rfl
  | _ => exact this.elim

theorem write64_known {P : List Stmt} (hP : write64 = .ok P) : ∀ s ∈ P, Known .sha256 s := by
  obtain ⟨L, h1, h2, h3, h4⟩ := write64_eq
  rw [h4] at hP
  obtain rfl := Outcome.ok.inj hP
  intro s hs
  rcases List.mem_append.1 hs with hs | hs
  · rcases List.mem_append.1 hs with hs | hs
    · obtain ⟨i, -, rfl⟩ := List.mem_map.1 hs; exact True.intro
    · exact straight_known h2 s hs
  · obtain ⟨i, -, rfl⟩ := List.mem_map.1 hs; exact True.intro

end Libra.Sha256Gen
