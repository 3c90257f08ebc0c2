import Verif.Proofs.Stats

/-!
# C103: the statistics program

`parser.cpp` prints the number of gates and of gates of degree 2 of a straight-line program, and a depth.
-/

namespace Libra.Props
open Libra.StatsProg Libra.Spec Libra.Compiler

/-- **C103 (counts).** Whenever the program ends, "Total gates" is the number of lines and "Deg2 gates" the number of products, `XOR` and `NAAB` lines. -/
theorem C103_counts (P : List SLine) (d t g : ℕ) (h : StatsProg.run P = .ok (d, t, g)) :
    t = P.length ∧ g = P.countP SLine.isDeg2 := by
  obtain ⟨s, e, h⟩ := Outcome.bind_eq_ok' h
  obtain ⟨r, -, h⟩ := Outcome.bind_eq_ok' h
  obtain ⟨c1, c2⟩ := read_counts e
  cases Outcome.ok.inj h
  exact ⟨by simpa using c1, by simpa using c2⟩

/-- **C103 (depth).** For a program of inputs, gates, constants and outputs with fewer than 500000 variables and inputs, and less than three
million operands, the program ends and prints as "max depth" the greatest of the lengths of some paths, one to each place that can be reached
from an input. So it is at most the length of the longest path. -/
theorem C103_depth_partial (P : List SLine) (hP : ∀ l ∈ P, LineFine l) (hlen : 2 * P.length + 2 ≤ 3000000) :
    ∃ d, StatsProg.run P = .ok (d, P.length, P.countP SLine.isDeg2) ∧
      (∃ m : Place → ℕ, (∀ v k, PathTo P v k → PathTo P v (m v) ∧ m v ≤ d) ∧ (d = 0 ∨ ∃ v, PathTo P v d ∧ m v = d)) ∧
      ∀ D, LongestPath P D → d ≤ D := by
  have := allEdges_length P
  obtain ⟨d, e, m, h1, h2⟩ := run_spec hP (by show _ ≤ 3000000; omega)
  refine ⟨d, e, ⟨m, h1, h2⟩, fun D hD => ?_⟩
  rcases h2 with rfl | ⟨v, hv, -⟩
  · omega
  · exact hD.2 v d hv

/-- **C103 (layered programs).** If all paths from inputs to a place have the same length, then "max depth" is the length of the longest path. -/
theorem C103_layered_partial (P : List SLine) (hP : ∀ l ∈ P, LineFine l) (hlen : 2 * P.length + 2 ≤ 3000000)
    (hl : ∀ v k k', PathTo P v k → PathTo P v k' → k = k') (hi : ∃ t i, .input t i ∈ P) :
    ∃ d, StatsProg.run P = .ok (d, P.length, P.countP SLine.isDeg2) ∧ LongestPath P d := by
  obtain ⟨d, e, ⟨m, h1, h2⟩, -⟩ := C103_depth_partial P hP hlen
  have hle : ∀ v k, PathTo P v k → k ≤ d := fun v k h => by
    have := h1 v k h
    rw [hl v k _ h this.1]
    exact this.2
  refine ⟨d, e, ?_, hle⟩
  rcases h2 with rfl | ⟨v, hv, -⟩
  · obtain ⟨t, i, h⟩ := hi
    have := hle _ _ (.input h)
    omega
  · exact ⟨v, hv⟩

/-- an upper bound for the lengths of paths -/
theorem path_bound {P : List SLine} (f : Place → ℕ) (hi : ∀ l ∈ P, ∀ t i, l = .input t i → 1 ≤ f (.inp i))
    (hs : ∀ l ∈ P, ∀ u ∈ l.reads, f u + 1 ≤ f l.writes) {v : Place} {k : ℕ} (h : PathTo P v k) : k ≤ f v := by
  induction h with
  | input h => exact hi _ h _ _ rfl
  | step h hf ih =>
    obtain ⟨l, hl, hu, rfl⟩ := hf
    have := hs l hl _ hu
    omega

/-! ### A long path that is not seen -/

/-- `V0 = I0`, and `V(k+1) = Vk + V0` for all `k < n` -/
def sumsProgram (n : ℕ) : List SLine := .input 0 0 :: (List.range n).map (fun k => .gate .add (k + 1) k 0)

theorem sumsProgram_succ (n : ℕ) : sumsProgram (n + 1) = sumsProgram n ++ [.gate .add (n + 1) n 0] := by
  simp [sumsProgram, List.range_succ]

theorem sums_edges (n : ℕ) :
    allEdges (sumsProgram (n + 1)) = (0, n + 1) :: (n, n + 1) :: allEdges (sumsProgram n) := by
  rw [sumsProgram_succ, allEdges, List.reverse_append]
  rfl

theorem sums_succs (n x : ℕ) : succs (allEdges (sumsProgram (n + 1))) x =
    (if 0 = x then [n + 1] else []) ++ ((if n = x then [n + 1] else []) ++ succs (allEdges (sumsProgram n)) x) := by
  rw [sums_edges, succs, succs, List.filter_cons, List.filter_cons]
  by_cases h0 : 0 = x <;> by_cases h1 : n = x <;> simp [h0, h1]

theorem sums_input (n : ℕ) (hn : n < 500000) : succs (allEdges (sumsProgram n)) 500000 = [0] := by
  induction n with
  | zero => rfl
  | succ n ih => rw [sums_succs, if_neg (by omega), if_neg (by omega), ih (by omega)]; rfl

theorem sums_last (n x : ℕ) (hx : 1 ≤ x) (hn : n ≤ x) (hl : x < 500000) : succs (allEdges (sumsProgram n)) x = [] := by
  induction n with
  | zero =>
    show succs [(500000, 0)] x = []
    simp only [succs, List.filter_cons]
    rw [if_neg (by simp; omega)]
    rfl
  | succ n ih => rw [sums_succs, if_neg (by omega), if_neg (by omega), ih (by omega)]; rfl

theorem sums_middle (n x : ℕ) (hx : 1 ≤ x) (hn : x < n) (hl : n < 500000) : succs (allEdges (sumsProgram n)) x = [x + 1] := by
  induction n with
  | zero => omega
  | succ n ih =>
    rw [sums_succs, if_neg (by omega)]
    by_cases h : n = x
    · rw [if_pos h, sums_last n x hx (by omega) (by omega), h]; rfl
    · rw [if_neg h, ih (by omega) (by omega)]; rfl

/-- the search when the variables above `j` are marked -/
def sumsState (n j : ℕ) : Search where
  visit := fun y => if y = 500000 then 1 else if y = 0 then 2 else if j < y ∧ y ≤ n then 3 else 0
  mx := if j < n then 3 else 2

theorem sums_mark (n j : ℕ) (hj : j + 1 ≤ n) (hn : n < 500000) (f : ℕ) :
    dfs (allEdges (sumsProgram n)) (f + 2) (j + 1) 3 (sumsState n (j + 1)) = .ok (sumsState n j) := by
  have hs : Search.mk (Function.update (sumsState n (j + 1)).visit (j + 1) 3)
      (if (sumsState n (j + 1)).mx < 3 then 3 else (sumsState n (j + 1)).mx) = sumsState n j := by
    rw [sumsState, sumsState, Search.mk.injEq]
    constructor
    · funext y
      by_cases e : y = j + 1
      · subst e
        rw [Function.update_self, if_neg (by omega), if_neg (by omega), if_pos (by omega)]
      · rw [Function.update_of_ne e]
        dsimp only
        split
        · rfl
        · split
          · rfl
          · congr 1
            apply propext
            omega
    · dsimp only
      rw [if_pos (show j < n by omega)]
      split <;> split <;> omega
  rw [dfs, if_neg (by show ¬3000000 ≤ _; omega), if_neg (by
    simp only [ne_eq, Decidable.not_not, sumsState]
    rw [if_neg (by omega), if_neg (by omega), if_neg (by omega)]), hs]
  by_cases h : j + 1 < n
  · rw [sums_middle n (j + 1) (by omega) h hn, List.foldlM_cons, dfs, if_neg (by show ¬3000000 ≤ _; omega), if_pos (by
      simp only [sumsState]
      rw [if_neg (by omega), if_neg (by omega), if_pos (by omega)]
      omega)]
    rfl
  · rw [sums_last n (j + 1) (by omega) (by omega) (by omega)]
    rfl

theorem sums_fold (n : ℕ) (hn : n < 500000) (f : ℕ) (j : ℕ) (hj : j ≤ n) :
    (succs (allEdges (sumsProgram j)) 0).foldlM (fun s y => dfs (allEdges (sumsProgram n)) (f + 2) y 3 s) (sumsState n j) =
      .ok (sumsState n 0) := by
  induction j with
  | zero => rfl
  | succ j ih =>
    rw [sums_succs, if_pos rfl, List.cons_append, List.nil_append, List.foldlM_cons, sums_mark n j hj hn, Outcome.ok_bind]
    by_cases h : j = 0
    · subst h
      rw [if_pos rfl, List.cons_append, List.nil_append, List.foldlM_cons, dfs, if_neg (by show ¬3000000 ≤ _; omega), if_pos (by
        simp only [sumsState]
        rw [if_neg (by omega), if_neg (by omega), if_pos (by omega)]
        omega)]
      rw [Outcome.ok_bind]
      exact ih (by omega)
    · rw [if_neg h]
      exact ih (by omega)

theorem sums_fine (n : ℕ) (hn : n < 500000) : ∀ l ∈ sumsProgram n, LineFine l := by
  intro l hl
  rcases List.mem_cons.1 hl with rfl | hl
  · exact ⟨by omega, by omega⟩
  · obtain ⟨k, hk, rfl⟩ := List.mem_map.1 hl
    rw [List.mem_range] at hk
    exact ⟨by omega, by omega, by omega⟩

theorem sums_inputs (n : ℕ) : (sumsProgram n).flatMap lineInputs = [500000] := by
  rw [sumsProgram, List.flatMap_cons, List.flatMap_eq_nil_iff.2]
  · rfl
  · intro l hl
    obtain ⟨k, -, rfl⟩ := List.mem_map.1 hl
    rfl

/-- **C103 is false of the code (depth).** For every `n` from 1 to 499999 the program prints the depth 3 for `sumsProgram n`, whose longest path has
`n + 2` places: a place is only visited once, at the depth at which it is first met. -/
theorem C103_false (n : ℕ) (h1 : 1 ≤ n) (hn : n < 500000) :
    StatsProg.run (sumsProgram n) = .ok (3, n + 1, 0) ∧ LongestPath (sumsProgram n) (n + 2) := by
  constructor
  · have hlen := allEdges_length (sumsProgram n)
    have hl : (sumsProgram n).length = n + 1 := by simp [sumsProgram]
    obtain ⟨s, e, he, hi⟩ := read_run (sums_fine n hn) {} (by show 0 + 2 + _ ≤ 3000000; omega)
    obtain ⟨c1, c2⟩ := read_counts e
    rw [show ({} : Stats).edges = [] from rfl, List.append_nil] at he
    rw [show ({} : Stats).inputs = [] from rfl, List.nil_append, sums_inputs] at hi
    have c3 : (sumsProgram n).countP SLine.isDeg2 = 0 := by
      rw [List.countP_eq_zero]
      intro l hl
      rcases List.mem_cons.1 hl with rfl | hl
      · simp [SLine.isDeg2]
      · obtain ⟨k, -, rfl⟩ := List.mem_map.1 hl
        simp [SLine.isDeg2]
    have hs : ({ visit := Function.update (Function.update (fun _ => 0) 500000 1) 0 2, mx := 2 } : Search) = sumsState n n := by
      rw [sumsState, Search.mk.injEq]
      constructor
      · funext y
        simp only [Function.update_apply]
        by_cases e0 : y = 0
        · rw [if_pos e0, if_neg (by omega), if_pos e0]
        · rw [if_neg e0, if_neg e0]
          split
          · rfl
          · rw [if_neg (by omega)]
      · rw [if_neg (by omega)]
    have hf := sums_fold n hn 2999997 n le_rfl
    have hd : dfs s.edges (maxn + 1) 500000 1 {} = .ok (sumsState n 0) := by
      rw [show maxn + 1 = 2999997 + 2 + 1 + 1 from rfl, dfs, if_neg (by decide), if_neg (by simp), he, sums_input n hn]
      rw [List.foldlM_cons, dfs, if_neg (by decide), if_neg (by simp)]
      simp only [Nat.reduceAdd, Nat.zero_lt_one, if_true, Nat.reduceLT] at hf ⊢
      rw [hs, hf]
      rfl
    rw [run, e, Outcome.ok_bind, hi, List.foldlM_cons, hd, Outcome.ok_bind, c1, c2, c3, hl]
    show Outcome.ok ((if 0 < n then 3 else 2), 0 + (n + 1), 0) = _
    rw [if_pos (by omega), Nat.zero_add]
  · have hp : ∀ k ≤ n, PathTo (sumsProgram n) (.var k) (k + 2) := by
      intro k
      induction k with
      | zero => intro _; exact .step (u := .inp 0) (.input (t := 0) (by simp [sumsProgram])) ⟨.input 0 0, by simp [sumsProgram], by simp [SLine.reads], rfl⟩
      | succ k ih =>
        intro hk
        exact .step (ih (by omega)) ⟨.gate .add (k + 1) k 0, by simp [sumsProgram]; omega, by simp [SLine.reads], rfl⟩
    refine ⟨⟨.var n, hp n le_rfl⟩, fun v k h => ?_⟩
    have := path_bound (P := sumsProgram n) (fun v => match v with | .inp _ => 1 | .var t => min t n + 2 | .out _ => 0)
      (by intro l _ t i _; exact le_rfl) (by
        intro l hl u hu
        rcases List.mem_cons.1 hl with rfl | hl
        · rw [SLine.reads, List.mem_singleton] at hu
          subst hu
          exact Nat.le_add_left _ _
        · obtain ⟨k, hk, rfl⟩ := List.mem_map.1 hl
          rw [List.mem_range] at hk
          rw [SLine.reads, List.mem_cons, List.mem_singleton] at hu
          rcases hu with rfl | rfl
          · show min k n + 2 + 1 ≤ min (k + 1) n + 2
            omega
          · show min 0 n + 2 + 1 ≤ min (k + 1) n + 2
            omega) h
    refine this.trans ?_
    cases v <;> dsimp only <;> omega

/-! ### Lines that are misread -/

/-- **C103 (products with constants).** The regular expression accepts a line `P Vt = c * Va E`, but the format with which it is read has `+` in the
place of `*`: `sscanf` stores `t` and `c` and stops; the operand is whatever `src1` was. -/
theorem C103_scan (nt nc na : List Char) (t c a : ℕ) (ht : Numeral nt t) (hc : Numeral nc c) (ha : Numeral na a)
    (h1 : t < 2 ^ 31) (h2 : c < 2 ^ 31) (s : List Char)
    (hs : s = ['P', ' ', 'V'] ++ nt ++ ([' ', '=', ' '] ++ nc ++ ([' ', '*', ' ', 'V'] ++ na ++ [' ', 'E']))) :
    Txt.regexMatch mulConstPat s = true ∧ Txt.sscanf mulConstFmt s = .ok [(t : ℤ), (c : ℤ)] := by
  obtain ⟨d1, rfl⟩ := (Txt.numeral_iff _ _).1 ht
  obtain ⟨d2, rfl⟩ := (Txt.numeral_iff _ _).1 hc
  obtain ⟨d3, rfl⟩ := (Txt.numeral_iff _ _).1 ha
  subst hs
  constructor
  · rw [mulConstPat, Txt.match_lits]
    refine ⟨nt ++ ([' ', '=', ' '] ++ nc ++ ([' ', '*', ' ', 'V'] ++ na ++ [' ', 'E'])), by simp, ?_⟩
    rw [Txt.match_digits]
    refine ⟨nt, _, d1, rfl, ?_⟩
    rw [Txt.match_lits]
    refine ⟨nc ++ ([' ', '*', ' ', 'V'] ++ na ++ [' ', 'E']), by simp, ?_⟩
    rw [Txt.match_digits]
    refine ⟨nc, _, d2, rfl, ?_⟩
    rw [Txt.match_lits]
    refine ⟨na ++ [' ', 'E'], by simp, ?_⟩
    rw [Txt.match_digits]
    exact ⟨na, _, d3, rfl, (Txt.match_lits_end _ _).2 rfl⟩
  · have hsp : ∀ (f : List Txt.Conv) (r : List Char), Txt.sscanf (.space :: f) (' ' :: r) = Txt.sscanf f (r.dropWhile Txt.isSpace) := by
      intro f r; rfl
    obtain ⟨x, l, rfl⟩ := List.exists_cons_of_ne_nil d2.1
    have hx := Txt.digit_not_space (d2.2 x (by simp))
    have e1 : Txt.sscanf mulConstFmt (['P', ' ', 'V'] ++ nt ++ ([' ', '=', ' '] ++ (x :: l) ++ ([' ', '*', ' ', 'V'] ++ na ++ [' ', 'E']))) =
        Txt.sscanf (.d :: mulConstFmt.drop 4) (nt ++ ' ' :: (['=', ' '] ++ (x :: l) ++ ([' ', '*', ' ', 'V'] ++ na ++ [' ', 'E']))) := rfl
    rw [e1, Txt.sscanf_d d1 (by decide), if_pos h1]
    have e2 : Txt.sscanf (mulConstFmt.drop 4) (' ' :: (['=', ' '] ++ (x :: l) ++ ([' ', '*', ' ', 'V'] ++ na ++ [' ', 'E']))) =
        Txt.sscanf (.d :: mulConstFmt.drop 8) (((x :: l) ++ ' ' :: (['*', ' ', 'V'] ++ na ++ [' ', 'E'])).dropWhile Txt.isSpace) := rfl
    rw [e2, List.cons_append, List.dropWhile_cons_of_neg (by simp [hx]), ← List.cons_append, Txt.sscanf_d d2 (by decide), if_pos h2]
    rfl

/-- **C103 is false of the code (products with constants).** `V2 = 3 * V1` is counted as reading the second operand of the line before it. -/
theorem C103_const_false :
    StatsProg.run [.input 0 0, .gate .add 1 0 0, .mulConst 2 3 1] = .ok (3, 3, 0) ∧
      LongestPath [.input 0 0, .gate .add 1 0 0, .mulConst 2 3 1] 4 := by
  refine ⟨by rfl, ⟨.var 2, ?_⟩, fun v k h => ?_⟩
  · refine .step (u := .var 1) (.step (u := .var 0) (.step (u := .inp 0) (.input (t := 0) (by simp)) ?_) ?_) ?_
    · exact ⟨.input 0 0, by simp, by simp [SLine.reads], rfl⟩
    · exact ⟨.gate .add 1 0 0, by simp, by simp [SLine.reads], rfl⟩
    · exact ⟨.mulConst 2 3 1, by simp, by simp [SLine.reads], rfl⟩
  · refine (path_bound (fun v => match v with | .inp _ => 1 | .var t => min t 2 + 2 | .out _ => 0) ?_ ?_ h).trans ?_
    · intro l _ t i _; exact le_rfl
    · decide
    · cases v <;> dsimp only <;> omega

/-- **C103 is false of the code (`PASS`).** `V1 = V0 PASS V0` is counted as writing `V1000001`; a path through it is cut. -/
theorem C103_pass_false :
    StatsProg.run [.input 0 0, .pass 1 0 0, .gate .add 2 1 1] = .ok (3, 3, 0) ∧
      LongestPath [.input 0 0, .pass 1 0 0, .gate .add 2 1 1] 4 := by
  refine ⟨by rfl, ⟨.var 2, ?_⟩, fun v k h => ?_⟩
  · refine .step (u := .var 1) (.step (u := .var 0) (.step (u := .inp 0) (.input (t := 0) (by simp)) ?_) ?_) ?_
    · exact ⟨.input 0 0, by simp, by simp [SLine.reads], rfl⟩
    · exact ⟨.pass 1 0 0, by simp, by simp [SLine.reads], rfl⟩
    · exact ⟨.gate .add 2 1 1, by simp, by simp [SLine.reads], rfl⟩
  · refine (path_bound (fun v => match v with | .inp _ => 1 | .var t => min t 2 + 2 | .out _ => 0) ?_ ?_ h).trans ?_
    · intro l _ t i _; exact le_rfl
    · decide
    · cases v <;> dsimp only <;> omega

/-- **C103 is false of the code (`SS`).** A sum has no edges; nothing is deeper for it. -/
theorem C103_sum_false :
    StatsProg.run [.input 0 0, .sum 1 0 0] = .ok (2, 2, 0) ∧ LongestPath [.input 0 0, .sum 1 0 0] 3 := by
  refine ⟨by rfl, ⟨.var 1, ?_⟩, fun v k h => ?_⟩
  · refine .step (u := .var 0) (.step (u := .inp 0) (.input (t := 0) (by simp)) ?_) ?_
    · exact ⟨.input 0 0, by simp, by simp [SLine.reads], rfl⟩
    · exact ⟨.sum 1 0 0, by simp, by simp [SLine.reads], rfl⟩
  · refine (path_bound (fun v => match v with | .inp _ => 1 | .var t => min t 1 + 2 | .out _ => 0) ?_ ?_ h).trans ?_
    · intro l _ t i _; exact le_rfl
    · decide
    · cases v <;> dsimp only <;> omega

/-- **C103 is false of the code (large numbers).** Variable 500001 and input 1 are the same vertex; the depth is too large. -/
theorem C103_large_false :
    StatsProg.run [.input 0 0, .gate .add 500001 0 0, .input 1 1] = .ok (4, 3, 0) ∧
      LongestPath [.input 0 0, .gate .add 500001 0 0, .input 1 1] 3 := by
  refine ⟨by rfl, ⟨.var 500001, ?_⟩, fun v k h => ?_⟩
  · refine .step (u := .var 0) (.step (u := .inp 0) (.input (t := 0) (by simp)) ?_) ?_
    · exact ⟨.input 0 0, by simp, by simp [SLine.reads], rfl⟩
    · exact ⟨.gate .add 500001 0 0, by simp, by simp [SLine.reads], rfl⟩
  · refine (path_bound (fun v => match v with | .inp _ => 1 | .var t => if t = 0 then 2 else if t = 1 then 2 else 3 | .out _ => 0) ?_ ?_ h).trans ?_
    · intro l _ t i _; exact le_rfl
    · decide
    · cases v <;> dsimp only
      · omega
      · split_ifs <;> omega
      · omega

/-! ### Examples -/

/-- a layered program -/
def squareProgram : List SLine := [.input 0 0, .gate .mult 1 0 0, .output 0 1]

example : StatsProg.run squareProgram = .ok (4, 3, 1) := by rfl

example : ∃ d, StatsProg.run squareProgram = .ok (d, 3, 1) ∧ LongestPath squareProgram d := by
  refine C103_layered_partial squareProgram ?_ (by decide) ?_ ⟨0, 0, by simp [squareProgram]⟩
  · intro l hl
    simp only [squareProgram, List.mem_cons, List.not_mem_nil, or_false] at hl
    rcases hl with rfl | rfl | rfl <;> simp [LineFine]
  · have exact_len : ∀ v k, PathTo squareProgram v k → k = match v with | .inp _ => 1 | .var t => t + 2 | .out _ => 4 := by
      intro v k h
      induction h with
      | input h => rfl
      | step h hf ih =>
        obtain ⟨l, hl, hu, rfl⟩ := hf
        simp only [squareProgram, List.mem_cons, List.not_mem_nil, or_false] at hl
        rcases hl with rfl | rfl | rfl <;> simp only [SLine.reads, List.mem_cons, List.not_mem_nil, or_false, or_self] at hu <;> subst hu <;>
          subst ih <;> rfl
    intro v k k' h h'
    rw [exact_len v k h, exact_len v k' h']

example : StatsProg.run (sumsProgram 400) = .ok (3, 401, 0) ∧ LongestPath (sumsProgram 400) 402 :=
  C103_false 400 (by decide) (by decide)

example : Txt.sscanf mulConstFmt "P V7 = 3 * V5 E".toList = .ok [7, 3] := by decide +kernel

end Libra.Props
