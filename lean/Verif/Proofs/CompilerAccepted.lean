import Verif.Proofs.CompilerGood

/-!
# The compiled file is accepted by the reader
-/

namespace Libra.Compiler
open Libra Spec Matmul Reader

variable {P : List Stmt} {W : List RStmt} {d : Dag} {src : Id → Id} {L : Layered} {s : RState} {wg : Wiring}
  {relays : List LGate}

/-- a line that refers to a layer of `n` lines -/
def LineOk (n : ℕ) (l : Line) : Prop :=
  ∃ u v : ℕ, l.u = u ∧ l.v = v ∧ u < n ∧ v < n ∧
    (l.ty = 2 ∨ (l.ty = 0 ∨ l.ty = 1 ∨ l.ty = 7 ∨ l.ty = 8 ∨ l.ty = 9) ∨ (l.ty = 6 ∨ l.ty = 10) ∧ v = 0 ∨
      l.ty = 5 ∧ u < v ∨ l.ty = 12 ∧ u ≤ v ∧ v ≤ u + 62 ∨ l.ty = 13 ∧ v = u)

theorem wire_width {n x : ℕ} (hx : x < n) : Wire (width n) (x : ℤ) := by
  refine ⟨by positivity, ?_⟩
  have : x < 2 ^ width n := lt_of_lt_of_le hx (le_trans (Nat.le_pow_clog (by norm_num) n)
    (Nat.pow_le_pow_right (by norm_num) (le_max_right _ _)))
  exact_mod_cast this

theorem LineOk.gateOf_eq {n : ℕ} {l : Line} (h : LineOk n l) (hn : n ≤ 2 ^ 30) : gateOf true l = ⟨l.ty, l.u, l.v⟩ := by
  obtain ⟨u, v, hu, hv, hun, hvn, ht⟩ := h
  rw [gateOf, hu, hv, int32_nat (by omega), int32_nat (by omega)]
  have : (if l.ty = 6 ∨ true = true ∧ l.ty = 10 then (0 : ℤ) else (v : ℤ)) = v := by
    split_ifs with hc
    · have : v = 0 := by simp only [true_and] at hc; omega
      rw [this]; rfl
    · rfl
  rw [this]

theorem LineOk.wires {n : ℕ} {l : Line} (h : LineOk n l) : WiresOk (width n) l := by
  obtain ⟨u, v, hu, hv, hun, hvn, ht⟩ := h
  have h1 := wire_width hun
  have h2 := wire_width hvn
  rw [WiresOk]
  rw [if_neg (by omega : ¬ l.ty = 3)]
  split_ifs with h5
  · rw [hu, hv]
    refine ⟨by positivity, ?_, le_of_lt h2.2⟩
    have : u < v := by omega
    exact_mod_cast this
  · rw [hu, hv]
    refine ⟨h1, h2, fun h13 => ?_⟩
    have : v = u := by omega
    rw [this]

theorem LineOk.gate {n : ℕ} {l : Line} (h : LineOk n l) (hn : n ≤ 2 ^ 30) :
    GateOk true (width n) (gateOf true l) ∧ GateProvable (gateOf true l) := by
  rw [h.gateOf_eq hn]
  obtain ⟨u, v, hu, hv, hun, hvn, ht⟩ := h
  have h1 := wire_width hun
  have h2 := wire_width hvn
  rw [hu, hv]
  refine ⟨?_, ?_⟩
  · unfold GateOk
    dsimp only
    rcases ht with ht | ht | ⟨ht, h0⟩ | ⟨ht, h0⟩ | ⟨ht, h0⟩ | ⟨ht, h0⟩
    · exact .inr (.inl ht)
    · exact .inl ⟨ht, h1, h2⟩
    · exact .inr (.inr (.inr (.inl ⟨by tauto, h1⟩)))
    · exact .inr (.inr (.inr (.inr (.inl ⟨ht, h1.1, le_of_lt h2.2⟩))))
    · exact .inr (.inr (.inr (.inr (.inr (.inl ⟨rfl, ht, h1.1, h2.2, by omega⟩)))))
    · exact .inr (.inr (.inr (.inr (.inr (.inr ⟨rfl, ht, h1, by rw [h0]⟩)))))
  · unfold GateProvable
    dsimp only
    refine ⟨by omega, by omega, fun hc => ?_⟩
    have : v = 0 := by omega
    rw [this]; rfl

theorem blockGate_lineOk {n rep size r : ℕ} {g : LGate} (h : LevelGate n g) (hr : r < rep) :
    LineOk (n * rep) (blockGateLine size n r g) := by
  obtain ⟨u, v, hu, hv, hun, hvn, ht⟩ := h
  have h1 := pos_lt hr hun
  have h2 := pos_lt hr hvn
  have hpos : 0 < n * rep := by omega
  unfold blockGateLine
  split_ifs with hc
  · refine ⟨r * n + u, v, ?_, hv, h1, ?_, ?_⟩
    · dsimp only; rw [hu]; push_cast; ring
    · have : v = 0 := by omega
      omega
    · dsimp only; omega
  · refine ⟨r * n + u, r * n + v, ?_, ?_, h1, h2, ?_⟩
    · dsimp only; rw [hu]; push_cast; ring
    · dsimp only; rw [hv]; push_cast; ring
    · dsimp only; omega

theorem fileOf_length (inputs relays : List LGate) (rep : ℕ) (L : Layered) :
    (fileOf inputs relays rep L).length = L.depth + 2 := by simp [fileOf]

theorem fileOf_level {inputs relays : List LGate} {rep : ℕ} {L : Layered} {l : ℕ}
    (h : l + 2 < (fileOf inputs relays rep L).length) : (fileOf inputs relays rep L)[l + 2] = levelLines L rep l := by
  simp [fileOf]

/-- every line above the first layer -/
theorem fileOf_lines (h : Files P W d src L s wg relays) (hP : ProgramOk P) (hW : WiringOk W) :
    ∀ i (hi : i + 1 < (fileOf wg.inputs relays wg.repeatNum L).length),
      ∀ l ∈ (fileOf wg.inputs relays wg.repeatNum L)[i + 1],
        LineOk (fileOf wg.inputs relays wg.repeatNum L)[i].length l := by
  intro i hi l hl
  match i, hi, hl with
  | 0, hi, hl =>
    change l ∈ relays.map LGate.line at hl
    change LineOk (wg.inputs.map LGate.inputLine).length l
    obtain ⟨p, hp, rfl⟩ := List.mem_iff_getElem.1 hl
    rw [List.length_map] at hp ⊢
    rw [List.getElem_map]
    have hlen := inputs_length h
    have hlt := lt_fullCount (sources s).length
    rcases relays_line h hW hp with ⟨u, hu, e⟩ | e
    · rw [e]
      exact ⟨u, 0, rfl, rfl, by omega, by omega, .inr (.inr (.inl ⟨.inr rfl, rfl⟩))⟩
    · rw [e]
      exact ⟨0, 0, rfl, rfl, by omega, by omega, .inl rfl⟩
  | 1, hi, hl =>
    change LineOk (relays.map LGate.line).length l
    rw [fileOf_level] at hl
    rw [List.length_map, relays_length h]
    rw [levelLines, if_pos rfl, mem_blocks] at hl
    obtain ⟨r, hr, g, hg, rfl⟩ := hl
    obtain ⟨j, hj, rfl⟩ := List.mem_iff_getElem.1 hg
    have h1 := pos_lt hr hj
    unfold blockInputLine
    rw [level_numbered h.comp.toLayout 0 hj]
    split_ifs
    · exact ⟨r * (L.gates 0).length + j, 0, by push_cast; ring, rfl, h1, by omega, .inr (.inr (.inl ⟨.inr rfl, rfl⟩))⟩
    · exact ⟨0, 0, rfl, rfl, by omega, by omega, .inl rfl⟩
  | i + 2, hi, hl =>
    rw [fileOf_level, levelLines_length]
    rw [fileOf_level (l := i + 1), levelLines, if_neg (by omega), mem_blocks] at hl
    obtain ⟨r, hr, g, hg, rfl⟩ := hl
    exact blockGate_lineOk (levelGate_ok h.comp hP hg) hr

/-- the sizes are within the bounds of the program -/
structure Small (wg : Wiring) (L : Layered) : Prop where
  inputs : wg.inputs.length ≤ 2 ^ 30
  levels : ∀ l, l < L.depth → (L.gates l).length * wg.repeatNum ≤ 2 ^ 30
  depth : L.depth + 3 < 1000000

theorem fileOf_good (h : Files P W d src L s wg relays) (hP : ProgramOk P) (hW : WiringOk W) (hS : Small wg L)
    (hrep : ∃ e, wg.repeatNum = 2 ^ e) :
    GoodFile true (fileOf wg.inputs relays wg.repeatNum L) ∧
      (∀ L' ∈ fileOf wg.inputs relays wg.repeatNum L, Numbered L') ∧
      Inputs ((fileOf wg.inputs relays wg.repeatNum L).headD []) ∧
      Wired (fileOf wg.inputs relays wg.repeatNum L) := by
  have hdep := h.wired.depth
  have hlen := fileOf_length wg.inputs relays wg.repeatNum L
  have hlines := fileOf_lines h hP hW
  have hrl := relays_length h
  have hnum : ∀ L' ∈ fileOf wg.inputs relays wg.repeatNum L, Numbered L' := by
    intro L' hL'
    rw [fileOf, List.mem_cons, List.mem_cons, List.mem_map] at hL'
    rcases hL' with rfl | rfl | ⟨l, -, rfl⟩
    · intro j hj
      rw [List.length_map] at hj
      rw [List.getElem_map]
      obtain ⟨x, e, -⟩ := inputs_line h hW hj
      rw [e]
    · intro j hj
      rw [List.length_map] at hj
      rw [List.getElem_map]
      rcases relays_line h hW hj with ⟨u, -, e⟩ | e <;> rw [e]
    · exact levelLines_numbered h.comp.toLayout _ _
  have hfull : ∀ L' ∈ fileOf wg.inputs relays wg.repeatNum L, ∃ k, L'.length = 2 ^ k := by
    obtain ⟨e, he⟩ := hrep
    intro L' hL'
    rw [fileOf, List.mem_cons, List.mem_cons, List.mem_map] at hL'
    rcases hL' with rfl | rfl | ⟨l, -, rfl⟩
    · exact ⟨_, by rw [List.length_map, inputs_length h, fullCount_eq]⟩
    · exact ⟨_, by rw [List.length_map, hrl, h.comp.length, he, ← pow_add]⟩
    · exact ⟨_, by rw [levelLines_length, h.comp.length, he, ← pow_add]⟩
  have hsize : ∀ i (hi : i < (fileOf wg.inputs relays wg.repeatNum L).length),
      (fileOf wg.inputs relays wg.repeatNum L)[i].length ≤ 2 ^ 30 := by
    intro i hi
    match i, hi with
    | 0, hi =>
      change (wg.inputs.map LGate.inputLine).length ≤ _
      rw [List.length_map]; exact hS.inputs
    | 1, hi =>
      change (relays.map LGate.line).length ≤ _
      rw [List.length_map, hrl]; exact hS.levels 0 (by omega)
    | i + 2, hi =>
      rw [fileOf_level, levelLines_length]; exact hS.levels i (by omega)
  have hin : ∀ l ∈ (fileOf wg.inputs relays wg.repeatNum L).headD [], ∃ (j : ℕ) (x : ℤ), l = ⟨3, j, x, 0⟩ ∧ j < 2 ^ 30 ∧
      -2 ^ 63 ≤ x ∧ x < 2 ^ 63 := by
    intro l hl
    change l ∈ wg.inputs.map LGate.inputLine at hl
    obtain ⟨j, hj, rfl⟩ := List.mem_iff_getElem.1 hl
    rw [List.length_map] at hj
    rw [List.getElem_map]
    obtain ⟨x, e, hx⟩ := inputs_line h hW hj
    exact ⟨j, x, e, lt_of_lt_of_le hj hS.inputs, hx⟩
  refine ⟨⟨⟨by simp [fileOf], by have := hS.depth; omega, ?_⟩, hnum, hfull, ?_, ?_, ?_⟩, hnum, ?_, ?_⟩
  · intro L' hL'
    obtain ⟨i, hi, rfl⟩ := List.mem_iff_getElem.1 hL'
    refine ⟨?_, hsize i hi, fun l hl => ?_⟩
    · obtain ⟨k, hk⟩ := hfull _ hL'
      have : 0 < 2 ^ k := by positivity
      intro e
      rw [e, List.length_nil] at hk
      omega
    · have hg : ∃ j : ℕ, j < 2 ^ 30 ∧ l.g = j := by
        obtain ⟨j, hj, rfl⟩ := List.mem_iff_getElem.1 hl
        exact ⟨j, lt_of_lt_of_le hj (hsize i hi), hnum _ hL' j hj⟩
      obtain ⟨j, hj, hg⟩ := hg
      match i, hi, hl with
      | 0, hi, hl =>
        obtain ⟨j', x, rfl, hj', hx⟩ := hin l hl
        refine ⟨?_, ?_, ?_, ?_⟩ <;> dsimp only <;> omega
      | i + 1, hi, hl =>
        have hn := hsize i (by omega)
        obtain ⟨u, v, hu, hv, hun, hvn, ht⟩ := hlines i hi l hl
        refine ⟨?_, ?_, ?_, ?_⟩
        · omega
        · rw [hg]; omega
        · rw [hu]; omega
        · rw [hv]; omega
  · intro l hl
    obtain ⟨j, x, rfl, -, -⟩ := hin l hl
    exact .inl rfl
  · have := hS.depth; omega
  · intro i hi l hl
    exact (hlines i hi l hl).gate (hsize i (by omega))
  · intro l hl
    obtain ⟨j, x, rfl, -⟩ := hin l hl
    exact .inr rfl
  · intro i hi l hl
    match i, hi, hl with
    | 0, hi, hl =>
      obtain ⟨j, x, rfl, -⟩ := hin l hl
      rw [WiresOk, if_pos rfl]
      trivial
    | i + 1, hi, hl =>
      have := (hlines i hi l hl).wires
      dsimp only
      rw [List.getElem?_eq_getElem (by omega)]
      exact this

/-! ### the meta file -/

theorem logRep_pow (e : ℕ) : logRep (2 ^ e) = e := by
  induction e with
  | zero => rw [logRep]; simp
  | succ e ih =>
    have : 2 ^ (e + 1) / 2 = 2 ^ e := by rw [pow_succ]; omega
    have h1 : 1 ≤ 2 ^ e := Nat.one_le_two_pow
    rw [logRep, dif_neg (by rw [pow_succ]; omega), this, ih]

theorem metaOf_ok (h : Files P W d src L s wg relays) (hS : Small wg L) (hrep : ∃ e, wg.repeatNum = 2 ^ e) (var : Variant) :
    (∀ m ∈ metaOf var wg.repeatNum L, m.Ok) ∧ (metaOf var wg.repeatNum L).length = L.depth + 2 := by
  obtain ⟨e, he⟩ := hrep
  have hdep := h.wired.depth
  have hlev : ∀ l, l < L.depth → ∀ para : ℤ, para = 0 ∨ para = 1 → (levelMeta L wg.repeatNum l para).Ok := by
    intro l hl para hpara
    have hs := hS.levels l hl
    have hpos := size_pos h.comp.toLayout l
    have hr : 0 < wg.repeatNum := Nat.pos_of_ne_zero h.rep
    have h1 : (L.gates l).length ≤ 2 ^ 30 := le_trans (Nat.le_mul_of_pos_right _ hr) hs
    have h2 : wg.repeatNum ≤ 2 ^ 30 := le_trans (Nat.le_mul_of_pos_left _ hpos) hs
    have h3 : L.bitLen l ≤ 30 := by
      rw [h.comp.length] at h1
      exact (Nat.pow_le_pow_iff_right (by norm_num)).1 h1
    have h4 : e ≤ 30 := by
      rw [he] at h2
      exact (Nat.pow_le_pow_iff_right (by norm_num)).1 h2
    have hlog : logRep wg.repeatNum = e := by rw [he, logRep_pow]
    refine ⟨?_, fun _ => ?_⟩
    · intro x hx
      simp only [MetaLine.tokens, levelMeta, List.mem_cons, List.not_mem_nil, or_false] at hx
      rw [hlog] at hx
      rcases hx with rfl | rfl | rfl | rfl | rfl <;> omega
    · simp only [levelMeta]
      rw [hlog]
      refine ⟨by positivity, by omega, ?_⟩
      rw [Int.toNat_natCast, he]
      push_cast
      rfl
  refine ⟨?_, by simp [metaOf]⟩
  intro m hm
  rw [metaOf, List.mem_cons, List.mem_cons, List.mem_map] at hm
  rcases hm with rfl | rfl | ⟨l, hl, rfl⟩
  · split_ifs
    · exact ⟨by decide, fun h => absurd rfl h⟩
    · exact ⟨by decide, fun h => absurd rfl h⟩
  · exact hlev 0 (by omega) 0 (.inl rfl)
  · exact hlev l (List.mem_range.1 hl) 1 (.inr rfl)

end Libra.Compiler
