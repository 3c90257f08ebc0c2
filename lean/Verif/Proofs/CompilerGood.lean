import Verif.Proofs.CompilerFile

/-!
# The compiled file is well formed
-/

namespace Libra.Compiler
open Libra Spec Matmul Reader

/-- everything known after a successful run -/
structure Files (P : List Stmt) (W : List RStmt) (d : Dag) (src : Id → Id) (L : Layered) (s : RState) (wg : Wiring)
    (relays : List LGate) : Prop where
  comp : Compiled P d src L
  reads : RReads W s
  wired : Wired' s L (inputCount P) wg
  rel : wg.relays = relays.map some
  rep : wg.repeatNum ≠ 0
  kinds0 : ∀ g ∈ L.gates 0, g.ty = 3 ∨ g.ty = 2
  unary : ∀ i, 0 < i → i < L.depth → ∀ g ∈ L.gates i, g.ty = 10 ∨ g.ty = 6 → g.v = 0

variable {P : List Stmt} {W : List RStmt} {d : Dag} {src : Id → Id} {L : Layered} {s : RState} {wg : Wiring}
  {relays : List LGate}

theorem RReads.lvl {W : List RStmt} {s : RState} (h : RReads W s) : ∀ k ∈ s.keys, (s.node k).lvl = 0 ∨ (s.node k).lvl = 1 := by
  intro k hk
  rcases h.node k hk with ⟨c, -, e⟩ | ⟨i, x, -, e⟩ | ⟨a, b, -, e⟩ <;> rw [e]
  exacts [.inl rfl, .inl rfl, .inr rfl]

theorem ranges_of_ok (hP : ProgramOk P) : ∀ s ∈ P, RangeOk s := by
  intro s hs
  cases s with
  | sum t a b => exact le_of_lt (hP.sums t a b hs)
  | expSum t a b => exact (hP.expSums t a b hs).1
  | _ => trivial

/-- A successful run. The graph and its layers depend on the program only. -/
theorem compile_files {var : Variant} {P : List Stmt} (hP : ProgramOk P) {d0 : Dag} {c : ℕ} {L : Layered} {d : Dag}
    {src : Id → Id} (h1 : readProgram var P = .ok (d0, c)) (h2 : dagToLayered d0 = .ok L)
    (hC : Compiled P d src L) {W : List RStmt} {file metaFile : List ℤ}
    (h : compile var P W = .ok (file, metaFile)) :
    ∃ wg relays, Files P W d src L (W.foldl readRStmt {}) wg relays ∧
      file = tokens (fileOf wg.inputs relays wg.repeatNum L) ∧
      metaFile = (metaOf var wg.repeatNum L).flatMap MetaLine.tokens := by
  unfold compile at h
  rw [h1, Outcome.ok_bind] at h
  dsimp only at h
  rw [h2, Outcome.ok_bind] at h
  obtain ⟨wg, h3, h4⟩ := Outcome.bind_eq_ok' h
  obtain ⟨-, -, rfl⟩ := readProgram_reads h1
  have hr := readR_reads W
  have hw := wire_ok hr.sorted hr.lvl h3
  obtain ⟨relays, a1, a2, a3, a4, a5, a6⟩ := merge_ok hw.depth h4
  exact ⟨wg, relays, ⟨hC, hr, hw, a1, a2, a5, a6⟩, a3, a4⟩

/-! ### the wiring layers -/

theorem rsingle_unique {W : List RStmt} (h : (W.filterMap rtarget).Nodup) {s s' : RStmt} (hs : s ∈ W) (hs' : s' ∈ W)
    {n : ℕ} (e : rtarget s = some n) (e' : rtarget s' = some n) : s = s' := by
  induction W with
  | nil => cases hs
  | cons a W ih =>
    rw [List.mem_cons] at hs hs'
    have hmem : ∀ x ∈ W, rtarget x = some n → n ∈ W.filterMap rtarget := fun x hx ex =>
      List.mem_filterMap.2 ⟨x, hx, ex⟩
    rcases hs with rfl | hs
    · rcases hs' with rfl | hs'
      · rfl
      · rw [List.filterMap_cons_some e, List.nodup_cons] at h
        exact absurd (hmem _ hs' e') h.1
    · rcases hs' with rfl | hs'
      · rw [List.filterMap_cons_some e', List.nodup_cons] at h
        exact absurd (hmem _ hs e) h.1
      · refine ih ?_ hs hs'
        cases ea : rtarget a with
        | none => rwa [List.filterMap_cons_none ea] at h
        | some m =>
          rw [List.filterMap_cons_some ea, List.nodup_cons] at h
          exact h.2

/-- the source of a `PASS` is in the first layer -/
theorem source_mem (h : RReads W s) (hW : WiringOk W) {t a b : ℕ} (hp : .pass t a b ∈ W) : a ∈ sources s := by
  have hk : a ∈ s.keys := by
    rcases hW.source t a b hp with ⟨c, hc⟩ | ⟨i, x, hc⟩
    · exact (h.keys a).2 ⟨_, hc, rfl⟩
    · exact (h.keys a).2 ⟨_, hc, rfl⟩
  refine List.mem_filter.2 ⟨hk, ?_⟩
  rw [decide_eq_true_iff]
  rcases h.node a hk with ⟨c, -, e⟩ | ⟨i, x, -, e⟩ | ⟨a', b', hp', e⟩
  · rw [e]
  · rw [e]
  · exfalso
    rcases hW.source t a b hp with ⟨c, hc⟩ | ⟨i, x, hc⟩
    · cases rsingle_unique hW.single hc hp' rfl rfl
    · cases rsingle_unique hW.single hc hp' rfl rfl

/-- the value of a gate of the first layer -/
theorem source_value (h : RReads W s) {a : ℕ} (ha : a ∈ sources s) :
    .const a (s.node a).value ∈ W ∨ ∃ i, .input a i (s.node a).value ∈ W := by
  rw [sources, List.mem_filter, decide_eq_true_iff] at ha
  rcases h.node a ha.1 with ⟨c, hc, e⟩ | ⟨i, x, hc, e⟩ | ⟨a', b', hp', e⟩
  · rw [e]; exact .inl hc
  · rw [e]; exact .inr ⟨i, hc⟩
  · rw [e] at ha; exact absurd ha.2 (by simp)

theorem source_lid (h : RReads W s) {a ic size : ℕ} (ha : a ∈ sources s) :
    ((numberRdl s ic size).node a).lid = ((sources s).idxOf a : ℕ) := by
  have ha' := ha
  rw [sources, List.mem_filter, decide_eq_true_iff] at ha'
  exact (numberRdl_spec s ic size h.sorted).2.2.1 a ha'.1 ha'.2

theorem inputs_length (h : Files P W d src L s wg relays) : wg.inputs.length = fullCount (sources s).length := by
  have := lt_fullCount (sources s).length
  rw [h.wired.inputs]
  simp
  omega

theorem inputs_source (h : Files P W d src L s wg relays) {a : ℕ} (ha : a ∈ sources s) :
    wg.inputs[(sources s).idxOf a]? = some ⟨3, ((sources s).idxOf a : ℕ), (s.node a).value, 0⟩ := by
  have hlt := List.idxOf_lt_length_of_mem ha
  rw [h.wired.inputs, List.getElem?_append_left (by simpa using hlt), List.getElem?_map,
    List.getElem?_eq_getElem hlt, List.getElem_idxOf]
  rfl

/-- the lines of the first layer -/
theorem inputs_line (h : Files P W d src L s wg relays) (hW : WiringOk W) {j : ℕ} (hj : j < wg.inputs.length) :
    ∃ x : ℤ, wg.inputs[j].inputLine = ⟨3, j, x, 0⟩ ∧ -2 ^ 63 ≤ x ∧ x < 2 ^ 63 := by
  have hg : wg.inputs[j]? = some wg.inputs[j] := List.getElem?_eq_getElem hj
  generalize wg.inputs[j] = g at hg ⊢
  rw [h.wired.inputs] at hg
  by_cases hc : j < (sources s).length
  · rw [List.getElem?_append_left (by simpa using hc), List.getElem?_map, List.getElem?_eq_getElem hc] at hg
    simp only [Option.map_some, Option.some.injEq] at hg
    have hmem : (sources s)[j] ∈ sources s := List.getElem_mem hc
    have hnd : (sources s).Nodup := (h.reads.sorted.filter _).imp (fun h => ne_of_lt h)
    refine ⟨(s.node (sources s)[j]).value, ?_, ?_⟩
    · rw [LGate.inputLine, ← hg]
      dsimp only
      rw [hnd.idxOf_getElem]
    · rcases source_value h.reads hmem with hv | ⟨i, hv⟩
      · exact hW.consts _ _ hv
      · exact hW.inputs _ _ _ hv
  · rw [List.getElem?_append_right (by simpa using hc), List.length_map, List.getElem?_map] at hg
    have hlen := inputs_length h
    rw [List.getElem?_eq_getElem (by simp; omega)] at hg
    simp only [Option.map_some, Option.some.injEq, List.getElem_range] at hg
    refine ⟨0, ?_, by norm_num, by norm_num⟩
    rw [LGate.inputLine, ← hg]
    dsimp only
    rw [show (sources s).length + (j - (sources s).length) = j by omega]

theorem relays_length (h : Files P W d src L s wg relays) :
    relays.length = (L.gates 0).length * wg.repeatNum := by
  have := h.wired.length
  rw [h.rel] at this
  simpa using this

theorem relays_get (h : Files P W d src L s wg relays) {p : ℕ} (hp : p < relays.length) :
    wg.relays[p]? = some (some relays[p]) := by
  rw [h.rel, List.getElem?_map, List.getElem?_eq_getElem hp]
  rfl

/-- a `PASS` in the second layer -/
theorem relay_pass (h : Files P W d src L s wg relays) (hW : WiringOk W) {k : ℕ} (hk : k ∈ s.keys)
    (hl : (s.node k).lvl = 1) : ∃ a b, .pass k a b ∈ W ∧ (s.node k).source = a ∧ a ∈ sources s := by
  rcases h.reads.node k hk with ⟨c, -, e⟩ | ⟨i, x, -, e⟩ | ⟨a, b, hp, e⟩
  · rw [e] at hl; cases hl
  · rw [e] at hl; cases hl
  · exact ⟨a, b, hp, by rw [e], source_mem h.reads hW hp⟩

/-- the lines of the second layer -/
theorem relays_line (h : Files P W d src L s wg relays) (hW : WiringOk W) {p : ℕ} (hp : p < relays.length) :
    (∃ u < (sources s).length, relays[p].line = ⟨10, p, (u : ℕ), 0⟩) ∨ relays[p].line = ⟨2, p, 0, 0⟩ := by
  rcases h.wired.relays p _ (relays_get h hp) with ⟨k, hk, hl, -, e⟩ | ⟨i, -, j, -, -, e⟩
  · left
    obtain ⟨a, b, -, e', ha⟩ := relay_pass h hW hk hl
    refine ⟨(sources s).idxOf a, List.idxOf_lt_length_of_mem ha, ?_⟩
    rw [e, e', source_lid h.reads ha]
    rfl
  · right
    rw [e]
    rfl

theorem base_eq (h : RReads W s) {base : ℕ} (hb : IsLeast {o | ∃ a, .output o a ∈ W} base)
    (hlt : base ≤ 0x3f3f3f3f) : s.minOutput = base := by
  obtain ⟨⟨a, ha⟩, hle⟩ := hb
  have h1 := h.least base a ha
  rcases h.attained with e | ⟨a', e⟩
  · omega
  · have := hle ⟨a', e⟩
    omega

theorem slot_inj {ic size r i x : ℕ} (hi : i < ic) (hic : ic ≤ size)
    (h : Int.tdiv (x : ℤ) ic * size + Int.tmod (x : ℤ) ic = ((r * size + i : ℕ) : ℤ)) : x = r * ic + i := by
  have hpos : 0 < ic := by omega
  rw [Int.tdiv_eq_ediv_of_nonneg (by positivity), Int.tmod_eq_emod_of_nonneg (by positivity)] at h
  have h' : x / ic * size + x % ic = r * size + i := by exact_mod_cast h
  have hm : x % ic < ic := Nat.mod_lt _ hpos
  have hs : 0 < size := by omega
  have e1 : (x / ic * size + x % ic) % size = x % ic := by
    rw [Nat.mul_add_mod_self_right, Nat.mod_eq_of_lt (by omega)]
  have e2 : (r * size + i) % size = i := by
    rw [Nat.mul_add_mod_self_right, Nat.mod_eq_of_lt (by omega)]
  have e3 : x % ic = i := by rw [← e1, h', e2]
  have e4 : x / ic * size = r * size := by omega
  have e5 : x / ic = r := Nat.eq_of_mul_eq_mul_right hs e4
  have := Nat.div_add_mod x ic
  rw [e3, e5, Nat.mul_comm] at this
  exact this.symm

theorem ic_le (h : Files P W d src L s wg relays) (hP : ProgramOk P) :
    inputCount P + L.padding 0 = (L.gates 0).length := by
  have := lt_fullCount (levelKeys d 0).length
  rw [h.comp.padding, size_eq h.comp.toLayout, ← level0_length h.comp hP.single]
  omega

/-- The relay that feeds input `i` of block `r` reads the variable behind the output of that number. -/
theorem relay_at (h : Files P W d src L s wg relays) (hP : ProgramOk P) (hW : WiringOk W) {base : ℕ}
    (hb : IsLeast {o | ∃ a, .output o a ∈ W} base) (hlt : base ≤ 0x3f3f3f3f) {r i : ℕ} (hr : r < wg.repeatNum)
    (hi : i < inputCount P) :
    ∃ k a b, .pass k a b ∈ W ∧ .output (base + (r * inputCount P + i)) k ∈ W ∧ a ∈ sources s ∧
      ∃ hp : r * (L.gates 0).length + i < relays.length,
        relays[r * (L.gates 0).length + i].line =
          ⟨10, ((r * (L.gates 0).length + i : ℕ) : ℤ), ((sources s).idxOf a : ℕ), 0⟩ := by
  have hsz := ic_le h hP
  have hp : r * (L.gates 0).length + i < relays.length := by
    rw [relays_length h, Nat.mul_comm _ wg.repeatNum]
    calc r * (L.gates 0).length + i < r * (L.gates 0).length + (L.gates 0).length := by omega
      _ = (r + 1) * (L.gates 0).length := by ring
      _ ≤ _ := Nat.mul_le_mul_right _ hr
  rcases h.wired.relays _ _ (relays_get h hp) with ⟨k, hk, hl, hslot, e⟩ | ⟨i', -, j, hj, e, -⟩
  · obtain ⟨a, b, hpass, e', ha⟩ := relay_pass h hW hk hl
    obtain ⟨o, ho⟩ := hW.passed k a b hpass
    have hmap := h.reads.mapping o k ho
    have hmin := h.reads.least _ _ hmap
    rw [slotOf, ← Nat.cast_sub hmin] at hslot
    have hx := slot_inj hi (by omega) hslot
    have hbase := base_eq h.reads hb hlt
    refine ⟨k, a, b, hpass, ?_, ha, hp, ?_⟩
    · rw [← hx, ← hbase, Nat.add_sub_cancel' hmin]
      exact hmap
    · rw [e, e', source_lid h.reads ha]
      rfl
  · exfalso
    have hs : 0 < (L.gates 0).length := by omega
    have e1 : (r * (L.gates 0).length + i) % (L.gates 0).length = i := by
      rw [Nat.mul_add_mod_self_right, Nat.mod_eq_of_lt (by omega)]
    have e2 : (i' * (L.gates 0).length + j + inputCount P) % (L.gates 0).length = j + inputCount P := by
      rw [Nat.add_assoc, Nat.mul_add_mod_self_right, Nat.mod_eq_of_lt (by omega)]
    rw [e, e2] at e1
    omega

/-! ### the levels -/

/-- what a gate above level 0 looks like, over a level of `n` gates -/
def LevelGate (n : ℕ) (g : LGate) : Prop :=
  ∃ u v : ℕ, g.u = u ∧ g.v = v ∧ u < n ∧ v < n ∧
    (g.ty = 2 ∨ (g.ty = 0 ∨ g.ty = 1 ∨ g.ty = 7 ∨ g.ty = 8 ∨ g.ty = 9) ∨ (g.ty = 6 ∨ g.ty = 10) ∧ v = 0 ∨
      g.ty = 5 ∧ u < v ∨ g.ty = 12 ∧ u ≤ v ∧ v ≤ u + 62 ∨ g.ty = 13 ∧ v = u)

theorem size_pos (h : Layout d L) (l : ℕ) : 0 < (L.gates l).length := by
  rw [h.length]; positivity

/-- the first operand lies on the level below -/
theorem input0_below (h : Compiled P d src L) {k : Id} {l : ℕ} (hk : k ∈ levelKeys d (l + 1)) :
    (d.node k).ty ≠ 3 ∧ (d.node k).input0 ∈ levelKeys d l := by
  obtain ⟨h1, h2⟩ := mem_levelKeys.1 hk
  have h3 : (d.node k).ty ≠ 3 := by
    rcases h.kinds k h1 with ⟨j, rfl, h10, -⟩ | ⟨n, rfl, s, hs, g, e, hg, -, -, -, h0, -⟩
    · omega
    · intro h3
      have := h0 (hg ▸ h3)
      omega
  refine ⟨h3, mem_levelKeys.2 ⟨h.closed0 k h1 h3, ?_⟩⟩
  have := (h.below0 k h1).resolve_right h3
  omega

theorem input1_below (h : Compiled P d src L) {k : Id} {l : ℕ} (hk : k ∈ levelKeys d (l + 1))
    (h10 : (d.node k).ty ≠ 10) (h6 : (d.node k).ty ≠ 6) : (d.node k).input1 ∈ levelKeys d l := by
  obtain ⟨h1, h2⟩ := mem_levelKeys.1 hk
  have h3 := (input0_below h hk).1
  refine mem_levelKeys.2 ⟨h.closed1 k h1 h3 h10 h6, ?_⟩
  rcases h.below1 k h1 with e | e | e | e
  · omega
  · exact absurd e h10
  · exact absurd e h6
  · exact absurd e h3

/-- a range occupies consecutive positions of the level below -/
theorem range_lid (h : Compiled P d src L) {k : Id} {l a b : ℕ} (hk : k ∈ levelKeys d (l + 1))
    (ht : (d.node k).ty = 5 ∨ (d.node k).ty = 12) (ha : (d.node k).input0 = V a) (hb : (d.node k).input1 = V b) :
    ∀ i, a + i ≤ b → V (a + i) ∈ levelKeys d l ∧ (d.node (V (a + i))).lid = (d.node (V a)).lid + i := by
  obtain ⟨h1, h2⟩ := mem_levelKeys.1 hk
  obtain ⟨a', b', ea, eb, hr⟩ := h.range k h1 ht
  rw [ha, V_inj] at ea
  rw [hb, V_inj] at eb
  subst ea eb
  have hmem : ∀ i, a + i ≤ b → V (a + i) ∈ levelKeys d l := by
    intro i hi
    obtain ⟨c1, c2⟩ := hr i (by omega)
    exact mem_levelKeys.2 ⟨c1, by omega⟩
  intro i hi
  refine ⟨hmem i hi, ?_⟩
  obtain ⟨c1, c2⟩ := mem_levelKeys.1 (hmem i hi)
  obtain ⟨c3, c4⟩ := mem_levelKeys.1 (hmem 0 (by omega))
  rw [Nat.add_zero] at c3 c4
  rw [h.lid _ c1, h.lid _ c3, c2, c4]
  exact idxOf_range (sorted_levelKeys h.sorted l) (fun j hj => hmem j (by omega))

theorem code_cases (op : Op) : (op.code = 0 ∨ op.code = 1 ∨ op.code = 7 ∨ op.code = 8 ∨ op.code = 9) ∨ op.code = 6 := by
  cases op <;> decide

theorem layerGate_ok (h : Compiled P d src L) (hP : ProgramOk P) {k : Id} {l : ℕ} (hk : k ∈ levelKeys d (l + 1)) :
    LevelGate (L.gates l).length (layerGate d k) := by
  obtain ⟨h3, hin0⟩ := input0_below h hk
  have hu := lid_lt_size h.toLayout hin0
  obtain ⟨h1, -⟩ := mem_levelKeys.1 hk
  by_cases hun : (d.node k).ty = 6 ∨ (d.node k).ty = 10
  · refine ⟨(d.node (d.node k).input0).lid, 0, rfl, ?_, hu, size_pos h.toLayout l, .inr (.inr (.inl ⟨?_, rfl⟩))⟩
    · unfold layerGate
      dsimp only
      rw [if_pos (by tauto)]
      rfl
    · unfold layerGate
      dsimp only
      omega
  · have h10 : (d.node k).ty ≠ 10 := fun e => hun (.inr e)
    have h6 : (d.node k).ty ≠ 6 := fun e => hun (.inl e)
    have hin1 := input1_below h hk h10 h6
    have hv := lid_lt_size h.toLayout hin1
    refine ⟨(d.node (d.node k).input0).lid, (d.node (d.node k).input1).lid, rfl, ?_, hu, hv, ?_⟩
    · unfold layerGate
      dsimp only
      rw [if_neg (by tauto)]
    · change ((d.node k).ty : ℤ) = 2 ∨ _
      have hty : (layerGate d k).ty = ((d.node k).ty : ℤ) := rfl
      rw [hty]
      rcases h.kinds k h1 with ⟨j, rfl, e10, -⟩ | ⟨n, rfl, s, hs, g, e, hg, -, -, hex, -, h13⟩
      · exact absurd e10 h10
      · cases s with
        | gate op t a b =>
          simp [gateOfStmt] at e
          obtain ⟨rfl, rfl⟩ := e
          dsimp only at hg
          have := code_cases op
          rw [hg] at h6 ⊢
          omega
        | sum t a b =>
          simp [gateOfStmt] at e
          obtain ⟨rfl, rfl⟩ := e
          dsimp only at hg hex
          obtain ⟨e0, e1⟩ := hex (.inl rfl)
          have hab := hP.sums _ _ _ hs
          have := (range_lid h hk (.inl hg) e0 e1 (b - a) (by omega)).2
          rw [Nat.add_sub_cancel' (by omega)] at this
          rw [e0, e1, this, hg]
          right; right; right; left
          exact ⟨rfl, by omega⟩
        | expSum t a b =>
          simp [gateOfStmt] at e
          obtain ⟨rfl, rfl⟩ := e
          dsimp only at hg hex
          obtain ⟨e0, e1⟩ := hex (.inr rfl)
          have hab := hP.expSums _ _ _ hs
          have := (range_lid h hk (.inr hg) e0 e1 (b - a) (by omega)).2
          rw [Nat.add_sub_cancel' (by omega)] at this
          rw [e0, e1, this, hg]
          right; right; right; right; left
          exact ⟨rfl, by omega, by omega⟩
        | bit t a b =>
          simp [gateOfStmt] at e
          obtain ⟨rfl, rfl⟩ := e
          dsimp only at hg h13
          rw [h13 rfl, hg]
          right; right; right; right; right
          exact ⟨rfl, rfl⟩
        | input t i =>
          simp [gateOfStmt] at e
          obtain ⟨rfl, rfl⟩ := e
          exact absurd hg h3
        | output o a => simp [gateOfStmt] at e
        | const t c => simp [gateOfStmt] at e

theorem levelGate_ok (h : Compiled P d src L) (hP : ProgramOk P) {l : ℕ} {g : LGate} (hg : g ∈ L.gates (l + 1)) :
    LevelGate (L.gates l).length g := by
  rw [h.gates, List.mem_append, List.mem_map, List.mem_map] at hg
  rcases hg with ⟨k, hk, rfl⟩ | ⟨j, -, rfl⟩
  · exact layerGate_ok h hP hk
  · exact ⟨0, 0, rfl, rfl, size_pos h.toLayout l, size_pos h.toLayout l, .inl rfl⟩

theorem level_numbered (h : Layout d L) (l : ℕ) {j : ℕ} (hj : j < (L.gates l).length) : (L.gates l)[j].g = j := by
  have hg : (L.gates l)[j]? = some (L.gates l)[j] := List.getElem?_eq_getElem hj
  have hsz := size_eq h l
  have hlt := lt_fullCount (levelKeys d l).length
  generalize (L.gates l)[j] = g at hg ⊢
  rw [h.gates] at hg
  by_cases hc : j < (levelKeys d l).length
  · rw [List.getElem?_append_left (by simpa using hc), List.getElem?_map, List.getElem?_eq_getElem hc] at hg
    simp only [Option.map_some, Option.some.injEq] at hg
    have hmem : (levelKeys d l)[j] ∈ levelKeys d l := List.getElem_mem hc
    obtain ⟨h1, h2⟩ := mem_levelKeys.1 hmem
    rw [← hg]
    unfold layerGate
    dsimp only
    rw [h.lid _ h1, h2, (sorted_levelKeys h.sorted l).nodup.idxOf_getElem]
  · rw [List.getElem?_append_right (by simpa using hc), List.length_map, List.getElem?_map,
      List.getElem?_eq_getElem (by simp; omega)] at hg
    simp only [Option.map_some, Option.some.injEq, List.getElem_range] at hg
    rw [← hg]
    dsimp only
    rw [show (levelKeys d l).length + (j - (levelKeys d l).length) = j by omega]

/-- the lines of a level, by block -/
theorem levelLines_length (L : Layered) (rep l : ℕ) : (levelLines L rep l).length = (L.gates l).length * rep := by
  unfold levelLines
  split_ifs with h
  · subst h; exact blocks_length _ _ _
  · exact blocks_length _ _ _

theorem levelLines_get (L : Layered) {rep l r j : ℕ} (hr : r < rep) (hj : j < (L.gates l).length) :
    (levelLines L rep l)[r * (L.gates l).length + j]? = some (if l = 0
      then blockInputLine (L.gates l).length r (L.gates l)[j]
      else blockGateLine (L.gates l).length (L.gates (l - 1)).length r (L.gates l)[j]) := by
  unfold levelLines
  split_ifs with h
  · subst h; exact blocks_get _ _ hr hj
  · exact blocks_get _ _ hr hj

theorem pos_lt {n rep r j : ℕ} (hr : r < rep) (hj : j < n) : r * n + j < n * rep := by
  calc r * n + j < r * n + n := by omega
    _ = (r + 1) * n := by ring
    _ ≤ rep * n := Nat.mul_le_mul_right _ hr
    _ = _ := Nat.mul_comm _ _

theorem levelLines_numbered (h : Layout d L) (rep l : ℕ) : Numbered (levelLines L rep l) := by
  intro p hp
  have hn := size_pos h l
  have hp' := hp
  rw [levelLines_length] at hp'
  have hr : p / (L.gates l).length < rep := (Nat.div_lt_iff_lt_mul hn).2 (by rw [Nat.mul_comm]; exact hp')
  have hj : p % (L.gates l).length < (L.gates l).length := Nat.mod_lt _ hn
  have hget := levelLines_get L hr hj
  have hpe : p / (L.gates l).length * (L.gates l).length + p % (L.gates l).length = p := Nat.div_add_mod' _ _
  rw [hpe, List.getElem?_eq_getElem hp, Option.some.injEq] at hget
  have hnum := level_numbered h l hj
  have : ((p % (L.gates l).length : ℕ) : ℤ) + ((p / (L.gates l).length : ℕ) : ℤ) * ((L.gates l).length : ℤ) = p := by
    exact_mod_cast (by rw [Nat.add_comm]; exact hpe :
      p % (L.gates l).length + p / (L.gates l).length * (L.gates l).length = p)
  rw [hget]
  split_ifs with h0
  · unfold blockInputLine
    split_ifs <;> dsimp only <;> rw [hnum] <;> exact this
  · unfold blockGateLine
    split_ifs <;> dsimp only <;> rw [hnum] <;> exact this

end Libra.Compiler
