import Verif.Proofs.CompilerSucceeds3

/-!
# The circuit compiler: the wiring and the output
-/

namespace Libra.Compiler
open Libra Spec

/-- position `p` has been assigned -/
def Filled (gs : List (Option LGate)) (p : ℕ) : Prop := ∃ g, gs[p]? = some (some g)

theorem putGate_fills {gs : List (Option LGate)} {p : ℕ} (hp : p < gs.length) (x : LGate) :
    ∃ gs', putGate gs p x = .ok gs' ∧ gs'.length = gs.length ∧ Filled gs' p ∧ ∀ q, Filled gs q → Filled gs' q := by
  refine ⟨gs.set p (some x), ?_, by simp, ⟨x, by simp [hp]⟩, ?_⟩
  · unfold putGate
    rw [if_pos ⟨by omega, by omega⟩, Int.toNat_natCast]
  · rintro q ⟨g, hg⟩
    by_cases e : p = q
    · subst e; exact ⟨x, by simp [hp]⟩
    · exact ⟨g, by rwa [List.getElem?_set_ne e]⟩

theorem relays_fill {l : List ℕ} {lvl : ℕ → ℕ} {lid : ℕ → ℤ} {x : ℕ → LGate} {n : ℕ}
    (h : ∀ k ∈ l, lvl k = 1 → ∃ p < n, lid k = (p : ℕ)) (gs : List (Option LGate)) (hn : gs.length = n) :
    ∃ gs', l.foldlM (fun gs k => if lvl k = 1 then putGate gs (lid k) (x k) else .ok gs) gs = .ok gs' ∧
      gs'.length = n ∧ (∀ q, Filled gs q → Filled gs' q) ∧
      ∀ k ∈ l, lvl k = 1 → ∀ p : ℕ, lid k = p → Filled gs' p := by
  induction l generalizing gs with
  | nil => exact ⟨gs, rfl, hn, fun _ h => h, by simp⟩
  | cons k l ih =>
    have step : ∃ gs1, (if lvl k = 1 then putGate gs (lid k) (x k) else .ok gs) = .ok gs1 ∧ gs1.length = n ∧
        (∀ q, Filled gs q → Filled gs1 q) ∧ (lvl k = 1 → ∀ p : ℕ, lid k = p → Filled gs1 p) := by
      by_cases e : lvl k = 1
      · obtain ⟨p, hp, ep⟩ := h k (by simp) e
        obtain ⟨gs1, e1, e2, e3, e4⟩ := putGate_fills (gs := gs) (p := p) (by omega) (x k)
        rw [if_pos e, ep]
        refine ⟨gs1, e1, e2.trans hn, e4, fun _ q hq => ?_⟩
        have : p = q := by exact_mod_cast hq
        subst this
        exact e3
      · rw [if_neg e]
        exact ⟨gs, rfl, hn, fun _ h => h, fun e' => absurd e' e⟩
    obtain ⟨gs1, e1, e2, e3, e4⟩ := step
    obtain ⟨gs', f1, f2, f3, f4⟩ := ih (fun k hk => h k (by simp [hk])) gs1 e2
    refine ⟨gs', by rw [List.foldlM_cons, e1, Outcome.ok_bind, f1], f2, fun q hq => f3 q (e3 q hq), fun k' hk' hl p hp => ?_⟩
    rcases List.mem_cons.1 hk' with rfl | hk'
    · exact f3 p (e4 hl p hp)
    · exact f4 k' hk' hl p hp

theorem padding_fill {rep size ic pad : ℕ} (hs : ic + pad = size) (gs : List (Option LGate)) (hn : gs.length = size * rep) :
    ∃ gs', loopM rep (fun i gs => loopM pad (fun j gs =>
        let id : ℕ := i * size + j + ic
        putGate gs id ⟨2, id, 0, 0⟩) gs) gs = .ok gs' ∧
      gs'.length = size * rep ∧ (∀ q, Filled gs q → Filled gs' q) ∧
      ∀ i < rep, ∀ j < pad, Filled gs' (i * size + j + ic) := by
  obtain ⟨gs', e, h1, h2, h3⟩ := loopM_ok (b := fun i gs => loopM pad (fun j gs =>
        let id : ℕ := i * size + j + ic
        putGate gs id ⟨2, id, 0, 0⟩) gs) (n := rep) (s := gs) (fun r (gs' : List (Option LGate)) =>
      gs'.length = size * rep ∧ (∀ q, Filled gs q → Filled gs' q) ∧ ∀ i < r, ∀ j < pad, Filled gs' (i * size + j + ic))
    ⟨hn, fun _ h => h, by simp⟩ (by
      rintro i hi gs1 ⟨a1, a2, a3⟩
      obtain ⟨gs2, e, b1, b2, b3⟩ := loopM_ok (b := fun j gs =>
        let id : ℕ := i * size + j + ic
        putGate gs id ⟨2, id, 0, 0⟩) (n := pad) (s := gs1) (fun r (gs' : List (Option LGate)) =>
          gs'.length = size * rep ∧ (∀ q, Filled gs1 q → Filled gs' q) ∧ ∀ j < r, Filled gs' (i * size + j + ic))
        ⟨a1, fun _ h => h, by simp⟩ (by
          rintro j hj gs3 ⟨c1, c2, c3⟩
          have hlt : i * size + j + ic < gs3.length := by
            rw [c1]
            calc i * size + j + ic < i * size + size := by omega
              _ = size * (i + 1) := by ring
              _ ≤ size * rep := Nat.mul_le_mul_left _ hi
          obtain ⟨gs4, d1, d2, d3, d4⟩ := putGate_fills hlt ⟨2, (i * size + j + ic : ℕ), 0, 0⟩
          refine ⟨gs4, d1, d2.trans c1, fun q hq => d4 q (c2 q hq), fun j' hj' => ?_⟩
          rcases Nat.lt_succ_iff_lt_or_eq.1 hj' with h | rfl
          · exact d4 _ (c3 j' h)
          · exact d3)
      refine ⟨gs2, e, b1, fun q hq => b2 q (a2 q hq), fun i' hi' j hj => ?_⟩
      rcases Nat.lt_succ_iff_lt_or_eq.1 hi' with h | rfl
      · exact b2 _ (a3 i' h j hj)
      · exact b3 j hj)
  exact ⟨gs', e, h1, h2, h3⟩

theorem wire_succeeds {W : List RStmt} {s : RState} (h : RReads W s) (hW : WiringOk W) {base : ℕ} (hc : WiringComplete W base)
    (hb : base ≤ 0x3f3f3f3f) {L : Layered} (hd : L.depth ≠ 0) {ic rep : ℕ} (hic : ic ≠ 0) (hrep : rep ≠ 0)
    (hout : outputCount W = ic * rep) (hsize : ic + L.padding 0 = (L.gates 0).length) :
    ∃ wg, wire s L ic = .ok wg ∧ wg.repeatNum = rep ∧ ∀ x ∈ wg.relays, x.isSome := by
  have hpos : 0 < ic := Nat.pos_of_ne_zero hic
  have hbase : s.minOutput = base := by
    refine base_eq h ⟨(hc.numbers base).2 ⟨le_rfl, ?_⟩, fun o ho => ((hc.numbers o).1 ho).1⟩ hb
    have : 0 < ic * rep := Nat.mul_pos hpos (Nat.pos_of_ne_zero hrep)
    omega
  have hrepeat : s.outputs / ic = rep := by rw [h.outputs, hout, Nat.mul_div_cancel_left _ hpos]
  obtain ⟨n1, n2, n3, n4⟩ := numberRdl_spec s ic (L.gates 0).length h.sorted
  generalize hsz : (L.gates 0).length = size at *
  -- the slot of the relay of an output
  have hslot : ∀ o k, .output o k ∈ W → slotOf s ic size k = (((o - base) / ic * size + (o - base) % ic : ℕ) : ℤ) ∧
      (o - base) / ic < rep ∧ base ≤ o := by
    intro o k ho
    obtain ⟨hb1, hb2⟩ := (hc.numbers o).1 ⟨k, ho⟩
    have hm : s.mapping k = o := hc.once _ _ _ (h.mapping o k ho) ho
    refine ⟨?_, ?_, hb1⟩
    · rw [slotOf, hm, hbase, ← Nat.cast_sub hb1, Int.tdiv_eq_ediv_of_nonneg (by positivity),
        Int.tmod_eq_emod_of_nonneg (by positivity)]
      push_cast
      rfl
    · rw [Nat.div_lt_iff_lt_mul hpos, Nat.mul_comm]
      omega
  have hlt : ∀ r i, r < rep → i < ic → r * size + i < size * rep := fun r i hr hi => pos_lt hr (by omega)
  obtain ⟨gs1, a1, a2, a3, a4⟩ := relays_fill (l := (numberRdl s ic size).keys)
    (lvl := fun k => ((numberRdl s ic size).node k).lvl) (lid := fun k => ((numberRdl s ic size).node k).lid)
    (x := fun k => ⟨10, ((numberRdl s ic size).node k).lid,
      ((numberRdl s ic size).node ((numberRdl s ic size).node k).source).lid, 0⟩) (n := size * rep) (by
      intro k hk hl
      rw [n1] at hk
      rw [(n2 k).1] at hl
      rw [n4 k hk (by omega)]
      obtain ⟨o, ho⟩ : ∃ o, .output o k ∈ W := by
        rcases h.node k hk with ⟨c, -, e⟩ | ⟨i, x, -, e⟩ | ⟨a, b, hp, -⟩
        · rw [e] at hl; cases hl
        · rw [e] at hl; cases hl
        · exact hW.passed k a b hp
      obtain ⟨e, hr, -⟩ := hslot o k ho
      exact ⟨_, hlt _ _ hr (Nat.mod_lt _ hpos), e⟩) (List.replicate (size * rep) none) (by simp)
  obtain ⟨gs2, b1, b2, b3, b4⟩ := padding_fill (rep := rep) hsize gs1 a2
  have hfull : ∀ p < size * rep, Filled gs2 p := by
    intro p hp
    have hs0 : 0 < size := by omega
    have hq : p / size < rep := by rw [Nat.div_lt_iff_lt_mul hs0, Nat.mul_comm]; exact hp
    have hm : p % size < size := Nat.mod_lt _ hs0
    have hpp : p / size * size + p % size = p := Nat.div_add_mod' p size
    generalize p / size = r at *
    generalize p % size = i at *
    by_cases hi : i < ic
    · have hx : (r * ic + i) / ic = r ∧ (r * ic + i) % ic = i := by
        rw [Nat.mul_comm, Nat.mul_add_div hpos, Nat.div_eq_of_lt hi, Nat.mul_add_mod, Nat.mod_eq_of_lt hi]
        exact ⟨by omega, rfl⟩
      obtain ⟨k, hk⟩ := (hc.numbers (base + (r * ic + i))).2 ⟨by omega, by
        have := pos_lt (n := ic) hq hi
        omega⟩
      obtain ⟨a, b, hpass⟩ := hc.copies _ _ hk
      obtain ⟨e, -, -⟩ := hslot _ k hk
      rw [Nat.add_sub_cancel_left, hx.1, hx.2, hpp] at e
      have hkk : k ∈ s.keys := (h.keys k).2 ⟨_, hpass, rfl⟩
      have hl1 : (s.node k).lvl = 1 := by
        rcases h.node k hkk with ⟨c, hc', -⟩ | ⟨j, x, hc', -⟩ | ⟨a', b', -, e'⟩
        · cases rsingle_unique hW.single hpass hc' (n := k) rfl rfl
        · cases rsingle_unique hW.single hpass hc' (n := k) rfl rfl
        · rw [e']
      exact b3 p (a4 k (by rw [n1]; exact hkk) (by rw [(n2 k).1]; exact hl1) p (by
        rw [n4 k hkk (by omega)]
        exact e))
    · have := b4 r hq (i - ic) (by omega)
      have e : r * size + (i - ic) + ic = p := by omega
      rwa [e] at this
  have hassert : Outcome.assert (ic * (s.outputs / ic) == s.outputs) = .ok () := by
    apply assert_true
    rw [hrepeat, h.outputs, hout]
    simp
  have hw : ∃ ins, wire s L ic = .ok ⟨ins, gs2, rep⟩ := by
    unfold wire
    rw [if_neg hd, if_neg hic]
    dsimp only
    rw [hassert, Outcome.ok_bind, hsz, hrepeat, a1, Outcome.ok_bind, b1, Outcome.ok_bind]
    exact ⟨_, rfl⟩
  obtain ⟨ins, hw⟩ := hw
  refine ⟨⟨ins, gs2, rep⟩, hw, rfl, ?_⟩
  · intro x hx
    dsimp only at hx
    obtain ⟨p, hp, rfl⟩ := List.getElem_of_mem hx
    obtain ⟨g, hg⟩ := hfull p (by omega)
    rw [List.getElem?_eq_getElem hp, Option.some.injEq] at hg
    rw [hg]
    rfl

theorem printBlocks_succeeds {rep : ℕ} {gs : List LGate} {copy : ℕ → LGate → Outcome LGate}
    (h : ∀ r, ∀ g ∈ gs, ∃ g', copy r g = .ok g') (file : List ℤ) : ∃ out, printBlocks rep gs copy file = .ok out := by
  obtain ⟨out, e, -⟩ := loopM_ok (n := rep) (s := file) (b := fun r file => gs.foldlM (fun file g => do
    let g' ← copy r g
    return file ++ g'.numbers) file) (fun _ _ => True) trivial fun r _ file _ => by
      obtain ⟨out, e⟩ := foldlM_succeeds (f := fun (file : List ℤ) g => (do
        let g' ← copy r g
        return file ++ g'.numbers : Outcome (List ℤ))) (l := gs) (fun b g hg => by
          obtain ⟨g', e⟩ := h r g hg
          rw [e, Outcome.ok_bind]
          exact ⟨_, rfl⟩) file
      exact ⟨out, e, trivial⟩
  exact ⟨out, e⟩

theorem merge_succeeds (var : Variant) {wg : Wiring} {L : Layered} (hr : wg.repeatNum ≠ 0) (hs : ∀ x ∈ wg.relays, x.isSome)
    (h0 : ∀ g ∈ L.gates 0, g.ty = 3 ∨ g.ty = 2) (h1 : ∀ i, ∀ g ∈ L.gates i, g.ty = 10 ∨ g.ty = 6 → g.v = 0) :
    ∃ file metaFile, merge var wg L = .ok (file, metaFile) := by
  obtain ⟨f1, e1⟩ := foldlM_succeeds (f := fun (file : List ℤ) (g : Option LGate) => (do
    let g ← Outcome.read g
    return file ++ g.numbers : Outcome (List ℤ))) (l := wg.relays) (fun b g hg => by
      obtain ⟨g', rfl⟩ := Option.isSome_iff_exists.1 (hs g hg)
      exact ⟨_, rfl⟩)
    (wg.inputs.foldl (fun file g => file ++ [3, g.g, g.u, g.v]) [((2 + L.depth : ℕ) : ℤ), (wg.inputs.length : ℤ)] ++
      [(wg.relays.length : ℤ)])
  obtain ⟨f2, e2⟩ := printBlocks_succeeds (rep := wg.repeatNum) (gs := L.gates 0) (copy := blockInput (L.gates 0).length) (by
    intro r g hg
    unfold blockInput
    rcases h0 g hg with h | h
    · rw [if_pos h]; exact ⟨_, rfl⟩
    · rw [if_neg (by omega), if_pos h]; exact ⟨_, rfl⟩)
    (f1 ++ [((((L.gates 0).length * wg.repeatNum : ℕ)) : ℤ)])
  unfold merge
  dsimp only
  rw [e1, Outcome.ok_bind, if_neg hr, e2, Outcome.ok_bind]
  obtain ⟨out, e, -⟩ := loopM_ok (n := L.depth - 1) (b := fun i' (out : List ℤ × List ℤ) => (do
    let i := i' + 1
    let prevSize := (L.gates (i - 1)).length
    let size := (L.gates i).length
    let file := out.1 ++ [((size * wg.repeatNum : ℕ) : ℤ)]
    let file ← printBlocks wg.repeatNum (L.gates i) (blockGate size prevSize) file
    return (file, out.2 ++ [1, (size : ℤ), (wg.repeatNum : ℤ), (L.bitLen i : ℤ), (logRep wg.repeatNum : ℤ)]) :
      Outcome (List ℤ × List ℤ))) (s := (f2, (if var = .sha256 then [0, 0, 1, 0, 0] else [0, 0, 0, 0, 0]) ++
        [0, ((L.gates 0).length : ℤ), (wg.repeatNum : ℤ), (L.bitLen 0 : ℤ), (logRep wg.repeatNum : ℤ)] ++
        [1, ((L.gates 0).length : ℤ), (wg.repeatNum : ℤ), (L.bitLen 0 : ℤ), (logRep wg.repeatNum : ℤ)]))
    (fun _ _ => True) trivial fun i _ s _ => by
      obtain ⟨f, e⟩ := printBlocks_succeeds (rep := wg.repeatNum) (gs := L.gates (i + 1))
        (copy := blockGate (L.gates (i + 1)).length (L.gates (i + 1 - 1)).length) (by
          intro r g hg
          unfold blockGate
          by_cases h : g.ty = 10 ∨ g.ty = 6
          · rw [if_pos h, assert_true (by rw [h1 _ g hg h]; rfl)]
            exact ⟨_, rfl⟩
          · rw [if_neg h]; exact ⟨_, rfl⟩) (s.1 ++ [(((L.gates (i + 1)).length * wg.repeatNum : ℕ) : ℤ)])
      dsimp only
      rw [e, Outcome.ok_bind]
      exact ⟨_, rfl, trivial⟩
  exact ⟨out.1, out.2, e⟩

/-- the compiler accepts the program and the wiring -/
theorem compile_succeeds {var : Variant} {P : List Stmt} {W : List RStmt} (hP : ProgramOk P) (hk : ∀ s ∈ P, Known var s)
    (hA : Acceptable P) (hW : WiringOk W) {base rep : ℕ} (hc : WiringComplete W base) (hb : base ≤ 0x3f3f3f3f) (hrep : rep ≠ 0)
    (hout : outputCount W = inputCount P * rep) : ∃ file metaFile, compile var P W = .ok (file, metaFile) := by
  obtain ⟨d0, c, h1⟩ := readProgram_succeeds hk
  obtain ⟨hreads, -, rfl⟩ := readProgram_reads h1
  obtain ⟨L, h2, hd⟩ := dagToLayered_succeeds h1 hP hA
  obtain ⟨d, src, hC⟩ := dagToLayered_ok hreads (ranges_of_ok hP) h2
  have hsize : inputCount P + L.padding 0 = (L.gates 0).length := by
    have := lt_fullCount (levelKeys d 0).length
    rw [hC.padding, size_eq hC.toLayout, ← level0_length hC hP.single]
    omega
  have hic : inputCount P ≠ 0 := by
    obtain ⟨t, i, hi⟩ := hA.input
    rw [← level0_length hC hP.single]
    have : V t ∈ levelKeys d 0 := (mem_level0 hC hP.single).2 ⟨t, i, hi, rfl⟩
    intro e
    rw [List.length_eq_zero_iff] at e
    rw [e] at this
    cases this
  obtain ⟨wg, h3, hwr, hws⟩ := wire_succeeds (readR_reads W) hW hc hb hd hic hrep hout hsize
  have hgate : ∀ l, ∀ g ∈ L.gates l, (∃ k ∈ levelKeys d l, g = layerGate d k) ∨ g.ty = 2 ∧ g.v = 0 := by
    intro l g hg
    rw [hC.gates, List.mem_append, List.mem_map, List.mem_map] at hg
    rcases hg with ⟨k, hk, rfl⟩ | ⟨j, -, rfl⟩
    · exact .inl ⟨k, hk, rfl⟩
    · exact .inr ⟨rfl, rfl⟩
  obtain ⟨file, metaFile, h4⟩ := merge_succeeds var (by rw [hwr]; exact hrep) hws (by
    intro g hg
    rcases hgate 0 g hg with ⟨k, hk, rfl⟩ | h
    · left
      rw [mem_levelKeys] at hk
      have h3 : (d.node k).ty = 3 := (hC.below0 k hk.1).resolve_left (by omega)
      simp [layerGate, h3]
    · exact .inr h.1) (by
    intro l g hg ht
    rcases hgate l g hg with ⟨k, hk, rfl⟩ | h
    · simp only [layerGate] at ht ⊢
      rw [if_pos]
      omega
    · exact h.2)
  refine ⟨file, metaFile, ?_⟩
  unfold compile
  rw [h1, Outcome.ok_bind]
  dsimp only
  rw [h2, Outcome.ok_bind, h3, Outcome.ok_bind, h4]

end Libra.Compiler
