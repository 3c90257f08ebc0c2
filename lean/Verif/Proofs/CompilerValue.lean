import Verif.Proofs.CompilerAccepted
import Verif.Props.Reader

/-!
# What the compiled circuit computes
-/

namespace Libra.Compiler
open Libra Spec Matmul Reader Finset

variable {P : List Stmt} {W : List RStmt} {d : Dag} {src : Id → Id} {L : Layered} {s : RState} {wg : Wiring}
  {relays : List LGate} {C : Circuit}

theorem gate_at {f : File} (hC : Props.Describes true f C) {i g : ℕ} (hi : i + 1 < f.length)
    {l : Line} (hg : f[i + 1][g]? = some l) : C.gate (i + 2) g = gateOf true l := by
  obtain ⟨h, rfl⟩ := List.getElem?_eq_some_iff.1 hg
  rw [Circuit.gate, Layer.gate, hC.gates i hi g h]
  rfl

theorem fileOf_size (h : Files P W d src L s wg relays) (hS : Small wg L) :
    ∀ i (hi : i < (fileOf wg.inputs relays wg.repeatNum L).length),
      (fileOf wg.inputs relays wg.repeatNum L)[i].length ≤ 2 ^ 30 := by
  have hdep := h.wired.depth
  have hlen := fileOf_length wg.inputs relays wg.repeatNum L
  intro i hi
  match i, hi with
  | 0, hi =>
    change (wg.inputs.map LGate.inputLine).length ≤ _
    rw [List.length_map]; exact hS.inputs
  | 1, hi =>
    change (relays.map LGate.line).length ≤ _
    rw [List.length_map, relays_length h]; exact hS.levels 0 (by omega)
  | i + 2, hi =>
    rw [fileOf_level, levelLines_length]; exact hS.levels i (by omega)

/-- the gate at a position of the circuit is the line of the file -/
theorem gate_line (h : Files P W d src L s wg relays) (hP : ProgramOk P) (hW : WiringOk W) (hS : Small wg L)
    (hC : Props.Describes true (fileOf wg.inputs relays wg.repeatNum L) C) {i g : ℕ}
    (hi : i + 1 < (fileOf wg.inputs relays wg.repeatNum L).length) {l : Line}
    (hg : (fileOf wg.inputs relays wg.repeatNum L)[i + 1][g]? = some l) : C.gate (i + 2) g = ⟨l.ty, l.u, l.v⟩ := by
  rw [gate_at hC hi hg]
  exact (fileOf_lines h hP hW i hi l (List.mem_of_getElem? hg)).gateOf_eq (fileOf_size h hS i (by omega))

/-- a gate of a level in block `r` -/
theorem gate_level (h : Files P W d src L s wg relays) (hP : ProgramOk P) (hW : WiringOk W) (hS : Small wg L)
    (hC : Props.Describes true (fileOf wg.inputs relays wg.repeatNum L) C) {l r : ℕ} (hl : l < L.depth)
    (hr : r < wg.repeatNum) {k : Id} (hk : k ∈ levelKeys d l) :
    let line := if l = 0 then blockInputLine (L.gates l).length r (layerGate d k)
      else blockGateLine (L.gates l).length (L.gates (l - 1)).length r (layerGate d k)
    C.gate (l + 3) (r * (L.gates l).length + (d.node k).lid) = ⟨line.ty, line.u, line.v⟩ := by
  have hlen := fileOf_length wg.inputs relays wg.repeatNum L
  have hlt := lid_lt_size h.comp.toLayout hk
  have hg := gate_lid h.comp.toLayout hk
  have hget := levelLines_get L hr hlt
  have e : (L.gates l)[(d.node k).lid] = layerGate d k := by
    rw [List.getElem?_eq_getElem hlt, Option.some.injEq] at hg
    exact hg
  rw [e] at hget
  have hi : l + 1 + 1 < (fileOf wg.inputs relays wg.repeatNum L).length := by omega
  refine gate_line h hP hW hS hC hi ?_
  rw [show (fileOf wg.inputs relays wg.repeatNum L)[l + 1 + 1] = levelLines L wg.repeatNum l from fileOf_level hi]
  exact hget

variable {F : Type} [CommRing F]

theorem gv10 (u v : ℤ) (x : ℤ → F) : gateValue ⟨10, u, v⟩ x = x u := by simp [gateValue]

/-- an input of a block -/
theorem value_input (h : Files P W d src L s wg relays) (hP : ProgramOk P) (hW : WiringOk W) (hS : Small wg L)
    (hC : Props.Describes true (fileOf wg.inputs relays wg.repeatNum L) C) {base : ℕ}
    (hb : IsLeast {o | ∃ a, .output o a ∈ W} base) (hlt : base ≤ 0x3f3f3f3f) {out v : ℕ → F}
    (hR : ∀ l ∈ W, RHolds out v l.asRead) {r i : ℕ} (hr : r < wg.repeatNum) (hi : i < inputCount P) :
    value C 2 (r * (L.gates 0).length + i) = out (base + (r * inputCount P + i)) := by
  have hlen := fileOf_length wg.inputs relays wg.repeatNum L
  obtain ⟨k, a, b, hpass, hout, ha, hp, e⟩ := relay_at h hP hW hb hlt hr hi
  have hidx := List.idxOf_lt_length_of_mem ha
  have hil := inputs_length h
  have hlt' := lt_fullCount (sources s).length
  have hsmall := hS.inputs
  have hlt0 : (sources s).idxOf a < wg.inputs.length := by omega
  have e2 : C.gate 2 (r * (L.gates 0).length + i) = ⟨10, ((sources s).idxOf a : ℕ), 0⟩ := by
    refine gate_line (i := 0) h hP hW hS hC (by omega) (l := ⟨10, ((r * (L.gates 0).length + i : ℕ) : ℤ), ((sources s).idxOf a : ℕ), 0⟩) ?_
    change (relays.map LGate.line)[_]? = _
    rw [List.getElem?_map, List.getElem?_eq_getElem hp, Option.map_some, e]
  have hlenh : (sources s).idxOf a < ((fileOf wg.inputs relays wg.repeatNum L).headD []).length := by
    change _ < (wg.inputs.map LGate.inputLine).length
    rw [List.length_map]; exact hlt0
  have e1 : C.gate 1 ((sources s).idxOf a) = ⟨4, ((sources s).idxOf a : ℕ), 0⟩ := by
    rw [Circuit.gate, Layer.gate, hC.relay _ hlenh]; rfl
  have e0 : C.gate 0 ((sources s).idxOf a) = ⟨3, int32 (s.node a).value, 0⟩ := by
    rw [Circuit.gate, Layer.gate, hC.inputs _ hlenh]
    have := inputs_source h ha
    rw [List.getElem?_eq_getElem hlt0, Option.some.injEq] at this
    change gateOf true ((wg.inputs.map LGate.inputLine)[(sources s).idxOf a]'(by
      rw [List.length_map]; exact hlt0)) = _
    rw [List.getElem_map, this, gateOf]
    dsimp only [LGate.inputLine]
    rw [show int32 0 = 0 from rfl]
    norm_num
  rw [value, e2, gv10, Int.toNat_natCast, value, e1]
  have hv4 : ∀ (u v : ℤ) (x : ℤ → F), gateValue ⟨4, u, v⟩ x = x u := by intro u v x; simp [gateValue]
  rw [hv4, Int.toNat_natCast, value, e0, inputValue, if_pos rfl]
  have h1 := hR _ hout
  have h2 := hR _ hpass
  simp only [RHolds] at h1 h2
  rw [h1, h2]
  rcases source_value h.reads ha with hv | ⟨i, hv⟩
  · have := hR _ hv
    exact this.symm
  · have := hR _ hv
    exact this.symm

theorem opValue_gate (op : Op) (u v : ℤ) (x : ℤ → F) : gateValue ⟨op.code, u, v⟩ x = opValue op (x u) (x v) := by
  cases op <;> simp [Op.code, gateValue, opValue]

/-- the value of an input variable of a block is the input -/
theorem level0_iff (h : Files P W d src L s wg relays) (hP : ProgramOk P) (hW : WiringOk W) (hS : Small wg L)
    (hC : Props.Describes true (fileOf wg.inputs relays wg.repeatNum L) C) {base : ℕ}
    (hb : IsLeast {o | ∃ a, .output o a ∈ W} base) (hlt : base ≤ 0x3f3f3f3f) {out v : ℕ → F}
    (hR : ∀ l ∈ W, RHolds out v l.asRead) {r : ℕ} (hr : r < wg.repeatNum) {t i : ℕ} (hs : .input t i ∈ P) :
    value C 3 (r * (L.gates 0).length + (d.node (V t)).lid) = out (base + (r * inputCount P + i)) := by
  have hk := (mem_level0 h.comp hP.single).2 ⟨t, i, hs, rfl⟩
  have hl : 0 < L.depth := Nat.pos_of_ne_zero h.wired.depth
  have hg := gate_level h hP hW hS hC hl hr hk
  have hlid := level0_lid h.comp hP hs
  obtain ⟨h1, h2⟩ := mem_levelKeys.1 hk
  have h3 : (d.node (V t)).ty = 3 := (h.comp.below0 _ h1).resolve_left (by omega)
  have hline : blockInputLine (L.gates 0).length r (layerGate d (V t)) =
      ⟨10, ((d.node (V t)).lid : ℤ) + r * (L.gates 0).length, ((d.node (V t)).lid : ℤ) + r * (L.gates 0).length, 0⟩ := by
    rw [blockInputLine, if_pos]
    · rfl
    · change ((d.node (V t)).ty : ℤ) = 3
      rw [h3]; rfl
  dsimp only at hg
  rw [if_pos rfl, hline] at hg
  have hi : i < inputCount P := by
    rw [← hlid, ← level0_length h.comp hP.single]
    exact lid_lt h.comp.toLayout hk
  rw [value, hg, gv10]
  dsimp only
  rw [show (((d.node (V t)).lid : ℤ) + r * (L.gates 0).length).toNat = r * (L.gates 0).length + i by
    rw [hlid]; norm_cast; rw [Nat.add_comm, Int.toNat_natCast]]
  exact value_input h hP hW hS hC hb hlt hR hr hi

/-- a relay carries the variable of its operand -/
theorem relay_value (h : Files P W d src L s wg relays) (hP : ProgramOk P) (hW : WiringOk W) (hS : Small wg L)
    (hC : Props.Describes true (fileOf wg.inputs relays wg.repeatNum L) C) {r : ℕ} (hr : r < wg.repeatNum)
    {w : ℕ → F} {l : ℕ} (hl : l + 1 < L.depth)
    (ih : ∀ k ∈ levelKeys d l, value C (l + 3) (r * (L.gates l).length + (d.node k).lid) = w (src k).2)
    {j : ℕ} (hk : R j ∈ levelKeys d (l + 1)) :
    value C (l + 1 + 3) (r * (L.gates (l + 1)).length + (d.node (R j)).lid) = w (src (R j)).2 := by
  obtain ⟨h3, hin0⟩ := input0_below h.comp hk
  have hg := gate_level h hP hW hS hC hl hr hk
  dsimp only at hg
  rw [if_neg (by omega), Nat.add_sub_cancel] at hg
  have x0 := ih _ hin0
  have hpos : ∀ j : ℕ, ((j : ℤ) + (r : ℤ) * ((L.gates l).length : ℤ)).toNat = r * (L.gates l).length + j := by
    intro j; norm_cast; rw [Nat.add_comm, Int.toNat_natCast]
  obtain ⟨h1, h2⟩ := mem_levelKeys.1 hk
  rw [value, hg]
  rcases h.comp.kinds _ h1 with ⟨j', e, h10, -, hsrc⟩ | ⟨n, e, -⟩
  · have hline : blockGateLine (L.gates (l + 1)).length (L.gates l).length r (layerGate d (R j)) =
        ⟨10, ((d.node (R j)).lid : ℤ) + r * (L.gates (l + 1)).length,
          ((d.node (d.node (R j)).input0).lid : ℤ) + r * (L.gates l).length, 0⟩ := by
      have hty : (layerGate d (R j)).ty = 10 := by
        change ((d.node (R j)).ty : ℤ) = 10
        rw [h10]; rfl
      have hv : (layerGate d (R j)).v = 0 := by
        unfold layerGate; dsimp only; rw [if_pos (by omega)]
      rw [blockGateLine, if_pos (.inl hty), hty, hv]
      rfl
    rw [hline, gv10]
    dsimp only
    rw [hpos, x0, hsrc]
  · exact absurd e (by simp [V, R])

/-- the gate of a variable above level 0 has the right value exactly if its line holds -/
theorem level_iff (h : Files P W d src L s wg relays) (hP : ProgramOk P) (hW : WiringOk W) (hS : Small wg L)
    (hC : Props.Describes true (fileOf wg.inputs relays wg.repeatNum L) C) {r : ℕ} (hr : r < wg.repeatNum)
    {inp w : ℕ → F} {l : ℕ} (hl : l + 1 < L.depth)
    (ih : ∀ k ∈ levelKeys d l, value C (l + 3) (r * (L.gates l).length + (d.node k).lid) = w (src k).2)
    {n : ℕ} (hk : V n ∈ levelKeys d (l + 1)) {st : Stmt} (hst : st ∈ P) (ht : target st = some n) :
    HoldsCompiled inp w st ↔
      w n = value C (l + 1 + 3) (r * (L.gates (l + 1)).length + (d.node (V n)).lid) := by
  obtain ⟨h3, hin0⟩ := input0_below h.comp hk
  have hg := gate_level h hP hW hS hC hl hr hk
  dsimp only at hg
  rw [if_neg (by omega), Nat.add_sub_cancel] at hg
  have x0 := ih _ hin0
  have hpos : ∀ j : ℕ, ((j : ℤ) + (r : ℤ) * ((L.gates l).length : ℤ)).toNat = r * (L.gates l).length + j := by
    intro j; norm_cast; rw [Nat.add_comm, Int.toNat_natCast]
  obtain ⟨h1, h2⟩ := mem_levelKeys.1 hk
  rw [value, hg]
  rcases h.comp.kinds _ h1 with ⟨j, e, -⟩ | ⟨n', e', st', hst', g, e, hgty, hs0, hs1, hex, -, h13⟩
  · exact absurd e (by simp [V, R])
  · rw [V_inj] at e'
    subst e'
    obtain rfl : st = st' := single_unique hP.single hst hst' ht (target_of_gate e)
    have hline : (d.node (V n)).ty ≠ 10 → (d.node (V n)).ty ≠ 6 →
        blockGateLine (L.gates (l + 1)).length (L.gates l).length r (layerGate d (V n)) =
        ⟨(d.node (V n)).ty, ((d.node (V n)).lid : ℤ) + r * (L.gates (l + 1)).length,
          ((d.node (d.node (V n)).input0).lid : ℤ) + r * (L.gates l).length,
          ((d.node (d.node (V n)).input1).lid : ℤ) + r * (L.gates l).length⟩ := by
      intro h10 h6
      have hty : (layerGate d (V n)).ty = ((d.node (V n)).ty : ℤ) := rfl
      have hv : (layerGate d (V n)).v = ((d.node (d.node (V n)).input1).lid : ℤ) := by
        unfold layerGate; dsimp only; rw [if_neg (by omega)]
      rw [blockGateLine, if_neg (by rw [hty]; omega), hv]
      rfl
    cases st with
    | gate op t a b =>
      simp [gateOfStmt] at e
      obtain ⟨rfl, rfl⟩ := e
      dsimp only at hgty hs0 hs1
      rw [h.comp.vars] at hs0 hs1
      change w t = opValue op (w a) (w b) ↔ _
      rw [hs0] at x0
      by_cases h6 : (d.node (V t)).ty = 6
      · have hop : op = .not := by rw [hgty] at h6; revert h6; cases op <;> decide
        subst hop
        have hl6 : blockGateLine (L.gates (l + 1)).length (L.gates l).length r (layerGate d (V t)) =
            ⟨6, ((d.node (V t)).lid : ℤ) + r * (L.gates (l + 1)).length,
              ((d.node (d.node (V t)).input0).lid : ℤ) + r * (L.gates l).length, 0⟩ := by
          have hty : (layerGate d (V t)).ty = 6 := by
            change ((d.node (V t)).ty : ℤ) = 6
            rw [h6]; rfl
          have hv : (layerGate d (V t)).v = 0 := by
            unfold layerGate; dsimp only; rw [if_pos (by omega)]
          rw [blockGateLine, if_pos (.inr hty), hty, hv]
          rfl
        rw [hl6]
        have hv6 : ∀ (u v : ℤ) (x : ℤ → F), gateValue ⟨6, u, v⟩ x = 1 - x u := by
          intro u v x; simp [gateValue]
        rw [hv6]
        dsimp only
        rw [hpos, x0]
        rfl
      · have h10 : (d.node (V t)).ty ≠ 10 := by rw [hgty]; exact (code_ne op).2.2.2.2
        have x1 := ih _ (input1_below h.comp hk h10 h6)
        rw [hs1] at x1
        rw [hline h10 h6, hgty, opValue_gate]
        dsimp only
        rw [hpos, hpos, x0, x1]
        rfl
    | sum t a b =>
      simp [gateOfStmt] at e
      obtain ⟨rfl, rfl⟩ := e
      dsimp only at hgty hex
      obtain ⟨e0, e1⟩ := hex (.inl rfl)
      have hab := hP.sums _ _ _ hst
      have hrg := range_lid h.comp hk (.inl hgty) e0 e1
      have hb' := (hrg (b - a) (by omega)).2
      rw [Nat.add_sub_cancel' (by omega)] at hb'
      change w t = ∑ k ∈ Ico a b, w k ↔ _
      rw [hline (by omega) (by omega), hgty, e0, e1, hb']
      have hv5 : ∀ (u v : ℤ) (x : ℤ → F), gateValue ⟨(5 : ℕ), u, v⟩ x = ∑ k ∈ range (v - u).toNat, x (u + k) := by
        intro u v x; simp [gateValue]
      rw [hv5, Finset.sum_Ico_eq_sum_range]
      dsimp only
      rw [show (((((d.node (V a)).lid + (b - a) : ℕ) : ℤ) + (r : ℤ) * ((L.gates l).length : ℤ)) -
        (((d.node (V a)).lid : ℤ) + (r : ℤ) * ((L.gates l).length : ℤ))).toNat = b - a by push_cast; omega]
      rw [Finset.sum_congr rfl (fun i hi => ?_)]
      rw [Finset.mem_range] at hi
      obtain ⟨c1, c2⟩ := hrg i (by omega)
      have := ih _ c1
      rw [h.comp.vars, c2] at this
      rw [show ((d.node (V a)).lid : ℤ) + (r : ℤ) * ((L.gates l).length : ℤ) + (i : ℤ) =
        (((d.node (V a)).lid + i : ℕ) : ℤ) + (r : ℤ) * ((L.gates l).length : ℤ) by push_cast; ring, hpos]
      exact this.symm
    | expSum t a b =>
      simp [gateOfStmt] at e
      obtain ⟨rfl, rfl⟩ := e
      dsimp only at hgty hex
      obtain ⟨e0, e1⟩ := hex (.inr rfl)
      have hab := hP.expSums _ _ _ hst
      have hrg := range_lid h.comp hk (.inr hgty) e0 e1
      have hb' := (hrg (b - a) (by omega)).2
      rw [Nat.add_sub_cancel' (by omega)] at hb'
      change w t = ∑ k ∈ Icc a b, 2 ^ (k - a) * w k ↔ _
      rw [hline (by omega) (by omega), hgty, e0, e1, hb']
      have hv12 : ∀ (u v : ℤ) (x : ℤ → F), gateValue ⟨(12 : ℕ), u, v⟩ x =
          ∑ k ∈ range (v - u + 1).toNat, 2 ^ k * x (u + k) := by
        intro u v x; simp [gateValue]
      rw [hv12, ← Finset.Ico_succ_right_eq_Icc, Finset.sum_Ico_eq_sum_range]
      dsimp only
      rw [show (((((d.node (V a)).lid + (b - a) : ℕ) : ℤ) + (r : ℤ) * ((L.gates l).length : ℤ)) -
        (((d.node (V a)).lid : ℤ) + (r : ℤ) * ((L.gates l).length : ℤ)) + 1).toNat = Order.succ b - a by
          rw [Nat.succ_eq_succ]; push_cast; omega]
      rw [Finset.sum_congr rfl (fun i hi => ?_)]
      rw [Finset.mem_range, Nat.succ_eq_succ] at hi
      obtain ⟨c1, c2⟩ := hrg i (by omega)
      have := ih _ c1
      rw [h.comp.vars, c2] at this
      rw [show ((d.node (V a)).lid : ℤ) + (r : ℤ) * ((L.gates l).length : ℤ) + (i : ℤ) =
        (((d.node (V a)).lid + i : ℕ) : ℤ) + (r : ℤ) * ((L.gates l).length : ℤ) by push_cast; ring, hpos,
        Nat.add_sub_cancel_left, this]
      rfl
    | bit t a b =>
      simp [gateOfStmt] at e
      obtain ⟨rfl, rfl⟩ := e
      dsimp only at hgty hs0 hs1 h13
      rw [h.comp.vars] at hs0 hs1
      have hab : V a = V b := by rw [← hs0, ← hs1, h13 rfl]
      rw [V_inj] at hab
      subst hab
      change w t = w a * (1 - w a) ↔ _
      rw [hs0] at x0
      have hv13 : ∀ (u v : ℤ) (x : ℤ → F), gateValue ⟨(13 : ℕ), u, v⟩ x = x u * (1 - x u) := by
        intro u v x; simp [gateValue]
      rw [hline (by omega) (by omega), hgty, hv13]
      dsimp only
      rw [hpos, x0]
      rfl
    | input t i =>
      simp [gateOfStmt] at e
      obtain ⟨rfl, rfl⟩ := e
      exact absurd hgty h3
    | output o a => simp [gateOfStmt] at e
    | const t c => simp [gateOfStmt] at e

/-- a gate is a relay or the gate of a line -/
theorem key_cases (h : Files P W d src L s wg relays) {k : Id} (hk : k ∈ d.keys) :
    (∃ j, k = R j) ∨ ∃ n, k = V n ∧ ∃ st ∈ P, target st = some n := by
  rcases h.comp.kinds k hk with ⟨j, e, -⟩ | ⟨n, e, st, hst, g, eg, -⟩
  · exact .inl ⟨j, e⟩
  · exact .inr ⟨n, e, st, hst, target_of_gate eg⟩

/-- if the lines hold, every gate of a block carries its variable -/
theorem value_level (h : Files P W d src L s wg relays) (hP : ProgramOk P) (hW : WiringOk W) (hS : Small wg L)
    (hC : Props.Describes true (fileOf wg.inputs relays wg.repeatNum L) C) {base : ℕ}
    (hb : IsLeast {o | ∃ a, .output o a ∈ W} base) (hlt : base ≤ 0x3f3f3f3f) {out v : ℕ → F}
    (hR : ∀ l ∈ W, RHolds out v l.asRead) {r : ℕ} (hr : r < wg.repeatNum) {w : ℕ → F}
    (hw : ∀ st ∈ P, HoldsCompiled (fun i => out (base + (r * inputCount P + i))) w st) :
    ∀ l, l < L.depth → ∀ k ∈ levelKeys d l,
      value C (l + 3) (r * (L.gates l).length + (d.node k).lid) = w (src k).2 := by
  intro l
  induction l with
  | zero =>
    intro hl k hk
    obtain ⟨t, i, hs, rfl⟩ := (mem_level0 h.comp hP.single).1 hk
    rw [level0_iff h hP hW hS hC hb hlt hR hr hs, h.comp.vars]
    exact (hw _ hs).symm
  | succ l ih =>
    intro hl k hk
    have ih := ih (by omega)
    rcases key_cases h (mem_levelKeys.1 hk).1 with ⟨j, rfl⟩ | ⟨n, rfl, st, hst, ht⟩
    · exact relay_value h hP hW hS hC hr hl ih hk
    · rw [h.comp.vars]
      exact ((level_iff h hP hW hS hC hr hl ih hk hst ht).1 (hw _ hst)).symm

/-- the values of the gates of the variables -/
noncomputable def blockValue (C : Circuit) (d : Dag) (L : Layered) (r t : ℕ) : F :=
  value C ((d.node (V t)).lvl + 3) (r * (L.gates (d.node (V t)).lvl).length + (d.node (V t)).lid)

/-- the values of the gates satisfy the lines -/
theorem equations_hold (h : Files P W d src L s wg relays) (hP : ProgramOk P) (hW : WiringOk W) (hS : Small wg L)
    (hC : Props.Describes true (fileOf wg.inputs relays wg.repeatNum L) C) {base : ℕ}
    (hb : IsLeast {o | ∃ a, .output o a ∈ W} base) (hlt : base ≤ 0x3f3f3f3f) {out v : ℕ → F}
    (hR : ∀ l ∈ W, RHolds out v l.asRead) {r : ℕ} (hr : r < wg.repeatNum) :
    ∀ st ∈ P, HoldsCompiled (fun i => out (base + (r * inputCount P + i))) (blockValue C d L r) st := by
  have hval : ∀ l, l < L.depth → ∀ k ∈ levelKeys d l,
      value C (l + 3) (r * (L.gates l).length + (d.node k).lid) = (blockValue C d L r (src k).2 : F) := by
    have hvar : ∀ l, ∀ n, V n ∈ levelKeys d l →
        value C (l + 3) (r * (L.gates l).length + (d.node (V n)).lid) = (blockValue C d L r (src (V n)).2 : F) := by
      intro l n hk
      obtain ⟨-, h2⟩ := mem_levelKeys.1 hk
      rw [h.comp.vars]
      change _ = blockValue C d L r n
      rw [blockValue, h2]
    intro l
    induction l with
    | zero =>
      intro hl k hk
      obtain ⟨t, i, hs, rfl⟩ := (mem_level0 h.comp hP.single).1 hk
      exact hvar 0 t hk
    | succ l ih =>
      intro hl k hk
      rcases key_cases h (mem_levelKeys.1 hk).1 with ⟨j, rfl⟩ | ⟨n, rfl, st, hst, ht⟩
      · exact relay_value h hP hW hS hC hr hl (ih (by omega)) hk
      · exact hvar _ n hk
  intro st hst
  cases ht : target st with
  | none =>
    cases st <;> simp [target] at ht
    trivial
  | some n =>
    have hk := h.comp.defined st hst n ht
    have hlv : V n ∈ levelKeys d (d.node (V n)).lvl := mem_levelKeys.2 ⟨hk, rfl⟩
    have hbound := h.comp.low _ hk
    cases hl : (d.node (V n)).lvl with
    | zero =>
      rw [hl] at hlv
      obtain ⟨t, i, hs, e⟩ := (mem_level0 h.comp hP.single).1 hlv
      rw [V_inj] at e
      subst e
      obtain rfl : st = .input n i := single_unique hP.single hst hs ht rfl
      change blockValue C d L r n = _
      rw [blockValue, hl]
      exact level0_iff h hP hW hS hC hb hlt hR hr hs
    | succ l =>
      rw [hl] at hlv
      refine (level_iff h hP hW hS hC hr (l := l) (by omega) (hval l (by omega)) hlv hst ht).2 ?_
      rw [blockValue, hl]

end Libra.Compiler

namespace Libra.Compiler
open Libra Spec Matmul Reader Finset

theorem layer_le_tokens {f : File} {K : List Line} (h : K ∈ f) : K.length ≤ (tokens f).length := by
  have h1 : (layerTokens K).length ≤ (f.flatMap layerTokens).length := by
    rw [List.length_flatMap]
    exact List.le_sum_of_mem (List.mem_map_of_mem h)
  have h2 : K.length ≤ (layerTokens K).length := by
    rw [layerTokens, List.length_cons, List.length_flatMap]
    have : (K.map (fun l => l.tokens.length)).sum = K.length * 4 := by simp [Line.tokens]
    omega
  rw [tokens, List.length_cons]
  omega

theorem lines_inj {K K' : List Line} (hn : K.length = K'.length) {r r' : List ℤ}
    (h : K.flatMap Line.tokens ++ r = K'.flatMap Line.tokens ++ r') : K = K' ∧ r = r' := by
  induction K generalizing K' with
  | nil =>
    obtain rfl : K' = [] := List.length_eq_zero_iff.1 (by simpa using hn.symm)
    exact ⟨rfl, h⟩
  | cons l K ih =>
    match K', hn with
    | l' :: K', hn =>
      simp only [List.flatMap_cons, Line.tokens, List.cons_append, List.nil_append, List.cons.injEq] at h
      obtain ⟨h1, h2, h3, h4, h5⟩ := h
      obtain ⟨rfl, rfl⟩ := ih (by simpa using hn) h5
      cases l
      cases l'
      simp_all

/-- a circuit file has one reading only -/
theorem tokens_inj {f g : File} (h : tokens f = tokens g) : f = g := by
  rw [tokens, tokens, List.cons.injEq] at h
  obtain ⟨hn, h⟩ := h
  replace hn : f.length = g.length := by exact_mod_cast hn
  induction f generalizing g with
  | nil => exact (List.length_eq_zero_iff.1 (by simpa using hn.symm)).symm
  | cons K f ih =>
    match g, hn with
    | K' :: g, hn =>
      simp only [List.flatMap_cons, layerTokens, List.cons_append, List.cons.injEq] at h
      obtain ⟨h1, h⟩ := h
      obtain ⟨rfl, h'⟩ := lines_inj (by exact_mod_cast h1) h
      rw [ih h' (by simpa using hn)]

/-- files of at most `2^30` numbers fit -/
theorem fits_of_length {f : File} (h1 : (tokens f).length ≤ 2 ^ 30) (h2 : (tokens f).headD 0 < 999999) : FitsReader (tokens f) :=
  ⟨f, rfl, by rw [tokens, List.headD_cons] at h2; exact_mod_cast h2, fun _ hK => (layer_le_tokens hK).trans h1⟩

theorem fits_of_compile {var : Variant} {P : List Stmt} {W : List RStmt} (hP : ProgramOk P) {r : List ℤ × List ℤ}
    (h : compile var P W = .ok r) (h1 : r.1.length ≤ 2 ^ 30) (h2 : r.1.headD 0 < 999999) : FitsReader r.1 := by
  have h' := h
  unfold compile at h'
  obtain ⟨⟨d0, c⟩, p1, h'⟩ := Outcome.bind_eq_ok' h'
  obtain ⟨L, p2, -⟩ := Outcome.bind_eq_ok' h'
  obtain ⟨d, src, hcomp⟩ := dagToLayered_ok (readProgram_reads p1).1 (ranges_of_ok hP) p2
  obtain ⟨file, metaFile⟩ := r
  obtain ⟨wg, relays, -, rfl, -⟩ := compile_files hP p1 p2 hcomp h
  exact fits_of_length h1 h2

theorem small_of_file {L : Layered} {wg : Wiring} {relays : List LGate}
    (h : FitsReader (tokens (fileOf wg.inputs relays wg.repeatNum L))) : Small wg L := by
  obtain ⟨f, e, h1, h2⟩ := h
  obtain rfl := tokens_inj e
  have hlen := fileOf_length wg.inputs relays wg.repeatNum L
  refine ⟨?_, ?_, by omega⟩
  · have := h2 (wg.inputs.map LGate.inputLine) (List.mem_cons_self ..)
    rwa [List.length_map] at this
  · intro l hl
    have hi : l + 2 < (fileOf wg.inputs relays wg.repeatNum L).length := by omega
    have := h2 _ (List.getElem_mem hi)
    rwa [fileOf_level, levelLines_length] at this

/-- a program without `SS` means the same to the circuit -/
theorem holdsCompiled_iff {F : Type} [CommRing F] {st : Stmt} (h : ∀ t a b, st ≠ .sum t a b) (inp w : ℕ → F) :
    HoldsCompiled inp w st ↔ Spec.Holds inp w st := by
  cases st with
  | sum t a b => exact absurd rfl (h t a b)
  | _ => exact Iff.rfl

end Libra.Compiler
