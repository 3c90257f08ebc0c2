import Verif.Proofs.Reader
import Verif.Proofs.Evaluate
import Mathlib.Tactic.IntervalCases

/-!
# Evaluation of circuits built by the reader
-/

namespace Libra.Reader
open Libra.Spec
variable {F : Type} [CommRing F]

/-- a gate type the evaluator of the zero-knowledge version knows -/
def KnownType (g : Gate) : Prop :=
  0 ≤ g.ty ∧ g.ty ≤ 10 ∨ g.ty = 12 ∧ g.v - g.u + 1 ≤ 63 ∨ g.ty = 13

theorem int32_id {x : ℤ} (h : -2 ^ 31 ≤ x ∧ x < 2 ^ 31) : int32 x = x := by
  unfold int32; omega

theorem pow_le_30 {n : ℕ} (h : n ≤ 30) : (2 : ℤ) ^ n ≤ 2 ^ 30 := by
  exact pow_le_pow_right₀ (by norm_num) h

theorem gateOf_wired {n : ℕ} {l : Line} (hn : n ≤ 30) (h : WiresOk n l) (h3 : l.ty ≠ 3) :
    (gateOf true l).u = l.u ∧ (gateOf true l).v = if l.ty = 6 ∨ l.ty = 10 then 0 else l.v := by
  have hp := pow_le_30 hn
  unfold WiresOk Wire at h
  rw [if_neg h3] at h
  split_ifs at h with h5
  · obtain ⟨a, b, c⟩ := h
    simp only [gateOf]
    rw [int32_id ⟨by omega, by omega⟩, int32_id ⟨by omega, by omega⟩]
    simp
  · obtain ⟨⟨a, b⟩, ⟨c, d⟩, -⟩ := h
    simp only [gateOf]
    rw [int32_id ⟨by omega, by omega⟩, int32_id ⟨by omega, by omega⟩]
    simp

theorem gateOf_ok {n : ℕ} {l : Line} (hn : n ≤ 30) (h : WiresOk n l) (h3 : l.ty ≠ 3)
    (hk : KnownType (gateOf true l)) : GateOk true n (gateOf true l) := by
  obtain ⟨hu, hv⟩ := gateOf_wired hn h h3
  have hty : (gateOf true l).ty = l.ty := rfl
  unfold WiresOk at h
  rw [if_neg h3] at h
  unfold KnownType at hk
  unfold GateOk
  rw [hty] at hk ⊢
  rw [hu, hv] at hk ⊢
  by_cases h5 : l.ty = 5
  · rw [if_pos h5] at h
    right; right; right; right; left
    rw [if_neg (by omega)]
    exact ⟨h5, h.1, h.2.2⟩
  · rw [if_neg h5] at h
    obtain ⟨wu, wv, h13⟩ := h
    rcases hk with ⟨k1, k2⟩ | ⟨k1, k2⟩ | k1
    · generalize l.ty = t at *
      interval_cases t <;> simp_all
    · simp only [k1] at k2 ⊢
      norm_num at k2 ⊢
      exact ⟨wu.1, wv.2, k2⟩
    · simp only [k1]
      norm_num
      exact ⟨wu, (h13 k1).symm⟩

theorem list_eq_block (prev : List F) : prev = block prev.length (fun i => prev[i]?.getD 0) := by
  apply List.ext_getElem
  · simp [block]
  · intro i h1 h2
    simp [block, h1]

theorem evalGate_known {n : ℕ} {l : Line} (prev : List F) (hp : prev.length = 2 ^ n) (hn : n ≤ 30)
    (h : WiresOk n l) (hk : KnownType (gateOf true l)) :
    ∃ x, evalGate .zk prev (gateOf true l) = .ok x := by
  by_cases h3 : l.ty = 3
  · have : (gateOf true l).ty = 3 := h3
    exact ⟨ofCInt (gateOf true l).u, by simp [evalGate, this]⟩
  · rw [list_eq_block prev, hp]
    exact ⟨_, evalGate_ok _ (gateOf_ok hn h h3 hk)⟩

theorem evalGate_unknown {g : Gate} (prev : List F) (hk : ¬ KnownType g) :
    evalGate .zk prev g = .assertFail := by
  unfold KnownType at hk
  push Not at hk
  obtain ⟨h1, h2, h3⟩ := hk
  have hne : ∀ k : ℤ, 0 ≤ k → k ≤ 10 → g.ty ≠ k := by
    intro k hk0 hk1 he; have := h1 (by omega); omega
  unfold evalGate
  rw [if_neg (hne 0 (by omega) (by omega)), if_neg (hne 1 (by omega) (by omega)),
    if_neg (hne 2 (by omega) (by omega)), if_neg (hne 3 (by omega) (by omega)),
    if_neg (hne 4 (by omega) (by omega)), if_neg (hne 5 (by omega) (by omega)),
    if_neg (hne 6 (by omega) (by omega)), if_neg (hne 7 (by omega) (by omega)),
    if_neg (hne 8 (by omega) (by omega)), if_neg (hne 9 (by omega) (by omega)),
    if_neg (hne 10 (by omega) (by omega))]
  by_cases h12 : g.ty = 12
  · rw [if_pos ⟨rfl, h12⟩]
    have : ¬ (g.v - g.u + 1 ≤ 63) := by have := h2 h12; omega
    simp [this, Outcome.assert]
  · rw [if_neg (by tauto), if_neg (by tauto)]

/-- a layer all of whose gates can be evaluated -/
theorem evalLayer_full {L : Layer} {f : Gate → Outcome F} {gs : List Gate}
    (hg : L.gates = gs.map some) (hl : gs.length = 2 ^ L.bitLength)
    (hf : ∀ g ∈ gs, ∃ x, f g = .ok x) :
    ∃ vals, evalLayer L f = .ok vals ∧ vals.length = 2 ^ L.bitLength := by
  have hx : ∀ j, ∃ x, ∀ h : j < gs.length, f gs[j] = .ok x := by
    intro j
    by_cases h : j < gs.length
    · obtain ⟨x, hx⟩ := hf gs[j] (List.getElem_mem h)
      exact ⟨x, fun _ => hx⟩
    · exact ⟨0, fun h' => absurd h' h⟩
  choose val hval using hx
  refine ⟨_, evalLayer_ok val (fun j hj => ?_), block_length _ _⟩
  have h : j < gs.length := by omega
  exact ⟨gs[j], by rw [hg]; simp [h], hval j h⟩

/-- a layer with too few gates -/
theorem evalLayer_short {L : Layer} {f : Gate → Outcome F} {gs : List Gate}
    (hg : L.gates = gs.map some) (hl : gs.length < 2 ^ L.bitLength)
    (hf : ∀ g ∈ gs, ∃ x, f g = .ok x) : evalLayer L f = .undefined := by
  unfold evalLayer
  set b : ℕ → List F → Outcome (List F) := fun j vals => do
    let g ← L.readGate j
    let x ← f g
    return vals ++ [x] with hb
  have hread : ∀ j (h : j < gs.length), L.readGate j = .ok gs[j] := by
    intro j h; simp [Layer.readGate, hg, h]
  have hread' : L.readGate gs.length = .undefined := by
    simp [Layer.readGate, hg, Outcome.read]
  have h1 : ∀ k ≤ gs.length, ∃ v, loopM k b [] = .ok v := by
    intro k
    induction k with
    | zero => exact fun _ => ⟨_, rfl⟩
    | succ k ih =>
      intro hk
      obtain ⟨v, hv⟩ := ih (by omega)
      obtain ⟨x, hx⟩ := hf gs[k] (List.getElem_mem (by omega))
      refine ⟨v ++ [x], ?_⟩
      rw [loopM_succ, hv, Outcome.bind_ok]
      simp only [hb]
      rw [hread k (by omega), Outcome.ok_bind, hx]; rfl
  have h2 : ∀ m, loopM (gs.length + 1 + m) b [] = .undefined := by
    intro m
    induction m with
    | zero =>
      obtain ⟨v, hv⟩ := h1 gs.length le_rfl
      rw [Nat.add_zero, loopM_succ, hv, Outcome.bind_ok]
      simp only [hb]
      rw [hread']; rfl
    | succ m ih => rw [← Nat.add_assoc, loopM_succ, ih]; rfl
  obtain ⟨m, hm⟩ : ∃ m, 2 ^ L.bitLength = gs.length + 1 + m := ⟨2 ^ L.bitLength - gs.length - 1, by omega⟩
  rw [hm]; exact h2 m

/-- a full layer some of whose gates fail an assertion -/
theorem evalLayer_total {L : Layer} {f : Gate → Outcome F} {gs : List Gate}
    (hg : L.gates = gs.map some) (hl : gs.length = 2 ^ L.bitLength)
    (hf : ∀ g ∈ gs, (∃ x, f g = .ok x) ∨ f g = .assertFail) :
    (∃ vals, evalLayer L f = .ok vals ∧ vals.length = 2 ^ L.bitLength) ∨
      evalLayer L f = .assertFail := by
  by_cases hall : ∀ g ∈ gs, ∃ x, f g = .ok x
  · exact Or.inl (evalLayer_full hg hl hall)
  · right
    unfold evalLayer
    set b : ℕ → List F → Outcome (List F) := fun j vals => do
      let g ← L.readGate j
      let x ← f g
      return vals ++ [x] with hb
    have hread : ∀ j (h : j < gs.length), L.readGate j = .ok gs[j] := by
      intro j h; simp [Layer.readGate, hg, h]
    have h1 : ∀ k ≤ gs.length, (∀ j (h : j < gs.length), j < k → ∃ x, f gs[j] = .ok x) ∧
          (∃ v, loopM k b [] = .ok v) ∨
        loopM k b [] = .assertFail := by
      intro k
      induction k with
      | zero => exact fun _ => Or.inl ⟨fun j _ h => absurd h (by omega), _, rfl⟩
      | succ k ih =>
        intro hk
        rcases ih (by omega) with ⟨h, v, hv⟩ | hv
        · have hstep : loopM (k + 1) b [] = (f gs[k] >>= fun x => .ok (v ++ [x])) := by
            rw [loopM_succ, hv, Outcome.bind_ok]
            simp only [hb]
            rw [hread k (by omega), Outcome.ok_bind]; rfl
          rcases hf gs[k] (List.getElem_mem (by omega)) with ⟨x, hx⟩ | hx
          · left
            refine ⟨fun j hj hjk => ?_, v ++ [x], by rw [hstep, hx]; rfl⟩
            by_cases hjk' : j < k
            · exact h j hj hjk'
            · have : j = k := by omega
              subst this; exact ⟨x, hx⟩
          · right; rw [hstep, hx]; rfl
        · right; rw [loopM_succ, hv]; rfl
    rw [← hl]
    rcases h1 gs.length le_rfl with ⟨h, -⟩ | h
    · exfalso
      refine hall (fun g hg' => ?_)
      obtain ⟨j, hj, rfl⟩ := List.mem_iff_getElem.1 hg'
      exact h j hj hj
    · exact h

/-- what the readers guarantee about the layers of the circuit -/
structure Shape (C : Circuit) : Prop where
  nonempty : 0 < C.depth
  written : ∀ i < C.depth, ∃ gs : List Gate, (C.layer i).gates = gs.map some ∧ gs.length ≤ 2 ^ C.bl i
  inputs : ∀ x, some x ∈ (C.layer 0).gates → x.ty = 3 ∨ x.ty = 2
  wires : ∀ i, i + 1 < C.depth → ∀ x, some x ∈ (C.layer (i + 1)).gates →
    ∃ l, WiresOk (C.bl i) l ∧ x = gateOf true l
  small : ∀ i < C.depth, C.bl i ≤ 30

/-- every layer has `2^bit_length` gates -/
def Full (C : Circuit) : Prop := ∀ i < C.depth, (C.layer i).gates.length = 2 ^ C.bl i

/-- the evaluator knows the types of all gates -/
def Known (C : Circuit) : Prop :=
  ∀ i, i + 1 < C.depth → ∀ x, some x ∈ (C.layer (i + 1)).gates → KnownType x

theorem evalInput_gate {C : Circuit} (hs : Shape C) {gs : List Gate}
    (hg : (C.layer 0).gates = gs.map some) : ∀ g ∈ gs, ∃ x : F, (do
      Outcome.assert (g.ty == 3 || g.ty == 2)
      return ofCInt g.u) = .ok x := by
  intro g hgs
  have := hs.inputs g (by rw [hg]; simpa using hgs)
  exact ⟨ofCInt g.u, by rcases this with h | h <;> simp [h]⟩

theorem evaluate_total {C : Circuit} (hs : Shape C) (hf : Full C) :
    (∃ vals : List (List F), evaluate .zk C = .ok vals) ∨
      (evaluate .zk C : Outcome (List (List F))) = .assertFail := by
  obtain ⟨gs, hg, -⟩ := hs.written 0 hs.nonempty
  have hl : gs.length = 2 ^ (C.layer 0).bitLength := by
    have := hf 0 hs.nonempty; rw [hg, List.length_map] at this; exact this
  obtain ⟨v0, e0, l0⟩ := evalLayer_full (F := F) hg hl (evalInput_gate hs hg)
  unfold evaluate
  rw [layer_eq C hs.nonempty]
  simp only [Outcome.read_some, Outcome.ok_bind]
  rw [show evalInput (C.layer 0) = .ok v0 from e0, Outcome.ok_bind]
  by_cases hd : C.depth < 1000000
  swap
  · right; simp [hd, Outcome.assert]
  simp only [hd, decide_true, Outcome.assert_true, Outcome.ok_bind]
  set b : ℕ → List (List F) → Outcome (List (List F)) := fun k vals => do
      let L ← Outcome.read (C.layers[k + 1]?)
      let prev ← Outcome.read (vals[k]?)
      let v ← evalLayer L (evalGate .zk prev)
      return vals ++ [v] with hb
  have key : ∀ k, k < C.depth → (∃ vals : List (List F), loopM k b [v0] = .ok vals ∧ vals.length = k + 1 ∧
      ∀ j (h : j < vals.length), (vals[j]).length = 2 ^ C.bl j) ∨ loopM k b [v0] = .assertFail := by
    intro k
    induction k with
    | zero =>
      intro _; left
      refine ⟨[v0], rfl, rfl, fun j h => ?_⟩
      have : j = 0 := by simp at h; exact h
      subst this; exact l0
    | succ k ih =>
      intro hk
      rcases ih (by omega) with ⟨vals, e, hlen, hv⟩ | e
      · obtain ⟨gs, hg, -⟩ := hs.written (k + 1) hk
        have hl : gs.length = 2 ^ (C.layer (k + 1)).bitLength := by
          have := hf (k + 1) hk; rw [hg, List.length_map] at this; exact this
        have hprev : vals[k]? = some (vals[k]'(by omega)) := by simp
        have hstep : loopM (k + 1) b [v0] =
            (evalLayer (C.layer (k + 1)) (evalGate .zk (vals[k]'(by omega))) >>= fun v =>
              .ok (vals ++ [v])) := by
          rw [loopM_succ, e, Outcome.bind_ok]
          simp only [hb]
          rw [layer_eq C hk, hprev]; rfl
        rcases evalLayer_total (f := evalGate .zk (vals[k]'(by omega))) hg hl (fun g hgs => by
          obtain ⟨l, hw, rfl⟩ := hs.wires k hk g (by rw [hg]; simpa using hgs)
          by_cases hk' : KnownType (gateOf true l)
          · exact Or.inl (evalGate_known _ (hv k (by omega)) (hs.small k (by omega)) hw hk')
          · exact Or.inr (evalGate_unknown _ hk')) with ⟨v, ev, lv⟩ | ev
        · left
          refine ⟨vals ++ [v], by rw [hstep, ev]; rfl, by simp [hlen], fun j h => ?_⟩
          by_cases hj : j < vals.length
          · rw [List.getElem_append_left hj]; exact hv j hj
          · have : j = vals.length := by simp at h; omega
            subst this
            rw [List.getElem_append_right le_rfl]
            simp only [Nat.sub_self, List.getElem_cons_zero, hlen]
            exact lv
        · right; rw [hstep, ev]; rfl
      · right; rw [loopM_succ, e]; rfl
  rcases key (C.depth - 1) (by have := hs.nonempty; omega) with ⟨vals, e, -⟩ | e
  · exact Or.inl ⟨vals, e⟩
  · exact Or.inr e

theorem evaluate_known {C : Circuit} (hs : Shape C) (hk : Known C) (hd : C.depth < 1000000) :
    (Full C → ∃ vals : List (List F), evaluate .zk C = .ok vals) ∧
    (¬ Full C → (evaluate .zk C : Outcome (List (List F))) = .undefined) := by
  unfold evaluate
  rw [layer_eq C hs.nonempty]
  simp only [Outcome.read_some, Outcome.ok_bind]
  obtain ⟨gs, hg, hle⟩ := hs.written 0 hs.nonempty
  have hlen0 : (C.layer 0).gates.length = gs.length := by rw [hg]; simp
  by_cases hl : gs.length = 2 ^ (C.layer 0).bitLength
  swap
  · have hsh := evalLayer_short (F := F) hg (lt_of_le_of_ne hle hl) (evalInput_gate hs hg)
    rw [show evalInput (C.layer 0) = .undefined from hsh]
    refine ⟨fun h => absurd (h 0 hs.nonempty) ?_, fun _ => rfl⟩
    rw [hlen0]; exact hl
  obtain ⟨v0, e0, l0⟩ := evalLayer_full (F := F) hg hl (evalInput_gate hs hg)
  rw [show evalInput (C.layer 0) = .ok v0 from e0, Outcome.ok_bind]
  simp only [hd, decide_true, Outcome.assert_true, Outcome.ok_bind]
  set b : ℕ → List (List F) → Outcome (List (List F)) := fun k vals => do
      let L ← Outcome.read (C.layers[k + 1]?)
      let prev ← Outcome.read (vals[k]?)
      let v ← evalLayer L (evalGate .zk prev)
      return vals ++ [v] with hb
  have key : ∀ k, k < C.depth →
      ((∀ i ≤ k, (C.layer i).gates.length = 2 ^ C.bl i) ∧
        ∃ vals : List (List F), loopM k b [v0] = .ok vals ∧ vals.length = k + 1 ∧
          ∀ j (h : j < vals.length), (vals[j]).length = 2 ^ C.bl j) ∨
      ((¬ ∀ i ≤ k, (C.layer i).gates.length = 2 ^ C.bl i) ∧ loopM k b [v0] = .undefined) := by
    intro k
    induction k with
    | zero =>
      intro _; left
      refine ⟨fun i hi => ?_, [v0], rfl, rfl, fun j h => ?_⟩
      · have : i = 0 := by omega
        subst this; rw [hlen0]; exact hl
      · have : j = 0 := by simp at h; exact h
        subst this; exact l0
    | succ k ih =>
      intro hkd
      rcases ih (by omega) with ⟨hall, vals, e, hlen, hv⟩ | ⟨hn, e⟩
      · obtain ⟨gs, hg, hle⟩ := hs.written (k + 1) hkd
        have hlenk : (C.layer (k + 1)).gates.length = gs.length := by rw [hg]; simp
        have hprev : vals[k]? = some (vals[k]'(by omega)) := by simp
        have hstep : loopM (k + 1) b [v0] =
            (evalLayer (C.layer (k + 1)) (evalGate .zk (vals[k]'(by omega))) >>= fun v =>
              .ok (vals ++ [v])) := by
          rw [loopM_succ, e, Outcome.bind_ok]
          simp only [hb]
          rw [layer_eq C hkd, hprev]; rfl
        have hgate : ∀ g ∈ gs, ∃ x, evalGate .zk (vals[k]'(by omega)) g = .ok x := by
          intro g hgs
          have hmem : some g ∈ (C.layer (k + 1)).gates := by rw [hg]; simpa using hgs
          have hkn := hk k hkd g hmem
          obtain ⟨l, hw, rfl⟩ := hs.wires k hkd g hmem
          exact evalGate_known _ (hv k (by omega)) (hs.small k (by omega)) hw hkn
        by_cases hl : gs.length = 2 ^ (C.layer (k + 1)).bitLength
        · left
          obtain ⟨v, ev, lv⟩ := evalLayer_full hg hl hgate
          refine ⟨fun i hi => ?_, vals ++ [v], by rw [hstep, ev]; rfl, by simp [hlen], fun j h => ?_⟩
          · by_cases hik : i ≤ k
            · exact hall i hik
            · have : i = k + 1 := by omega
              subst this; rw [hlenk]; exact hl
          · by_cases hj : j < vals.length
            · rw [List.getElem_append_left hj]; exact hv j hj
            · have : j = vals.length := by simp at h; omega
              subst this
              rw [List.getElem_append_right le_rfl]
              simp only [Nat.sub_self, List.getElem_cons_zero, hlen]
              exact lv
        · right
          refine ⟨fun h => hl ?_, ?_⟩
          · rw [← hlenk]; exact h (k + 1) le_rfl
          · rw [hstep, evalLayer_short hg (lt_of_le_of_ne hle hl) hgate]; rfl
      · right
        refine ⟨fun h => hn (fun i hi => h i (by omega)), ?_⟩
        rw [loopM_succ, e]; rfl
  have hpos := hs.nonempty
  rcases key (C.depth - 1) (by omega) with ⟨hall, vals, e, -⟩ | ⟨hn, e⟩
  · refine ⟨fun _ => ⟨vals, e⟩, fun h => absurd (fun i hi => hall i (by omega)) h⟩
  · refine ⟨fun h => absurd (fun i hi => h i (by omega)) hn, fun _ => e⟩

/-! ### the circuits built by the readers have this shape -/

theorem width_isLeast (n : ℕ) : IsLeast {k | 1 ≤ k ∧ n ≤ 2 ^ k} (width n) := by
  constructor
  · refine ⟨le_max_left _ _, ?_⟩
    calc n ≤ 2 ^ Nat.clog 2 n := Nat.le_pow_clog (by norm_num) n
      _ ≤ 2 ^ width n := Nat.pow_le_pow_right (by norm_num) (le_max_right _ _)
  · rintro k ⟨h1, h2⟩
    exact max_le h1 (Nat.clog_le_of_le_pow h2)

theorem positions_le (n : ℕ) : positions n ≤ 2 ^ width n := by
  unfold positions
  split_ifs with h
  · subst h; decide
  · exact (width_isLeast n).1.2

theorem width_le_30 {n : ℕ} (h : n ≤ 2 ^ 30) : width n ≤ 30 :=
  (width_isLeast n).2 ⟨by norm_num, h⟩

theorem positions_full {n : ℕ} (hn : 1 ≤ n) : positions n = 2 ^ width n ↔ ∃ k, n = 2 ^ k := by
  unfold positions
  split_ifs with h
  · subst h
    exact ⟨fun _ => ⟨0, rfl⟩, fun _ => by decide⟩
  · refine ⟨fun e => ⟨_, e⟩, ?_⟩
    rintro ⟨k, rfl⟩
    rw [width_spec _ hn, if_neg h, Nat.clog_pow _ _ (by norm_num)]

theorem layerOf_gates (zk : Bool) (L : List Line) :
    ∃ gs : List Gate, (layerOf zk L).gates = gs.map some ∧ gs.length = positions L.length ∧
      ∀ x ∈ gs, (∃ l ∈ L, x = gateOf zk l) ∨ x = ⟨2, 0, 0⟩ := by
  refine ⟨L.map (gateOf zk) ++ (if L.length = 1 then [⟨2, 0, 0⟩] else []), ?_, ?_, ?_⟩
  · simp only [layerOf, List.map_append, List.map_map]
    congr 1
    split_ifs <;> rfl
  · unfold positions; split_ifs with h <;> simp [h]
  · intro x hx
    rcases List.mem_append.1 hx with hx | hx
    · obtain ⟨l, hl, rfl⟩ := List.mem_map.1 hx
      exact Or.inl ⟨l, hl, rfl⟩
    · right
      split_ifs at hx
      · simpa using hx
      · simp at hx

theorem relayLayer_gates (n : ℕ) :
    ∃ gs : List Gate, (relayLayer n).gates = gs.map some ∧ gs.length = positions n ∧
      ∀ x ∈ gs, ∃ g < positions n, x = ⟨4, (g : ℤ), 0⟩ := by
  refine ⟨(List.range (positions n)).map (fun g : ℕ => ⟨4, (g : ℤ), 0⟩), ?_, by simp, ?_⟩
  · simp [relayLayer]
  · intro x hx
    obtain ⟨g, hg, rfl⟩ := List.mem_map.1 hx
    exact ⟨_, by simpa using hg, rfl⟩

theorem circuitOf_depth (zk : Bool) {f : File} (h : f ≠ []) : (circuitOf zk f).depth = f.length + 1 :=
  layersOf_length zk h

theorem circuitOf_layer_zero (zk : Bool) (L : List Line) (f : File) :
    (circuitOf zk (L :: f)).layer 0 = layerOf zk L := rfl

theorem circuitOf_layer_one (zk : Bool) (L : List Line) (f : File) :
    (circuitOf zk (L :: f)).layer 1 = relayLayer L.length := rfl

theorem circuitOf_layer_succ (zk : Bool) (f : File) (i : ℕ) (h : i + 1 < f.length) :
    (circuitOf zk f).layer (i + 2) = layerOf zk f[i + 1] := by
  cases f with
  | nil => simp at h
  | cons L f =>
    simp only [List.length_cons, Nat.add_lt_add_iff_right] at h
    simp [Circuit.layer, circuitOf, layersOf, h]

theorem circuitOf_bl (zk : Bool) (f : File) (i : ℕ) (h : i < f.length) :
    (circuitOf zk f).bl (i + 1) = width f[i].length := by
  cases i with
  | zero =>
    cases f with
    | nil => simp at h
    | cons L f => rfl
  | succ i =>
    rw [Circuit.bl, circuitOf_layer_succ zk f i h]; rfl

theorem circuitOf_bl_zero (zk : Bool) (f : File) (h : f ≠ []) :
    (circuitOf zk f).bl 0 = (circuitOf zk f).bl 1 := by
  cases f with
  | nil => exact absurd rfl h
  | cons L f => rfl

theorem dummy_eq : (⟨2, 0, 0⟩ : Gate) = gateOf true ⟨2, 0, 0, 0⟩ := by decide

theorem dummy_ok (n : ℕ) : WiresOk n ⟨2, 0, 0, 0⟩ := by
  have : (0 : ℤ) < 2 ^ n := by positivity
  simp [WiresOk, Wire, this]

theorem circuitOf_shape {f : File} (hr : Readable f) (hl : FileOk true f) :
    Shape (circuitOf true f) := by
  obtain ⟨hne, hlen, hL⟩ := hr
  obtain ⟨hnum, hin, hw⟩ := (FileOk_iff true f).1 hl
  have hw := hw rfl
  have hd := circuitOf_depth true hne
  have hbl : ∀ i, i < (circuitOf true f).depth → ∃ L ∈ f, (circuitOf true f).bl i = width L.length := by
    intro i hi
    rw [hd] at hi
    cases i with
    | zero =>
      rw [circuitOf_bl_zero true f hne]
      exact ⟨f[0]'(List.length_pos_iff.2 hne), List.getElem_mem _, circuitOf_bl true f 0 _⟩
    | succ i => exact ⟨f[i]'(by omega), List.getElem_mem _, circuitOf_bl true f i _⟩
  constructor
  · rw [hd]; omega
  · intro i hi
    rw [hd] at hi
    match i with
    | 0 =>
      cases f with
      | nil => exact absurd rfl hne
      | cons L f =>
        obtain ⟨gs, h1, h2, -⟩ := layerOf_gates true L
        refine ⟨gs, h1, ?_⟩
        rw [h2]; exact positions_le _
    | 1 =>
      cases f with
      | nil => exact absurd rfl hne
      | cons L f =>
        obtain ⟨gs, h1, h2, -⟩ := relayLayer_gates L.length
        refine ⟨gs, h1, ?_⟩
        rw [h2]; exact positions_le _
    | i + 2 =>
      have hi' : i + 1 < f.length := by omega
      obtain ⟨gs, h1, h2, -⟩ := layerOf_gates true f[i + 1]
      refine ⟨gs, by rw [circuitOf_layer_succ true f i hi']; exact h1, ?_⟩
      rw [h2, circuitOf_bl true f (i + 1) hi']; exact positions_le _
  · intro x hx
    cases f with
    | nil => exact absurd rfl hne
    | cons L f =>
      rw [circuitOf_layer_zero] at hx
      obtain ⟨gs, h1, -, h3⟩ := layerOf_gates true L
      rw [h1] at hx
      have hx : x ∈ gs := by simpa using hx
      rcases h3 x hx with ⟨l, hl, rfl⟩ | rfl
      · exact (hin l hl).symm
      · exact Or.inr rfl
  · intro i hi x hx
    rw [hd] at hi
    cases i with
    | zero =>
      cases f with
      | nil => exact absurd rfl hne
      | cons L f =>
        obtain ⟨gs, h1, -, h3⟩ := relayLayer_gates L.length
        rw [Nat.zero_add, circuitOf_layer_one, h1] at hx
        have hx : x ∈ gs := by simpa using hx
        obtain ⟨g, hg, rfl⟩ := h3 x hx
        have hb : (circuitOf true (L :: f)).bl 0 = width L.length := rfl
        have hg' : g < 2 ^ width L.length := lt_of_lt_of_le hg (positions_le _)
        have hp : width L.length ≤ 30 := width_le_30 (hL L (by simp)).2.1
        have hp30 : (2 : ℕ) ^ width L.length ≤ 2 ^ 30 := Nat.pow_le_pow_right (by norm_num) hp
        refine ⟨⟨4, 0, g, 0⟩, ?_, ?_⟩
        · rw [hb]
          have hz : (g : ℤ) < 2 ^ width L.length := by exact_mod_cast hg'
          have h0 : (0 : ℤ) < 2 ^ width L.length := by positivity
          simp [WiresOk, Wire, hz]
        · simp only [gateOf]
          rw [int32_id ⟨by omega, by omega⟩]
          have : int32 0 = 0 := by decide
          simp [this]
    | succ i =>
      have hi' : i + 1 < f.length := by omega
      rw [circuitOf_layer_succ true f i hi'] at hx
      obtain ⟨gs, h1, -, h3⟩ := layerOf_gates true f[i + 1]
      rw [h1] at hx
      have hx : x ∈ gs := by simpa using hx
      rcases h3 x hx with ⟨l, hl, rfl⟩ | rfl
      · refine ⟨l, ?_, rfl⟩
        have := hw (i + 1) hi' l hl
        rw [circuitOf_bl true f i (by omega)]
        simpa [List.getElem?_eq_getElem (show i < f.length by omega)] using this
      · exact ⟨⟨2, 0, 0, 0⟩, dummy_ok _, dummy_eq⟩
  · intro i hi
    obtain ⟨L, hLf, e⟩ := hbl i hi
    rw [e]; exact width_le_30 (hL L hLf).2.1

theorem circuitOf_full {f : File} (zk : Bool) (hr : Readable f) :
    Full (circuitOf zk f) ↔ ∀ L ∈ f, ∃ k, L.length = 2 ^ k := by
  obtain ⟨hne, -, hL⟩ := hr
  have hd := circuitOf_depth zk hne
  have hpos : ∀ L ∈ f, 1 ≤ L.length := fun L h => List.length_pos_iff.2 (hL L h).1
  have hlay : ∀ L : List Line, (layerOf zk L).gates.length = positions L.length := by
    intro L
    obtain ⟨gs, h1, h2, -⟩ := layerOf_gates zk L
    rw [h1, List.length_map, h2]
  have hrel : ∀ n, (relayLayer n).gates.length = positions n := by
    intro n
    obtain ⟨gs, h1, h2, -⟩ := relayLayer_gates n
    rw [h1, List.length_map, h2]
  have key : ∀ i (h : i < f.length), ((circuitOf zk f).layer (i + 1)).gates.length
      = positions f[i].length := by
    intro i h
    cases i with
    | zero =>
      cases f with
      | nil => simp at h
      | cons L f => exact hrel _
    | succ i => rw [circuitOf_layer_succ zk f i h]; exact hlay _
  constructor
  · intro h L hLf
    obtain ⟨i, hi, rfl⟩ := List.mem_iff_getElem.1 hLf
    have := h (i + 1) (by omega)
    rw [key i hi, circuitOf_bl zk f i hi] at this
    exact (positions_full (hpos _ hLf)).1 this
  · intro h i hi
    rw [hd] at hi
    cases i with
    | zero =>
      cases f with
      | nil => exact absurd rfl hne
      | cons L f =>
        rw [circuitOf_layer_zero, hlay]
        exact (positions_full (hpos L (by simp))).2 (h L (by simp))
    | succ i =>
      have hi' : i < f.length := by omega
      rw [key i hi', circuitOf_bl zk f i hi']
      exact (positions_full (hpos _ (List.getElem_mem hi'))).2 (h _ (List.getElem_mem hi'))

/-- the two circuits have the same gates and bit lengths -/
structure SameLayers (C C' : Circuit) : Prop where
  depth : C.depth = C'.depth
  gates : ∀ i, (C.layer i).gates = (C'.layer i).gates
  bl : ∀ i, C.bl i = C'.bl i

theorem withMeta_same {f : File} {ms : List MetaLine} (hl : ms.length = f.length) :
    SameLayers (circuitWithMeta f ms) (circuitOf true f) := by
  cases f with
  | nil => exact ⟨rfl, fun _ => rfl, fun _ => rfl⟩
  | cons L f =>
    have hlen : (relayLayer L.length :: f.map (layerOf true)).length = ms.length := by
      simp at hl ⊢; omega
    have hz : ∀ i : ℕ, (List.zipWith withMeta (relayLayer L.length :: f.map (layerOf true)) ms)[i]?
        = ((relayLayer L.length :: f.map (layerOf true))[i]?).map
            (fun X => withMeta X (ms[i]?.getD ⟨0, 0, 0, 0, 0⟩)) := by
      intro i
      rw [List.getElem?_zipWith]
      by_cases hi : i < ms.length
      · have hi' : i < (relayLayer L.length :: f.map (layerOf true)).length := by omega
        rw [List.getElem?_eq_getElem hi, List.getElem?_eq_getElem hi']; rfl
      · have hi' : ¬ i < (relayLayer L.length :: f.map (layerOf true)).length := by omega
        rw [List.getElem?_eq_none (by omega), List.getElem?_eq_none (by omega)]; rfl
    refine ⟨?_, ?_, ?_⟩
    · change (layerOf true L :: List.zipWith withMeta _ ms).length = (layerOf true L :: _).length
      simp only [List.length_cons, List.length_zipWith]
      simp at hlen ⊢; omega
    · intro i
      cases i with
      | zero => rfl
      | succ i =>
        change ((layerOf true L :: List.zipWith withMeta _ ms)[i + 1]?.getD _).gates
          = ((layerOf true L :: relayLayer L.length :: f.map (layerOf true))[i + 1]?.getD _).gates
        rw [List.getElem?_cons_succ, List.getElem?_cons_succ, hz]
        cases (relayLayer L.length :: f.map (layerOf true))[i]? <;> rfl
    · intro i
      cases i with
      | zero => rfl
      | succ i =>
        change ((layerOf true L :: List.zipWith withMeta _ ms)[i + 1]?.getD _).bitLength
          = ((layerOf true L :: relayLayer L.length :: f.map (layerOf true))[i + 1]?.getD _).bitLength
        rw [List.getElem?_cons_succ, List.getElem?_cons_succ, hz]
        cases (relayLayer L.length :: f.map (layerOf true))[i]? <;> rfl

theorem SameLayers.shape {C C' : Circuit} (h : SameLayers C C') (hs : Shape C') : Shape C := by
  obtain ⟨h1, h2, h3, h4, h5⟩ := hs
  constructor
  · rw [h.depth]; exact h1
  · intro i hi; rw [h.gates, h.bl]; exact h2 i (by rw [← h.depth]; exact hi)
  · intro x hx; rw [h.gates] at hx; exact h3 x hx
  · intro i hi x hx; rw [h.gates] at hx; rw [h.bl]; exact h4 i (by rw [← h.depth]; exact hi) x hx
  · intro i hi; rw [h.bl]; exact h5 i (by rw [← h.depth]; exact hi)

theorem SameLayers.full {C C' : Circuit} (h : SameLayers C C') : Full C ↔ Full C' := by
  unfold Full
  simp only [h.depth, h.gates, h.bl]

theorem SameLayers.known {C C' : Circuit} (h : SameLayers C C') : Known C ↔ Known C' := by
  unfold Known
  simp only [h.depth, h.gates]

theorem circuitOf_known {f : File} (hne : f ≠ []) :
    Known (circuitOf true f) ↔ ∀ L ∈ f.tail, ∀ l ∈ L, KnownType (gateOf true l) := by
  have hd := circuitOf_depth true hne
  constructor
  · intro h L hL l hl
    obtain ⟨i, hi, rfl⟩ := List.mem_iff_getElem.1 hL
    have hi' : i + 1 < f.length := by simp at hi; omega
    have he : f.tail[i] = f[i + 1] := by simp
    refine h (i + 1) (by omega) _ ?_
    rw [circuitOf_layer_succ true f i hi']
    simp only [layerOf]
    apply List.mem_append_left
    exact List.mem_map.2 ⟨l, by rw [← he]; exact hl, rfl⟩
  · intro h i hi x hx
    cases i with
    | zero =>
      cases f with
      | nil => exact absurd rfl hne
      | cons L f =>
        obtain ⟨gs, h1, -, h3⟩ := relayLayer_gates L.length
        rw [Nat.zero_add, circuitOf_layer_one, h1] at hx
        obtain ⟨g, -, rfl⟩ := h3 x (by simpa using hx)
        exact Or.inl ⟨by norm_num, by norm_num⟩
    | succ i =>
      have hi' : i + 1 < f.length := by omega
      rw [circuitOf_layer_succ true f i hi'] at hx
      obtain ⟨gs, h1, -, h3⟩ := layerOf_gates true f[i + 1]
      rw [h1] at hx
      rcases h3 x (by simpa using hx) with ⟨l, hl, rfl⟩ | rfl
      · refine h f[i + 1] ?_ l hl
        rw [List.mem_iff_getElem]
        exact ⟨i, by simp; omega, by simp⟩
      · exact Or.inl ⟨by norm_num, by norm_num⟩

/-! ### the value of an input -/

theorem evalLayer_inv {L : Layer} {f : Gate → Outcome F} {vals : List F}
    (h : evalLayer L f = .ok vals) : vals.length = 2 ^ L.bitLength ∧
      ∀ j (hj : j < vals.length), ∃ g, L.gates[j]? = some (some g) ∧ f g = .ok vals[j] := by
  unfold evalLayer at h
  refine loopM_eq_ok h (fun k (vals : List F) => vals.length = k ∧
      ∀ j (hj : j < vals.length), ∃ g, L.gates[j]? = some (some g) ∧ f g = .ok vals[j])
    ⟨rfl, by simp⟩ ?_
  rintro i hi vals s' ⟨h1, h2⟩ h
  obtain ⟨g, e1, h⟩ := Outcome.bind_eq_ok' h
  obtain ⟨x, e2, h⟩ := Outcome.bind_eq_ok' h
  cases h
  refine ⟨by simp [h1], fun j hj => ?_⟩
  by_cases hj' : j < vals.length
  · obtain ⟨g, a, b⟩ := h2 j hj'
    exact ⟨g, a, by rw [b, List.getElem_append_left hj']⟩
  · have : j = vals.length := by simp at hj; omega
    subst this
    refine ⟨g, ?_, by rw [e2, List.getElem_append_right le_rfl]; simp⟩
    rw [h1]
    have := Outcome.read_ok_iff.1 e1
    cases hc : L.gates[i]? with
    | none => rw [hc] at this; simp at this
    | some y => rw [hc] at this; simp at this; rw [this]

theorem evaluate_input {var : Variant} {C : Circuit} {vals : List (List F)}
    (h : evaluate var C = .ok vals) {g : ℕ} {x : Gate} (hg : g < 2 ^ C.bl 0)
    (hx : (C.layer 0).gates[g]? = some (some x)) :
    (vals[0]?.getD [])[g]? = some (ofCInt x.u) := by
  unfold evaluate at h
  obtain ⟨L0, e0, h⟩ := Outcome.bind_eq_ok' h
  obtain ⟨v0, e1, h⟩ := Outcome.bind_eq_ok' h
  obtain ⟨_, -, h⟩ := Outcome.bind_eq_ok' h
  have hL : C.layer 0 = L0 := by
    have := Outcome.read_ok_iff.1 e0
    rw [Circuit.layer, this]; rfl
  obtain ⟨l1, l2⟩ := evalLayer_inv e1
  have hhead : vals[0]? = some v0 := by
    refine loopM_eq_ok h (fun _ (s : List (List F)) => s[0]? = some v0) rfl ?_
    intro i _ s s' hs h
    obtain ⟨L, -, h⟩ := Outcome.bind_eq_ok' h
    obtain ⟨p, -, h⟩ := Outcome.bind_eq_ok' h
    obtain ⟨v, -, h⟩ := Outcome.bind_eq_ok' h
    cases h
    cases s with
    | nil => simp at hs
    | cons a s => simpa using hs
  rw [hhead]
  simp only [Option.getD_some]
  have hlt : g < v0.length := by
    rw [l1, ← hL]; exact hg
  obtain ⟨x', a, b⟩ := l2 g hlt
  rw [hL] at hx
  rw [hx] at a
  cases a
  obtain ⟨_, -, b⟩ := Outcome.bind_eq_ok' b
  rw [List.getElem?_eq_getElem hlt]
  exact congrArg some (Outcome.ok.inj b).symm

end Libra.Reader
