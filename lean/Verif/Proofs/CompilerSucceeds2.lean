import Verif.Proofs.CompilerSucceeds

/-!
# The circuit compiler: the assertions about relays hold
-/

namespace Libra.Compiler
open Libra Spec

/-- every relay is one level above its operand, and below `D` -/
def Stepped (D : ℕ) (s : Dag × ℕ) : Prop :=
  ∀ j < s.2, (s.1.node (R j)).lvl = (s.1.node (s.1.node (R j)).input0).lvl + 1 ∧ (s.1.node (R j)).lvl < D

theorem chain_levels (d : Dag) (c m n : ℕ) :
    ∃ d' pre, loop n (fun j (t : Dag × ℕ × Id) =>
      (t.1.set (R t.2.1) { ty := 10, id := R t.2.1, lvl := (d.node (V m)).lvl + 1 + j, input0 := t.2.2, input1 := N },
        t.2.1 + 1, R t.2.1)) (d, c, V m) = (d', c + n, pre) ∧
      (∀ x, (∀ j, c ≤ j → x ≠ R j) → d'.node x = d.node x) ∧
      (d'.node pre).lvl = (d.node (V m)).lvl + n ∧
      (∀ j, c ≤ j → j < c + n → (d'.node (R j)).lvl = (d'.node (d'.node (R j)).input0).lvl + 1 ∧
        (d'.node (R j)).lvl ≤ (d.node (V m)).lvl + n ∧ ∀ j', (d'.node (R j)).input0 = R j' → j' < j) ∧
      (pre = V m ∨ ∃ j, c ≤ j ∧ j < c + n ∧ pre = R j) := by
  induction n with
  | zero => exact ⟨d, V m, rfl, fun _ _ => rfl, rfl, fun j h1 h2 => absurd h2 (by omega), .inl rfl⟩
  | succ n ih =>
    obtain ⟨d', pre, e, h1, h2, h3, h4⟩ := ih
    have hpre : ∀ j, pre = R j → j < c + n := by
      intro j hj
      rcases h4 with rfl | ⟨j', -, hlt, rfl⟩
      · exact absurd hj.symm (R_ne_V _ _)
      · rw [R_inj] at hj; omega
    have hne : pre ≠ R (c + n) := fun e => absurd (hpre _ e) (by omega)
    refine ⟨_, R (c + n), by rw [loop, e]; rfl, fun x hx => ?_, ?_, fun j hj1 hj2 => ?_, .inr ⟨c + n, by omega, by omega, rfl⟩⟩
    · dsimp only
      rw [set_node_ne (hx _ (by omega))]
      exact h1 x hx
    · dsimp only
      rw [set_node_self]
      dsimp only
      omega
    · dsimp only
      by_cases ej : j = c + n
      · subst ej
        rw [set_node_self]
        dsimp only
        rw [set_node_ne hne, h2]
        exact ⟨by omega, by omega, fun j' hj' => hpre j' hj'⟩
      · obtain ⟨a1, a2, a3⟩ := h3 j hj1 (by omega)
        rw [set_node_ne (show R j ≠ R (c + n) by rw [Ne, R_inj]; exact ej)]
        rw [set_node_ne (show (d'.node (R j)).input0 ≠ R (c + n) from fun e => absurd (a3 _ e) (by omega))]
        exact ⟨a1, by omega, a3⟩

/-- what `add_relay` does to the levels -/
structure Adds (copy : Dag) (k : Id) (left : Bool) (s s' : Dag × ℕ) : Prop where
  count : s.2 ≤ s'.2
  same : ∀ x, x ≠ k → (∀ j, s.2 ≤ j → x ≠ R j) → s'.1.node x = s.1.node x
  lvl : (s'.1.node k).lvl = (s.1.node k).lvl
  other : if left then (s'.1.node k).input1 = (s.1.node k).input1 else (s'.1.node k).input0 = (s.1.node k).input0
  stepped : ∀ D, (copy.node k).lvl ≤ D → Stepped D s → Stepped D s'
  operand : (s'.1.node (if left then (s'.1.node k).input0 else (s'.1.node k).input1)).lvl + 1 = (copy.node k).lvl

theorem Relayed.not_new {copy : Dag} {src : Id → Id} {s : Dag × ℕ} (h : Relayed copy src s) (hc : Plain copy) {x : Id}
    (hx : x ∈ s.1.keys) : ∀ j, s.2 ≤ j → x ≠ R j := by
  rintro j hj rfl
  rcases (h.keys _).1 hx with h' | ⟨j', hj', e⟩
  · obtain ⟨n, e⟩ := hc.vars _ h'
    exact R_ne_V _ _ e
  · rw [R_inj] at e; omega

theorem addRelay_adds {copy : Dag} (hc : Plain copy) {src : Id → Id} {s : Dag × ℕ}
    (h : Relayed copy src s) {k : Id} (hk : k ∈ copy.keys) {m : ℕ} (hm : V m ∈ copy.keys) (left : Bool)
    (hin : (if left then (copy.node k).input0 else (copy.node k).input1) = V m)
    (hlv : (copy.node (V m)).lvl + 1 ≤ (copy.node k).lvl) :
    Adds copy k left s (addRelay copy k (V m) left s) := by
  obtain ⟨d, c⟩ := s
  have hkd : k ∈ d.keys := (h.keys k).2 (.inl hk)
  have hmd : V m ∈ d.keys := (h.keys _).2 (.inl hm)
  have lm : (d.node (V m)).lvl = (copy.node (V m)).lvl := (h.gates _ hm).2.1
  unfold Compiler.addRelay
  dsimp only
  by_cases hl : (copy.node k).lvl = (copy.node (V m)).lvl + 1
  · rw [if_pos hl]
    refine ⟨le_rfl, fun _ _ _ => rfl, rfl, by cases left <;> simp, fun _ _ h => h, ?_⟩
    cases left with
    | true =>
      simp only [if_true] at hin ⊢
      have := h.exact0 k hk (.inr (.inr (.inr (by rw [hin]; exact hl))))
      dsimp only at this
      rw [this, hin, lm, hl]
    | false =>
      simp only [Bool.false_eq_true, if_false] at hin ⊢
      have := h.exact1 k hk (.inr (.inr (.inr (.inr (.inr (by rw [hin]; exact hl))))))
      dsimp only at this
      rw [this, hin, lm, hl]
  · rw [if_neg hl, hc.ids (V m) hm, hc.ids k hk]
    obtain ⟨d', pre, e, h1, h2, h3, h4⟩ := chain_levels d c m ((copy.node k).lvl - ((copy.node (V m)).lvl + 1))
    rw [lm] at e h2 h3
    rw [e]
    dsimp only
    have hkR : ∀ j, k ≠ R j := by
      rintro j rfl
      obtain ⟨n, e⟩ := hc.vars _ hk
      exact R_ne_V j n e
    have hdk : d'.node k = d.node k := h1 k fun j _ => hkR j
    have lk : (d.node k).lvl = (copy.node k).lvl := (h.gates k hk).2.1
    -- levels of nodes are not changed by the last assignment
    have hset : ∀ x g, g.lvl = (d'.node k).lvl → ((d'.set k g).node x).lvl = (d'.node x).lvl := by
      intro x g hg
      by_cases ex : x = k
      · subst ex; rw [set_node_self, hg]
      · rw [set_node_ne ex]
    have hold : ∀ x ∈ d.keys, d'.node x = d.node x := fun x hx => h1 x (h.not_new hc hx)
    refine ⟨by dsimp only; omega, fun x hx hxj => ?_, ?_, ?_, fun D hD hs j hj => ?_, ?_⟩
    · dsimp only
      rw [set_node_ne hx]
      exact h1 x hxj
    · dsimp only
      rw [set_node_self]
      cases left <;> simp [hdk]
    · dsimp only
      rw [set_node_self]
      cases left <;> simp [hdk]
    · dsimp only at hj ⊢
      have hjk : R j ≠ k := (hkR j).symm
      rw [set_node_ne hjk, hset _ _ (by cases left <;> rfl)]
      rcases Nat.lt_or_ge j c with hjc | hjc
      · have hRj : R j ∈ d.keys := (h.keys _).2 (.inr ⟨j, hjc, rfl⟩)
        have h10 : (d.node (R j)).ty = 10 := (h.relays j hjc).1
        rw [hold _ hRj, hold _ (h.closed0 _ hRj (by dsimp only; rw [h10]; decide))]
        exact hs j hjc
      · obtain ⟨a1, a2, -⟩ := h3 j hjc hj
        exact ⟨a1, by omega⟩
    · dsimp only
      rw [set_node_self, hset _ _ (by cases left <;> rfl)]
      cases left with
      | true => simp only [if_true]; rw [h2]; omega
      | false => simp only [Bool.false_eq_true, if_false]; rw [h2]; omega

/-- the levels of the operands of `k` are right -/
def Placed (d : Dag) (k : Id) : Prop :=
  ((d.node (d.node k).input0).lvl + 1 = (d.node k).lvl ∨ (d.node k).ty = 3) ∧
    ((d.node (d.node k).input1).lvl + 1 = (d.node k).lvl ∨ (d.node k).ty = 10 ∨ (d.node k).ty = 6 ∨ (d.node k).ty = 3)

/-- the levels of a graph without relays -/
structure LevelsOk (copy : Dag) (D : ℕ) : Prop where
  low : ∀ k ∈ copy.keys, (copy.node k).lvl < D
  inputs : ∀ k ∈ copy.keys, (copy.node k).ty = 3 → (copy.node k).lvl = 0
  above : ∀ k ∈ copy.keys, (copy.node k).ty ≠ 3 → (copy.node (copy.node k).input0).lvl + 1 ≤ (copy.node k).lvl ∧
    (copy.node (copy.node k).input1).lvl + 1 ≤ (copy.node k).lvl
  sums : ∀ k ∈ copy.keys, (copy.node k).ty = 5 ∨ (copy.node k).ty = 12 → (copy.node k).input0.2 ≤ (copy.node k).input1.2 ∧
    ∀ i, i < (copy.node k).input1.2 + 1 - (copy.node k).input0.2 →
      (copy.node k).lvl = (copy.node (V ((copy.node k).input0.2 + i))).lvl + 1
  bits : ∀ k ∈ copy.keys, (copy.node k).ty = 13 → (copy.node k).input0 = (copy.node k).input1 ∧
    (copy.node (copy.node k).input1).lvl + 1 = (copy.node k).lvl
  kinds : ∀ k ∈ copy.keys, (copy.node k).ty ∈ [0, 1, 3, 5, 6, 7, 8, 9, 12, 13]

theorem assert_true {b : Bool} (h : b = true) : Outcome.assert b = .ok () := by rw [Outcome.assert, if_pos h]

theorem sum_checks {copy : Dag} {g : DagGate} {n : ℕ} (h : ∀ i < n, g.lvl = (copy.node (V (g.input0.2 + i))).lvl + 1)
    (s : Dag × ℕ) : loopM n (fun i s => do
        Outcome.assert (g.lvl == (copy.node (V (g.input0.2 + i))).lvl + 1)
        return s) s = .ok s := by
  induction n with
  | zero => rfl
  | succ n ih =>
    rw [loopM, ih fun i hi => h i (by omega)]
    show (Outcome.assert (g.lvl == (copy.node (V (g.input0.2 + n))).lvl + 1)).bind _ = _
    rw [assert_true (by rw [h n (by omega)]; simp)]
    rfl

theorem relayGate_succeeds {copy : Dag} (hc : Plain copy) {D : ℕ} (hl : LevelsOk copy D) {src : Id → Id} {s : Dag × ℕ}
    (h : Relayed copy src s) (hs : Stepped D s) {k : Id} (hk : k ∈ copy.keys) :
    ∃ s', relayGate copy s k = .ok s' ∧ s.2 ≤ s'.2 ∧
      (∀ x, x ≠ k → (∀ j, s.2 ≤ j → x ≠ R j) → s'.1.node x = s.1.node x) ∧ (s'.1.node k).lvl = (s.1.node k).lvl ∧
      Stepped D s' ∧ Placed s'.1 k := by
  have hkk := hl.kinds k hk
  have hlow := (hl.low k hk).le
  have nonew : ∀ {src s} (h : Relayed copy src s), ∀ {x : Id}, x ∈ s.1.keys → ∀ j, s.2 ≤ j → x ≠ R j := fun h _ hx =>
    h.not_new hc hx
  -- an operand that is exactly one level below keeps its place
  unfold relayGate
  dsimp only
  by_cases h1 : (copy.node k).ty = 0 ∨ (copy.node k).ty = 1 ∨ (copy.node k).ty = 7 ∨ (copy.node k).ty = 8 ∨ (copy.node k).ty = 9
  · rw [if_pos h1]
    have hne : (copy.node k).ty ≠ 5 ∧ (copy.node k).ty ≠ 12 ∧ (copy.node k).ty ≠ 3 := by omega
    obtain ⟨⟨m, e, hm⟩, m', e', hm'⟩ := hc.operands k hk hne.2.2
    obtain ⟨l0, l1⟩ := hl.above k hk hne.2.2
    rw [e] at l0
    rw [e'] at l1
    obtain ⟨src', h'⟩ := h.addRelay hc hk hm true (by simpa using e) hne (by simp)
    obtain ⟨src'', h''⟩ := h'.addRelay hc hk hm' false (by simpa using e') hne (by intro; omega)
    have A := addRelay_adds hc h hk hm true (by simpa using e) l0
    have B := addRelay_adds hc h' hk hm' false (by simpa using e') l1
    rw [e, e']
    refine ⟨_, rfl, A.count.trans B.count, fun x hx hj => ?_, B.lvl.trans A.lvl, B.stepped D hlow (A.stepped D hlow hs), ?_, ?_⟩
    · rw [B.same x hx fun j hj' => hj j (A.count.trans hj'), A.same x hx hj]
    · left
      have lk : ((addRelay copy k (V m') false (addRelay copy k (V m) true s)).1.node k).lvl = (copy.node k).lvl :=
        (h''.gates k hk).2.1
      have o := B.other
      simp only [Bool.false_eq_true, if_false] at o
      rw [o, lk, ← A.operand, if_pos rfl]
      have hk1 : k ∈ (addRelay copy k (V m) true s).1.keys := (h'.keys k).2 (.inl hk)
      have hx := h'.closed0 k hk1 (by rw [(h'.gates k hk).1]; exact hne.2.2)
      by_cases ex : ((addRelay copy k (V m) true s).1.node k).input0 = k
      · rw [ex, B.lvl]
      · rw [B.same _ ex (nonew h' hx)]
    · left
      have o := B.operand
      simp only [Bool.false_eq_true, if_false] at o
      rw [o, (h''.gates k hk).2.1]
  rw [if_neg h1]
  by_cases h2 : (copy.node k).ty = 3
  · rw [if_pos h2]
    have hty := (h.gates k hk).1
    refine ⟨s, ?_, le_rfl, fun _ _ _ => rfl, rfl, hs, .inr (hty.trans h2), .inr (.inr (.inr (hty.trans h2)))⟩
    rw [assert_true (by rw [hl.inputs k hk h2]; rfl)]
    rfl
  rw [if_neg h2]
  by_cases h3 : (copy.node k).ty = 6
  · rw [if_pos h3]
    have hne : (copy.node k).ty ≠ 5 ∧ (copy.node k).ty ≠ 12 ∧ (copy.node k).ty ≠ 3 := by omega
    obtain ⟨⟨m, e, hm⟩, -⟩ := hc.operands k hk hne.2.2
    obtain ⟨l0, -⟩ := hl.above k hk hne.2.2
    rw [e] at l0
    obtain ⟨src', h'⟩ := h.addRelay hc hk hm true (by simpa using e) hne (by simp)
    have A := addRelay_adds hc h hk hm true (by simpa using e) l0
    rw [e]
    refine ⟨_, rfl, A.count, A.same, A.lvl, A.stepped D hlow hs, .inl ?_, .inr (.inr (.inl ((h'.gates k hk).1.trans h3)))⟩
    have o := A.operand
    rw [if_pos rfl] at o
    rw [o, (h'.gates k hk).2.1]
  rw [if_neg h3]
  by_cases h4 : (copy.node k).ty = 5 ∨ (copy.node k).ty = 12
  · rw [if_pos h4]
    have hne : (copy.node k).ty ≠ 3 := by omega
    obtain ⟨hab, hsum⟩ := hl.sums k hk h4
    obtain ⟨⟨a, ea, ha⟩, b, eb, hb⟩ := hc.operands k hk hne
    refine ⟨s, sum_checks hsum s, le_rfl, fun _ _ _ => rfl, rfl, hs, .inl ?_, .inl ?_⟩
    · rw [h.exact0 k hk (by tauto), (h.gates k hk).2.1]
      have := hsum 0 (by omega)
      rw [ea] at this ⊢
      rw [(h.gates _ ha).2.1, this]
      rfl
    · rw [h.exact1 k hk (by tauto), (h.gates k hk).2.1]
      have := hsum ((copy.node k).input1.2 - (copy.node k).input0.2) (by omega)
      rw [Nat.add_sub_cancel' hab] at this
      rw [eb] at this ⊢
      rw [(h.gates _ hb).2.1, this]
      rfl
  rw [if_neg h4]
  have h5 : (copy.node k).ty = 13 := by
    simp only [List.mem_cons, List.not_mem_nil, or_false] at hkk
    omega
  rw [if_pos h5]
  have hne : (copy.node k).ty ≠ 5 ∧ (copy.node k).ty ≠ 12 ∧ (copy.node k).ty ≠ 3 := by omega
  obtain ⟨hsame, hlv⟩ := hl.bits k hk h5
  obtain ⟨-, m, e, hm⟩ := hc.operands k hk hne.2.2
  have hno : addRelay copy k (copy.node k).input0 true s = s := by
    unfold addRelay
    dsimp only
    rw [if_pos (by rw [hsame, ← hlv])]
  refine ⟨s, ?_, le_rfl, fun _ _ _ => rfl, rfl, hs, .inl ?_, .inl ?_⟩
  · rw [assert_true (by simpa using hsame)]
    show Outcome.ok _ = _
    rw [hno]
  · rw [h.exact0 k hk (.inr (.inr (.inr (by rw [hsame, hlv])))), (h.gates k hk).2.1, hsame]
    rw [e] at hlv ⊢
    rw [(h.gates _ hm).2.1, hlv]
  · rw [h.exact1 k hk (by tauto), (h.gates k hk).2.1]
    rw [e] at hlv ⊢
    rw [(h.gates _ hm).2.1, hlv]

theorem Relayed.placed_mono {copy : Dag} (hc : Plain copy) {src : Id → Id} {s s' : Dag × ℕ} (h : Relayed copy src s)
    {k x : Id} (hx : x ∈ s.1.keys) (hxk : x ≠ k)
    (hsame : ∀ x, x ≠ k → (∀ j, s.2 ≤ j → x ≠ R j) → s'.1.node x = s.1.node x) (hlvl : (s'.1.node k).lvl = (s.1.node k).lvl)
    (hp : Placed s.1 x) : Placed s'.1 x := by
  have hl : ∀ y ∈ s.1.keys, (s'.1.node y).lvl = (s.1.node y).lvl := by
    intro y hy
    by_cases e : y = k
    · subst e; exact hlvl
    · rw [hsame y e (h.not_new hc hy)]
  unfold Placed at hp ⊢
  rw [hsame x hxk (h.not_new hc hx)]
  by_cases h3 : (s.1.node x).ty = 3
  · exact ⟨.inr h3, .inr (.inr (.inr h3))⟩
  · rw [hl _ (h.closed0 x hx h3)]
    refine ⟨hp.1, ?_⟩
    by_cases h10 : (s.1.node x).ty = 10
    · exact .inr (.inl h10)
    · rw [hl _ (h.closed1 x hx h3 h10)]
      exact hp.2

/-- the relays are added, and all operands are one level below -/
theorem relayAll_succeeds {copy : Dag} (hc : Plain copy) {D : ℕ} (hl : LevelsOk copy D) :
    ∃ s, copy.keys.foldlM (relayGate copy) (copy, 0) = .ok s ∧ ∀ k ∈ s.1.keys, Placed s.1 k ∧ (s.1.node k).lvl < D := by
  have main : ∀ (l done : List Id) (src : Id → Id) (s : Dag × ℕ), done ++ l = copy.keys → Relayed copy src s → Stepped D s →
      (∀ k ∈ done, Placed s.1 k) → ∃ s' src', l.foldlM (relayGate copy) s = .ok s' ∧ Relayed copy src' s' ∧ Stepped D s' ∧
        ∀ k ∈ copy.keys, Placed s'.1 k := by
    intro l
    induction l with
    | nil =>
      intro done src s e h hs hd
      rw [List.append_nil] at e
      subst e
      exact ⟨s, src, rfl, h, hs, hd⟩
    | cons k l ih =>
      intro done src s e h hs hd
      have hk : k ∈ copy.keys := by rw [← e]; simp
      obtain ⟨s', e', h1, h2, h3, h4, h5⟩ := relayGate_succeeds hc hl h hs hk
      obtain ⟨⟨src', h'⟩, -⟩ := relayGate_ok hc h hk e'
      obtain ⟨s'', src'', e'', r⟩ := ih (done ++ [k]) src' s' (by rw [← e]; simp) h' h4 (fun x hx => by
        rcases List.mem_append.1 hx with hx | hx
        · refine h.placed_mono hc (k := k) ((h.keys x).2 (.inl (by rw [← e]; simp [hx]))) ?_ h2 h3 (hd x hx)
          intro exk
          have hn := hc.sorted.nodup
          rw [← e, List.nodup_append] at hn
          exact hn.2.2 x hx k (by simp) exk
        · rw [List.mem_singleton] at hx
          subst hx
          exact h5)
      exact ⟨s'', src'', by rw [List.foldlM_cons, e', Outcome.ok_bind, e''], r⟩
  obtain ⟨s, src, e, h, hs, hp⟩ := main copy.keys [] id (copy, 0) rfl hc.relayed (by intro j hj; exact absurd hj (by simp)) (by simp)
  refine ⟨s, e, fun k hk => ?_⟩
  rcases (h.keys k).1 hk with hk | ⟨j, hj, rfl⟩
  · exact ⟨hp k hk, by rw [(h.gates k hk).2.1]; exact hl.low k hk⟩
  · obtain ⟨a1, a2⟩ := hs j hj
    exact ⟨⟨.inl a1.symm, .inr (.inl (h.relays j hj).1)⟩, a2⟩

end Libra.Compiler
