import Verif.Proofs.OldCompilerSort

/-!
# The older circuit compilers: relays
-/

namespace Libra.OldCompiler
open Spec Compiler

/-- the zero of level `l` -/
def zeroNode (l : ℕ) : Node :=
  if l = 0 then ⟨3, -10, 0, 0⟩ else ⟨0, -10 - (l : ℤ), -10 - ((l : ℤ) - 1), -10 - ((l : ℤ) - 1)⟩

theorem zeroNode_id (l : ℕ) : (zeroNode l).id = -10 - (l : ℤ) := by
  unfold zeroNode
  split
  · next h => subst h; rfl
  · rfl

/-- the types of gates that occur -/
def TyOk (ty : ℤ) : Prop := ty = 0 ∨ ty = 1 ∨ ty = 3 ∨ ty = 6 ∨ ty = 7 ∨ ty = 8 ∨ ty = 9

/-- Gate `b` takes the value of gate number `y`, which is on a lower level and knows about it; if it is not the level below, the two
are still to be connected by relays: that will be done for output number `j` or later of gate `i`, or for a later gate. -/
def Ob (n0 i j : ℕ) (s : St) (b : ℕ) (y : ℤ) : Prop :=
  ∃ a < s.size, (s.node a).id = y ∧ s.lvl a < s.lvl b ∧ ∃ j', (s.outs a)[j']? = some (s.node b).id ∧
    (s.lvl b = s.lvl a + 1 ∨ i ≤ a ∧ a < n0 ∧ (a = i → j ≤ j'))

/-- the graph while relays are added -/
structure LInv (n1 D i j : ℕ) (s : St) (mx : ℤ) : Prop where
  size : n1 + D ≤ s.size
  addr : ∀ a < s.size, s.addr (s.node a).id = a
  bound : ∀ a < s.size, (s.node a).id < mx
  mx0 : 0 ≤ mx
  lvls : ∀ a < s.size, 0 ≤ s.lvl a ∧ s.lvl a < D
  zero : ∀ l < D, s.node (n1 + l) = zeroNode l ∧ s.lvl (n1 + l) = l
  ty : ∀ a < s.size, TyOk (s.node a).ty
  src : ∀ b < s.size, (s.node b).ty ≠ 3 → Ob (n1 + D) i j s b (s.node b).u ∧
    (Ob (n1 + D) i j s b (s.node b).v ∨ (s.node b).ty = 6 ∧ (s.node b).v = 0)
  out : ∀ a < s.size, ∀ x ∈ s.outs a, ∃ b < s.size, (s.node b).id = x ∧ (s.node b).ty ≠ 3
  zout : ∀ l < D, ∀ x ∈ s.outs (n1 + l), ∃ b < s.size, (s.node b).id = x ∧ s.lvl b = l + 1
  adj : ∀ a < s.size, ∀ (j' : ℕ), ∀ b < s.size, (s.outs a)[j']? = some (s.node b).id →
    s.lvl b = s.lvl a + 1 ∨ s.lvl a < s.lvl b ∧ i ≤ a ∧ a < n1 + D ∧ (a = i → j ≤ j')
  leaf : ∀ a < s.size, (s.node a).ty = 3 → s.lvl a = 0 ∧ (s.node a).v = 0 ∧ -2 ^ 63 ≤ (s.node a).u ∧ (s.node a).u < 2 ^ 63

theorem LInv.inj {n1 D i j : ℕ} {s : St} {mx : ℤ} (h : LInv n1 D i j s mx) {a b : ℕ} (ha : a < s.size) (hb : b < s.size)
    (e : (s.node a).id = (s.node b).id) : a = b := by
  rw [← h.addr a ha, e, h.addr b hb]

/-- the variable `x` of the wiring or the program has the value `val x` -/
def Sat1 {F : Type} [CommRing F] (val : ℤ → F) (g : Node) : Prop :=
  val g.id = if g.ty = 3 then ((readNumber g.u : ℤ) : F) else gateValue ⟨g.ty, g.u, g.v⟩ val

/-- all gates have the right values -/
def Sat {F : Type} [CommRing F] (val : ℤ → F) (s : St) : Prop := ∀ a < s.size, Sat1 val (s.node a)

theorem LInv.zero_val {n1 D i j : ℕ} {s : St} {mx : ℤ} (h : LInv n1 D i j s mx) {F : Type} [CommRing F] {val : ℤ → F}
    (hv : Sat val s) : ∀ l < D, val (-10 - (l : ℤ)) = 0 := by
  intro l
  induction l with
  | zero =>
    intro hl
    have := hv (n1 + 0) (by have := h.size; omega)
    rw [(h.zero 0 hl).1] at this
    simpa [Sat1, zeroNode, readNumber, inputNumber, int32] using this
  | succ l ih =>
    intro hl
    have := hv (n1 + (l + 1)) (by have := h.size; omega)
    rw [(h.zero (l + 1) hl).1] at this
    have e : (-10 - (((l + 1 : ℕ) : ℤ) - 1)) = -10 - (l : ℤ) := by push_cast; ring
    unfold Sat1 zeroNode at this
    rw [if_neg (by omega), e] at this
    simpa [gateValue, ih (by omega)] using this

/-! ### A chain of relays -/

/-- one relay -/
def chainStep (i j : ℕ) (s : St) (n : ℕ) (t : St × ℤ × ℤ) : St × ℤ × ℤ :=
  let l : ℤ := s.lvl i + 1 + n
  let x := t.2.1
  let z : ℤ := -10 - (l - 1)
  let s1 := if n = 0 then { t.1 with outs := Function.update t.1.outs i ((t.1.outs i).set j x) } else t.1.addOut t.2.2 x
  let s2 := s1.addOut z x
  (s2.push ⟨0, x, t.2.2, z⟩ l, x + 1, x)

theorem relayChain_eq (i j b : ℕ) (s : St) (m : ℤ) :
    relayChain i j b s m = loop (s.lvl b - (s.lvl i + 1)).toNat (chainStep i j s) (s, m, (s.node i).id) := rfl

/-- the number of the gate before the next relay -/
def preId (s : St) (mx : ℤ) (i n : ℕ) : ℤ := if n = 0 then (s.node i).id else mx + n - 1

/-- the index of the gate before the next relay -/
def preIx (s : St) (i n : ℕ) : ℕ := if n = 0 then i else s.size + n - 1

/-- as `Ob`, except for the connection from gate `i` to gate `b` -/
def Obx (n0 i j b : ℕ) (me : ℤ) (s : St) (b' : ℕ) (y : ℤ) : Prop := (b' = b ∧ y = me) ∨ Ob n0 i (j + 1) s b' y

/-- the graph with `n` relays above gate `i` for its output number `j`, which is gate `b` -/
structure CInv (n1 D i j b : ℕ) (s : St) (mx : ℤ) (n : ℕ) (t : St × ℤ × ℤ) : Prop where
  size : t.1.size = s.size + n
  next : t.2.1 = mx + n
  pre : t.2.2 = preId s mx i n
  start : n = 0 → t.1 = s
  node : ∀ a < s.size, t.1.node a = s.node a
  lvl : ∀ a < s.size, t.1.lvl a = s.lvl a
  relay : ∀ m < n, t.1.node (s.size + m) = ⟨0, mx + m, preId s mx i m, -10 - (s.lvl i + m)⟩ ∧ t.1.lvl (s.size + m) = s.lvl i + 1 + m
  addr : ∀ a < t.1.size, t.1.addr (t.1.node a).id = a
  src : ∀ b' < t.1.size, (t.1.node b').ty ≠ 3 → Obx (n1 + D) i j b (s.node i).id t.1 b' (t.1.node b').u ∧
    (Obx (n1 + D) i j b (s.node i).id t.1 b' (t.1.node b').v ∨ (t.1.node b').ty = 6 ∧ (t.1.node b').v = 0)
  out : ∀ a < t.1.size, ∀ x ∈ t.1.outs a, ∃ b < t.1.size, (t.1.node b).id = x ∧ (t.1.node b).ty ≠ 3
  zout : ∀ l < D, ∀ x ∈ t.1.outs (n1 + l), ∃ b < t.1.size, (t.1.node b).id = x ∧ t.1.lvl b = l + 1
  adj : ∀ a < t.1.size, ∀ (j' : ℕ), ∀ b < t.1.size, (t.1.outs a)[j']? = some (t.1.node b).id →
    (t.1.lvl b = t.1.lvl a + 1 ∨ t.1.lvl a < t.1.lvl b ∧ i ≤ a ∧ a < n1 + D ∧ (a = i → j + 1 ≤ j')) ∨ n = 0 ∧ a = i ∧ j' = j
  len : (t.1.outs i).length = (s.outs i).length

theorem chain_start {n1 D i j b : ℕ} {s : St} {mx : ℤ} (h : LInv n1 D i j s mx) (hb : b < s.size)
    (hj : (s.outs i)[j]? = some (s.node b).id) : CInv n1 D i j b s mx 0 (s, mx, (s.node i).id) := by
  refine ⟨rfl, by simp, rfl, fun _ => rfl, fun _ _ => rfl, fun _ _ => rfl, fun m (hm : m < 0) => absurd hm (by omega), h.addr, fun b' hb' hty => ?_,
    h.out, h.zout, fun a ha j' c hc hget => ?_, rfl⟩
  swap
  · by_cases hx : a = i ∧ j' = j
    · exact Or.inr ⟨rfl, hx⟩
    · refine Or.inl ((h.adj a ha j' c hc hget).imp_right (fun ⟨o, p, q, r⟩ => ⟨o, p, q, fun hai => ?_⟩))
      have := r hai
      have : j' ≠ j := fun e => hx ⟨hai, e⟩
      omega
  have key : ∀ y, Ob (n1 + D) i j s b' y → Obx (n1 + D) i j b (s.node i).id s b' y := by
    rintro y ⟨a, ha, e, hl, j', hj', hcase⟩
    by_cases hx : b' = b ∧ y = (s.node i).id
    · exact Or.inl hx
    · refine Or.inr ⟨a, ha, e, hl, j', hj', hcase.imp_right (fun ⟨p, q, r⟩ => ⟨p, q, fun hai => ?_⟩)⟩
      have h1 := r hai
      have : j' ≠ j := by
        rintro rfl
        subst hai
        rw [hj] at hj'
        exact hx ⟨h.inj hb' hb (Option.some.inj hj').symm, e.symm⟩
      omega
  exact ⟨key _ (h.src b' hb' hty).1, (h.src b' hb' hty).2.imp_left (key _)⟩

theorem getElem?_append_left' {α : Type} {l : List α} {r : List α} {k : ℕ} {y : α} (h : l[k]? = some y) : (l ++ r)[k]? = some y := by
  obtain ⟨hk, e⟩ := List.getElem?_eq_some_iff.1 h
  rw [List.getElem?_append_left hk, h]

theorem chain_step {n1 D i j b n : ℕ} {s : St} {mx : ℤ} {t : St × ℤ × ℤ} (h : LInv n1 D i j s mx) (hi : i < n1 + D) (hb : b < s.size)
    (hj : (s.outs i)[j]? = some (s.node b).id) (hc : CInv n1 D i j b s mx n t) (hn : s.lvl i + 1 + n < s.lvl b) :
    CInv n1 D i j b s mx (n + 1) (chainStep i j s n t) := by
  have hsz := h.size
  have his : i < s.size := by omega
  obtain ⟨hli0, hliD⟩ := h.lvls i his
  obtain ⟨hlb0, hlbD⟩ := h.lvls b hb
  -- the gates involved
  obtain ⟨li, hli⟩ : ∃ li : ℕ, s.lvl i = li := ⟨(s.lvl i).toNat, by omega⟩
  set za := n1 + (li + n) with hza
  have hzl : li + n < D := by omega
  have hzs : za < s.size := by omega
  have hzid : (s.node za).id = -10 - (s.lvl i + n) := by
    rw [(h.zero (li + n) hzl).1, zeroNode_id, hli]; push_cast; ring
  have hz : (-10 - (s.lvl i + 1 + (n : ℤ) - 1)) = -10 - (s.lvl i + n) := by ring
  have hzadr : t.1.addr (-10 - (s.lvl i + n)) = za := by
    rw [← hzid, ← hc.node za hzs]; exact hc.addr za (by rw [hc.size]; omega)
  have hplt : preIx s i n < t.1.size := by rw [hc.size, preIx]; split <;> omega
  have hpid : (t.1.node (preIx s i n)).id = preId s mx i n := by
    rw [preIx, preId]
    split
    · rw [hc.node i his]
    · have := (hc.relay (n - 1) (by omega)).1
      rw [show s.size + n - 1 = s.size + (n - 1) by omega, this]
      dsimp only
      omega
  have hplvl : t.1.lvl (preIx s i n) = s.lvl i + n := by
    rw [preIx]
    split
    · next h0 => subst h0; rw [hc.lvl i his]; simp
    · have := (hc.relay (n - 1) (by omega)).2
      rw [show s.size + n - 1 = s.size + (n - 1) by omega, this]
      omega
  have hpadr : t.1.addr (preId s mx i n) = preIx s i n := by rw [← hpid]; exact hc.addr _ hplt
  have hids : ∀ a < t.1.size, (t.1.node a).id < mx + n := by
    intro a ha
    by_cases ha' : a < s.size
    · rw [hc.node a ha']; have := h.bound a ha'; omega
    · rw [hc.size] at ha
      obtain ⟨m, rfl⟩ : ∃ m, a = s.size + m := ⟨a - s.size, by omega⟩
      rw [(hc.relay m (by omega)).1]
      dsimp only
      omega
  have hizero : ∀ l < D, i ≠ n1 + l := by
    intro l hl e
    obtain ⟨b', hb', e1, e2⟩ := h.zout l hl (s.node b).id (by rw [← e]; exact List.mem_of_getElem? hj)
    have e3 := h.inj hb' hb e1
    subst e3
    rw [e, (h.zero l hl).2] at hn
    omega
  have hzi : za ≠ i := fun e => hizero (li + n) hzl e.symm
  -- the new state
  set s1 : St := if n = 0 then { t.1 with outs := Function.update t.1.outs i ((t.1.outs i).set j (mx + n)) } else
    t.1.addOut (preId s mx i n) (mx + n) with hs1
  have s1size : s1.size = t.1.size := by rw [hs1]; split <;> rfl
  have s1node : s1.node = t.1.node := by rw [hs1]; split <;> rfl
  have s1lvl : s1.lvl = t.1.lvl := by rw [hs1]; split <;> rfl
  have s1addr : ∀ x, s1.addr x = t.1.addr x := by
    intro x
    rw [hs1]
    split
    · rfl
    · exact addOut_addr _ _ _ _
  have s1outs : ∀ a, s1.outs a = if a = preIx s i n then (if n = 0 then (t.1.outs i).set j (mx + n) else t.1.outs a ++ [mx + n])
      else t.1.outs a := by
    intro a
    rw [hs1]
    split
    · next h0 =>
      rw [preIx, if_pos h0]
      dsimp only
      rw [Function.update_apply]
    · next h0 => rw [addOut_outs, hpadr]
  set s3 := (s1.addOut (-10 - (s.lvl i + n)) (mx + n)).push ⟨0, mx + n, preId s mx i n, -10 - (s.lvl i + n)⟩ (s.lvl i + 1 + n) with hs3
  have hstep : chainStep i j s n t = (s3, mx + n + 1, mx + n) := by
    unfold chainStep
    dsimp only
    rw [hz, hc.next, hc.pre]
  have s3size : s3.size = t.1.size + 1 := by rw [hs3, push_size, addOut_size, s1size]
  have s3node : ∀ a < t.1.size, s3.node a = t.1.node a := by
    intro a ha
    rw [hs3, push_node, addOut_size, s1size, if_neg (by omega), addOut_node, s1node]
  have s3new : s3.node t.1.size = ⟨0, mx + n, preId s mx i n, -10 - (s.lvl i + n)⟩ := by
    rw [hs3, push_node, addOut_size, s1size, if_pos rfl]
  have s3lvl : ∀ a < t.1.size, s3.lvl a = t.1.lvl a := by
    intro a ha
    rw [hs3, push_lvl, addOut_size, s1size, if_neg (by omega), addOut_lvl, s1lvl]
  have s3lvlnew : s3.lvl t.1.size = s.lvl i + 1 + n := by
    rw [hs3, push_lvl, addOut_size, s1size, if_pos rfl]
  have s3addr : ∀ x, s3.addr x = if x = mx + n then t.1.size else t.1.addr x := by
    intro x
    rw [hs3, push_addr, addOut_size, s1size, addOut_addr, s1addr]
  have s3outs : ∀ a < t.1.size, s3.outs a = if a = za then s1.outs a ++ [mx + n] else s1.outs a := by
    intro a ha
    rw [hs3, push_outs, addOut_size, s1size, if_neg (by omega), addOut_outs, s1addr, hzadr]
  have s3outsnew : s3.outs t.1.size = [] := by
    rw [hs3, push_outs, addOut_size, s1size, if_pos rfl]
  have K1 : ∀ a < t.1.size, ∀ (j' : ℕ) (y : ℤ), (t.1.outs a)[j']? = some y → ¬ (n = 0 ∧ a = i ∧ j' = j) → (s3.outs a)[j']? = some y := by
    intro a ha j' y hy hne
    have : (s1.outs a)[j']? = some y := by
      rw [s1outs]
      by_cases h1 : a = preIx s i n
      · rw [if_pos h1]
        by_cases h0 : n = 0
        · rw [if_pos h0]
          rw [preIx, if_pos h0] at h1
          subst h1
          rw [List.getElem?_set_ne (fun e => hne ⟨h0, rfl, e.symm⟩)]
          exact hy
        · rw [if_neg h0]; exact getElem?_append_left' hy
      · rw [if_neg h1]; exact hy
    rw [s3outs a ha]
    split
    · exact getElem?_append_left' this
    · exact this
  have hjlen : j < (s.outs i).length := (List.getElem?_eq_some_iff.1 hj).1
  have K2 : ∃ j' : ℕ, (s3.outs (preIx s i n))[j']? = some (mx + n) := by
    have h1 : ∃ j' : ℕ, (s1.outs (preIx s i n))[j']? = some (mx + n) := by
      rw [s1outs, if_pos rfl]
      by_cases h0 : n = 0
      · rw [if_pos h0]
        exact ⟨j, List.getElem?_set_self (by rw [hc.len]; exact hjlen)⟩
      · rw [if_neg h0]
        exact ⟨(t.1.outs (preIx s i n)).length, by simp⟩
    obtain ⟨j', hj'⟩ := h1
    refine ⟨j', ?_⟩
    rw [s3outs _ hplt]
    split
    · exact getElem?_append_left' hj'
    · exact hj'
  have hzt : za < t.1.size := by rw [hc.size]; omega
  have K3 : ∃ j' : ℕ, (s3.outs za)[j']? = some (mx + n) := by
    rw [s3outs za hzt, if_pos rfl]
    exact ⟨(s1.outs za).length, by simp⟩
  have K4 : ∀ a < t.1.size, ∀ y ∈ s3.outs a, y ∈ t.1.outs a ∨ y = mx + n ∧ (a = preIx s i n ∨ a = za) := by
    intro a ha y hy
    have h1 : y ∈ s1.outs a → y ∈ t.1.outs a ∨ y = mx + n ∧ (a = preIx s i n ∨ a = za) := by
      intro hy
      rw [s1outs] at hy
      split at hy
      · next hp =>
        split at hy
        · next h0 =>
          rcases List.mem_or_eq_of_mem_set hy with hy | hy
          · refine Or.inl ?_
            rw [hp, preIx, if_pos h0]; exact hy
          · exact Or.inr ⟨hy, Or.inl hp⟩
        · rcases List.mem_append.1 hy with hy | hy
          · exact Or.inl hy
          · exact Or.inr ⟨List.mem_singleton.1 hy, Or.inl hp⟩
      · exact Or.inl hy
    rw [s3outs a ha] at hy
    split at hy
    · next hz' =>
      rcases List.mem_append.1 hy with hy | hy
      · exact h1 hy
      · exact Or.inr ⟨List.mem_singleton.1 hy, Or.inr hz'⟩
    · exact h1 hy
  have K5 : ∀ a < t.1.size, ∀ (j' : ℕ) (y : ℤ), (s3.outs a)[j']? = some y →
      ((t.1.outs a)[j']? = some y ∧ ¬ (n = 0 ∧ a = i ∧ j' = j)) ∨ y = mx + n ∧ (a = preIx s i n ∨ a = za) := by
    intro a ha j' y hy
    have happ : ∀ (l : List ℤ), (l ++ [mx + (n : ℤ)])[j']? = some y → l[j']? = some y ∨ y = mx + n := by
      intro l hl
      by_cases hlt : j' < l.length
      · rw [List.getElem?_append_left hlt] at hl; exact Or.inl hl
      · rw [List.getElem?_append_right (by omega)] at hl
        have := List.mem_of_getElem? hl
        exact Or.inr (List.mem_singleton.1 this)
    have h1 : (s1.outs a)[j']? = some y →
        ((t.1.outs a)[j']? = some y ∧ ¬ (n = 0 ∧ a = i ∧ j' = j)) ∨ y = mx + n ∧ (a = preIx s i n ∨ a = za) := by
      intro hy
      rw [s1outs] at hy
      split at hy
      · next hp =>
        split at hy
        · next h0 =>
          have hpi : a = i := by rw [hp, preIx, if_pos h0]
          by_cases hjj : j = j'
          · subst hjj
            have hm := List.mem_of_getElem? hy
            rw [List.getElem?_set_self (by rw [hc.len]; exact hjlen)] at hy
            exact Or.inr ⟨(Option.some.inj hy).symm, Or.inl hp⟩
          · rw [List.getElem?_set_ne hjj] at hy
            refine Or.inl ⟨by rw [hpi]; exact hy, fun hh => hjj hh.2.2.symm⟩
        · next h0 =>
          rcases happ _ hy with hy | hy
          · exact Or.inl ⟨hy, fun hh => h0 hh.1⟩
          · exact Or.inr ⟨hy, Or.inl hp⟩
      · next hp =>
        refine Or.inl ⟨hy, ?_⟩
        rintro ⟨h0, hai, -⟩
        exact hp (by rw [hai, preIx, if_pos h0])
    rw [s3outs a ha] at hy
    split at hy
    · next hz' =>
      rcases happ _ hy with hy | hy
      · exact h1 hy
      · exact Or.inr ⟨hy, Or.inr hz'⟩
    · exact h1 hy
  have hsz' : t.1.size = s.size + n := hc.size
  have cases : ∀ a, a < s3.size → a < t.1.size ∨ a = t.1.size := fun a ha => by rw [s3size] at ha; omega
  rw [hstep]
  refine ⟨?_, ?_, ?_, fun h0 => by omega, fun a ha => ?_, fun a ha => ?_, fun m hm => ?_, fun a ha => ?_, fun b' hb' hty => ?_,
    fun a ha x hx => ?_, fun l hl x hx => ?_, fun a ha j' c hcc hget => ?_, ?_⟩
  · dsimp only; rw [s3size, hsz']; omega
  · push_cast; ring
  · rw [preId, if_neg (by omega)]; push_cast; ring
  · dsimp only; rw [s3node a (by omega), hc.node a ha]
  · dsimp only; rw [s3lvl a (by omega), hc.lvl a ha]
  · dsimp only
    by_cases e : m = n
    · subst e; rw [← hsz', s3new, s3lvlnew]; exact ⟨rfl, rfl⟩
    · rw [s3node _ (by omega), s3lvl _ (by omega)]; exact hc.relay m (by omega)
  · dsimp only at ha ⊢
    rcases cases a ha with ha | rfl
    · rw [s3node a ha, s3addr, if_neg (by have := hids a ha; omega)]; exact hc.addr a ha
    · rw [s3new, s3addr, if_pos rfl]
  · dsimp only at hb' hty ⊢
    rcases cases b' hb' with hb'' | rfl
    · have hb' := hb''
      rw [s3node b' hb'] at hty ⊢
      have key : ∀ y, Obx (n1 + D) i j b (s.node i).id t.1 b' y → Obx (n1 + D) i j b (s.node i).id s3 b' y := by
        rintro y (hy | ⟨a, ha, e, hl, j', hj', hcase⟩)
        · exact Or.inl hy
        · by_cases hx : b' = b ∧ y = (s.node i).id
          · exact Or.inl hx
          · refine Or.inr ⟨a, by omega, by rw [s3node a ha]; exact e, by rw [s3lvl a ha, s3lvl b' hb']; exact hl, j', ?_, ?_⟩
            · rw [s3node b' hb']
              refine K1 a ha j' _ hj' ?_
              rintro ⟨h0, rfl, rfl⟩
              have ht := hc.start h0
              rw [ht, hj] at hj'
              have hbs : b' < s.size := by rw [← ht]; exact hb''
              refine hx ⟨h.inj hbs hb (Option.some.inj hj').symm, ?_⟩
              rw [← e, ht]
            · rw [s3lvl a ha, s3lvl b' hb']; exact hcase
      exact ⟨key _ (hc.src b' hb' hty).1, (hc.src b' hb' hty).2.imp_left (key _)⟩
    · rw [s3new] at hty ⊢
      obtain ⟨j1, hj1⟩ := K2
      obtain ⟨j2, hj2⟩ := K3
      refine ⟨Or.inr ⟨preIx s i n, by omega, by rw [s3node _ hplt]; exact hpid, ?_, j1, ?_, Or.inl ?_⟩,
        Or.inl (Or.inr ⟨za, by omega, ?_, ?_, j2, ?_, Or.inl ?_⟩)⟩
      · rw [s3lvl _ hplt, hplvl, s3lvlnew]; omega
      · rw [s3new]; exact hj1
      · rw [s3lvl _ hplt, hplvl, s3lvlnew]; omega
      · rw [s3node _ hzt, hc.node za hzs]; exact hzid
      · rw [s3lvl _ hzt, hc.lvl za hzs, (h.zero (li + n) hzl).2, s3lvlnew, hli]; push_cast; omega
      · rw [s3new]; exact hj2
      · rw [s3lvl _ hzt, hc.lvl za hzs, (h.zero (li + n) hzl).2, s3lvlnew, hli]; push_cast; omega
  · dsimp only at ha hx ⊢
    rcases cases a ha with ha | rfl
    · rcases K4 a ha x hx with hx | ⟨rfl, -⟩
      · obtain ⟨c, hc1, hc2⟩ := hc.out a ha x hx
        exact ⟨c, by omega, by rw [s3node c hc1]; exact hc2⟩
      · exact ⟨t.1.size, by omega, by rw [s3new]; exact ⟨rfl, by norm_num⟩⟩
    · rw [s3outsnew] at hx; exact absurd hx List.not_mem_nil
  · dsimp only at hx ⊢
    rcases K4 (n1 + l) (by omega) x hx with hx | ⟨rfl, hw⟩
    · obtain ⟨c, hc1, hc2⟩ := hc.zout l hl x hx
      exact ⟨c, by omega, by rw [s3node c hc1, s3lvl c hc1]; exact hc2⟩
    · have : n1 + l = za := by
        rcases hw with hx | hx
        · exfalso
          rw [preIx] at hx
          split at hx
          · exact hizero l hl hx.symm
          · omega
        · exact hx
      exact ⟨t.1.size, by omega, by rw [s3new], by rw [s3lvlnew, hli]; omega⟩
  · dsimp only at ha hcc hget ⊢
    rcases cases a ha with ha' | rfl
    · rcases cases c hcc with hc' | rfl
      · rw [s3node c hc'] at hget
        rw [s3lvl a ha', s3lvl c hc']
        rcases K5 a ha' j' _ hget with ⟨h1, h2⟩ | ⟨h1, -⟩
        · rcases hc.adj a ha' j' c hc' h1 with h3 | h3
          · exact Or.inl h3
          · exact absurd h3 h2
        · exact absurd h1 (by have := hids c hc'; omega)
      · rw [s3new] at hget
        rw [s3lvl a ha', s3lvlnew]
        rcases K5 a ha' j' _ hget with ⟨h1, -⟩ | ⟨-, h1⟩
        · exfalso
          obtain ⟨c, hc1, hc2, -⟩ := hc.out a ha' _ (List.mem_of_getElem? h1)
          have := hids c hc1
          dsimp only at hc2
          omega
        · refine Or.inl (Or.inl ?_)
          rcases h1 with rfl | rfl
          · rw [hplvl]; ring
          · rw [hc.lvl za hzs, (h.zero (li + n) hzl).2, hli]; push_cast; ring
    · rw [s3outsnew] at hget; simp at hget
  · dsimp only
    rw [s3outs i (by omega), if_neg (fun e => hzi e.symm), s1outs]
    split
    · next hp =>
      rw [if_pos (by by_contra h0; rw [preIx, if_neg h0] at hp; omega), List.length_set, hc.len]
    · exact hc.len

/-- the gate `b` is connected to the end of the chain -/
def connect (b : ℕ) (pre me : ℤ) (s : St) : St :=
  let s := if (s.node b).u = me then
      ({ s with node := Function.update s.node b { s.node b with u := pre } } : St).addOut pre (s.node b).id else s
  if (s.node b).v = me then
      ({ s with node := Function.update s.node b { s.node b with v := pre } } : St).addOut pre (s.node b).id else s

theorem relayOutput_eq (i j : ℕ) (s : St) (m : ℤ) : relayOutput i j (s, m) =
    let b := s.addr ((s.outs i).getD j 0)
    let r := relayChain i j b s m
    (if s.lvl i + 1 < s.lvl b then connect b r.2.2 (s.node i).id r.1 else r.1, r.2.1) := by
  unfold relayOutput connect
  dsimp only
  by_cases h : s.lvl i + 1 < s.lvl (s.addr ((s.outs i).getD j 0))
  · simp only [h, and_true, if_true]
  · simp only [h, and_false, if_false]

/-- the operands of gate `b` afterwards -/
def reconnect (pre me : ℤ) (g : Node) : Node :=
  { g with u := if g.u = me then pre else g.u, v := if g.v = me then pre else g.v }

theorem connect_spec (b : ℕ) (pre me : ℤ) (s : St) :
    (connect b pre me s).size = s.size ∧ (connect b pre me s).lvl = s.lvl ∧ (∀ x, (connect b pre me s).addr x = s.addr x) ∧
    (connect b pre me s).node = Function.update s.node b (reconnect pre me (s.node b)) ∧
    ∃ ex : List ℤ, (∀ x ∈ ex, x = (s.node b).id) ∧ ((s.node b).u = me ∨ (s.node b).v = me → (s.node b).id ∈ ex) ∧
      ∀ a, (connect b pre me s).outs a = if a = s.addr pre then s.outs a ++ ex else s.outs a := by
  have upd : ∀ g, ({ s with node := Function.update s.node b g } : St).addr pre = s.addr pre := fun _ => rfl
  unfold connect reconnect
  by_cases hu : (s.node b).u = me
  · have e : (({ s with node := Function.update s.node b { s.node b with u := pre } } : St).addOut pre (s.node b).id).node b =
        { s.node b with u := pre } := Function.update_self _ _ _
    simp only [if_pos hu, e]
    by_cases hv : (s.node b).v = me
    · rw [if_pos hv, if_pos hv]
      refine ⟨rfl, rfl, fun x => ?_, ?_, [(s.node b).id, (s.node b).id], by simp, fun _ => by simp, fun a => ?_⟩
      · rw [addOut_addr]; exact addOut_addr _ pre (s.node b).id x
      · rw [addOut_node]; dsimp only [addOut_node]; rw [Function.update_idem]
      · refine (addOut_outs _ _ _ _).trans ?_
        change (if a = (({ s with node := Function.update s.node b { s.node b with u := pre } } : St).addOut pre (s.node b).id).addr pre then
          (({ s with node := Function.update s.node b { s.node b with u := pre } } : St).addOut pre
          (s.node b).id).outs a ++ _ else (({ s with node := Function.update s.node b { s.node b with u := pre } } : St).addOut pre
          (s.node b).id).outs a) = _
        rw [addOut_addr, addOut_outs, upd]
        split <;> simp
    · rw [if_neg hv, if_neg hv]
      refine ⟨rfl, rfl, fun x => ?_, rfl, [(s.node b).id], by simp, fun _ => by simp, fun a => ?_⟩
      · exact addOut_addr _ _ _ _
      · rw [addOut_outs]; rfl
  · rw [if_neg hu, if_neg hu]
    by_cases hv : (s.node b).v = me
    · rw [if_pos hv, if_pos hv]
      refine ⟨rfl, rfl, fun x => ?_, rfl, [(s.node b).id], by simp, fun _ => by simp, fun a => ?_⟩
      · exact addOut_addr _ _ _ _
      · rw [addOut_outs]; rfl
    · rw [if_neg hv, if_neg hv]
      refine ⟨rfl, rfl, fun x => rfl, ?_, [], by simp, fun h => absurd h (by simp [hu, hv]), fun a => by simp⟩
      exact (Function.update_eq_self b s.node).symm

theorem gateValue_congr {F : Type} [CommRing F] {val : ℤ → F} {ty u v u' v' : ℤ} (ht : TyOk ty) (h3 : ty ≠ 3)
    (hu : val u' = val u) (hv : val v' = val v) : gateValue ⟨ty, u', v'⟩ val = gateValue ⟨ty, u, v⟩ val := by
  rcases ht with rfl | rfl | rfl | rfl | rfl | rfl | rfl <;> simp_all [gateValue]

/-- one output of a gate -/
theorem relayOutput_ok {n1 D i j : ℕ} {s : St} {mx : ℤ} (h : LInv n1 D i j s mx) (hi : i < n1 + D) (hj : j < (s.outs i).length) :
    LInv n1 D i (j + 1) (relayOutput i j (s, mx)).1 (relayOutput i j (s, mx)).2 ∧
    ((relayOutput i j (s, mx)).1.outs i).length = (s.outs i).length ∧
    s.size ≤ (relayOutput i j (s, mx)).1.size ∧
    (∀ a < s.size, ((relayOutput i j (s, mx)).1.node a).id = (s.node a).id) ∧
    ∀ (F : Type) [CommRing F] (val : ℤ → F), Sat val (relayOutput i j (s, mx)).1 → Sat val s := by
  have hsz := h.size
  have his : i < s.size := by omega
  have hget : (s.outs i).getD j 0 = (s.outs i)[j] := by simp [hj]
  obtain ⟨b, hb, hbid, hbty⟩ := h.out i his (s.outs i)[j] (List.getElem_mem _)
  have hjb : (s.outs i)[j]? = some (s.node b).id := by rw [List.getElem?_eq_getElem hj, hbid]
  have haddr : s.addr ((s.outs i).getD j 0) = b := by rw [hget, ← hbid, h.addr b hb]
  rw [relayOutput_eq]
  dsimp only
  rw [haddr]
  by_cases hneed : s.lvl i + 1 < s.lvl b
  · rw [if_pos hneed]
    obtain ⟨L, hL⟩ : ∃ L : ℕ, (s.lvl b - (s.lvl i + 1)).toNat = L := ⟨_, rfl⟩
    have hLpos : 0 < L := by omega
    have hLl : s.lvl i + 1 + L = s.lvl b := by omega
    have chain : ∀ n, n ≤ L → CInv n1 D i j b s mx n (loop n (chainStep i j s) (s, mx, (s.node i).id)) := by
      intro n
      induction n with
      | zero => exact fun _ => chain_start h hb hjb
      | succ n ih => exact fun hn => chain_step h hi hb hjb (ih (by omega)) (by omega)
    have hc := chain L le_rfl
    rw [relayChain_eq, hL]
    set t := loop L (chainStep i j s) (s, mx, (s.node i).id)
    obtain ⟨c1, c2, c3, c4, ex, c5, c6, c7⟩ := connect_spec b t.2.2 (s.node i).id t.1
    set r := connect b t.2.2 (s.node i).id t.1
    have hsize : t.1.size = s.size + L := hc.size
    -- the end of the chain
    have hpre : t.2.2 = mx + L - 1 := by rw [hc.pre, preId, if_neg (by omega)]
    set p := s.size + (L - 1) with hp
    obtain ⟨hpn, hpl⟩ := hc.relay (L - 1) (by omega)
    rw [← hp] at hpn hpl
    have hpid : (t.1.node p).id = t.2.2 := by rw [hpn, hpre]; dsimp only; omega
    have hpt : p < t.1.size := by omega
    have hpa : t.1.addr t.2.2 = p := by rw [← hpid]; exact hc.addr p hpt
    have hplvl : t.1.lvl p + 1 = s.lvl b := by rw [hpl]; omega
    have hpb : p ≠ b := by omega
    have hbt : b < t.1.size := by omega
    have tb : t.1.node b = s.node b := hc.node b hb
    have rnode : ∀ a, a ≠ b → r.node a = t.1.node a := fun a ha => by rw [c4, Function.update_of_ne ha]
    have rb : r.node b = reconnect t.2.2 (s.node i).id (s.node b) := by rw [c4, Function.update_self, tb]
    have rid : ∀ a, (r.node a).id = (t.1.node a).id := by
      intro a
      by_cases e : a = b
      · rw [e, rb, tb]; rfl
      · rw [rnode a e]
    have rty : ∀ a, (r.node a).ty = (t.1.node a).ty := by
      intro a
      by_cases e : a = b
      · rw [e, rb, tb]; rfl
      · rw [rnode a e]
    have routs : ∀ (a j' : ℕ) (y : ℤ), (t.1.outs a)[j']? = some y → (r.outs a)[j']? = some y := by
      intro a j' y hy
      rw [c7]
      split
      · exact getElem?_append_left' hy
      · exact hy
    -- the values of fields of the gates
    have told : ∀ a < s.size, t.1.node a = s.node a := hc.node
    have cases : ∀ a, a < t.1.size → a < s.size ∨ ∃ m < L, a = s.size + m := by
      intro a ha
      by_cases e : a < s.size
      · exact Or.inl e
      · exact Or.inr ⟨a - s.size, by omega, by omega⟩
    have mono : ∀ b' y, Ob (n1 + D) i (j + 1) t.1 b' y → Ob (n1 + D) i (j + 1) r b' y := by
      rintro b' y ⟨a, ha, e, hl, j', hj', hcase⟩
      refine ⟨a, by rw [c1]; exact ha, by rw [rid]; exact e, by rw [c2]; exact hl, j', ?_, by rw [c2]; exact hcase⟩
      rw [rid]; exact routs a j' _ hj'
    have hzb : ∀ l < D, n1 + l = b → (s.node b).u ≠ (s.node i).id ∧ (s.node b).v ≠ (s.node i).id := by
      intro l hl e
      have hz := h.zero l hl
      rw [e] at hz
      have hl0 : l ≠ 0 := by
        rintro rfl
        rw [hz.1] at hbty
        exact hbty rfl
      have hne : -10 - ((l : ℤ) - 1) ≠ (s.node i).id := by
        intro e'
        have hz' := h.zero (l - 1) (by omega)
        have : (s.node (n1 + (l - 1))).id = (s.node i).id := by
          rw [hz'.1, zeroNode_id, ← e']; omega
        have := h.inj (by omega) his this
        rw [← this, hz'.2, hz.2] at hneed
        omega
      rw [hz.1, zeroNode, if_neg hl0]
      exact ⟨hne, hne⟩
    have obpre : (s.node b).u = (s.node i).id ∨ (s.node b).v = (s.node i).id → Ob (n1 + D) i (j + 1) r b t.2.2 := by
      intro hor
      have hmem : (s.node b).id ∈ ex := by
        have := c6
        rw [tb] at this
        exact this hor
      obtain ⟨k, hk⟩ := List.mem_iff_getElem?.1 hmem
      refine ⟨p, by rw [c1]; exact hpt, by rw [rid]; exact hpid, ?_, (t.1.outs p).length + k, ?_, Or.inl ?_⟩
      · rw [c2, hc.lvl b hb]; omega
      · rw [c7, hpa, if_pos rfl, rid, tb, List.getElem?_append_right (by omega)]
        rw [Nat.add_sub_cancel_left]; exact hk
      · rw [c2, hc.lvl b hb]; omega
    refine ⟨⟨?_, fun a ha => ?_, fun a ha => ?_, ?_, fun a ha => ?_, fun l hl => ?_, fun a ha => ?_, fun b' hb' hty => ?_,
      fun a ha x hx => ?_, fun l hl x hx => ?_, fun a ha j' c hcc hget => ?_, fun a ha hty => ?_⟩, ?_, ?_, fun a ha => ?_, ?_⟩
    · rw [c1]; omega
    · rw [c1] at ha; rw [rid, c3]; exact hc.addr a ha
    · rw [c1] at ha
      rw [rid, hc.next]
      rcases cases a ha with ha | ⟨m, hm, rfl⟩
      · rw [told a ha]; have := h.bound a ha; omega
      · rw [(hc.relay m hm).1]; dsimp only; omega
    · rw [hc.next]; have := h.mx0; omega
    · rw [c1] at ha
      rw [c2]
      rcases cases a ha with ha | ⟨m, hm, rfl⟩
      · rw [hc.lvl a ha]; exact h.lvls a ha
      · rw [(hc.relay m hm).2]
        have h1 := h.lvls i his
        have h2 := h.lvls b hb
        omega
    · rw [c2, hc.lvl _ (by omega)]
      refine ⟨?_, (h.zero l hl).2⟩
      by_cases e : n1 + l = b
      · obtain ⟨p1, p2⟩ := hzb l hl e
        rw [e, rb, reconnect, if_neg p1, if_neg p2, ← e]
        exact (h.zero l hl).1
      · rw [rnode _ e, told _ (by omega)]; exact (h.zero l hl).1
    · rw [c1] at ha
      rw [rty]
      rcases cases a ha with ha | ⟨m, hm, rfl⟩
      · rw [told a ha]; exact h.ty a ha
      · rw [(hc.relay m hm).1]; exact Or.inl rfl
    · rw [c1] at hb'
      rw [rty] at hty
      obtain ⟨o1, o2⟩ := hc.src b' hb' hty
      by_cases e : b' = b
      · rw [e, tb] at o1 o2
        rw [e, rb]
        have stay : ∀ y, Obx (n1 + D) i j b (s.node i).id t.1 b y → y ≠ (s.node i).id → Ob (n1 + D) i (j + 1) r b y := by
          rintro y (⟨-, hy⟩ | hy) hne
          · exact absurd hy hne
          · exact mono _ _ hy
        dsimp only [reconnect]
        constructor
        · split
          · next hu => exact obpre (Or.inl hu)
          · next hu => exact stay _ o1 hu
        · split
          · next hv => exact Or.inl (obpre (Or.inr hv))
          · next hv => exact o2.imp_left (fun o => stay _ o hv)
      · rw [rnode b' e]
        have conv : ∀ y, Obx (n1 + D) i j b (s.node i).id t.1 b' y → Ob (n1 + D) i (j + 1) r b' y := by
          rintro y (⟨hy, -⟩ | hy)
          · exact absurd hy e
          · exact mono _ _ hy
        exact ⟨conv _ o1, o2.imp_left (conv _)⟩
    · rw [c1] at ha
      have hx' : x ∈ t.1.outs a ∨ x = (t.1.node b).id := by
        rw [c7] at hx
        split at hx
        · exact (List.mem_append.1 hx).imp_right (c5 x)
        · exact Or.inl hx
      rcases hx' with hx | rfl
      · obtain ⟨c, q1, q2, q3⟩ := hc.out a ha x hx
        exact ⟨c, by rw [c1]; exact q1, by rw [rid]; exact q2, by rw [rty]; exact q3⟩
      · exact ⟨b, by rw [c1]; exact hbt, rid b, by rw [rty, tb]; exact hbty⟩
    · rw [c7, hpa, if_neg (by omega)] at hx
      obtain ⟨c, q1, q2, q3⟩ := hc.zout l hl x hx
      exact ⟨c, by rw [c1]; exact q1, by rw [rid]; exact q2, by rw [c2]; exact q3⟩
    · rw [c1] at ha hcc
      rw [c2]
      rw [rid] at hget
      have old : (t.1.outs a)[j']? = some (t.1.node c).id → t.1.lvl c = t.1.lvl a + 1 ∨ t.1.lvl a < t.1.lvl c ∧ i ≤ a ∧ a < n1 + D ∧ (a = i → j + 1 ≤ j') := by
        intro hg
        rcases hc.adj a ha j' c hcc hg with h3 | ⟨h3, -⟩
        · exact h3
        · omega
      rw [c7] at hget
      split at hget
      · next hap =>
        by_cases hlt : j' < (t.1.outs a).length
        · rw [List.getElem?_append_left hlt] at hget; exact old hget
        · rw [List.getElem?_append_right (by omega)] at hget
          have hcb := c5 _ (List.mem_of_getElem? hget)
          have : c = b := by rw [← hc.addr c hcc, hcb, hc.addr b hbt]
          rw [this, hap, hpa, hc.lvl b hb]
          exact Or.inl hplvl.symm
      · exact old hget
    · rw [c1] at ha
      rw [rty] at hty
      rw [c2]
      rcases cases a ha with ha | ⟨m, hm, rfl⟩
      · rw [told a ha] at hty
        have e : a ≠ b := by rintro rfl; exact hbty hty
        rw [rnode a e, told a ha, hc.lvl a ha]
        exact h.leaf a ha hty
      · rw [(hc.relay m hm).1] at hty
        exact absurd hty (by norm_num)
    · rw [c7, hpa, if_neg (by omega)]; exact hc.len
    · rw [c1]; omega
    · rw [rid, told a ha]
    · intro F _ val hv
      have hzero : ∀ l < D, val (-10 - (l : ℤ)) = 0 := by
        intro l
        have hzn : ∀ l < D, r.node (n1 + l) = zeroNode l := by
          intro l hl
          by_cases e : n1 + l = b
          · obtain ⟨p1, p2⟩ := hzb l hl e
            rw [e, rb, reconnect, if_neg p1, if_neg p2, ← e]
            exact (h.zero l hl).1
          · rw [rnode _ e, told _ (by omega)]; exact (h.zero l hl).1
        induction l with
        | zero =>
          intro hl
          have := hv (n1 + 0) (by rw [c1]; omega)
          rw [hzn 0 hl] at this
          simpa [Sat1, zeroNode, readNumber, inputNumber, int32] using this
        | succ l ih =>
          intro hl
          have := hv (n1 + (l + 1)) (by rw [c1]; omega)
          rw [hzn (l + 1) hl] at this
          have e : (-10 - (((l + 1 : ℕ) : ℤ) - 1)) = -10 - (l : ℤ) := by push_cast; ring
          unfold Sat1 zeroNode at this
          rw [if_neg (by omega), e] at this
          simpa [gateValue, ih (by omega)] using this
      have hchain : ∀ m ≤ L, val (preId s mx i m) = val (s.node i).id := by
        intro m
        induction m with
        | zero => intro _; rw [preId, if_pos rfl]
        | succ m ih =>
          intro hm
          have hg := hv (s.size + m) (by rw [c1]; omega)
          rw [rnode _ (by omega), (hc.relay m (by omega)).1] at hg
          have hli := h.lvls i his
          have hlb := h.lvls b hb
          have hz := hzero (s.lvl i + m).toNat (by omega)
          rw [Int.toNat_of_nonneg (by omega)] at hz
          have e : preId s mx i (m + 1) = mx + m := by rw [preId, if_neg (by omega)]; push_cast; ring
          rw [e, ← ih (by omega)]
          simpa [Sat1, gateValue, hz] using hg
      have hval : val t.2.2 = val (s.node i).id := by rw [hc.pre]; exact hchain L le_rfl
      intro a ha
      have hg := hv a (by rw [c1]; omega)
      by_cases e : a = b
      · subst e
        rw [rb] at hg
        unfold Sat1 reconnect at hg
        unfold Sat1
        dsimp only at hg
        rw [if_neg hbty] at hg ⊢
        rw [hg]
        refine gateValue_congr (h.ty a ha) hbty ?_ ?_
        · split
          · next hu => rw [hval, hu]
          · rfl
        · split
          · next hu => rw [hval, hu]
          · rfl
      · rw [rnode a e, told a ha] at hg
        exact hg
  · rw [if_neg hneed]
    have hL : (s.lvl b - (s.lvl i + 1)).toNat = 0 := by omega
    rw [relayChain_eq, hL]
    refine ⟨⟨h.size, h.addr, h.bound, h.mx0, h.lvls, h.zero, h.ty, fun b' hb' hty => ?_, h.out, h.zout, fun a ha j' c hcc hget => ?_, h.leaf⟩,
      rfl, le_rfl, fun _ _ => rfl, fun _ _ _ hv => hv⟩
    swap
    · rcases h.adj a ha j' c hcc hget with h3 | ⟨q0, q1, q2, q3⟩
      · exact Or.inl h3
      · by_cases e' : a = i ∧ j' = j
        · obtain ⟨rfl, rfl⟩ := e'
          have hcb : c = b := h.inj hcc hb (Option.some.inj (hget.symm.trans hjb))
          subst hcb
          exact Or.inl (by change s.lvl c = s.lvl a + 1; omega)
        · exact Or.inr ⟨q0, q1, q2, fun hai => by
            have := q3 hai
            have : j' ≠ j := fun e => e' ⟨hai, e⟩
            omega⟩
    have key : ∀ y, Ob (n1 + D) i j s b' y → Ob (n1 + D) i (j + 1) s b' y := by
      rintro y ⟨a, ha, e, hl, j', hj', hcase⟩
      refine ⟨a, ha, e, hl, j', hj', ?_⟩
      rcases hcase with hcase | ⟨q1, q2, q3⟩
      · exact Or.inl hcase
      · by_cases e' : a = i ∧ j' = j
        · obtain ⟨rfl, rfl⟩ := e'
          rw [hjb] at hj'
          have := h.inj hb' hb (Option.some.inj hj').symm
          subst this
          exact Or.inl (by omega)
        · exact Or.inr ⟨q1, q2, fun hai => by
            have := q3 hai
            have : j' ≠ j := fun e => e' ⟨hai, e⟩
            omega⟩
    exact ⟨key _ (h.src b' hb' hty).1, (h.src b' hb' hty).2.imp_left (key _)⟩

/-- all outputs of a gate -/
theorem relayGate_ok {n1 D i : ℕ} {s : St} {mx : ℤ} (h : LInv n1 D i 0 s mx) (hi : i < n1 + D) :
    LInv n1 D (i + 1) 0 (relayGate i (s, mx)).1 (relayGate i (s, mx)).2 ∧ s.size ≤ (relayGate i (s, mx)).1.size ∧
    (∀ a < s.size, ((relayGate i (s, mx)).1.node a).id = (s.node a).id) ∧
    ∀ (F : Type) [CommRing F] (val : ℤ → F), Sat val (relayGate i (s, mx)).1 → Sat val s := by
  have key : ∀ n, n ≤ (s.outs i).length →
      LInv n1 D i n (loop n (relayOutput i) (s, mx)).1 (loop n (relayOutput i) (s, mx)).2 ∧
      ((loop n (relayOutput i) (s, mx)).1.outs i).length = (s.outs i).length ∧
      s.size ≤ (loop n (relayOutput i) (s, mx)).1.size ∧
      (∀ a < s.size, ((loop n (relayOutput i) (s, mx)).1.node a).id = (s.node a).id) ∧
      ∀ (F : Type) [CommRing F] (val : ℤ → F), Sat val (loop n (relayOutput i) (s, mx)).1 → Sat val s := by
    intro n
    induction n with
    | zero => exact fun _ => ⟨h, rfl, le_rfl, fun _ _ => rfl, fun _ _ _ hv => hv⟩
    | succ n ih =>
      intro hn
      obtain ⟨q1, q2, q3, q4, q5⟩ := ih (by omega)
      rw [loop]
      set t := loop n (relayOutput i) (s, mx)
      obtain ⟨r1, r2, r3, r4, r5⟩ := relayOutput_ok q1 hi (by omega)
      exact ⟨r1, by rw [← q2]; exact r2, by exact le_trans q3 r3, fun a ha => by rw [← q4 a ha]; exact r4 a (by omega),
        fun F _ val hv => q5 F val (r5 F val hv)⟩
  obtain ⟨q1, q2, q3, q4, q5⟩ := key _ le_rfl
  refine ⟨⟨q1.size, q1.addr, q1.bound, q1.mx0, q1.lvls, q1.zero, q1.ty, fun b hb hty => ?_, q1.out, q1.zout,
    fun a ha j' c hcc hget => ?_, q1.leaf⟩, q3, q4, q5⟩
  swap
  · refine (q1.adj a ha j' c hcc hget).imp_right ?_
    rintro ⟨p0, p1, p2, p3⟩
    refine ⟨p0, ?_, p2, fun _ => Nat.zero_le _⟩
    by_contra hlt
    have hai : a = i := by omega
    have := p3 hai
    have hlen := (List.getElem?_eq_some_iff.1 hget).1
    rw [hai] at hlen
    have hl2 : ((relayGate i (s, mx)).1.outs i).length = (s.outs i).length := q2
    have hl3 : j' < ((relayGate i (s, mx)).1.outs i).length := hlen
    omega
  have conv : ∀ y, Ob (n1 + D) i (s.outs i).length (relayGate i (s, mx)).1 b y → Ob (n1 + D) (i + 1) 0 (relayGate i (s, mx)).1 b y := by
    rintro y ⟨a, ha, e, hl, j', hj', hcase⟩
    refine ⟨a, ha, e, hl, j', hj', hcase.imp_right ?_⟩
    rintro ⟨p1, p2, p3⟩
    refine ⟨?_, p2, fun _ => Nat.zero_le _⟩
    by_contra hlt
    have hai : a = i := by omega
    have := p3 hai
    have hlen := (List.getElem?_eq_some_iff.1 hj').1
    rw [hai] at hlen
    have hl2 : ((relayGate i (s, mx)).1.outs i).length = (s.outs i).length := q2
    omega
  exact ⟨conv _ (q1.src b hb hty).1, (q1.src b hb hty).2.imp_left (conv _)⟩

/-- all relays -/
theorem addRelays_ok {n1 D : ℕ} {s : St} (h : LInv n1 D 0 0 s (maxId s)) (hs : s.size = n1 + D) :
    ∃ mx, LInv n1 D (n1 + D) 0 (addRelays s) mx ∧ s.size ≤ (addRelays s).size ∧
    (∀ a < s.size, ((addRelays s).node a).id = (s.node a).id) ∧
    ∀ (F : Type) [CommRing F] (val : ℤ → F), Sat val (addRelays s) → Sat val s := by
  have key : ∀ n, n ≤ n1 + D →
      LInv n1 D n 0 (loop n relayGate (s, maxId s)).1 (loop n relayGate (s, maxId s)).2 ∧
      s.size ≤ (loop n relayGate (s, maxId s)).1.size ∧
      (∀ a < s.size, ((loop n relayGate (s, maxId s)).1.node a).id = (s.node a).id) ∧
      ∀ (F : Type) [CommRing F] (val : ℤ → F), Sat val (loop n relayGate (s, maxId s)).1 → Sat val s := by
    intro n
    induction n with
    | zero => exact fun _ => ⟨h, le_rfl, fun _ _ => rfl, fun _ _ _ hv => hv⟩
    | succ n ih =>
      intro hn
      obtain ⟨q1, q3, q4, q5⟩ := ih (by omega)
      rw [loop]
      set t := loop n relayGate (s, maxId s)
      obtain ⟨r1, r3, r4, r5⟩ := relayGate_ok q1 (by omega)
      exact ⟨r1, by exact le_trans q3 r3, fun a ha => by rw [← q4 a ha]; exact r4 a (by omega),
        fun F _ val hv => q5 F val (r5 F val hv)⟩
  obtain ⟨q1, q3, q4, q5⟩ := key _ le_rfl
  unfold addRelays
  rw [hs]
  rw [hs] at q3 q4
  exact ⟨_, q1, q3, q4, q5⟩

/-- at the end, the operands of gates are on the level below -/
theorem Ob.done {n1 D : ℕ} {s : St} {b : ℕ} {y : ℤ} (ho : Ob (n1 + D) (n1 + D) 0 s b y) :
    ∃ a < s.size, (s.node a).id = y ∧ s.lvl b = s.lvl a + 1 ∧ (s.node b).id ∈ s.outs a := by
  obtain ⟨a, ha, e, -, j', hj', hcase⟩ := ho
  refine ⟨a, ha, e, ?_, List.mem_iff_getElem?.2 ⟨j', hj'⟩⟩
  rcases hcase with hcase | ⟨p1, p2, -⟩
  · exact hcase
  · omega

/-! ### Zeros -/

/-- after `l` zeros -/
structure ZInv (s : St) (l : ℕ) (t : St) : Prop where
  size : t.size = s.size + l
  node : ∀ a < s.size, t.node a = s.node a
  outs : ∀ a < s.size, t.outs a = s.outs a
  lvl : ∀ a < s.size, t.lvl a = s.lvl a
  zero : ∀ m < l, t.node (s.size + m) = zeroNode m ∧ t.lvl (s.size + m) = m ∧
    (∀ x ∈ t.outs (s.size + m), x = -10 - ((m : ℤ) + 1) ∧ m + 1 < l) ∧
    (m + 1 < l → -10 - ((m : ℤ) + 1) ∈ t.outs (s.size + m)) ∧ t.addr (-10 - (m : ℤ)) = s.size + m
  addr : ∀ x, -10 < x → t.addr x = s.addr x

theorem addZeros_inv (s : St) (l : ℕ) : ZInv s l (addZeros l s) := by
  induction l with
  | zero => exact ⟨rfl, fun _ _ => rfl, fun _ _ => rfl, fun _ _ => rfl, fun _ h => absurd h (by omega), fun _ _ => rfl⟩
  | succ l ih =>
    have hstep : addZeros (l + 1) s = if l = 0 then (addZeros l s).push ⟨3, -10, 0, 0⟩ 0 else
      (((addZeros l s).push ⟨0, -10 - (l : ℤ), -10 - ((l : ℤ) - 1), -10 - ((l : ℤ) - 1)⟩ l).addOut (-10 - ((l : ℤ) - 1)) (-10 - (l : ℤ))).addOut
        (-10 - ((l : ℤ) - 1)) (-10 - (l : ℤ)) := rfl
    rw [hstep]
    set t := addZeros l s
    have hsz := ih.size
    by_cases h0 : l = 0
    · rw [if_pos h0]
      subst h0
      refine ⟨by rw [push_size, hsz], fun a ha => ?_, fun a ha => ?_, fun a ha => ?_, fun m hm => ?_, fun x hx => ?_⟩
      · rw [push_node, if_neg (by omega), ih.node a ha]
      · rw [push_outs, if_neg (by omega), ih.outs a ha]
      · rw [push_lvl, if_neg (by omega), ih.lvl a ha]
      · have hm0 : m = 0 := by omega
        subst hm0
        rw [push_node, push_lvl, push_outs, push_addr]
        have e : s.size + 0 = t.size := by omega
        simp [e, zeroNode]
      · rw [push_addr, if_neg (by dsimp only; omega), ih.addr x hx]
    · rw [if_neg h0]
      set g : Node := ⟨0, -10 - (l : ℤ), -10 - ((l : ℤ) - 1), -10 - ((l : ℤ) - 1)⟩ with hg
      set z : ℤ := -10 - ((l : ℤ) - 1) with hz
      have hgz : g = zeroNode l := by rw [zeroNode, if_neg h0]
      have hza : t.addr z = s.size + (l - 1) := by
        have := (ih.zero (l - 1) (by omega)).2.2.2.2
        rw [← this]; congr 1; omega
      have hzp : (t.push g l).addr z = s.size + (l - 1) := by
        rw [push_addr, if_neg (by dsimp only [g]; omega), hza]
      have houts : ∀ a, (((t.push g l).addOut z (-10 - (l : ℤ))).addOut z (-10 - (l : ℤ))).outs a =
          if a = t.size then [] else if a = s.size + (l - 1) then t.outs a ++ [-10 - (l : ℤ)] ++ [-10 - (l : ℤ)] else t.outs a := by
        intro a
        rw [addOut_outs, addOut_addr, addOut_outs, hzp, push_outs]
        by_cases e : a = t.size
        · rw [if_pos e, if_neg (by omega), if_neg (by omega), if_pos e]
        · rw [if_neg e, if_neg e]
          split
          · rfl
          · rfl
      have haddr : ∀ x, (((t.push g l).addOut z (-10 - (l : ℤ))).addOut z (-10 - (l : ℤ))).addr x = if x = -10 - (l : ℤ) then t.size else t.addr x := by
        intro x
        rw [addOut_addr, addOut_addr, push_addr]
      refine ⟨by rw [addOut_size, addOut_size, push_size, hsz]; omega, fun a ha => ?_, fun a ha => ?_, fun a ha => ?_, fun m hm => ?_, fun x hx => ?_⟩
      · rw [addOut_node, addOut_node, push_node, if_neg (by omega), ih.node a ha]
      · rw [houts, if_neg (by omega), if_neg (by omega), ih.outs a ha]
      · rw [addOut_lvl, addOut_lvl, push_lvl, if_neg (by omega), ih.lvl a ha]
      · rw [addOut_node, addOut_node, addOut_lvl, addOut_lvl, push_node, push_lvl, houts, haddr]
        by_cases e : m = l
        · subst e
          rw [if_pos hsz.symm, if_pos hsz.symm, if_pos hsz.symm, if_pos rfl]
          exact ⟨hgz, rfl, fun x hx => absurd hx List.not_mem_nil, fun h => absurd h (by omega), hsz⟩
        · obtain ⟨q1, q2, q3, q4, q5⟩ := ih.zero m (by omega)
          have hne : ¬ s.size + m = t.size := by omega
          have hne' : ¬ (-10 - (m : ℤ) = -10 - (l : ℤ)) := by omega
          rw [if_neg hne, if_neg hne, if_neg hne, if_neg hne']
          refine ⟨q1, q2, fun x hx => ?_, fun hm' => ?_, q5⟩
          · split at hx
            · next e' =>
              have : m + 1 = l := by omega
              rw [List.mem_append, List.mem_append, List.mem_singleton] at hx
              rcases hx with (hx | hx) | hx
              · exact ⟨(q3 x hx).1, by omega⟩
              · exact ⟨by rw [hx]; push_cast [← this]; ring, by omega⟩
              · exact ⟨by rw [hx]; push_cast [← this]; ring, by omega⟩
            · exact ⟨(q3 x hx).1, by omega⟩
          · split
            · next e' =>
              have : m + 1 = l := by omega
              refine List.mem_append_right _ ?_
              rw [List.mem_singleton, ← this]; push_cast; ring
            · exact q4 (by omega)
      · rw [haddr, if_neg (by omega), ih.addr x hx]

theorem le_maxId (s : St) : (∀ a < s.size, (s.node a).id < maxId s) ∧ 0 ≤ maxId s := by
  have key : ∀ n, (∀ a < n, (s.node a).id ≤ loop n (fun i m => max m (s.node i).id) (-1)) ∧
      -1 ≤ loop n (fun i m => max m (s.node i).id) (-1) := by
    intro n
    induction n with
    | zero => exact ⟨fun a ha => absurd ha (by omega), le_rfl⟩
    | succ n ih =>
      rw [loop]
      refine ⟨fun a ha => ?_, le_trans ih.2 (le_max_left _ _)⟩
      by_cases e : a = n
      · subst e; exact le_max_right _ _
      · exact le_trans (ih.1 a (by omega)) (le_max_left _ _)
  unfold maxId
  refine ⟨fun a ha => ?_, ?_⟩
  · have := (key s.size).1 a ha; omega
  · have := (key s.size).2; omega

/-- before relays are added -/
theorem addZeros_ok {s : St} {m : ℤ} (hg : Graph { s with lvl := fun _ => -1 } s.size) (hl : Leveled s m)
    (hm : 0 ≤ m) (hty : ∀ a < s.size, TyOk (s.node a).ty)
    (hleaf : ∀ a < s.size, (s.node a).ty = 3 → (s.node a).v = 0 ∧ -2 ^ 63 ≤ (s.node a).u ∧ (s.node a).u < 2 ^ 63) :
    LInv s.size (m + 1).toNat 0 0 (addZeros (m + 1).toNat s) (maxId (addZeros (m + 1).toNat s)) := by
  set D := (m + 1).toNat with hD
  have hz := addZeros_inv s D
  set t := addZeros D s
  have hD0 : 0 < D := by omega
  have hid : ∀ a < s.size, -1 ≤ (s.node a).id := by
    intro a ha
    by_cases h0 : a = 0
    · have := hg.zero; rw [h0]; dsimp only at this; rw [this]
    · have := hg.nonneg a ha h0; dsimp only at this; omega
  have cases : ∀ a, a < t.size → a < s.size ∨ ∃ l < D, a = s.size + l := by
    intro a ha
    rw [hz.size] at ha
    by_cases e : a < s.size
    · exact Or.inl e
    · exact Or.inr ⟨a - s.size, by omega, by omega⟩
  have hsz := hz.size
  refine ⟨by omega, fun a ha => ?_, (le_maxId t).1, (le_maxId t).2, fun a ha => ?_, fun l hl => ⟨(hz.zero l hl).1, (hz.zero l hl).2.1⟩,
    fun a ha => ?_, fun b hb hb3 => ?_, fun a ha x hx => ?_, fun l hl x hx => ?_, fun a ha j' c hcc hget => ?_, fun a ha ha3 => ?_⟩
  · rcases cases a ha with ha | ⟨l, hl, rfl⟩
    · rw [hz.node a ha, hz.addr _ (by have := hid a ha; omega)]; exact hg.addr a ha
    · rw [(hz.zero l hl).1, zeroNode_id]; exact (hz.zero l hl).2.2.2.2
  · rcases cases a ha with ha | ⟨l, hl, rfl⟩
    · rw [hz.lvl a ha]; exact ⟨hl.nonneg a ha, by have := hl.le a ha; omega⟩
    · rw [(hz.zero l hl).2.1]; omega
  · rcases cases a ha with ha | ⟨l, hl, rfl⟩
    · rw [hz.node a ha]; exact hty a ha
    · rw [(hz.zero l hl).1, zeroNode]
      split
      · exact Or.inr (Or.inr (Or.inl rfl))
      · exact Or.inl rfl
  · rcases cases b hb with hb' | ⟨l, hl', rfl⟩
    · have key : ∀ y, Dep { s with lvl := fun _ => -1 } b y → Ob (s.size + D) 0 0 t b y := by
        rintro y ⟨a, ha, e, hmem⟩
        dsimp only at e hmem
        have ha' : a < s.size := by omega
        obtain ⟨j', hj'⟩ := List.mem_iff_getElem?.1 hmem
        refine ⟨a, by omega, by rw [hz.node a ha']; exact e, ?_, j', ?_, Or.inr ⟨Nat.zero_le _, by omega, fun _ => Nat.zero_le _⟩⟩
        · rw [hz.lvl a ha', hz.lvl b hb']; exact hl.edge a ha' b hb' hmem
        · rw [hz.outs a ha', hz.node b hb']; exact hj'
      rw [hz.node b hb'] at hb3 ⊢
      have := hg.src b hb' hb' hb3
      exact ⟨key _ this.1, this.2.imp_left (key _)⟩
    · have hz' := hz.zero l hl'
      rw [hz'.1] at hb3 ⊢
      by_cases h0 : l = 0
      · subst h0; exact absurd rfl hb3
      · obtain ⟨p1, p2, p3, p4, p5⟩ := hz.zero (l - 1) (by omega)
        obtain ⟨j', hj'⟩ := List.mem_iff_getElem?.1 (p4 (by omega))
        have : Ob (s.size + D) 0 0 t (s.size + l) (-10 - ((l : ℤ) - 1)) := by
          refine ⟨s.size + (l - 1), by omega, by rw [p1, zeroNode_id]; omega, by rw [p2, hz'.2.1]; omega, j', ?_, Or.inl ?_⟩
          · rw [hj', hz'.1, zeroNode_id]; congr 1; omega
          · rw [p2, hz'.2.1]; omega
        rw [zeroNode, if_neg h0]
        exact ⟨this, Or.inl this⟩
  · rcases cases a ha with ha | ⟨l, hl', rfl⟩
    · rw [hz.outs a ha] at hx
      obtain ⟨b, hb, -, q1, q2⟩ := hg.out a ha x hx
      exact ⟨b, by dsimp only at hb; omega, by rw [hz.node b hb]; exact ⟨q1, q2⟩⟩
    · obtain ⟨-, -, p3, -, -⟩ := hz.zero l hl'
      obtain ⟨q1, q2⟩ := p3 x hx
      refine ⟨s.size + (l + 1), by omega, ?_, ?_⟩
      · rw [(hz.zero (l + 1) q2).1, zeroNode_id, q1]; push_cast; ring
      · rw [(hz.zero (l + 1) q2).1, zeroNode, if_neg (by omega)]; norm_num
  · obtain ⟨-, -, p3, -, -⟩ := hz.zero l hl
    obtain ⟨q1, q2⟩ := p3 x hx
    refine ⟨s.size + (l + 1), by omega, ?_, ?_⟩
    · rw [(hz.zero (l + 1) q2).1, zeroNode_id, q1]; push_cast; ring
    · rw [(hz.zero (l + 1) q2).2.1]; push_cast; ring
  · have haD : a < s.size + D := by omega
    refine Or.inr ⟨?_, Nat.zero_le _, haD, fun _ => Nat.zero_le _⟩
    have hmem := List.mem_of_getElem? hget
    rcases cases a ha with ha | ⟨l, hl', rfl⟩
    · rw [hz.outs a ha] at hmem
      obtain ⟨b, hb, -, q1, -⟩ := hg.out a ha _ hmem
      dsimp only at q1 hb
      have hcb : c = b := by
        rcases cases c hcc with hc | ⟨l, hl', rfl⟩
        · rw [hz.node c hc] at q1
          exact (hg.inj hb hc q1).symm
        · rw [(hz.zero l hl').1, zeroNode_id] at q1
          have := hid b hb
          omega
      rw [hcb] at hmem ⊢
      rw [hz.lvl a ha, hz.lvl b hb]
      rw [hz.node b hb] at hmem
      exact hl.edge a ha b hb hmem
    · obtain ⟨-, p2, p3, -, -⟩ := hz.zero l hl'
      obtain ⟨q1, q2⟩ := p3 _ hmem
      rcases cases c hcc with hc | ⟨l2, hl2, rfl⟩
      · rw [hz.node c hc] at q1
        have := hid c hc
        omega
      · rw [(hz.zero l2 hl2).1, zeroNode_id] at q1
        rw [p2, (hz.zero l2 hl2).2.1]
        omega
  · rcases cases a ha with ha | ⟨l, hl', rfl⟩
    · rw [hz.node a ha] at ha3 ⊢
      rw [hz.lvl a ha]
      exact ⟨hl.leaf a ha ha3, hleaf a ha ha3⟩
    · have hz' := hz.zero l hl'
      rw [hz'.1] at ha3 ⊢
      rw [hz'.2.1]
      by_cases h0 : l = 0
      · subst h0
        refine ⟨rfl, rfl, ?_⟩
        change -2 ^ 63 ≤ (0 : ℤ) ∧ (0 : ℤ) < 2 ^ 63
        norm_num
      · rw [zeroNode, if_neg h0] at ha3
        exact absurd ha3 (by norm_num)

end Libra.OldCompiler
