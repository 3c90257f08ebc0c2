import Verif.Model.Reader
import Verif.Spec.File
import Verif.Proofs.Outcome
import Mathlib.Data.Nat.Size
import Mathlib.Data.List.GetD
import Mathlib.Tactic.Linarith
import Mathlib.Tactic.Push

/-!
# The circuit readers: what they accept and what they build
-/

namespace Libra.Reader
open Libra.Spec

/-- the flag of the specification that belongs to a variant -/
def isZk : Variant → Bool
  | .zk => true
  | .fastTrack => false

theorem readD_cons {t : ℤ} (h : -2 ^ 31 ≤ t ∧ t < 2 ^ 31) (ts : List ℤ) :
    readD (t :: ts) = .ok (t, ts) := by simp only [readD, h]; simp

theorem readLL_cons {t : ℤ} (h : -2 ^ 63 ≤ t ∧ t < 2 ^ 63) (ts : List ℤ) :
    readLL (t :: ts) = .ok (t, ts) := by simp only [readLL, h]; simp

theorem readD_ok {ts : List ℤ} {r : ℤ × List ℤ} (h : readD ts = .ok r) :
    ts = r.1 :: r.2 ∧ -2 ^ 31 ≤ r.1 ∧ r.1 < 2 ^ 31 := by
  cases ts with
  | nil => simp [readD] at h
  | cons t ts =>
    simp only [readD] at h
    split_ifs at h with hc
    cases h
    exact ⟨rfl, hc⟩

theorem readLL_ok {ts : List ℤ} {r : ℤ × List ℤ} (h : readLL ts = .ok r) :
    ts = r.1 :: r.2 ∧ -2 ^ 63 ≤ r.1 ∧ r.1 < 2 ^ 63 := by
  cases ts with
  | nil => simp [readLL] at h
  | cons t ts =>
    simp only [readLL] at h
    split_ifs at h with hc
    cases h
    exact ⟨rfl, hc⟩

/-- the operand stored by the reader -/
def opV (var : Variant) (ty v : ℤ) : ℤ := if ty = 6 ∨ isZk var = true ∧ ty = 10 then 0 else v

theorem gateOf_eq (var : Variant) (l : Line) :
    (⟨l.ty, wrap32 l.u, wrap32 (opV var l.ty l.v)⟩ : Gate) = gateOf (isZk var) l := by
  unfold gateOf opV
  congr 1
  split_ifs
  · rfl
  · rfl

theorem checkWires_cases (n : ℕ) (ty u v : ℤ) :
    (checkWires (2 ^ n) ty u v = .ok () ∨ checkWires (2 ^ n) ty u v = .assertFail) ∧
    (checkWires (2 ^ n) ty u v = .ok () ↔
      if ty = 3 then True else if ty = 5 then 0 ≤ u ∧ u < v ∧ v ≤ 2 ^ n
      else (0 ≤ u ∧ u < 2 ^ n) ∧ (0 ≤ v ∧ v < 2 ^ n)) := by
  unfold checkWires
  by_cases h3 : ty = 3
  · simp [h3]
  by_cases h5 : ty = 5
  · by_cases h1 : 0 ≤ u ∧ u < 2 ^ n
    · by_cases h2 : u < v ∧ v ≤ 2 ^ n
      · simp [h5, h1, h2, Outcome.assert]
      · simp only [h5, ne_eq, h1, and_self, decide_true, Outcome.assert_true, Outcome.ok_bind,
          h2, decide_false]
        simp [Outcome.assert]
    · simp only [h5, ne_eq, h1, decide_false]
      simp [Outcome.assert]
      intro h h'; by_contra hc; exact h1 ⟨h, by omega⟩
  · by_cases h1 : 0 ≤ u ∧ u < 2 ^ n
    · by_cases h2 : 0 ≤ v ∧ v < 2 ^ n
      · simp [h3, h5, h1, h2, Outcome.assert]
      · simp [h3, h5, h1, h2, Outcome.assert]
    · simp [h3, h5, h1, Outcome.assert]

theorem checkLine_cases (n : ℕ) (pg : ℤ) (l : Line) :
    ((WiresOk n l ∧ l.g = pg + 1) ∧
      checkLine .zk (2 ^ n) pg l.ty l.g l.u l.v = .ok (opV .zk l.ty l.v)) ∨
    (¬ (WiresOk n l ∧ l.g = pg + 1) ∧
      (checkLine .zk (2 ^ n) pg l.ty l.g l.u l.v = .exit ∨
       checkLine .zk (2 ^ n) pg l.ty l.g l.u l.v = .assertFail)) := by
  obtain ⟨hc, hw⟩ := checkWires_cases n l.ty l.u l.v
  by_cases hok : checkWires (2 ^ n) l.ty l.u l.v = .ok ()
  · have hw' := hw.1 hok
    by_cases h13 : l.ty = 13 → l.u = l.v
    · have hW : WiresOk n l := by
        unfold WiresOk Wire
        split_ifs at hw' ⊢
        · exact hw'
        · exact ⟨hw'.1, hw'.2, h13⟩
      have hv : ∀ v, (if l.ty = 10 then (0 : ℤ) else if l.ty = 6 then 0 else v) = opV .zk l.ty v := by
        intro v; unfold opV isZk
        by_cases a : l.ty = 6 <;> by_cases b : l.ty = 10 <;> simp [a, b]
      have hcond : l.ty ≠ 13 ∨ l.u = opV .zk l.ty l.v := by
        by_cases a : l.ty = 13
        · right; rw [h13 a]; simp [opV, a]
        · exact Or.inl a
      have hval : checkLine .zk (2 ^ n) pg l.ty l.g l.u l.v =
          if l.g ≠ pg + 1 then .exit else .ok (opV .zk l.ty l.v) := by
        unfold checkLine
        simp only [hok, Outcome.ok_bind, hv, hcond, decide_true, Outcome.assert_true]
      by_cases hg : l.g = pg + 1
      · left; exact ⟨⟨hW, hg⟩, by rw [hval]; simp [hg]⟩
      · right; exact ⟨fun h => hg h.2, by left; rw [hval]; simp [hg]⟩
    · right
      push Not at h13
      obtain ⟨a, hne⟩ := h13
      refine ⟨fun h => ?_, ?_⟩
      · have := h.1
        unfold WiresOk at this
        simp [a] at this
        exact hne this.2.2
      · right
        unfold checkLine
        simp only [hok, Outcome.ok_bind]
        simp [a, hne, Outcome.assert]
  · right
    have hf := hc.resolve_left hok
    refine ⟨fun h => hok (hw.2 ?_), ?_⟩
    · have := h.1
      unfold WiresOk Wire at this
      split_ifs at this ⊢
      · exact this
      · exact ⟨this.1, this.2.1⟩
    · right
      unfold checkLine
      simp only [hf, Outcome.assertFail_bind]

/-- a block of `m` cells of which the first ones are written -/
def padTo (m : ℕ) (xs : List Gate) : List (Option Gate) :=
  xs.map some ++ List.replicate (m - xs.length) none

theorem padTo_nil (m : ℕ) : padTo m [] = List.replicate m none := by simp [padTo]

theorem padTo_full {m : ℕ} {xs : List Gate} (h : xs.length = m) : padTo m xs = xs.map some := by
  simp [padTo, h]

theorem store_padTo {m : ℕ} {xs : List Gate} {g : ℤ} (x : Gate) (hg : g = xs.length)
    (h : xs.length < m) : store (padTo m xs) g x = .ok (padTo m (xs ++ [x])) := by
  subst hg
  have hl : (padTo m xs).length = m := by simp [padTo]; omega
  unfold store
  rw [if_pos ⟨by omega, by rw [hl]; omega⟩]
  congr 1
  obtain ⟨k, rfl⟩ : ∃ k, m = xs.length + (k + 1) := ⟨m - xs.length - 1, by omega⟩
  unfold padTo
  have h1 : xs.length + (k + 1) - xs.length = k + 1 := by omega
  have h2 : xs.length + (k + 1) - (xs ++ [x]).length = k := by simp; omega
  rw [h1, h2, List.replicate_succ, List.set_append_right _ _ (by simp)]
  simp

/-- the gates of layer 1 -/
def relays (n : ℕ) : List Gate := (List.range n).map (fun g : ℕ => ⟨4, (g : ℤ), 0⟩)

theorem relays_succ (n : ℕ) : relays (n + 1) = relays n ++ [⟨4, (n : ℤ), 0⟩] := by
  simp [relays, List.range_succ]

@[simp] theorem relays_length (n : ℕ) : (relays n).length = n := by simp [relays]

/-- the state of the loop over the gates after the lines `L` -/
def st (var : Variant) (i m : ℕ) (L : List Line) (rest : List ℤ) : GateLoop where
  block0 := if i = 1 then padTo m (L.map (gateOf (isZk var))) else padTo m []
  block := if i = 1 then padTo m (relays L.length) else padTo m (L.map (gateOf (isZk var)))
  previousG := (L.length : ℤ) - 1
  rest := rest

theorem storeGate_ok {var : Variant} {i m : ℕ} {L : List Line} {ts rest : List ℤ} {l : Line}
    (hm : L.length < m) (hg : l.g = L.length) (hi : i = 1 → l.ty = 2 ∨ l.ty = 3) :
    storeGate i (st var i m L ts) l.ty l.g l.u (opV var l.ty l.v) rest
      = .ok (st var i m (L ++ [l]) rest) := by
  unfold storeGate
  rw [gateOf_eq]
  by_cases h : i = 1
  · subst h
    have e1 : store (st var 1 m L ts).block l.g ⟨4, l.g, 0⟩ = .ok (padTo m (relays (L.length + 1))) := by
      rw [relays_succ, ← hg]
      exact store_padTo _ (by simpa using hg) (by simpa using hm)
    have e2 : store (st var 1 m L ts).block0 l.g (gateOf (isZk var) l)
        = .ok (padTo m ((L ++ [l]).map (gateOf (isZk var)))) := by
      rw [List.map_append]
      exact store_padTo _ (by simpa using hg) (by simpa using hm)
    simp only [ne_eq, not_true_eq_false, if_false, hi rfl, decide_true, Outcome.assert_true,
      Outcome.ok_bind, e1, e2, Outcome.pure_eq]
    simp [st, hg]
  · have e1 : store (st var i m L ts).block l.g (gateOf (isZk var) l)
        = .ok (padTo m ((L ++ [l]).map (gateOf (isZk var)))) := by
      rw [List.map_append]
      simp only [st, h, if_false]
      exact store_padTo _ (by simpa using hg) (by simpa using hm)
    simp only [ne_eq, h, not_false_eq_true, if_true, e1, Outcome.ok_bind, Outcome.pure_eq]
    simp [st, h, hg]

/-- what a line has to satisfy: `k` lines came before it in its layer -/
def LineOk (zk : Bool) (i n k : ℕ) (l : Line) : Prop :=
  (zk = true → WiresOk n l) ∧ l.g = k ∧ (i = 1 → l.ty = 2 ∨ l.ty = 3)

theorem readLine_step (var : Variant) (i : ℕ) (bound : ℤ) {s : GateLoop} {l : Line} {rest : List ℤ}
    (hr : l.InRange) (hs : s.rest = l.tokens ++ rest) :
    readLine var i bound s = (checkLine var bound s.previousG l.ty l.g l.u l.v).bind
      (fun v => storeGate i s l.ty l.g l.u v rest) := by
  obtain ⟨h1, h2, h3, h4⟩ := hr
  unfold readLine
  rw [hs]
  simp only [Line.tokens, List.cons_append, List.nil_append]
  rw [readD_cons h1, Outcome.ok_bind]
  simp only [readD_cons h2, readLL_cons h3, readLL_cons h4, Outcome.ok_bind]
  rfl

theorem readLine_ok (var : Variant) {i n m : ℕ} {L : List Line} {rest : List ℤ} {l : Line}
    (hr : l.InRange) (hm : L.length < m) (hl : LineOk (isZk var) i n L.length l) :
    readLine var i (2 ^ n) (st var i m L (l.tokens ++ rest)) = .ok (st var i m (L ++ [l]) rest) := by
  rw [readLine_step var i _ hr rfl]
  have : checkLine var (2 ^ n) (st var i m L (l.tokens ++ rest)).previousG l.ty l.g l.u l.v
      = .ok (opV var l.ty l.v) := by
    cases var with
    | fastTrack => simp [checkLine, opV, isZk]
    | zk =>
      have hc : WiresOk n l ∧ l.g = (st .zk i m L (l.tokens ++ rest)).previousG + 1 :=
        ⟨hl.1 rfl, by rw [hl.2.1]; simp [st]⟩
      rcases checkLine_cases n (st .zk i m L (l.tokens ++ rest)).previousG l with h | h
      · exact h.2
      · exact absurd hc h.1
  rw [this]
  exact storeGate_ok hm hl.2.1 hl.2.2

theorem readLine_bad {i n m : ℕ} {L : List Line} {rest : List ℤ} {l : Line}
    (hr : l.InRange) (hm : L.length < m) (hl : ¬ LineOk true i n L.length l) :
    readLine .zk i (2 ^ n) (st .zk i m L (l.tokens ++ rest)) = .exit ∨
    readLine .zk i (2 ^ n) (st .zk i m L (l.tokens ++ rest)) = .assertFail := by
  rw [readLine_step .zk i _ hr rfl]
  rcases checkLine_cases n (st .zk i m L (l.tokens ++ rest)).previousG l with h | h
  · rw [h.2]
    have hi : i = 1 ∧ ¬ (l.ty = 2 ∨ l.ty = 3) := by
      by_contra hc
      refine hl ⟨fun _ => h.1.1, by have := h.1.2; simp [st] at this; omega, ?_⟩
      intro hi; by_contra ht; exact hc ⟨hi, ht⟩
    right
    simp [Outcome.bind, storeGate, hi.1, hi.2, Outcome.assert]
  · rcases h.2 with h | h
    · left; rw [h]; rfl
    · right; rw [h]; rfl

theorem readLine_inv {i n m : ℕ} {L : List Line} {ts : List ℤ} {s' : GateLoop}
    (hm : L.length < m) (h : readLine .zk i (2 ^ n) (st .zk i m L ts) = .ok s') :
    ∃ l rest, ts = l.tokens ++ rest ∧ l.InRange ∧ LineOk true i n L.length l ∧
      s' = st .zk i m (L ++ [l]) rest := by
  have h' := h
  unfold readLine at h'
  obtain ⟨⟨ty, t1⟩, e1, h'⟩ := Outcome.bind_eq_ok' h'
  obtain ⟨⟨g, t2⟩, e2, h'⟩ := Outcome.bind_eq_ok' h'
  obtain ⟨⟨u, t3⟩, e3, h'⟩ := Outcome.bind_eq_ok' h'
  obtain ⟨⟨v, t4⟩, e4, h'⟩ := Outcome.bind_eq_ok' h'
  obtain ⟨r1, q1⟩ := readD_ok e1
  obtain ⟨r2, q2⟩ := readD_ok e2
  obtain ⟨r3, q3⟩ := readLL_ok e3
  obtain ⟨r4, q4⟩ := readLL_ok e4
  have hts : ts = (⟨ty, g, u, v⟩ : Line).tokens ++ t4 := by
    change ts = _ at r1
    rw [r1]
    simp only at r2 r3 r4
    rw [r2, r3, r4]
    rfl
  have hr : (⟨ty, g, u, v⟩ : Line).InRange := ⟨q1, q2, q3, q4⟩
  refine ⟨⟨ty, g, u, v⟩, t4, hts, hr, ?_⟩
  rw [hts] at h
  by_cases hl : LineOk true i n L.length ⟨ty, g, u, v⟩
  · refine ⟨hl, ?_⟩
    rw [readLine_ok .zk hr hm hl] at h
    cases h; rfl
  · rcases readLine_bad (rest := t4) hr hm hl with hb | hb <;> rw [hb] at h <;> cases h

/-! ### the loop over the gates -/

theorem gates_ok (var : Variant) {i n m : ℕ} (L : List Line) (rest : List ℤ)
    (hr : ∀ l ∈ L, l.InRange) (hm : L.length ≤ m)
    (hl : ∀ k (h : k < L.length), LineOk (isZk var) i n k L[k]) :
    loopM L.length (fun _ => readLine var i (2 ^ n)) (st var i m [] (L.flatMap Line.tokens ++ rest))
      = .ok (st var i m L rest) := by
  induction L using List.reverseRecOn generalizing rest with
  | nil => rfl
  | append_singleton L l ih =>
    rw [List.length_append, List.length_singleton, loopM_succ, List.flatMap_append, List.append_assoc]
    rw [List.length_append, List.length_singleton] at hm
    have ih' := ih ([l].flatMap Line.tokens ++ rest) (fun x hx => hr x (by simp [hx])) (by omega) (by
      intro k hk
      have := hl k (by simp; omega)
      rwa [List.getElem_append_left hk] at this)
    rw [ih', Outcome.bind_ok]
    have hll := hl L.length (by simp)
    rw [List.getElem_append_right (le_refl _)] at hll
    simp only [Nat.sub_self, List.getElem_cons_zero] at hll
    simp only [List.flatMap_cons, List.flatMap_nil, List.append_nil]
    exact readLine_ok var (hr l (by simp)) (by omega) hll

theorem gates_bad {i n m : ℕ} (L : List Line) (rest : List ℤ)
    (hr : ∀ l ∈ L, l.InRange) (hm : L.length ≤ m)
    (hl : ¬ ∀ k (h : k < L.length), LineOk true i n k L[k]) :
    loopM L.length (fun _ => readLine .zk i (2 ^ n)) (st .zk i m [] (L.flatMap Line.tokens ++ rest))
      = .exit ∨
    loopM L.length (fun _ => readLine .zk i (2 ^ n)) (st .zk i m [] (L.flatMap Line.tokens ++ rest))
      = .assertFail := by
  induction L using List.reverseRecOn generalizing rest with
  | nil => exact absurd (by simp) hl
  | append_singleton L l ih =>
    rw [List.length_append, List.length_singleton, loopM_succ, List.flatMap_append, List.append_assoc]
    rw [List.length_append, List.length_singleton] at hm
    have hr' : ∀ x ∈ L, x.InRange := fun x hx => hr x (by simp [hx])
    by_cases hL : ∀ k (h : k < L.length), LineOk true i n k L[k]
    · rw [gates_ok .zk L _ hr' (by omega) hL, Outcome.bind_ok]
      simp only [List.flatMap_cons, List.flatMap_nil, List.append_nil]
      refine readLine_bad (hr l (by simp)) (by omega) (fun h => hl ?_)
      intro k hk
      by_cases hk' : k < L.length
      · rw [List.getElem_append_left hk']; exact hL k hk'
      · have : k = L.length := by simp at hk; omega
        subst this
        rw [List.getElem_append_right (le_refl _)]
        simpa using h
    · rcases ih ([l].flatMap Line.tokens ++ rest) hr' (by omega) hL with h | h
      · left; rw [h]; rfl
      · right; rw [h]; rfl

theorem gates_inv {i n m : ℕ} (k : ℕ) {ts : List ℤ} {s' : GateLoop} (hm : k ≤ m)
    (h : loopM k (fun _ => readLine .zk i (2 ^ n)) (st .zk i m [] ts) = .ok s') :
    ∃ L rest, L.length = k ∧ ts = L.flatMap Line.tokens ++ rest ∧ (∀ l ∈ L, l.InRange) ∧
      (∀ j (hj : j < L.length), LineOk true i n j L[j]) ∧ s' = st .zk i m L rest := by
  induction k generalizing s' with
  | zero => cases h; exact ⟨[], ts, rfl, rfl, by simp, by simp, rfl⟩
  | succ k ih =>
    rw [loopM_succ] at h
    obtain ⟨s, e, h⟩ := Outcome.bind_eq_ok h
    obtain ⟨L, rest, hk, hts, hr, hl, rfl⟩ := ih (by omega) e
    obtain ⟨l, rest', hrest, hlr, hlo, rfl⟩ := readLine_inv (by omega) h
    refine ⟨L ++ [l], rest', by simp [hk], by simp [hts, hrest], ?_, ?_, rfl⟩
    · intro x hx
      rcases List.mem_append.1 hx with hx | hx
      · exact hr x hx
      · rw [List.mem_singleton.1 hx]; exact hlr
    · intro j hj
      by_cases hj' : j < L.length
      · rw [List.getElem_append_left hj']; exact hl j hj'
      · have : j = L.length := by simp at hj; omega
        subst this
        rw [List.getElem_append_right (le_refl _)]
        simpa using hlo

/-! ### one layer -/

theorem countShifts_eq (x : ℕ) : countShifts x = Nat.size x := by
  induction x using Nat.strong_induction_on with
  | _ x ih =>
    unfold countShifts
    split_ifs with h
    · simp [h]
    · have hx : x >>> 1 = x / 2 := Nat.shiftRight_one x
      rw [ih _ (by rw [hx]; omega), hx]
      apply le_antisymm
      · rw [Nat.succ_le_iff, Nat.lt_size]
        by_cases h2 : x / 2 = 0
        · rw [h2]; simp; omega
        · have hp : 0 < Nat.size (x / 2) := Nat.size_pos.2 (Nat.pos_of_ne_zero h2)
          have hlow : 2 ^ (Nat.size (x / 2) - 1) ≤ x / 2 := Nat.lt_size.1 (by omega)
          calc 2 ^ Nat.size (x / 2) = 2 ^ (Nat.size (x / 2) - 1) * 2 := by
                rw [← pow_succ]; congr 1; omega
            _ ≤ x / 2 * 2 := Nat.mul_le_mul_right _ hlow
            _ ≤ x := Nat.div_mul_le_self x 2
      · rw [Nat.size_le, pow_succ]
        have := Nat.lt_size_self (x / 2)
        omega

theorem size_pred (n : ℕ) (hn : 1 ≤ n) : Nat.size (n - 1) = Nat.clog 2 n := by
  apply le_antisymm
  · rw [Nat.size_le]
    have := Nat.le_pow_clog (b := 2) (by norm_num) n
    omega
  · apply Nat.clog_le_of_le_pow
    have := Nat.lt_size_self (n - 1)
    omega

theorem width_spec (n : ℕ) (_hn : 1 ≤ n) : width n = if n = 1 then 1 else Nat.clog 2 n := by
  unfold width
  split_ifs with h
  · simp [h]
  · have : 0 < Nat.clog 2 n := Nat.clog_pos (by norm_num) (by omega)
    omega

/-- the layers built from the layers `f` of the file -/
def stLayers (zk : Bool) : File → List Layer
  | [] => [{ gates := [], bitLength := 0 }]
  | L :: f => layersOf zk (L :: f)

/-- number of variables of the layer before the one described next -/
def prevWidth (f : File) : ℕ :=
  match f.length with
  | 0 => 0
  | j + 1 => width (f[j]?.getD []).length

theorem stLayers_length (zk : Bool) (f : File) : (stLayers zk f).length = f.length + 1 := by
  cases f <;> simp [stLayers, layersOf]

theorem stLayers_width (zk : Bool) (f : File) :
    ((stLayers zk f)[f.length]?.map (·.bitLength)).getD 0 = prevWidth f := by
  cases f with
  | nil => rfl
  | cons L f =>
    cases f with
    | nil => rfl
    | cons L' f =>
      have e : (stLayers zk (L :: L' :: f))[(L :: L' :: f).length]?
          = ((L' :: f).map (layerOf zk))[f.length]? := rfl
      have e' : (L' :: f)[f.length]? = some ((L' :: f)[f.length]'(by simp)) := by simp
      have e'' : (L :: L' :: f)[f.length + 1]? = (L' :: f)[f.length]? := rfl
      rw [e, List.getElem?_map]
      change _ = width ((L :: L' :: f)[f.length + 1]?.getD []).length
      rw [e'', e']
      rfl

theorem st_nil (var : Variant) (i : ℕ) (n : ℕ) (ts : List ℤ) :
    (⟨List.replicate n none, List.replicate n none, -1, ts⟩ : GateLoop) = st var i n [] ts := by
  simp [st, padTo_nil, relays]

theorem layerOf_eq (zk : Bool) (L : List Line) :
    layerOf zk L = { gates := if L.length = 1 then padTo 2 (L.map (gateOf zk) ++ [⟨2, 0, 0⟩])
                              else padTo L.length (L.map (gateOf zk))
                     bitLength := width L.length } := by
  unfold layerOf
  congr 1
  split_ifs with h
  · rw [padTo_full (by simp [h])]; simp
  · rw [padTo_full (by simp)]; simp

theorem relayLayer_eq (n : ℕ) :
    relayLayer n = { gates := if n = 1 then padTo 2 (relays 1 ++ [⟨4, 1, 0⟩])
                              else padTo n (relays n)
                     bitLength := width n } := by
  unfold relayLayer positions
  congr 1
  split_ifs with h
  · rfl
  · rw [padTo_full (by simp)]; simp [relays]

theorem stLayers_snoc (zk : Bool) (f : File) (L : List Line) (hf : f ≠ []) :
    stLayers zk (f ++ [L]) = stLayers zk f ++ [layerOf zk L] := by
  cases f with
  | nil => exact absurd rfl hf
  | cons L' f => simp [stLayers, layersOf]

theorem finishLayer_ok (var : Variant) (f : File) (L : List Line) (rest : List ℤ)
    (h1 : L ≠ []) (h2 : L.length ≤ 2 ^ 30) :
    finishLayer (f.length + 1) L.length (stLayers (isZk var) f)
      (st var (f.length + 1) (positions L.length) L rest) = .ok (stLayers (isZk var) (f ++ [L]), rest) := by
  have hpos : 1 ≤ L.length := List.length_pos_iff.2 h1
  have hpg : (st var (f.length + 1) (positions L.length) L rest).previousG = ((L.length - 1 : ℕ) : ℤ) := by
    simp only [st]; omega
  unfold finishLayer
  rw [hpg]
  simp only [Int.toNat_natCast, countShifts_eq, size_pred _ hpos, Nat.size_pow]
  have hneg : ¬ ((L.length - 1 : ℕ) : ℤ) < 0 := by omega
  have hcl : ¬ 31 ≤ Nat.clog 2 L.length := by
    have := Nat.clog_le_of_le_pow (b := 2) h2
    omega
  rw [if_neg hneg, if_neg hcl]
  have hlen : ((L.length : ℤ) = 1) ↔ L.length = 1 := by omega
  simp only [hlen]
  by_cases hone : L.length = 1
  · have hm : positions L.length = 2 := by simp [positions, hone]
    rw [if_pos hone, hm]
    have hcl0 : Nat.clog 2 L.length = 0 := by rw [hone]; rfl
    have hg : (((2 ^ Nat.clog 2 L.length : ℕ)) : ℤ) = 1 := by rw [hcl0]; rfl
    have hw : Nat.clog 2 L.length + 1 = width L.length := by rw [hcl0, hone]; rfl
    by_cases hf : f = []
    · subst hf
      have e0 : store (st var 1 2 L rest).block0 ((2 ^ Nat.clog 2 L.length : ℕ) : ℤ) ⟨2, 0, 0⟩
          = .ok (padTo 2 (L.map (gateOf (isZk var)) ++ [⟨2, 0, 0⟩])) := by
        rw [hg]
        exact store_padTo _ (by simp [hone]) (by simp [hone])
      have e1 : store (st var 1 2 L rest).block ((2 ^ Nat.clog 2 L.length : ℕ) : ℤ) ⟨4, 1, 0⟩
          = .ok (padTo 2 (relays 1 ++ [⟨4, 1, 0⟩])) := by
        rw [hg]
        have := store_padTo (m := 2) (xs := relays 1) (g := 1) ⟨4, 1, 0⟩ rfl (by simp)
        simpa [st, hone] using this
      simp only [List.length_nil, Nat.zero_add, ne_eq, not_true_eq_false, if_false, e0, e1,
        Outcome.ok_bind, Outcome.pure_eq, List.nil_append, stLayers, layersOf, layerOf_eq,
        relayLayer_eq, if_pos hone, List.map_nil, hw]
      rfl
    · have hi : f.length + 1 ≠ 1 := by
        intro h; exact hf (List.length_eq_zero_iff.1 (by omega))
      have e1 : store (st var (f.length + 1) 2 L rest).block ((2 ^ Nat.clog 2 L.length : ℕ) : ℤ) ⟨2, 0, 0⟩
          = .ok (padTo 2 (L.map (gateOf (isZk var)) ++ [⟨2, 0, 0⟩])) := by
        rw [hg]
        simp only [st, hi, if_false]
        exact store_padTo _ (by simp [hone]) (by simp [hone])
      rw [if_pos hi, e1, stLayers_snoc _ _ _ hf, layerOf_eq, if_pos hone, hw]
      rfl
  · have hm : positions L.length = L.length := by simp [positions, hone]
    rw [if_neg hone, hm]
    have hw : Nat.clog 2 L.length + 1 - 1 = width L.length := by
      rw [width_spec _ hpos, if_neg hone]; rfl
    by_cases hf : f = []
    · subst hf
      simp only [List.length_nil, Nat.zero_add, ne_eq, not_true_eq_false, if_false,
        Outcome.pure_eq, List.nil_append, stLayers, layersOf, layerOf_eq,
        relayLayer_eq, if_neg hone, List.map_nil, hw]
      rfl
    · have hi : f.length + 1 ≠ 1 := by
        intro h; exact hf (List.length_eq_zero_iff.1 (by omega))
      rw [if_pos hi, stLayers_snoc _ _ _ hf, layerOf_eq, if_neg hone, hw]
      simp only [st, hi, if_false]
      rfl

/-- the conditions on the next layer of a file whose layers so far are `f` -/
def LayerOk (zk : Bool) (f : File) (L : List Line) : Prop :=
  ∀ k (h : k < L.length), LineOk zk (f.length + 1) (prevWidth f) k L[k]

theorem readLayer_step (var : Variant) (f : File) {n : ℤ} {ts rest : List ℤ}
    (hr : -2 ^ 31 ≤ n ∧ n < 2 ^ 31) (hn : 0 ≤ n) (hts : ts = n :: rest) :
    readLayer var (f.length + 1) (stLayers (isZk var) f, ts) =
      (loopM n.toNat (fun _ => readLine var (f.length + 1) (2 ^ prevWidth f))
        (st var (f.length + 1) (positions n.toNat) [] rest)).bind
        (finishLayer (f.length + 1) n (stLayers (isZk var) f)) := by
  subst hts
  unfold readLayer
  rw [readD_cons hr, Outcome.ok_bind]
  simp only []
  have hnew : newGates (if n = 1 then 2 else n) = .ok (List.replicate (positions n.toNat) none) := by
    unfold newGates positions
    have : (n = 1) ↔ (n.toNat = 1) := by omega
    by_cases h : n = 1
    · simp [h]
    · have h' : n.toNat ≠ 1 := by omega
      simp [h, h']; omega
  rw [hnew, Outcome.ok_bind]
  simp only [Nat.add_sub_cancel, stLayers_width, st_nil var (f.length + 1)]
  rfl

theorem length_range {L : List Line} (h : L.length ≤ 2 ^ 30) :
    -2 ^ 31 ≤ (L.length : ℤ) ∧ (L.length : ℤ) < 2 ^ 31 := by
  constructor
  · have : (0 : ℤ) ≤ L.length := by omega
    exact le_trans (by norm_num) this
  · have h' : (L.length : ℤ) ≤ ((2 ^ 30 : ℕ) : ℤ) := by exact_mod_cast h
    exact lt_of_le_of_lt h' (by norm_num)

theorem le_positions (n : ℕ) : n ≤ positions n := by unfold positions; split_ifs <;> omega

theorem readLayer_ok (var : Variant) (f : File) (L : List Line) (rest : List ℤ)
    (h1 : L ≠ []) (h2 : L.length ≤ 2 ^ 30) (hr : ∀ l ∈ L, l.InRange) (hl : LayerOk (isZk var) f L) :
    readLayer var (f.length + 1) (stLayers (isZk var) f, layerTokens L ++ rest)
      = .ok (stLayers (isZk var) (f ++ [L]), rest) := by
  rw [readLayer_step var f (length_range h2) (by omega)
    (show layerTokens L ++ rest = _ :: (L.flatMap Line.tokens ++ rest) from rfl)]
  rw [Int.toNat_natCast, gates_ok var L rest hr (le_positions _) hl, Outcome.bind_ok]
  exact finishLayer_ok var f L rest h1 h2

theorem readLayer_bad (f : File) (L : List Line) (rest : List ℤ)
    (h2 : L.length ≤ 2 ^ 30) (hr : ∀ l ∈ L, l.InRange) (hl : ¬ LayerOk true f L) :
    readLayer .zk (f.length + 1) (stLayers true f, layerTokens L ++ rest) = .exit ∨
    readLayer .zk (f.length + 1) (stLayers true f, layerTokens L ++ rest) = .assertFail := by
  have := readLayer_step .zk f (length_range h2) (by omega)
    (show layerTokens L ++ rest = _ :: (L.flatMap Line.tokens ++ rest) from rfl)
  change readLayer .zk (f.length + 1) (stLayers true f, layerTokens L ++ rest) = _ at this
  rw [this, Int.toNat_natCast]
  rcases gates_bad L rest hr (le_positions _) hl with h | h
  · left; rw [h]; rfl
  · right; rw [h]; rfl

theorem readLayer_inv (f : File) {ts : List ℤ} {r : List Layer × List ℤ}
    (h : readLayer .zk (f.length + 1) (stLayers true f, ts) = .ok r) :
    ∃ L rest, ts = layerTokens L ++ rest ∧ L ≠ [] ∧ L.length ≤ 2 ^ 30 ∧ (∀ l ∈ L, l.InRange) ∧
      LayerOk true f L ∧ r = (stLayers true (f ++ [L]), rest) := by
  have h' := h
  unfold readLayer at h'
  obtain ⟨⟨n, t1⟩, e1, h'⟩ := Outcome.bind_eq_ok' h'
  obtain ⟨r1, q1⟩ := readD_ok e1
  obtain ⟨gs, e2, -⟩ := Outcome.bind_eq_ok' h'
  have hn : 0 ≤ n := by
    by_contra hc
    have : n ≠ 1 := by omega
    unfold newGates at e2
    rw [if_neg this, if_pos (by omega)] at e2
    cases e2
  have hstep := readLayer_step .zk f q1 hn r1
  change readLayer .zk (f.length + 1) (stLayers true f, ts) = _ at hstep
  rw [hstep] at h
  obtain ⟨t, e3, h⟩ := Outcome.bind_eq_ok h
  obtain ⟨L, rest, hk, hts, hr, hl, rfl⟩ := gates_inv _ (le_positions _) e3
  have hn' : n = (L.length : ℤ) := by rw [hk]; omega
  subst hn'
  simp only [Int.toNat_natCast] at h e3
  -- the layer is neither empty nor too long
  have hne : L ≠ [] := by
    rintro rfl
    simp [finishLayer, st] at h
  have hpos : 1 ≤ L.length := List.length_pos_iff.2 hne
  have hlen : L.length ≤ 2 ^ 30 := by
    by_contra hc
    have hpg : (st .zk (f.length + 1) (positions L.length) L rest).previousG = ((L.length - 1 : ℕ) : ℤ) := by
      simp only [st]; omega
    unfold finishLayer at h
    rw [hpg, if_neg (by omega)] at h
    have hs : 31 ≤ countShifts (((L.length - 1 : ℕ) : ℤ)).toNat := by
      rw [countShifts_eq, Int.toNat_natCast]
      exact Nat.lt_size.2 (by omega)
    simp only [hs, if_true] at h
    cases h
  refine ⟨L, rest, ?_, hne, hlen, hr, hl, ?_⟩
  · change ts = _ at r1
    rw [r1]
    change _ :: t1 = _
    simp only at hts
    rw [hts]; rfl
  · have hf := finishLayer_ok .zk f L rest hne hlen
    rw [hf] at h
    cases h; rfl

/-! ### all layers -/

/-- the conditions on a whole file -/
def FileOk (zk : Bool) (f : File) : Prop := ∀ i (h : i < f.length), LayerOk zk (f.take i) f[i]

theorem FileOk_snoc (zk : Bool) (f : File) (L : List Line) :
    FileOk zk (f ++ [L]) ↔ FileOk zk f ∧ LayerOk zk f L := by
  constructor
  · intro h
    refine ⟨fun i hi => ?_, ?_⟩
    · have := h i (by simp; omega)
      rwa [List.getElem_append_left hi, List.take_append_of_le_length (le_of_lt hi)] at this
    · have := h f.length (by simp)
      rw [List.getElem_append_right (le_refl _)] at this
      simpa using this
  · rintro ⟨h1, h2⟩ i hi
    by_cases hi' : i < f.length
    · rw [List.getElem_append_left hi', List.take_append_of_le_length (le_of_lt hi')]
      exact h1 i hi'
    · have : i = f.length := by simp at hi; omega
      subst this
      rw [List.getElem_append_right (le_refl _)]
      simpa using h2

/-- the conditions on the sizes and number ranges of each layer -/
def LayerRange (L : List Line) : Prop := L ≠ [] ∧ L.length ≤ 2 ^ 30 ∧ ∀ l ∈ L, l.InRange

theorem layers_ok (var : Variant) (f : File) (rest : List ℤ) (hr : ∀ L ∈ f, LayerRange L)
    (hl : FileOk (isZk var) f) :
    loopM f.length (fun k => readLayer var (k + 1)) (stLayers (isZk var) [], f.flatMap layerTokens ++ rest)
      = .ok (stLayers (isZk var) f, rest) := by
  induction f using List.reverseRecOn generalizing rest with
  | nil => rfl
  | append_singleton f L ih =>
    rw [List.length_append, List.length_singleton, loopM_succ, List.flatMap_append, List.append_assoc]
    obtain ⟨h1, h2⟩ := (FileOk_snoc _ f L).1 hl
    rw [ih _ (fun x hx => hr x (by simp [hx])) h1, Outcome.bind_ok]
    obtain ⟨r1, r2, r3⟩ := hr L (by simp)
    simp only [List.flatMap_cons, List.flatMap_nil, List.append_nil]
    exact readLayer_ok var f L rest r1 r2 r3 h2

theorem layers_bad (f : File) (rest : List ℤ) (hr : ∀ L ∈ f, LayerRange L) (hl : ¬ FileOk true f) :
    loopM f.length (fun k => readLayer .zk (k + 1)) (stLayers true [], f.flatMap layerTokens ++ rest)
      = .exit ∨
    loopM f.length (fun k => readLayer .zk (k + 1)) (stLayers true [], f.flatMap layerTokens ++ rest)
      = .assertFail := by
  induction f using List.reverseRecOn generalizing rest with
  | nil => exact absurd (by intro i hi; simp at hi) hl
  | append_singleton f L ih =>
    rw [List.length_append, List.length_singleton, loopM_succ, List.flatMap_append, List.append_assoc]
    have hr' : ∀ x ∈ f, LayerRange x := fun x hx => hr x (by simp [hx])
    by_cases h1 : FileOk true f
    · have := layers_ok .zk f ([L].flatMap layerTokens ++ rest) hr' h1
      change loopM _ _ (stLayers true [], _) = _ at this
      rw [this, Outcome.bind_ok]
      obtain ⟨r1, r2, r3⟩ := hr L (by simp)
      simp only [List.flatMap_cons, List.flatMap_nil, List.append_nil]
      exact readLayer_bad f L rest r2 r3 (fun h => hl ((FileOk_snoc _ f L).2 ⟨h1, h⟩))
    · rcases ih ([L].flatMap layerTokens ++ rest) hr' h1 with h | h
      · left; rw [h]; rfl
      · right; rw [h]; rfl

theorem layers_inv (d : ℕ) {ts : List ℤ} {r : List Layer × List ℤ}
    (h : loopM d (fun k => readLayer .zk (k + 1)) (stLayers true [], ts) = .ok r) :
    ∃ (f : File) (rest : List ℤ), f.length = d ∧ ts = f.flatMap layerTokens ++ rest ∧
      (∀ L ∈ f, LayerRange L) ∧ FileOk true f ∧ r = (stLayers true f, rest) := by
  induction d generalizing r with
  | zero => cases h; exact ⟨[], ts, rfl, rfl, by simp, by intro i hi; simp at hi, rfl⟩
  | succ d ih =>
    rw [loopM_succ] at h
    obtain ⟨s, e, h⟩ := Outcome.bind_eq_ok h
    obtain ⟨f, rest, hk, hts, hr, hl, rfl⟩ := ih e
    subst hk
    obtain ⟨L, rest', hrest, r1, r2, r3, hL, rfl⟩ := readLayer_inv f h
    refine ⟨f ++ [L], rest', by simp, by simp [hts, hrest], ?_, (FileOk_snoc _ f L).2 ⟨hl, hL⟩, rfl⟩
    intro x hx
    rcases List.mem_append.1 hx with hx | hx
    · exact hr x hx
    · rw [List.mem_singleton.1 hx]; exact ⟨r1, r2, r3⟩

/-! ### whole files -/

theorem prevWidth_take (f : File) (i : ℕ) (h : i < f.length) :
    prevWidth (f.take i) = match i with | 0 => 0 | j + 1 => width (f[j]?.getD []).length := by
  unfold prevWidth
  have hl : (f.take i).length = i := by simp; omega
  rw [hl]
  cases i with
  | zero => rfl
  | succ j =>
    simp only
    rw [List.getElem?_take]
    simp

theorem FileOk_iff (zk : Bool) (f : File) :
    FileOk zk f ↔ (∀ L ∈ f, Numbered L) ∧ Inputs (f.headD []) ∧ (zk = true → Wired f) := by
  unfold FileOk LayerOk LineOk
  constructor
  · intro h
    refine ⟨?_, ?_, ?_⟩
    · intro L hL j hj
      obtain ⟨i, hi, rfl⟩ := List.mem_iff_getElem.1 hL
      exact (h i hi j hj).2.1
    · intro l hl
      cases f with
      | nil => simp at hl
      | cons L f =>
        simp only [List.headD_cons] at hl
        obtain ⟨j, hj, rfl⟩ := List.mem_iff_getElem.1 hl
        exact (h 0 (by simp) j hj).2.2 rfl
    · intro hz i hi l hl
      obtain ⟨j, hj, rfl⟩ := List.mem_iff_getElem.1 hl
      have := (h i hi j hj).1 hz
      rwa [prevWidth_take f i hi] at this
  · rintro ⟨h1, h2, h3⟩ i hi k hk
    refine ⟨fun hz => ?_, h1 _ (List.getElem_mem hi) k hk, fun hone => ?_⟩
    · rw [prevWidth_take f i hi]
      exact h3 hz i hi _ (List.getElem_mem hk)
    · have h0 : i = 0 := by
        have hl : (f.take i).length = i := by simp; omega
        omega
      subst h0
      cases f with
      | nil => simp at hi
      | cons L f => exact h2 _ (by simp)

theorem readLayers_ok (var : Variant) (f : File) (rest : List ℤ) (hr : Readable f)
    (hl : FileOk (isZk var) f) :
    readLayers var (tokens f ++ rest) = .ok ((f.length : ℤ), layersOf (isZk var) f) := by
  obtain ⟨hne, hlen, hL⟩ := hr
  have hpos : 0 < f.length := List.length_pos_iff.2 hne
  unfold readLayers tokens
  rw [List.cons_append, readD_cons ⟨by omega, by omega⟩, Outcome.ok_bind]
  simp only []
  rw [if_neg (by omega), if_neg (by omega), Int.toNat_natCast]
  have := layers_ok var f rest hL hl
  have e0 : stLayers (isZk var) [] = [{ gates := [], bitLength := 0 }] := rfl
  rw [e0] at this
  rw [this]
  cases f with
  | nil => exact absurd rfl hne
  | cons L f => rfl

theorem readLayers_bad (f : File) (rest : List ℤ) (hr : Readable f) (hl : ¬ FileOk true f) :
    readLayers .zk (tokens f ++ rest) = .exit ∨ readLayers .zk (tokens f ++ rest) = .assertFail := by
  obtain ⟨hne, hlen, hL⟩ := hr
  have hpos : 0 < f.length := List.length_pos_iff.2 hne
  unfold readLayers tokens
  rw [List.cons_append, readD_cons ⟨by omega, by omega⟩, Outcome.ok_bind]
  simp only []
  rw [if_neg (by omega), if_neg (by omega), Int.toNat_natCast]
  have e0 : stLayers true [] = [{ gates := [], bitLength := 0 }] := rfl
  rcases layers_bad f rest hL hl with h | h <;> rw [e0] at h <;> rw [h]
  · left; rfl
  · right; rfl

theorem readLayers_inv {file : List ℤ} {r : ℤ × List Layer} (h : readLayers .zk file = .ok r) :
    ∃ (f : File) (rest : List ℤ), file = tokens f ++ rest ∧ Readable f ∧ FileOk true f ∧
      r = ((f.length : ℤ), layersOf true f) := by
  unfold readLayers at h
  obtain ⟨⟨d, ts⟩, e1, h⟩ := Outcome.bind_eq_ok' h
  obtain ⟨r1, q1⟩ := readD_ok e1
  simp only at h r1 q1
  split_ifs at h with c1 c2
  obtain ⟨t, e2, h⟩ := Outcome.bind_eq_ok' h
  obtain ⟨f, rest, hk, hts, hr, hl, rfl⟩ := layers_inv d.toNat e2
  have hd : d = (f.length : ℤ) := by rw [hk]; omega
  subst hd
  have hne : f ≠ [] := by rintro rfl; simp at c2
  refine ⟨f, rest, ?_, ⟨hne, by omega, hr⟩, hl, ?_⟩
  · rw [r1, hts]; rfl
  · cases f with
    | nil => exact absurd rfl hne
    | cons L f => cases h; rfl

/-! ### the meta file -/

theorem checkPara_ok {m : MetaLine} :
    checkPara m.isPara m.repeatNum m.logRepeatNum = .ok () ↔
      (m.isPara ≠ 0 → 0 ≤ m.logRepeatNum ∧ m.logRepeatNum < 31 ∧
        2 ^ m.logRepeatNum.toNat = m.repeatNum) := by
  unfold checkPara
  by_cases h : m.isPara = 0
  · simp [h]
  · simp only [ne_eq, h, not_false_eq_true, if_true, forall_const]
    by_cases hr : m.logRepeatNum < 0 ∨ 31 ≤ m.logRepeatNum
    · rw [if_pos hr]
      constructor
      · intro h; cases h
      · rintro ⟨a, b, _⟩; omega
    · rw [if_neg hr, Outcome.assert_ok_iff, decide_eq_true_eq]
      constructor
      · intro h; exact ⟨by omega, by omega, h⟩
      · exact fun h => h.2.2

/-- the layers after `k` lines of the meta file -/
def metaLayers (Ls : List Layer) (ms : List MetaLine) (k : ℕ) : List Layer :=
  (List.range Ls.length).map (fun i =>
    if 1 ≤ i ∧ i ≤ k then withMeta (Ls[i]?.getD ⟨[], 0, false, 0, 0, 0, 0⟩) (ms[i - 1]?.getD ⟨0, 0, 0, 0, 0⟩)
    else Ls[i]?.getD ⟨[], 0, false, 0, 0, 0, 0⟩)

theorem metaLayers_zero (Ls : List Layer) (ms : List MetaLine) : metaLayers Ls ms 0 = Ls := by
  apply List.ext_getElem
  · simp [metaLayers]
  · intro i h1 h2
    have : ¬ (1 ≤ i ∧ i ≤ 0) := by omega
    simp only [metaLayers, List.getElem_map, List.getElem_range, this, if_false]
    rw [List.getElem?_eq_getElem h2]; rfl

theorem metaLayers_succ (Ls : List Layer) (ms : List MetaLine) (k : ℕ) (hk : k + 1 < Ls.length)
    (hm : k < ms.length) :
    metaLayers Ls ms (k + 1) = (metaLayers Ls ms k).set (k + 1) (withMeta Ls[k + 1] ms[k]) := by
  apply List.ext_getElem
  · simp [metaLayers]
  · intro i h1 h2
    rw [List.getElem_set]
    by_cases hi : k + 1 = i
    · subst hi
      simp [metaLayers, hk, hm]
    · have h3 : (1 ≤ i ∧ i ≤ k + 1) ↔ (1 ≤ i ∧ i ≤ k) := by omega
      simp only [metaLayers, List.getElem_map, List.getElem_range, h3, hi, if_false]

theorem readMeta_ok {Ls : List Layer} {m : MetaLine} {rest : List ℤ} {i : ℕ} (hm : m.Ok)
    (hi : i < Ls.length) :
    readMeta i (Ls, m.tokens ++ rest) = .ok (Ls.set i (withMeta Ls[i] m), rest) := by
  obtain ⟨hr, hp⟩ := hm
  unfold readMeta MetaLine.tokens
  simp only [List.cons_append, List.nil_append]
  rw [readD_cons (hr _ (by simp [MetaLine.tokens])), Outcome.ok_bind]
  simp only []
  rw [readD_cons (hr _ (by simp [MetaLine.tokens])), Outcome.ok_bind]
  simp only []
  rw [readD_cons (hr _ (by simp [MetaLine.tokens])), Outcome.ok_bind]
  simp only []
  rw [readD_cons (hr _ (by simp [MetaLine.tokens])), Outcome.ok_bind]
  simp only []
  rw [readD_cons (hr _ (by simp [MetaLine.tokens])), Outcome.ok_bind]
  simp only []
  rw [checkPara_ok.2 hp, Outcome.ok_bind, List.getElem?_eq_getElem hi]
  rfl

theorem readMeta_inv {Ls : List Layer} {ts : List ℤ} {i : ℕ} {r : List Layer × List ℤ}
    (hi : i < Ls.length) (h : readMeta i (Ls, ts) = .ok r) :
    ∃ (m : MetaLine) (rest : List ℤ), ts = m.tokens ++ rest ∧ m.Ok ∧
      r = (Ls.set i (withMeta Ls[i] m), rest) := by
  have h' := h
  unfold readMeta at h'
  obtain ⟨⟨x1, t1⟩, e1, h'⟩ := Outcome.bind_eq_ok' h'
  obtain ⟨⟨x2, t2⟩, e2, h'⟩ := Outcome.bind_eq_ok' h'
  obtain ⟨⟨x3, t3⟩, e3, h'⟩ := Outcome.bind_eq_ok' h'
  obtain ⟨⟨x4, t4⟩, e4, h'⟩ := Outcome.bind_eq_ok' h'
  obtain ⟨⟨x5, t5⟩, e5, h'⟩ := Outcome.bind_eq_ok' h'
  obtain ⟨_, e6, h'⟩ := Outcome.bind_eq_ok' h'
  obtain ⟨r1, q1⟩ := readD_ok e1
  obtain ⟨r2, q2⟩ := readD_ok e2
  obtain ⟨r3, q3⟩ := readD_ok e3
  obtain ⟨r4, q4⟩ := readD_ok e4
  obtain ⟨r5, q5⟩ := readD_ok e5
  simp only at r1 r2 r3 r4 r5 q1 q2 q3 q4 q5
  have hok : (⟨x1, x2, x3, x4, x5⟩ : MetaLine).Ok := by
    refine ⟨?_, checkPara_ok.1 e6⟩
    simp only [MetaLine.tokens, List.mem_cons, List.not_mem_nil, or_false, forall_eq_or_imp, forall_eq]
    exact ⟨q1, q2, q3, q4, q5⟩
  have hts : ts = (⟨x1, x2, x3, x4, x5⟩ : MetaLine).tokens ++ t5 := by
    rw [r1, r2, r3, r4, r5]; rfl
  refine ⟨_, t5, hts, hok, ?_⟩
  rw [hts, readMeta_ok hok hi] at h
  cases h; rfl

theorem meta_ok (Ls : List Layer) (ms : List MetaLine) (rest : List ℤ) (hm : ∀ m ∈ ms, m.Ok)
    (hlen : Ls.length = ms.length + 1) :
    loopM ms.length (fun k => readMeta (k + 1)) (Ls, ms.flatMap MetaLine.tokens ++ rest)
      = .ok (metaLayers Ls ms ms.length, rest) := by
  obtain ⟨s, hs, e⟩ := loopM_ok (n := ms.length) (b := fun k => readMeta (k + 1))
    (s := (Ls, ms.flatMap MetaLine.tokens ++ rest))
    (fun k s => s = (metaLayers Ls ms k, (ms.drop k).flatMap MetaLine.tokens ++ rest))
    (by rw [metaLayers_zero, List.drop_zero]) (by
      rintro k hk _ rfl
      have hd : ms.drop k = ms[k] :: ms.drop (k + 1) := List.drop_eq_getElem_cons hk
      rw [hd, List.flatMap_cons, List.append_assoc]
      have hl : k + 1 < (metaLayers Ls ms k).length := by simp [metaLayers]; omega
      refine ⟨_, readMeta_ok (hm _ (List.getElem_mem hk)) hl, ?_⟩
      rw [metaLayers_succ _ _ _ (by omega) hk]
      have : (metaLayers Ls ms k)[k + 1] = Ls[k + 1] := by
        have hl' : k + 1 < Ls.length := by omega
        simp [metaLayers, hl']
      rw [this])
  rw [hs, e]
  simp

theorem meta_inv (Ls : List Layer) (d : ℕ) {ts : List ℤ} {r : List Layer × List ℤ}
    (hlen : Ls.length = d + 1)
    (h : loopM d (fun k => readMeta (k + 1)) (Ls, ts) = .ok r) :
    ∃ (ms : List MetaLine) (rest : List ℤ), ms.length = d ∧
      ts = ms.flatMap MetaLine.tokens ++ rest ∧ (∀ m ∈ ms, m.Ok) ∧
      r = (metaLayers Ls ms d, rest) := by
  have key : ∀ k ≤ d, ∀ r, loopM k (fun k => readMeta (k + 1)) (Ls, ts) = .ok r →
      ∃ (ms : List MetaLine) (rest : List ℤ), ms.length = k ∧
        ts = ms.flatMap MetaLine.tokens ++ rest ∧ (∀ m ∈ ms, m.Ok) ∧
        r.2 = rest ∧ r.1.length = Ls.length := by
    intro k
    induction k with
    | zero => intro _ r h; cases h; exact ⟨[], ts, rfl, rfl, by simp, rfl, rfl⟩
    | succ k ih =>
      intro hk r h
      rw [loopM_succ] at h
      obtain ⟨s, e, h⟩ := Outcome.bind_eq_ok h
      obtain ⟨ms, rest, h1, h2, h3, h4, h5⟩ := ih (by omega) s e
      obtain ⟨s1, s2⟩ := s
      obtain ⟨m, rest', g1, g2, g3⟩ := readMeta_inv (by simp only at h5; omega) h
      refine ⟨ms ++ [m], rest', by simp [h1], ?_, ?_, by rw [g3], by rw [g3]; simpa using h5⟩
      · simp only at h4; rw [h2, ← h4, g1]; simp
      · intro x hx
        rcases List.mem_append.1 hx with hx | hx
        · exact h3 x hx
        · rw [List.mem_singleton.1 hx]; exact g2
  obtain ⟨ms, rest, h1, h2, h3, -, -⟩ := key d le_rfl r h
  refine ⟨ms, rest, h1, h2, h3, ?_⟩
  subst h1
  rw [h2, meta_ok Ls ms rest h3 hlen] at h
  cases h; rfl

theorem metaLayers_full (L : Layer) (Ls : List Layer) (ms : List MetaLine) (h : Ls.length = ms.length) :
    metaLayers (L :: Ls) ms ms.length = L :: List.zipWith withMeta Ls ms := by
  apply List.ext_getElem
  · simp [metaLayers, h]
  · intro i h1 h2
    cases i with
    | zero => simp [metaLayers]
    | succ i =>
      have hi : i < ms.length := by simp [metaLayers] at h1; omega
      have hi' : i < Ls.length := by omega
      simp [metaLayers, hi, hi']

theorem layersOf_length (zk : Bool) {f : File} (h : f ≠ []) : (layersOf zk f).length = f.length + 1 := by
  cases f with
  | nil => exact absurd rfl h
  | cons L f => simp [layersOf]

theorem metaLayers_circuit {f : File} {ms : List MetaLine} (h : f ≠ []) (hl : ms.length = f.length) :
    (⟨metaLayers (layersOf true f) ms ms.length⟩ : Circuit) = circuitWithMeta f ms := by
  cases f with
  | nil => exact absurd rfl h
  | cons L f =>
    unfold circuitWithMeta layersOf
    simp only
    rw [metaLayers_full]
    simp at hl ⊢; omega

theorem readPlain_ok (f : File) (rest : List ℤ) (hr : Readable f) (hl : FileOk false f) :
    readPlain (tokens f ++ rest) = .ok (circuitOf false f) := by
  unfold readPlain
  have := readLayers_ok .fastTrack f rest hr hl
  rw [this]; rfl

theorem readZk_ok (f : File) (ms : List MetaLine) (rest rest' : List ℤ) (hr : Readable f)
    (hl : FileOk true f) (hm : ∀ m ∈ ms, m.Ok) (hlen : ms.length = f.length) :
    readZk (tokens f ++ rest) (ms.flatMap MetaLine.tokens ++ rest') = .ok (circuitWithMeta f ms) := by
  unfold readZk
  have := readLayers_ok .zk f rest hr hl
  rw [this, Outcome.ok_bind]
  have e : isZk .zk = true := rfl
  simp only [Int.toNat_natCast, e, ← hlen]
  rw [meta_ok _ ms rest' hm (by rw [layersOf_length _ hr.1, hlen]), Outcome.ok_bind]
  simp only [Outcome.pure_eq]
  rw [metaLayers_circuit hr.1 hlen]

theorem readZk_inv {file metaFile : List ℤ} {C : Circuit} (h : readZk file metaFile = .ok C) :
    ∃ (f : File) (ms : List MetaLine) (rest rest' : List ℤ),
      file = tokens f ++ rest ∧ metaFile = ms.flatMap MetaLine.tokens ++ rest' ∧
      Readable f ∧ FileOk true f ∧ ms.length = f.length ∧ (∀ m ∈ ms, m.Ok) ∧
      C = circuitWithMeta f ms := by
  unfold readZk at h
  obtain ⟨⟨d, layers⟩, e1, h⟩ := Outcome.bind_eq_ok' h
  obtain ⟨f, rest, hf, hr, hl, he⟩ := readLayers_inv e1
  cases he
  simp only [Int.toNat_natCast] at h
  obtain ⟨t, e2, h⟩ := Outcome.bind_eq_ok' h
  obtain ⟨ms, rest', h1, h2, h3, rfl⟩ := meta_inv _ _ (layersOf_length _ hr.1) e2
  refine ⟨f, ms, rest, rest', hf, h2, hr, hl, h1, h3, ?_⟩
  cases h
  rw [← h1, metaLayers_circuit hr.1 h1]

end Libra.Reader
