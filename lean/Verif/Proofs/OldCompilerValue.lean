import Verif.Proofs.OldCompilerFile

/-!
# The older circuit compilers: what the circuits compute
-/

namespace Libra.OldCompiler
open Spec Compiler Reader Libra.Props

theorem Origin.tyOk {P : List Stmt} {W : List RStmt} {k M : ℕ} {g : Node} (h : Origin P W k M g) : TyOk g.ty := by
  unfold TyOk
  cases h with
  | binary op => cases op <;> simp_all [Op.code]
  | _ => simp

theorem Origin.leaf {P : List Stmt} {W : List RStmt} {k M : ℕ} {g : Node} (hW : OldWiringOk W) (h : Origin P W k M g) (h3 : g.ty = 3) :
    g.v = 0 ∧ -2 ^ 63 ≤ g.u ∧ g.u < 2 ^ 63 := by
  cases h with
  | zero => norm_num
  | const t c hc => exact ⟨rfl, hW.consts t c hc⟩
  | input t i x hx => exact ⟨rfl, hW.inputs t i x hx⟩
  | pass => simp at h3
  | unary => simp at h3
  | binary op => cases op <;> simp_all [Op.code]

/-- all steps of the compiler -/
theorem compile_graph {prog : Program} {P : List Stmt} {W : List RStmt} {k : ℕ} (hk : 0 < k) (hW : OldWiringOk W)
    (hd : k ∣ (passes W).length) (hP : OldProgramOk P (passes W).length k) (hprog : prog = .lanczos → OnlyArithmetic P) :
    ∃ (s0 : St) (M : ℕ) (s : St) (t : Names) (n1 D : ℕ) (mx : ℤ), compile prog P W k = .ok (tokens (oldFile s t D)) ∧ 0 < D ∧
      LInv n1 D (n1 + D) 0 s mx ∧ Named s t ∧ PInv P W k M (domOf P) s0 ∧ (∀ l ∈ W, ∀ t, rtarget l = some t → t < M) ∧
      s0.size ≤ s.size ∧ (∀ a < s0.size, (s.node a).id = (s0.node a).id) ∧
      ∀ (F : Type) [CommRing F] (val : ℤ → F), Sat val s → Sat val s0 := by
  obtain ⟨s1, M, e1, h1, i1, hM⟩ := readWiring_ok (P := P) hk hW hd
  obtain ⟨s0, e2, h2⟩ := readCircuit_ok (prog := prog) hP hprog P [] s1 rfl (by
    refine h1.mono (fun t r => ?_)
    simp [domOf]) (by
    rw [i1]
    exact ⟨fun x n hx => by simp [IsInput] at hx, fun op x a b hx => by simp at hx, fun x c hx => by simp at hx⟩)
  obtain ⟨lvl, m, e3, hm, hlev⟩ := topSort_ok h2.graph
  set s2 : St := { s0 with lvl := lvl } with hs2
  have hz := addZeros_ok (s := s2) (m := m)
    ⟨h2.graph.pos, h2.graph.addr, h2.graph.zero, h2.graph.nonneg, fun _ _ => rfl, h2.graph.src, h2.graph.out, h2.graph.some⟩
    hlev hm (fun a ha => (h2.origin a ha).tyOk) (fun a ha h3 => (h2.origin a ha).leaf hW h3)
  have hzi := addZeros_inv s2 (m + 1).toNat
  obtain ⟨mx, hr, hsz, hid, hsat⟩ := addRelays_ok hz hzi.size
  obtain ⟨t, e4, ht⟩ := rename_ok hr
  refine ⟨s0, M, _, t, s2.size, (m + 1).toNat, mx, ?_, by omega, hr, ht, h2, hM, ?_, fun a ha => ?_, fun F _ val hv a ha => ?_⟩
  · unfold compile normalize
    rw [e1, Outcome.ok_bind, e2, Outcome.ok_bind, e3, Outcome.ok_bind]
    dsimp only
    rw [e4, Outcome.ok_bind]
    exact congrArg Outcome.ok (normalized_tokens _ t _)
  · have := hzi.size
    have : s2.size = s0.size := rfl
    omega
  · have hs : s2.size = s0.size := rfl
    rw [hid a (by rw [hzi.size]; omega), hzi.node a ha]
  · have := hsat F val hv a (by rw [hzi.size]; exact Nat.lt_of_lt_of_le ha (Nat.le_add_right _ _))
    rw [hzi.node a ha] at this
    exact this

section
variable {P : List Stmt} {W : List RStmt} {k M : ℕ} {s0 : St} {F : Type} [CommRing F] {val : ℤ → F}

theorem zero_value (h : PInv P W k M (domOf P) s0) (hv : Sat val s0) : val (-1) = 0 := by
  have := hv 0 h.graph.pos
  rw [h.graph.zero] at this
  simpa [Sat1, readNumber, inputNumber, int32] using this

/-- the variables of the wiring file -/
theorem wiring_value (hW : OldWiringOk W) (h : PInv P W k M (domOf P) s0) (hM : ∀ l ∈ W, ∀ t, rtarget l = some t → t < M) (hv : Sat val s0)
    {out v : ℕ → F} (hR : ∀ l ∈ W, RHolds out v l.asRead) : ∀ l ∈ W, ∀ t : ℕ, rtarget l = some t → val (t : ℤ) = v t := by
  have key : ∀ n (hn : n < W.length), ∀ t : ℕ, rtarget W[n] = some t → val (t : ℤ) = v t := by
    intro n
    induction n using Nat.strong_induction_on with
    | _ n ih =>
      intro hn t ht
      have hmem := List.getElem_mem hn
      obtain ⟨a, ha, ida⟩ := h.wired _ hmem t ht
      have hs := hv a ha
      have htM := hM _ hmem t ht
      have ho := h.origin a ha
      generalize s0.node a = g at hs ida ho
      cases ho with
      | zero => simp only at ida; omega
      | const t' c hc =>
        have ett : t' = t := Int.natCast_inj.1 ida
        subst ett
        have := hR _ hc
        rw [show val ((t' : ℕ) : ℤ) = _ from hs, if_pos rfl]
        exact this.symm
      | input t' i x hc =>
        have ett : t' = t := Int.natCast_inj.1 ida
        subst ett
        have := hR _ hc
        rw [show val ((t' : ℕ) : ℤ) = _ from hs, if_pos rfl]
        exact this.symm
      | pass t' a' b' hc =>
        have ett : t' = t := Int.natCast_inj.1 ida
        subst ett
        have hl : W[n] = .pass t' a' b' := rsingle_unique hW.single hmem hc ht rfl
        have hpre : W.take n ++ [.pass t' a' b'] <+: W := by
          rw [← hl, List.take_concat_get' W n hn]
          exact List.take_prefix _ _
        obtain ⟨l, hlm, hla⟩ := hW.order _ _ _ _ hpre
        obtain ⟨i, hi, rfl⟩ := List.getElem_of_mem hlm
        rw [List.length_take] at hi
        rw [List.getElem_take] at hla
        have := ih i (by omega) (by omega) a' hla
        have h0 := zero_value h hv
        have hR' : v t' = v a' := hR _ hc
        rw [hR', ← this]
        simpa [Sat1, gateValue, h0] using hs
      | unary t' a' b' r u => simp only at ida; omega
      | binary op t' a' b' r u v' => simp only at ida; omega
  intro l hl t ht
  obtain ⟨n, hn, rfl⟩ := List.getElem_of_mem hl
  exact key n hn t ht

theorem mem_passes {t : ℕ} (h : t ∈ passes W) : ∃ a b, .pass t a b ∈ W := by
  unfold passes at h
  obtain ⟨l, hl, e⟩ := List.mem_filterMap.1 h
  cases l with
  | pass t' a b =>
    simp only [Option.some.injEq] at e
    subst e
    exact ⟨a, b, hl⟩
  | _ => simp at e

/-- the numbers of operands are determined -/
theorem opnd_unique (hP : OldProgramOk P (passes W).length k) {x r : ℕ} {y y' : ℤ} (h : Opnd P W k M x r y) (h' : Opnd P W k M x r y') : y = y' := by
  have inp : ∀ n, IsInput P x n → ∃ st ∈ P, target st = some x ∧ (st = .input x n ∨ st = .const x (n : ℤ)) := by
    rintro n (h | h)
    · exact ⟨_, h, rfl, Or.inl rfl⟩
    · exact ⟨_, h, rfl, Or.inr rfl⟩
  rcases h with ⟨n, t, h1, h2, rfl⟩ | ⟨⟨op, a, b, h1⟩, rfl⟩
  · rcases h' with ⟨n', t', h1', h2', rfl⟩ | ⟨⟨op, a, b, h1'⟩, rfl⟩
    · obtain ⟨st, m1, m2, m3⟩ := inp n h1
      obtain ⟨st', m1', m2', m3'⟩ := inp n' h1'
      have hst := single_unique hP.single m1 m1' m2 m2'
      have : n = n' := by
        rcases m3 with rfl | rfl <;> rcases m3' with rfl | rfl <;> simp_all
      subst this
      rw [h2] at h2'
      rw [Option.some.inj h2']
    · obtain ⟨st, m1, m2, m3⟩ := inp n h1
      have hst := single_unique hP.single m1 h1' m2 rfl
      rcases m3 with rfl | rfl <;> cases hst
  · rcases h' with ⟨n', t', h1', h2', rfl⟩ | ⟨⟨op, a, b, h1'⟩, rfl⟩
    · obtain ⟨st, m1, m2, m3⟩ := inp n' h1'
      have hst := single_unique hP.single m1 h1 m2 rfl
      rcases m3 with rfl | rfl <;> cases hst
    · rfl

theorem opValue_code (op : Op) (u v : ℤ) (hne : op ≠ .not) : gateValue ⟨(op.code : ℤ), u, v⟩ val = opValue op (val u) (val v) := by
  cases op <;> simp_all [Op.code, gateValue, opValue]

open Classical in
/-- the number of the gate of variable `x` in copy `r` -/
noncomputable def gateNo (P : List Stmt) (W : List RStmt) (k M : ℕ) (r x : ℕ) : ℤ :=
  if h : ∃ y, Opnd P W k M x r y then h.choose else 0

theorem gateNo_eq (hP : OldProgramOk P (passes W).length k) {x r : ℕ} {y : ℤ} (h : Opnd P W k M x r y) : gateNo P W k M r x = y := by
  have hex : ∃ y, Opnd P W k M x r y := ⟨y, h⟩
  rw [gateNo, dif_pos hex]
  exact opnd_unique hP hex.choose_spec h

theorem input_opnd (hP : OldProgramOk P (passes W).length k) {x n r : ℕ} (hr : r < k) (h : IsInput P x n) :
    ∃ t, (passes W)[n * k + r]? = some t ∧ Opnd P W k M x r t := by
  have hn : (n + 1) * k ≤ (passes W).length := by
    rcases h with h | h
    · exact hP.inputs x n h
    · obtain ⟨i, hi, hle⟩ := hP.consts x n h
      have : n = i := by exact_mod_cast hi
      subst this; exact hle
  have hlt : n * k + r < (passes W).length := by
    have : (n + 1) * k = n * k + k := by ring
    omega
  exact ⟨_, List.getElem?_eq_getElem hlt, Or.inl ⟨n, _, h, List.getElem?_eq_getElem hlt, rfl⟩⟩

/-- every variable has a gate -/
theorem gateNo_gate (hP : OldProgramOk P (passes W).length k) (h : PInv P W k M (domOf P) s0) {r : ℕ} (hr : r < k) {st : Stmt} (hst : st ∈ P)
    {t : ℕ} (ht : target st = some t) : ∃ a < s0.size, (s0.node a).id = gateNo P W k M r t := by
  have inp : ∀ n, IsInput P t n → ∃ a < s0.size, (s0.node a).id = gateNo P W k M r t := by
    intro n hn
    obtain ⟨t', h1, h2⟩ := input_opnd (M := M) hP hr hn
    obtain ⟨a, b, hp⟩ := mem_passes (List.mem_of_getElem? h1)
    obtain ⟨c, hc, e⟩ := h.wired _ hp t' rfl
    exact ⟨c, hc, by rw [e, gateNo_eq hP h2]⟩
  cases st with
  | gate op t' a b =>
    cases ht
    obtain ⟨c, hc, -, e⟩ := h.copies t r ⟨op, a, b, hst⟩ hr
    exact ⟨c, hc, by rw [e]; exact (gateNo_eq hP (Or.inr ⟨⟨op, a, b, hst⟩, rfl⟩)).symm⟩
  | sum t a b => exact absurd hst (hP.lines t a b).1
  | expSum t a b => exact absurd hst (hP.lines t a b).2.1
  | bit t a b => exact absurd hst (hP.lines t a b).2.2
  | input t' i => cases ht; exact inp i (Or.inl hst)
  | output o a => cases ht
  | const t' c =>
    cases ht
    obtain ⟨i, rfl, -⟩ := hP.consts t c hst
    exact inp i (Or.inr hst)

/-- the values of the circuit satisfy the program -/
theorem program_value (hW : OldWiringOk W) (hP : OldProgramOk P (passes W).length k) (h : PInv P W k M (domOf P) s0)
    (hM : ∀ l ∈ W, ∀ t, rtarget l = some t → t < M) (hv : Sat val s0)
    {out v : ℕ → F} (hR : ∀ l ∈ W, RHolds out v l.asRead) {r : ℕ} (hr : r < k) :
    ∀ st ∈ P, HoldsOld (copyInput W k v r) (fun x => val (gateNo P W k M r x)) st := by
  have hwv := wiring_value hW h hM hv hR
  have inp : ∀ t n, IsInput P t n → val (gateNo P W k M r t) = copyInput W k v r n := by
    intro t n hn
    obtain ⟨t', h1, h2⟩ := input_opnd (M := M) hP hr hn
    obtain ⟨a, b, hp⟩ := mem_passes (List.mem_of_getElem? h1)
    rw [gateNo_eq hP h2, hwv _ hp t' rfl, copyInput, List.getD_eq_getElem?_getD, h1]
    rfl
  intro st hst
  cases st with
  | gate op t a b =>
    change val (gateNo P W k M r t) = opValue op (val (gateNo P W k M r a)) (val (gateNo P W k M r b))
    rw [gateNo_eq hP (Or.inr ⟨⟨op, a, b, hst⟩, rfl⟩)]
    obtain ⟨c, hc, -, e⟩ := h.copies t r ⟨op, a, b, hst⟩ hr
    have hs := hv c hc
    have ho := h.origin c hc
    have hlow : ∀ l ∈ W, ∀ t', rtarget l = some t' → (t' : ℤ) ≠ ((t * k + r + M : ℕ) : ℤ) := by
      intro l hl t' ht' e'
      have := hM l hl t' ht'
      omega
    generalize s0.node c = g at hs e ho
    cases ho with
    | zero => simp only at e; omega
    | const t' c' hc' => exact absurd e (hlow _ hc' t' rfl)
    | input t' i x hc' => exact absurd e (hlow _ hc' t' rfl)
    | pass t' a' b' hc' => exact absurd e (hlow _ hc' t' rfl)
    | unary t' a' b' r' u hg hr' hu =>
      obtain ⟨rfl, rfl⟩ := copy_inj (M := M) hr' hr (Int.natCast_inj.1 e)
      have hst' := single_unique hP.single hg hst rfl rfl
      cases hst'
      rw [gateNo_eq hP hu]
      simpa [Sat1, gateValue, opValue] using hs
    | binary op' t' a' b' r' u v' hg hne hr' hu hv' =>
      obtain ⟨rfl, rfl⟩ := copy_inj (M := M) hr' hr (Int.natCast_inj.1 e)
      have hst' := single_unique hP.single hg hst rfl rfl
      cases hst'
      rw [gateNo_eq hP hu, gateNo_eq hP hv', ← opValue_code _ _ _ hne]
      have h3 : (op.code : ℤ) ≠ 3 := by cases op <;> simp [Op.code]
      unfold Sat1 at hs
      dsimp only at hs
      rw [if_neg h3] at hs
      exact hs
  | sum t a b => exact absurd hst (hP.lines t a b).1
  | expSum t a b => exact absurd hst (hP.lines t a b).2.1
  | bit t a b => exact absurd hst (hP.lines t a b).2.2
  | input t i => exact inp t i (Or.inl hst)
  | output o a => trivial
  | const t c =>
    obtain ⟨i, rfl, -⟩ := hP.consts t c hst
    change val (gateNo P W k M r t) = copyInput W k v r ((i : ℤ).toNat)
    rw [Int.toNat_natCast]
    exact inp t i (Or.inr hst)

end

/-- the lines determine the variables -/
theorem old_unique {P : List Stmt} {n k : ℕ} (hP : OldProgramOk P n k) {F : Type} [CommRing F] {inp w w' : ℕ → F}
    (h : ∀ st ∈ P, HoldsOld inp w st) (h' : ∀ st ∈ P, HoldsOld inp w' st) : ∀ st ∈ P, ∀ t, target st = some t → w t = w' t := by
  have key : ∀ n (hn : n < P.length), ∀ t, target P[n] = some t → w t = w' t := by
    intro n
    induction n using Nat.strong_induction_on with
    | _ n ih =>
      intro hn t ht
      have hmem := List.getElem_mem hn
      have h1 := h _ hmem
      have h2 := h' _ hmem
      have hpre : P.take n ++ [P[n]] <+: P := by
        rw [List.take_concat_get' P n hn]
        exact List.take_prefix _ _
      have prev : ∀ a, (∃ s ∈ P.take n, target s = some a) → w a = w' a := by
        rintro a ⟨l, hlm, hla⟩
        obtain ⟨i, hi, rfl⟩ := List.getElem_of_mem hlm
        rw [List.length_take] at hi
        rw [List.getElem_take] at hla
        exact ih i (by omega) (by omega) a hla
      generalize P[n] = st at ht hmem h1 h2 hpre
      cases st with
      | gate op t' a b =>
        cases ht
        obtain ⟨o1, o2⟩ := hP.order _ _ _ _ _ hpre
        have h1 : w t = opValue op (w a) (w b) := h1
        have h2 : w' t = opValue op (w' a) (w' b) := h2
        rw [h1, h2, prev a o1]
        by_cases hn : op = .not
        · subst hn; rfl
        · rw [prev b (o2 hn)]
      | sum t a b => exact absurd hmem (hP.lines t a b).1
      | expSum t a b => exact absurd hmem (hP.lines t a b).2.1
      | bit t a b => exact absurd hmem (hP.lines t a b).2.2
      | input t' i => cases ht; exact Eq.trans h1 (Eq.symm h2)
      | output o a => cases ht
      | const t' c => cases ht; exact Eq.trans h1 (Eq.symm h2)
  intro st hst t ht
  obtain ⟨i, hi, rfl⟩ := List.getElem_of_mem hst
  exact key i hi t ht

end Libra.OldCompiler
