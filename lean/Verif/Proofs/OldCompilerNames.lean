import Verif.Proofs.OldCompilerRelay
import Verif.Proofs.Outcome
import Mathlib.Data.List.Sort

/-!
# The older circuit compilers: the numbers of the gates within their layers
-/

namespace Libra.OldCompiler
open Spec Compiler

theorem mem_layer {s : St} {l a : ℕ} : a ∈ layer s l ↔ a < s.size ∧ s.lvl a = l := by
  unfold layer
  rw [List.mem_insertionSort]
  simp

theorem nodup_layer (s : St) (l : ℕ) : (layer s l).Nodup := by
  unfold layer
  exact (List.perm_insertionSort _ _).nodup_iff.2 (List.nodup_range.filter _)

/-- the number of a gate within its layer -/
def pos (s : St) (a : ℕ) : ℕ := (layer s (s.lvl a).toNat).idxOf a

theorem pos_lt {s : St} {a : ℕ} (ha : a < s.size) (hl : 0 ≤ s.lvl a) : pos s a < (layer s (s.lvl a).toNat).length :=
  List.idxOf_lt_length_of_mem (mem_layer.2 ⟨ha, by omega⟩)

theorem pos_getElem {s : St} {l j : ℕ} (hj : j < (layer s l).length) : pos s (layer s l)[j] = j := by
  have := (mem_layer.1 (List.getElem_mem hj)).2
  unfold pos
  rw [this, Int.toNat_natCast]
  exact (nodup_layer s l).idxOf_getElem j hj

theorem places_fold (f : ℕ → ℤ) (a : ℕ) (L : List ℕ) (hinj : ∀ b ∈ L, f b = f a → b = a) (m : ℤ → Option ℕ)
    (h : a ∈ L ∨ m (f a) = some a) : (L.foldl (fun m a => Function.update m (f a) (some a)) m) (f a) = some a := by
  induction L generalizing m with
  | nil => exact h.resolve_left List.not_mem_nil
  | cons b L ih =>
    rw [List.foldl_cons]
    refine ih (fun c hc => hinj c (List.mem_cons_of_mem _ hc)) _ ?_
    by_cases e : f b = f a
    · right
      rw [e, Function.update_self, hinj b List.mem_cons_self e]
    · rcases h with h | h
      · rcases List.mem_cons.1 h with rfl | h
        · exact absurd rfl e
        · exact Or.inl h
      · exact Or.inr (by rw [Function.update_of_ne (fun e' => e e'.symm), h])

theorem places_ok {s : St} {D a : ℕ} (hinj : ∀ a < s.size, ∀ b < s.size, (s.node a).id = (s.node b).id → a = b)
    (ha : a < s.size) (h0 : 0 ≤ s.lvl a) (hD : s.lvl a < D) : places s D (s.node a).id = some a := by
  have key : ∀ n : ℕ, s.lvl a < n →
      loop n (fun l m => (layer s l).foldl (fun m a => Function.update m (s.node a).id (some a)) m) (fun _ => none) (s.node a).id = some a := by
    intro n
    induction n with
    | zero => intro h; omega
    | succ n ih =>
      intro h
      rw [loop]
      refine places_fold (fun a => (s.node a).id) a _ (fun b hb e => hinj b (mem_layer.1 hb).1 a ha e) _ ?_
      by_cases e : s.lvl a = n
      · exact Or.inl (mem_layer.2 ⟨ha, e⟩)
      · exact Or.inr (ih (by push_cast at h; omega))
  exact key D hD

/-- The operands `u`, originally `orig`, when the edges `E` have been treated -/
def Traced (s : St) (E : ℕ → ℤ → Prop) (orig u : ℕ → ℤ) (um : ℕ → Bool) : Prop := ∀ b < s.size,
  (um b = true ∧ ∃ a < s.size, E a (s.node b).id ∧ orig b = (s.node a).id ∧ u b = pos s a) ∨
  (um b = false ∧ u b = orig b ∧ ∀ a < s.size, E a (s.node b).id → orig b ≠ (s.node a).id)

theorem Traced.congr {s : St} {E E' : ℕ → ℤ → Prop} {orig u : ℕ → ℤ} {um : ℕ → Bool} (h : Traced s E orig u um)
    (hE : ∀ a < s.size, ∀ x, E a x ↔ E' a x) : Traced s E' orig u um := by
  intro b hb
  rcases h b hb with ⟨h1, a, ha, h2, h3⟩ | ⟨h1, h2, h3⟩
  · exact Or.inl ⟨h1, a, ha, (hE a ha _).1 h2, h3⟩
  · exact Or.inr ⟨h1, h2, fun a ha h => h3 a ha ((hE a ha _).2 h)⟩

theorem Traced.step {s : St} {E : ℕ → ℤ → Prop} {orig u : ℕ → ℤ} {um : ℕ → Bool} (h : Traced s E orig u um)
    (hinj : ∀ a < s.size, ∀ b < s.size, (s.node a).id = (s.node b).id → a = b) {a b : ℕ} (ha : a < s.size) (hb : b < s.size) :
    Traced s (fun a' x => E a' x ∨ a' = a ∧ x = (s.node b).id) orig
      (if u b = (s.node a).id ∧ um b = false then Function.update u b (pos s a) else u)
      (if u b = (s.node a).id ∧ um b = false then Function.update um b true else um) := by
  intro c hc
  by_cases e : c = b
  · subst e
    rcases h c hc with ⟨h1, a', ha', h2, h3⟩ | ⟨h1, h2, h3⟩
    · rw [if_neg (by rw [h1]; simp), if_neg (by rw [h1]; simp)]
      exact Or.inl ⟨h1, a', ha', Or.inl h2, h3⟩
    · by_cases e : u c = (s.node a).id
      · rw [if_pos ⟨e, h1⟩, if_pos ⟨e, h1⟩, Function.update_self, Function.update_self]
        exact Or.inl ⟨rfl, a, ha, Or.inr ⟨rfl, rfl⟩, by rw [← h2, e], rfl⟩
      · rw [if_neg (fun hh => e hh.1), if_neg (fun hh => e hh.1)]
        refine Or.inr ⟨h1, h2, fun a' ha' hE => ?_⟩
        rcases hE with hE | ⟨rfl, -⟩
        · exact h3 a' ha' hE
        · rw [← h2]; exact e
  · have hu : (if u b = (s.node a).id ∧ um b = false then Function.update u b (pos s a : ℤ) else u) c = u c := by
      split
      · rw [Function.update_of_ne e]
      · rfl
    have hum : (if u b = (s.node a).id ∧ um b = false then Function.update um b true else um) c = um c := by
      split
      · rw [Function.update_of_ne e]
      · rfl
    rw [hu, hum]
    rcases h c hc with ⟨h1, a', ha', h2, h3⟩ | ⟨h1, h2, h3⟩
    · exact Or.inl ⟨h1, a', ha', Or.inl h2, h3⟩
    · refine Or.inr ⟨h1, h2, fun a' ha' hE => ?_⟩
      rcases hE with hE | ⟨-, hE⟩
      · exact h3 a' ha' hE
      · exact absurd (hinj c hc b hb hE) e

/-- the numbers when the gates `Dn` have been given their numbers and the edges `E` have been treated -/
structure NInv (s : St) (Dn : ℕ → Prop) (E : ℕ → ℤ → Prop) (t : Names) : Prop where
  done : ∀ a < s.size, Dn a → t.id a = pos s a
  todo : ∀ a < s.size, ¬ Dn a → t.id a = (s.node a).id
  u : Traced s E (fun a => (s.node a).u) t.u t.um
  v : Traced s E (fun a => (s.node a).v) t.v t.vm

theorem NInv.congr {s : St} {Dn Dn' : ℕ → Prop} {E E' : ℕ → ℤ → Prop} {t : Names} (h : NInv s Dn E t)
    (hD : ∀ a < s.size, Dn a ↔ Dn' a) (hE : ∀ a < s.size, ∀ x, E a x ↔ E' a x) : NInv s Dn' E' t :=
  ⟨fun a ha h' => h.done a ha ((hD a ha).2 h'), fun a ha h' => h.todo a ha (fun h'' => h' ((hD a ha).1 h'')),
    h.u.congr hE, h.v.congr hE⟩

theorem renameOutput_eq {place : ℤ → Option ℕ} {old new x : ℤ} {b : ℕ} {t : Names} (hp : place x = some b) :
    renameOutput place old new t x = .ok
      { id := t.id
        u := if t.u b = old ∧ t.um b = false then Function.update t.u b new else t.u
        um := if t.u b = old ∧ t.um b = false then Function.update t.um b true else t.um
        v := if t.v b = old ∧ t.vm b = false then Function.update t.v b new else t.v
        vm := if t.v b = old ∧ t.vm b = false then Function.update t.vm b true else t.vm } := by
  unfold renameOutput
  rw [hp]
  dsimp only
  by_cases h1 : t.u b = old ∧ t.um b = false
  · simp only [if_pos h1]
    by_cases h2 : t.v b = old ∧ t.vm b = false
    · simp only [if_pos h2]
    · simp only [if_neg h2]
  · simp only [if_neg h1]
    by_cases h2 : t.v b = old ∧ t.vm b = false
    · simp only [if_pos h2]
    · simp only [if_neg h2]

/-- the outputs of a gate -/
theorem renameOutputs_ok {s : St} {D : ℕ} (hinj : ∀ a < s.size, ∀ b < s.size, (s.node a).id = (s.node b).id → a = b)
    (hlvl : ∀ a < s.size, 0 ≤ s.lvl a ∧ s.lvl a < D) {a : ℕ} (ha : a < s.size) {Dn : ℕ → Prop}
    (L : List ℤ) (hL : ∀ x ∈ L, ∃ b < s.size, (s.node b).id = x) (E : ℕ → ℤ → Prop) (t : Names) (h : NInv s Dn E t) :
    ∃ t', L.foldlM (renameOutput (places s D) (s.node a).id (pos s a)) t = .ok t' ∧
      NInv s Dn (fun a' x => E a' x ∨ a' = a ∧ x ∈ L) t' := by
  induction L generalizing E t with
  | nil => exact ⟨t, rfl, h.congr (fun _ _ => Iff.rfl) (fun _ _ _ => by simp)⟩
  | cons x L ih =>
    obtain ⟨b, hb, rfl⟩ := hL x List.mem_cons_self
    rw [List.foldlM_cons, renameOutput_eq (places_ok hinj hb (hlvl b hb).1 (hlvl b hb).2)]
    have h1 : NInv s Dn (fun a' x => E a' x ∨ a' = a ∧ x = (s.node b).id)
        { id := t.id
          u := if t.u b = (s.node a).id ∧ t.um b = false then Function.update t.u b (pos s a) else t.u
          um := if t.u b = (s.node a).id ∧ t.um b = false then Function.update t.um b true else t.um
          v := if t.v b = (s.node a).id ∧ t.vm b = false then Function.update t.v b (pos s a) else t.v
          vm := if t.v b = (s.node a).id ∧ t.vm b = false then Function.update t.vm b true else t.vm } :=
      ⟨h.done, h.todo, h.u.step hinj ha hb, h.v.step hinj ha hb⟩
    obtain ⟨t', e, ht'⟩ := ih (fun x hx => hL x (List.mem_cons_of_mem _ hx)) _ _ h1
    refine ⟨t', e, ht'.congr (fun _ _ => Iff.rfl) (fun a' _ x => ?_)⟩
    rw [List.mem_cons]
    tauto

/-- gate `j` of layer `l` -/
theorem renameGate_ok {s : St} {D : ℕ} (hinj : ∀ a < s.size, ∀ b < s.size, (s.node a).id = (s.node b).id → a = b)
    (hlvl : ∀ a < s.size, 0 ≤ s.lvl a ∧ s.lvl a < D) (hout : ∀ a < s.size, ∀ x ∈ s.outs a, ∃ b < s.size, (s.node b).id = x)
    {l j : ℕ} (hj : j < (layer s l).length) {t : Names}
    (h : NInv s (fun a => s.lvl a < l ∨ s.lvl a = l ∧ pos s a < j)
      (fun a x => (s.lvl a < l ∨ s.lvl a = l ∧ pos s a < j) ∧ x ∈ s.outs a) t) :
    ∃ t', renameGate s (places s D) (layer s l) j t = .ok t' ∧
      NInv s (fun a => s.lvl a < l ∨ s.lvl a = l ∧ pos s a < j + 1)
        (fun a x => (s.lvl a < l ∨ s.lvl a = l ∧ pos s a < j + 1) ∧ x ∈ s.outs a) t' := by
  obtain ⟨ha, hal⟩ := mem_layer.1 (List.getElem_mem hj)
  have hpos := pos_getElem hj
  set a := (layer s l)[j] with hadef
  have hold : t.id a = (s.node a).id := h.todo a ha (by rintro (h | ⟨-, h⟩) <;> omega)
  have huniq : ∀ c < s.size, s.lvl c = l → pos s c = j → c = a := by
    intro c hc hcl hcp
    have hm : c ∈ layer s l := mem_layer.2 ⟨hc, hcl⟩
    obtain ⟨n, hn, rfl⟩ := List.getElem_of_mem hm
    rw [pos_getElem hn] at hcp
    subst hcp; rfl
  have hdn : ∀ c < s.size, (s.lvl c < l ∨ s.lvl c = l ∧ pos s c < j + 1) ↔ ((s.lvl c < l ∨ s.lvl c = l ∧ pos s c < j) ∨ c = a) := by
    intro c hc
    constructor
    · rintro (h | ⟨h1, h2⟩)
      · exact Or.inl (Or.inl h)
      · by_cases e : pos s c = j
        · exact Or.inr (huniq c hc h1 e)
        · exact Or.inl (Or.inr ⟨h1, by omega⟩)
    · rintro ((h | ⟨h1, h2⟩) | rfl)
      · exact Or.inl h
      · exact Or.inr ⟨h1, by omega⟩
      · exact Or.inr ⟨hal, by omega⟩
  have h1 : NInv s (fun a => s.lvl a < l ∨ s.lvl a = l ∧ pos s a < j + 1)
      (fun a x => (s.lvl a < l ∨ s.lvl a = l ∧ pos s a < j) ∧ x ∈ s.outs a) { t with id := Function.update t.id a j } := by
    refine ⟨fun c hc hD => ?_, fun c hc hD => ?_, h.u, h.v⟩
    · rcases (hdn c hc).1 hD with hD | rfl
      · have hne : c ≠ a := by
          rintro rfl
          rcases hD with h | ⟨-, h⟩ <;> omega
        dsimp only
        rw [Function.update_of_ne hne]; exact h.done c hc hD
      · dsimp only
        rw [Function.update_self, hpos]
    · have hD' := (not_congr (hdn c hc)).1 hD
      dsimp only
      rw [Function.update_of_ne (fun e => hD' (Or.inr e))]
      exact h.todo c hc (fun h => hD' (Or.inl h))
  obtain ⟨t', e, ht'⟩ := renameOutputs_ok hinj hlvl ha (s.outs a) (hout a ha) _ _ h1
  refine ⟨t', ?_, ht'.congr (fun _ _ => Iff.rfl) (fun c hc x => ?_)⟩
  · unfold renameGate
    rw [List.getElem?_eq_getElem hj]
    change (s.outs a).foldlM (renameOutput (places s D) (t.id a) j) _ = _
    rw [hold, ← e, hpos]
  · rw [hdn c hc]
    constructor
    · rintro (⟨h1, h2⟩ | ⟨rfl, h2⟩)
      · exact ⟨Or.inl h1, h2⟩
      · exact ⟨Or.inr rfl, h2⟩
    · rintro ⟨h1 | rfl, h2⟩
      · exact Or.inl ⟨h1, h2⟩
      · exact Or.inr ⟨rfl, h2⟩

theorem rename_inv {s : St} {D : ℕ} (hinj : ∀ a < s.size, ∀ b < s.size, (s.node a).id = (s.node b).id → a = b)
    (hlvl : ∀ a < s.size, 0 ≤ s.lvl a ∧ s.lvl a < D) (hout : ∀ a < s.size, ∀ x ∈ s.outs a, ∃ b < s.size, (s.node b).id = x) :
    ∃ t, rename s D = .ok t ∧ NInv s (fun _ => True) (fun a x => x ∈ s.outs a) t := by
  have inner : ∀ (l : ℕ) (t : Names), NInv s (fun a => s.lvl a < l) (fun a x => s.lvl a < l ∧ x ∈ s.outs a) t → ∀ n ≤ (layer s l).length,
      ∃ t', loopM n (renameGate s (places s D) (layer s l)) t = .ok t' ∧
      NInv s (fun a => s.lvl a < l ∨ s.lvl a = l ∧ pos s a < n) (fun a x => (s.lvl a < l ∨ s.lvl a = l ∧ pos s a < n) ∧ x ∈ s.outs a) t' := by
    intro l t h n
    induction n with
    | zero => exact fun _ => ⟨t, rfl, h.congr (fun _ _ => by simp) (fun _ _ _ => by simp)⟩
    | succ n ih =>
      intro hn
      obtain ⟨t1, e1, h1⟩ := ih (by omega)
      obtain ⟨t2, e2, h2⟩ := renameGate_ok hinj hlvl hout (by omega) h1
      exact ⟨t2, by rw [loopM_succ, e1]; exact e2, h2⟩
  have outer : ∀ n : ℕ, ∃ t, loopM n (fun l t => loopM (layer s l).length (renameGate s (places s D) (layer s l)) t)
      ⟨fun a => (s.node a).id, fun a => (s.node a).u, fun a => (s.node a).v, fun _ => false, fun _ => false⟩ = .ok t ∧
      NInv s (fun a => s.lvl a < n) (fun a x => s.lvl a < n ∧ x ∈ s.outs a) t := by
    intro n
    induction n with
    | zero =>
      refine ⟨_, rfl, ⟨fun a ha h => ?_, fun _ _ _ => rfl, fun b _ => Or.inr ⟨rfl, rfl, fun a ha h => ?_⟩,
        fun b _ => Or.inr ⟨rfl, rfl, fun a ha h => ?_⟩⟩⟩
      · have := (hlvl a ha).1; push_cast at h; omega
      · have := (hlvl a ha).1; have := h.1; push_cast at this; omega
      · have := (hlvl a ha).1; have := h.1; push_cast at this; omega
    | succ n ih =>
      obtain ⟨t1, e1, h1⟩ := ih
      obtain ⟨t2, e2, h2⟩ := inner n t1 h1 _ le_rfl
      refine ⟨t2, by rw [loopM_succ, e1]; exact e2, ?_⟩
      have hd : ∀ a < s.size, (s.lvl a < n ∨ s.lvl a = n ∧ pos s a < (layer s n).length) ↔ s.lvl a < ((n + 1 : ℕ) : ℤ) := by
        intro a ha
        constructor
        · rintro (h | ⟨h, -⟩) <;> (push_cast; omega)
        · intro h
          push_cast at h
          by_cases e : s.lvl a = n
          · refine Or.inr ⟨e, ?_⟩
            have := pos_lt ha (hlvl a ha).1
            rw [e, Int.toNat_natCast] at this
            exact this
          · exact Or.inl (by omega)
      exact h2.congr hd (fun a ha x => by rw [hd a ha])
  obtain ⟨t, e, h⟩ := outer D
  exact ⟨t, e, h.congr (fun a ha => by simp [(hlvl a ha).2]) (fun a ha x => by simp [(hlvl a ha).2])⟩

/-- the numbers at the end -/
structure Named (s : St) (t : Names) : Prop where
  id : ∀ a < s.size, t.id a = pos s a
  leaf : ∀ b < s.size, (s.node b).ty = 3 → t.u b = (s.node b).u ∧ t.v b = (s.node b).v
  u : ∀ b < s.size, (s.node b).ty ≠ 3 → ∃ a < s.size, (s.node a).id = (s.node b).u ∧ s.lvl b = s.lvl a + 1 ∧ t.u b = pos s a
  v : ∀ b < s.size, (s.node b).ty ≠ 3 →
    (∃ a < s.size, (s.node a).id = (s.node b).v ∧ s.lvl b = s.lvl a + 1 ∧ t.v b = pos s a) ∨ (s.node b).ty = 6 ∧ t.v b = 0

theorem rename_ok {n1 D : ℕ} {s : St} {mx : ℤ} (h : LInv n1 D (n1 + D) 0 s mx) : ∃ t, rename s D = .ok t ∧ Named s t := by
  have hinj : ∀ a < s.size, ∀ b < s.size, (s.node a).id = (s.node b).id → a = b := fun a ha b hb e => h.inj ha hb e
  obtain ⟨t, e, ht⟩ := rename_inv hinj h.lvls (fun a ha x hx => by
    obtain ⟨b, hb, e, -⟩ := h.out a ha x hx
    exact ⟨b, hb, e⟩)
  have noedge : ∀ b < s.size, (s.node b).ty = 3 → ∀ a < s.size, (s.node b).id ∉ s.outs a := by
    intro b hb h3 a ha hmem
    obtain ⟨c, hc, e, hc3⟩ := h.out a ha _ hmem
    exact hc3 (by rw [h.inj hc hb e]; exact h3)
  have adj : ∀ a < s.size, ∀ b < s.size, (s.node b).id ∈ s.outs a → s.lvl b = s.lvl a + 1 := by
    intro a ha b hb hmem
    obtain ⟨j, hj⟩ := List.mem_iff_getElem?.1 hmem
    rcases h.adj a ha j b hb hj with h1 | ⟨-, h2, h3, -⟩
    · exact h1
    · omega
  refine ⟨t, e, fun a ha => ht.done a ha trivial, fun b hb h3 => ⟨?_, ?_⟩, fun b hb h3 => ?_, fun b hb h3 => ?_⟩
  · rcases ht.u b hb with ⟨-, a, ha, h1, -⟩ | ⟨-, h2, -⟩
    · exact absurd h1 (noedge b hb h3 a ha)
    · exact h2
  · rcases ht.v b hb with ⟨-, a, ha, h1, -⟩ | ⟨-, h2, -⟩
    · exact absurd h1 (noedge b hb h3 a ha)
    · exact h2
  · rcases ht.u b hb with ⟨-, a, ha, h1, h2, h4⟩ | ⟨-, h2, h4⟩
    · exact ⟨a, ha, h2.symm, adj a ha b hb h1, h4⟩
    · obtain ⟨a, ha, e1, -, e2⟩ := (h.src b hb h3).1.done
      exact absurd e1.symm (h4 a ha e2)
  · rcases ht.v b hb with ⟨-, a, ha, h1, h2, h4⟩ | ⟨-, h2, h4⟩
    · exact Or.inl ⟨a, ha, h2.symm, adj a ha b hb h1, h4⟩
    · rcases (h.src b hb h3).2 with ho | ⟨h6, h0⟩
      · obtain ⟨a, ha, e1, -, e2⟩ := ho.done
        exact absurd e1.symm (h4 a ha e2)
      · exact Or.inr ⟨h6, by rw [h2]; exact h0⟩

end Libra.OldCompiler
