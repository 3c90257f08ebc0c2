import Verif.Model.TradReader
import Verif.Spec.TradFile
import Verif.Proofs.ReaderEval

/-!
# The readers of the traditional protocols
-/

namespace Libra.TradReader
open Libra.Spec Reader

/-- the gate of a line -/
def gate (l : Line) : Gate := ⟨l.ty, l.u, l.v⟩

/-- the state of the loop over the gates after the lines `L` -/
def st (m : ℕ) (L : List Line) (rest : List ℤ) : GateLoop where
  block := padTo m (L.map gate)
  previousG := (L.length : ℤ) - 1
  rest := rest

theorem readLine_step {s : GateLoop} {l : Line} {rest : List ℤ} (hr : l.Ints)
    (hs : s.rest = l.tokens ++ rest) :
    readLine s = (store s.block l.g (gate l)).bind (fun block => .ok ⟨block, l.g, rest⟩) := by
  obtain ⟨h1, h2, h3, h4⟩ := hr
  unfold readLine
  rw [hs]
  simp only [Line.tokens, List.cons_append, List.nil_append]
  rw [readD_cons h1, Outcome.ok_bind]
  simp only [readD_cons h2, readD_cons h3, readD_cons h4, Outcome.ok_bind]
  rfl

theorem readLine_ok {m : ℕ} {L : List Line} {rest : List ℤ} {l : Line} (hr : l.Ints)
    (hm : L.length < m) (hg : l.g = L.length) :
    readLine (st m L (l.tokens ++ rest)) = .ok (st m (L ++ [l]) rest) := by
  rw [readLine_step hr rfl]
  have e : store (st m L (l.tokens ++ rest)).block l.g (gate l) = .ok (padTo m ((L ++ [l]).map gate)) := by
    rw [List.map_append]
    exact store_padTo _ (by simpa using hg) (by simpa using hm)
  rw [e]
  simp [Outcome.bind, st, hg]

theorem gates_ok {m : ℕ} (L : List Line) (rest : List ℤ) (hr : ∀ l ∈ L, l.Ints) (hm : L.length ≤ m)
    (hl : Numbered L) :
    loopM L.length (fun _ => readLine) (st m [] (L.flatMap Line.tokens ++ rest)) = .ok (st m L rest) := by
  induction L using List.reverseRecOn generalizing rest with
  | nil => rfl
  | append_singleton L l ih =>
    rw [List.length_append, List.length_singleton, loopM_succ, List.flatMap_append, List.append_assoc]
    rw [List.length_append, List.length_singleton] at hm
    have ih' := ih ([l].flatMap Line.tokens ++ rest) (fun x hx => hr x (by simp [hx])) (by omega) (by
      intro k hk
      have := hl k (by simp; omega)
      rwa [List.getElem_append_left hk] at this)
    rw [ih', Outcome.bind_ok]
    have hll := hl L.length (by simp)
    rw [List.getElem_append_right (le_refl _)] at hll
    simp only [Nat.sub_self, List.getElem_cons_zero] at hll
    simp only [List.flatMap_cons, List.flatMap_nil, List.append_nil]
    exact readLine_ok (hr l (by simp)) (by omega) hll

theorem tradLayerOf_eq (L : List Line) :
    tradLayerOf L = { gates := if L.length = 1 then padTo 2 (L.map gate ++ [⟨2, 0, 0⟩])
                               else padTo L.length (L.map gate)
                      bitLength := width L.length } := by
  unfold tradLayerOf
  congr 1
  split_ifs with h
  · rw [padTo_full (by simp [h])]; simp [gate]
  · rw [padTo_full (by simp)]; simp [gate]

theorem finishLayer_ok (layers : List Layer) (L : List Line) (rest : List ℤ)
    (h1 : L ≠ []) (h2 : L.length ≤ 2 ^ 30) :
    finishLayer L.length layers (st (positions L.length) L rest) = .ok (layers ++ [tradLayerOf L], rest) := by
  have hpos : 1 ≤ L.length := List.length_pos_iff.2 h1
  have hpg : (st (positions L.length) L rest).previousG = ((L.length - 1 : ℕ) : ℤ) := by
    simp only [st]; omega
  unfold finishLayer
  rw [hpg]
  simp only [Int.toNat_natCast, countShifts_eq, size_pred _ hpos, Nat.size_pow]
  have hneg : ¬ ((L.length - 1 : ℕ) : ℤ) < 0 := by omega
  have hcl : ¬ 31 ≤ Nat.clog 2 L.length := by
    have := Nat.clog_le_of_le_pow (b := 2) h2
    omega
  rw [if_neg hneg, if_neg hcl]
  have hlen : ((L.length : ℤ) = 1) ↔ L.length = 1 := by omega
  simp only [hlen]
  by_cases hone : L.length = 1
  · have hm : positions L.length = 2 := by simp [positions, hone]
    rw [if_pos hone, hm]
    have hcl0 : Nat.clog 2 L.length = 0 := by rw [hone]; rfl
    have hg : (((2 ^ Nat.clog 2 L.length : ℕ)) : ℤ) = 1 := by rw [hcl0]; rfl
    have hw : Nat.clog 2 L.length + 1 = width L.length := by rw [hcl0, hone]; rfl
    have e1 : store (st 2 L rest).block ((2 ^ Nat.clog 2 L.length : ℕ) : ℤ) ⟨2, 0, 0⟩
        = .ok (padTo 2 (L.map gate ++ [⟨2, 0, 0⟩])) := by
      rw [hg]
      exact store_padTo _ (by simp [hone]) (by simp [hone])
    rw [e1, tradLayerOf_eq, if_pos hone, hw]
    rfl
  · have hm : positions L.length = L.length := by simp [positions, hone]
    rw [if_neg hone, hm]
    have hw : Nat.clog 2 L.length + 1 - 1 = width L.length := by
      rw [width_spec _ hpos, if_neg hone]; rfl
    rw [tradLayerOf_eq, if_neg hone, hw]
    rfl

theorem readLayer_ok (layers : List Layer) (L : List Line) (rest : List ℤ) (h1 : L ≠ [])
    (h2 : L.length ≤ 2 ^ 30) (hr : ∀ l ∈ L, l.Ints) (hl : Numbered L) :
    readLayer (layers, layerTokens L ++ rest) = .ok (layers ++ [tradLayerOf L], rest) := by
  unfold readLayer
  rw [show layerTokens L ++ rest = _ :: (L.flatMap Line.tokens ++ rest) from rfl]
  rw [readD_cons (length_range h2), Outcome.ok_bind]
  simp only []
  have hnew : newGates (if (L.length : ℤ) = 1 then 2 else (L.length : ℤ))
      = .ok (List.replicate (positions L.length) none) := by
    unfold newGates positions
    have : ((L.length : ℤ) = 1) ↔ (L.length = 1) := by omega
    by_cases h : L.length = 1
    · simp [h]
    · simp [h]
  rw [hnew, Outcome.ok_bind, Int.toNat_natCast]
  have e := gates_ok (m := positions L.length) L rest hr (le_positions _) hl
  have e0 : (⟨List.replicate (positions L.length) none, -1, L.flatMap Line.tokens ++ rest⟩ : GateLoop)
      = st (positions L.length) [] (L.flatMap Line.tokens ++ rest) := by simp [st, padTo_nil]
  rw [e0, e, Outcome.ok_bind]
  exact finishLayer_ok layers L rest h1 h2

theorem layers_ok (f : File) (rest : List ℤ)
    (hr : ∀ L ∈ f, L ≠ [] ∧ L.length ≤ 2 ^ 30 ∧ ∀ l ∈ L, l.Ints) (hl : ∀ L ∈ f, Numbered L) :
    loopM f.length (fun _ => readLayer) ([], f.flatMap layerTokens ++ rest)
      = .ok (f.map tradLayerOf, rest) := by
  induction f using List.reverseRecOn generalizing rest with
  | nil => rfl
  | append_singleton f L ih =>
    rw [List.length_append, List.length_singleton, loopM_succ, List.flatMap_append, List.append_assoc]
    rw [ih _ (fun x hx => hr x (by simp [hx])) (fun x hx => hl x (by simp [hx])), Outcome.bind_ok]
    obtain ⟨r1, r2, r3⟩ := hr L (by simp)
    simp only [List.flatMap_cons, List.flatMap_nil, List.append_nil]
    rw [readLayer_ok _ L rest r1 r2 r3 (hl L (by simp))]
    simp

theorem readTrad_ok (f : File) (rest : List ℤ) (hr : TradReadable f) (hl : ∀ L ∈ f, Numbered L) :
    readTrad (tokens f ++ rest) = .ok (tradCircuitOf f) := by
  obtain ⟨hne, hlen, hL⟩ := hr
  have hpos : 0 < f.length := List.length_pos_iff.2 hne
  unfold readTrad tokens
  rw [List.cons_append, readD_cons ⟨by omega, by omega⟩, Outcome.ok_bind]
  dsimp only
  rw [if_neg (by omega), if_neg (by omega), Int.toNat_natCast, layers_ok f rest hL hl]
  rfl

/-! ## the circuit -/

theorem tradCircuitOf_layer (f : File) (i : ℕ) (h : i < f.length) :
    (tradCircuitOf f).layer i = tradLayerOf f[i] := by
  simp [Circuit.layer, tradCircuitOf, h]

theorem tradCircuitOf_depth (f : File) : (tradCircuitOf f).depth = f.length := by
  simp [Circuit.depth, tradCircuitOf]

theorem tradCircuitOf_bl (f : File) (i : ℕ) (h : i < f.length) :
    (tradCircuitOf f).bl i = width f[i].length := by
  rw [Circuit.bl, tradCircuitOf_layer f i h]; rfl

theorem tradLayerOf_get (L : List Line) (g : ℕ) (h : g < L.length) :
    (tradLayerOf L).gates[g]? = some (some ⟨L[g].ty, L[g].u, L[g].v⟩) := by
  unfold tradLayerOf
  dsimp only
  rw [List.getElem?_append_left (by simpa using h)]
  simp [h]

theorem tradCircuitOf_gate (f : File) (i : ℕ) (h : i < f.length) (g : ℕ) (hg : g < f[i].length) :
    (tradCircuitOf f).gate i g = gate f[i][g] := by
  rw [Circuit.gate, tradCircuitOf_layer f i h, Layer.gate, tradLayerOf_get _ _ hg]
  rfl

theorem tradCircuitOf_dummy (f : File) (i : ℕ) (h : i < f.length) (h1 : f[i].length = 1) :
    (tradCircuitOf f).gate i 1 = ⟨2, 0, 0⟩ := by
  rw [Circuit.gate, tradCircuitOf_layer f i h]
  unfold tradLayerOf Layer.gate
  simp [h1]

theorem tradLayerOf_length (L : List Line) : (tradLayerOf L).gates.length = positions L.length := by
  unfold tradLayerOf positions
  dsimp only
  split_ifs with h <;> simp [h]

theorem tradLayerOf_full (L : List Line) (g : ℕ) (hg : g < positions L.length) :
    ∃ x, (tradLayerOf L).gates[g]? = some (some x) ∧
      ((∃ h : g < L.length, x = gate L[g]) ∨ x = ⟨2, 0, 0⟩ ∧ L.length = 1) := by
  by_cases h : g < L.length
  · exact ⟨_, tradLayerOf_get L g h, Or.inl ⟨h, rfl⟩⟩
  · have h1 : L.length = 1 := by
      by_contra hc
      simp [positions, hc] at hg
      omega
    have hg1 : g = 1 := by simp [positions, h1] at hg; omega
    refine ⟨⟨2, 0, 0⟩, ?_, Or.inr ⟨rfl, h1⟩⟩
    unfold tradLayerOf
    subst hg1
    simp [h1]

/-- a good file describes a circuit of the traditional protocols -/
theorem addMult_wf {f : File} (hf : AddMultFile f) : AddMultGates (tradCircuitOf f) := by
  obtain ⟨hne, hlen, hL⟩ := hf.readable
  have hpos : 0 < f.length := List.length_pos_iff.2 hne
  have hd := tradCircuitOf_depth f
  have hfull : ∀ i (hi : i < f.length), positions f[i].length = 2 ^ width f[i].length := by
    intro i hi
    have hm : f[i] ∈ f := List.getElem_mem _
    exact (positions_full (List.length_pos_iff.2 (hL _ hm).1)).2 (hf.full _ hm)
  have hgate : ∀ i (hi : i < f.length), ∀ g < 2 ^ (tradCircuitOf f).bl i,
      (tradLayerOf f[i]).gates[g]? = some (some ((tradCircuitOf f).gate i g)) ∧
      ((∃ h : g < f[i].length, (tradCircuitOf f).gate i g = gate f[i][g]) ∨
        (tradCircuitOf f).gate i g = ⟨2, 0, 0⟩) := by
    intro i hi g hg
    rw [tradCircuitOf_bl f i hi, ← hfull i hi] at hg
    obtain ⟨x, e, hx⟩ := tradLayerOf_full _ g hg
    have ex : (tradCircuitOf f).gate i g = x := by
      rw [Circuit.gate, tradCircuitOf_layer f i hi, Layer.gate, e]; rfl
    rw [ex]
    exact ⟨e, hx.imp_right And.left⟩
  exact {
    nonempty := by rw [hd]; exact hpos
    shallow := by rw [hd]; exact hf.shallow
    full := fun i hi => by
      rw [hd] at hi
      refine ⟨?_, fun g hg => ?_⟩
      · rw [tradCircuitOf_layer f i hi, tradLayerOf_length, hfull i hi, tradCircuitOf_bl f i hi]
      · rw [tradCircuitOf_layer f i hi]
        exact (hgate i hi g hg).1
    inputs := fun g hg => by
      rcases (hgate 0 hpos g hg).2 with ⟨h, e⟩ | e
      · rw [e]
        have hm : f[0][g] ∈ f[0] := List.getElem_mem _
        have hint := (hL f[0] (List.getElem_mem _)).2.2 _ hm
        have hh : f.headD [] = f[0] := by
          cases f with
          | nil => exact absurd rfl hne
          | cons => rfl
        rcases hf.inputs f[0][g] (by rw [hh]; exact hm) with h3 | h2
        · exact Or.inl ⟨h3, hint.2.2.1⟩
        · exact Or.inr h2
      · rw [e]; exact Or.inr ⟨rfl, rfl⟩
    gates := fun i hi g hg => by
      rw [hd] at hi
      rcases (hgate (i + 1) hi g hg).2 with ⟨h, e⟩ | e
      · rw [e, tradCircuitOf_bl f i (by omega)]
        rcases hf.gates i hi _ (List.getElem_mem h) with ⟨ht, hu, hv⟩ | ht
        · refine Or.inl ⟨?_, hu, hv⟩
          rcases ht with ht | ht
          · exact Or.inl ht
          · exact Or.inr (Or.inl ht)
        · exact Or.inr (Or.inl ht)
      · rw [e]; exact Or.inr (Or.inl rfl)
    types := fun i hi g hg => by
      rw [hd] at hi
      rcases (hgate (i + 1) hi g hg).2 with ⟨h, e⟩ | e
      · rw [e]
        rcases hf.gates i hi _ (List.getElem_mem h) with ⟨ht, -⟩ | ht
        · exact ht.imp_right Or.inl
        · exact Or.inr (Or.inr ht)
      · rw [e]; exact Or.inr (Or.inr rfl)
    wide := fun i hi => by
      rw [hd] at hi
      rw [tradCircuitOf_bl f i (by omega)]
      exact le_max_left _ _ }

/-- the circuit in several blocks -/
theorem repeats_of_file {f : File} (hf : AddMultFile f) (hw : DummyWires f) {n lg : ℕ} (hlg : 1 ≤ lg)
    (hn : 2 ^ lg ≤ n) : Repeats ⟨fun _ => tradCircuitOf f, n, lg⟩ where
  log := hlg
  count := hn
  circuit := fun _ _ => addMult_wf hf
  depth := fun _ _ => rfl
  bl := fun _ _ _ _ => rfl
  gates := fun _ _ _ _ _ _ => rfl
  operands := fun i hi g hg => by
    obtain ⟨hne, hlen, hL⟩ := hf.readable
    have hi' : i + 1 < f.length := by
      have := tradCircuitOf_depth f
      change i + 1 < (tradCircuitOf f).depth at hi
      omega
    change g < 2 ^ (tradCircuitOf f).bl (i + 1) at hg
    change Wire ((tradCircuitOf f).bl i) ((tradCircuitOf f).gate (i + 1) g).u ∧
      Wire ((tradCircuitOf f).bl i) ((tradCircuitOf f).gate (i + 1) g).v
    rw [tradCircuitOf_bl f i (by omega)]
    have hm : f[i + 1] ∈ f := List.getElem_mem _
    have hfull := (positions_full (List.length_pos_iff.2 (hL _ hm).1)).2 (hf.full _ hm)
    rw [tradCircuitOf_bl f (i + 1) hi', ← hfull] at hg
    obtain ⟨x, e, hx⟩ := tradLayerOf_full _ g hg
    have ex : (tradCircuitOf f).gate (i + 1) g = x := by
      rw [Circuit.gate, tradCircuitOf_layer f (i + 1) hi', Layer.gate, e]; rfl
    rw [ex]
    rcases hx with ⟨h, rfl⟩ | ⟨rfl, -⟩
    · rcases hf.gates i hi' _ (List.getElem_mem h) with ⟨-, h⟩ | ht
      · exact h
      · exact hw i hi' _ (List.getElem_mem h) ht
    · have hp : (0 : ℤ) < 2 ^ width f[i].length := by positivity
      exact ⟨⟨le_refl _, hp⟩, ⟨le_refl _, hp⟩⟩

end Libra.TradReader
