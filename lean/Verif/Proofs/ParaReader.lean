import Verif.Model.ParaReader
import Verif.Proofs.TradReader

/-!
# The reader of the threaded protocol
-/

namespace Libra.ParaReader
open Libra.Spec Reader
open TradReader (gate)

/-- the lines of a layer with the given first operand -/
def uLines (L : List Line) : GateMap := fun u =>
  (L.filter (fun l => l.u = u)).map (fun l => (l.ty, l.g, l.v))

/-- the lines of a layer with the given second operand -/
def vLines (L : List Line) : GateMap := fun v =>
  (L.filter (fun l => l.v = v)).map (fun l => (l.ty, l.g, l.u))

theorem uLines_push (L : List Line) (l : Line) :
    (uLines L).push l.u (l.ty, l.g, l.v) = uLines (L ++ [l]) := by
  funext u
  unfold GateMap.push uLines
  by_cases h : l.u = u
  · subst h; simp
  · rw [Function.update_of_ne (Ne.symm h)]
    simp [h]

theorem vLines_push (L : List Line) (l : Line) :
    (vLines L).push l.v (l.ty, l.g, l.u) = vLines (L ++ [l]) := by
  funext u
  unfold GateMap.push vLines
  by_cases h : l.v = u
  · subst h; simp
  · rw [Function.update_of_ne (Ne.symm h)]
    simp [h]

/-- one line: as in the traditional reader, and the maps grow by one entry each -/
theorem readLine_step {s : LineLoop} {l : Line} {rest : List ℤ} (hr : l.Ints)
    (hs : s.gates.rest = l.tokens ++ rest) {t : TradReader.GateLoop} (ht : TradReader.readLine s.gates = .ok t) :
    readLine s = .ok ⟨t, s.uGates.push l.u (l.ty, l.g, l.v), s.vGates.push l.v (l.ty, l.g, l.u)⟩ := by
  rw [TradReader.readLine_step hr hs] at ht
  obtain ⟨h1, h2, h3, h4⟩ := hr
  unfold readLine
  rw [hs]
  simp only [Line.tokens, List.cons_append, List.nil_append]
  rw [readD_cons h1, Outcome.ok_bind]
  simp only [readD_cons h2, readD_cons h3, readD_cons h4, Outcome.ok_bind]
  change store s.gates.block l.g ⟨l.ty, l.u, l.v⟩ >>= _ = _
  cases hb : store s.gates.block l.g (gate l) with
  | ok b =>
    rw [hb] at ht
    cases ht
    have : store s.gates.block l.g ⟨l.ty, l.u, l.v⟩ = .ok b := hb
    rw [this, Outcome.ok_bind]
    rfl
  | _ => rw [hb] at ht; cases ht

theorem gates_ok {m : ℕ} (L : List Line) (rest : List ℤ) (hr : ∀ l ∈ L, l.Ints) (hm : L.length ≤ m)
    (hl : Numbered L) :
    loopM L.length (fun _ => readLine)
      ⟨TradReader.st m [] (L.flatMap Line.tokens ++ rest), fun _ => [], fun _ => []⟩
      = .ok ⟨TradReader.st m L rest, uLines L, vLines L⟩ := by
  induction L using List.reverseRecOn generalizing rest with
  | nil => rfl
  | append_singleton L l ih =>
    rw [List.length_append, List.length_singleton, loopM_succ, List.flatMap_append, List.append_assoc]
    rw [List.length_append, List.length_singleton] at hm
    have ih' := ih ([l].flatMap Line.tokens ++ rest) (fun x hx => hr x (by simp [hx])) (by omega) (by
      intro k hk
      have := hl k (by simp; omega)
      rwa [List.getElem_append_left hk] at this)
    rw [ih', Outcome.bind_ok]
    have hll := hl L.length (by simp)
    rw [List.getElem_append_right (le_refl _)] at hll
    simp only [Nat.sub_self, List.getElem_cons_zero] at hll
    simp only [List.flatMap_cons, List.flatMap_nil, List.append_nil]
    rw [readLine_step (hr l (by simp)) rfl
      (TradReader.readLine_ok (hr l (by simp)) (by omega) hll)]
    dsimp only
    rw [uLines_push, vLines_push]

/-- the map of a layer by first operands, with the dummy next to a single gate -/
def uMap (L : List Line) : GateMap :=
  if L.length = 1 then (uLines L).push 0 (2, 1, 0) else uLines L

/-- the map of a layer by second operands, with the dummy next to a single gate -/
def vMap (L : List Line) : GateMap :=
  if L.length = 1 then (vLines L).push 0 (2, 1, 0) else vLines L

theorem finishLayer_eq {n : ℤ} {t : TradReader.GateLoop} {X : Layer} {rest : List ℤ}
    (h : TradReader.finishLayer n [] t = .ok ([] ++ [X], rest)) (s : LayerLoop) (M N : GateMap) :
    finishLayer n s ⟨t, M, N⟩ = .ok ⟨s.layers ++ [(X,
      if n = 1 then M.push 0 (2, ((2 ^ countShifts t.previousG.toNat : ℕ) : ℤ), 0) else M,
      if n = 1 then N.push 0 (2, ((2 ^ countShifts t.previousG.toNat : ℕ) : ℤ), 0) else N)], rest⟩ := by
  unfold TradReader.finishLayer at h
  unfold finishLayer
  dsimp only at h ⊢
  by_cases hn : t.previousG < 0
  · rw [if_pos hn] at h; cases h
  rw [if_neg hn] at h ⊢
  by_cases hc : 31 ≤ countShifts t.previousG.toNat
  · rw [if_pos hc] at h; cases h
  rw [if_neg hc] at h ⊢
  by_cases hone : n = 1
  · rw [if_pos hone] at h ⊢
    rw [if_pos hone, if_pos hone]
    revert h
    generalize store _ _ _ = x
    intro h
    cases x with
    | ok b =>
      rw [Outcome.ok_bind] at h ⊢
      simp only [pure, Outcome.ok.injEq, List.nil_append, Prod.mk.injEq, List.cons.injEq,
        and_true] at h
      rw [h.1, h.2]
      rfl
    | _ => cases h
  · rw [if_neg hone] at h ⊢
    rw [if_neg hone, if_neg hone]
    simp only [pure, Outcome.ok.injEq, List.nil_append, Prod.mk.injEq, List.cons.injEq,
        and_true] at h
    rw [h.1, h.2]
    rfl

/-- the end of a layer is that of the traditional reader, plus the entries of the dummy -/
theorem finishLayer_ok (s : LayerLoop) (L : List Line) (rest : List ℤ)
    (h1 : L ≠ []) (h2 : L.length ≤ 2 ^ 30) :
    finishLayer L.length s ⟨TradReader.st (positions L.length) L rest, uLines L, vLines L⟩
      = .ok ⟨s.layers ++ [(tradLayerOf L, uMap L, vMap L)], rest⟩ := by
  rw [finishLayer_eq (TradReader.finishLayer_ok [] L rest h1 h2) s]
  have hi : ((L.length : ℤ) = 1) ↔ L.length = 1 := by omega
  unfold uMap vMap
  by_cases hone : L.length = 1
  · rw [if_pos (hi.2 hone), if_pos (hi.2 hone), if_pos hone, if_pos hone]
    have : countShifts (TradReader.st (positions L.length) L rest).previousG.toNat = 0 := by
      have : (TradReader.st (positions L.length) L rest).previousG.toNat = 0 := by
        change ((L.length : ℤ) - 1).toNat = 0
        omega
      rw [this]
      unfold countShifts
      simp
    rw [this]
    rfl
  · rw [if_neg (mt hi.1 hone), if_neg (mt hi.1 hone), if_neg hone, if_neg hone]

theorem readLayer_ok (layers : List (Layer × GateMap × GateMap)) (L : List Line) (rest : List ℤ)
    (h1 : L ≠ []) (h2 : L.length ≤ 2 ^ 30) (hr : ∀ l ∈ L, l.Ints) (hl : Numbered L) :
    readLayer ⟨layers, layerTokens L ++ rest⟩
      = .ok ⟨layers ++ [(tradLayerOf L, uMap L, vMap L)], rest⟩ := by
  unfold readLayer
  rw [show layerTokens L ++ rest = _ :: (L.flatMap Line.tokens ++ rest) from rfl]
  rw [readD_cons (length_range h2), Outcome.ok_bind]
  simp only []
  have hnew : newGates (if (L.length : ℤ) = 1 then 2 else (L.length : ℤ))
      = .ok (List.replicate (positions L.length) none) := by
    unfold newGates positions
    have : ((L.length : ℤ) = 1) ↔ (L.length = 1) := by omega
    by_cases h : L.length = 1
    · simp [h]
    · simp [h]
  rw [hnew, Outcome.ok_bind, Int.toNat_natCast]
  have e := gates_ok (m := positions L.length) L rest hr (le_positions _) hl
  have e0 : (⟨List.replicate (positions L.length) none, -1, L.flatMap Line.tokens ++ rest⟩ : TradReader.GateLoop)
      = TradReader.st (positions L.length) [] (L.flatMap Line.tokens ++ rest) := by simp [TradReader.st, padTo_nil]
  rw [e0, e, Outcome.ok_bind]
  exact finishLayer_ok _ L rest h1 h2

theorem layers_ok (f : File) (rest : List ℤ)
    (hr : ∀ L ∈ f, L ≠ [] ∧ L.length ≤ 2 ^ 30 ∧ ∀ l ∈ L, l.Ints) (hl : ∀ L ∈ f, Numbered L) :
    loopM f.length (fun _ => readLayer) ⟨[], f.flatMap layerTokens ++ rest⟩
      = .ok ⟨f.map (fun L => (tradLayerOf L, uMap L, vMap L)), rest⟩ := by
  induction f using List.reverseRecOn generalizing rest with
  | nil => rfl
  | append_singleton f L ih =>
    rw [List.length_append, List.length_singleton, loopM_succ, List.flatMap_append, List.append_assoc]
    rw [ih _ (fun x hx => hr x (by simp [hx])) (fun x hx => hl x (by simp [hx])), Outcome.bind_ok]
    obtain ⟨r1, r2, r3⟩ := hr L (by simp)
    simp only [List.flatMap_cons, List.flatMap_nil, List.append_nil]
    rw [readLayer_ok _ L rest r1 r2 r3 (hl L (by simp))]
    simp

/-- what the reader makes of a file -/
def paraCircuitOf (f : File) : ParaCircuit where
  circuit := tradCircuitOf f
  uGates := fun l => ((f[l]?).map uMap).getD (fun _ => [])
  vGates := fun l => ((f[l]?).map vMap).getD (fun _ => [])

theorem readPara_ok (f : File) (rest : List ℤ) (hr : TradReadable f) (hd : f.length + 10 < 2 ^ 31)
    (hl : ∀ L ∈ f, Numbered L) : readPara (tokens f ++ rest) = .ok (paraCircuitOf f) := by
  obtain ⟨hne, hlen, hL⟩ := hr
  have hpos : 0 < f.length := List.length_pos_iff.2 hne
  unfold readPara tokens
  rw [List.cons_append, readD_cons ⟨by omega, by omega⟩, Outcome.ok_bind]
  dsimp only
  rw [if_neg (by omega), if_neg (by omega), if_neg (by omega), Int.toNat_natCast, layers_ok f rest hL hl,
    Outcome.ok_bind]
  simp only [pure, paraCircuitOf, tradCircuitOf, List.map_map, Outcome.ok.injEq,
    ParaCircuit.mk.injEq, List.getElem?_map, Option.map_map]
  exact ⟨rfl, rfl, rfl⟩

/-! ## the maps are the lists the prover model uses -/

theorem filter_range_lines (L : List Line) (hl : Numbered L) (G : ℕ → Gate)
    (hG : ∀ g (h : g < L.length), G g = gate L[g]) (P : Gate → Bool) {α : Type} (h : Gate → ℕ → α) :
    ((List.range L.length).filter (fun g => P (G g))).map (fun g => h (G g) g)
      = (L.filter (fun l => P (gate l))).map (fun l => h (gate l) l.g.toNat) := by
  induction L using List.reverseRecOn with
  | nil => rfl
  | append_singleton L l ih =>
    have hl' : Numbered L := by
      intro k hk
      have := hl k (by simp; omega)
      rwa [List.getElem_append_left hk] at this
    have hll := hl L.length (by simp)
    rw [List.getElem_append_right (le_refl _)] at hll
    simp only [Nat.sub_self, List.getElem_cons_zero] at hll
    have hG' : ∀ g (h : g < L.length), G g = gate L[g] := by
      intro g hg
      have := hG g (by simp; omega)
      rwa [List.getElem_append_left hg] at this
    have e1 := hG L.length (by simp)
    rw [List.getElem_append_right (le_refl _)] at e1
    simp only [Nat.sub_self, List.getElem_cons_zero] at e1
    rw [List.length_append, List.length_singleton, List.range_succ, List.filter_append,
      List.map_append, List.filter_append, List.map_append, ih hl' hG']
    congr 1
    have eg : l.g.toNat = L.length := by omega
    by_cases hp : P (gate l)
    · simp [hp, e1, eg]
    · simp [hp, e1]

/-- the entry of a gate list with the types of the prover model -/
def entry (e : ℤ × ℤ × ℤ) : ℤ × ℕ × ℕ := (e.1, e.2.1.toNat, e.2.2.toNat)

theorem uMap_eq (L : List Line) (u : ℤ) : uMap L u =
    (L.filter (fun l => l.u = u)).map (fun l => (l.ty, l.g, l.v)) ++
      (if L.length = 1 ∧ u = 0 then [(2, 1, 0)] else []) := by
  unfold uMap
  by_cases h : L.length = 1
  · rw [if_pos h]
    unfold GateMap.push
    by_cases hu : u = 0
    · subst hu; simp [h, uLines]
    · rw [Function.update_of_ne hu]; simp [hu, uLines]
  · simp [h, uLines]

theorem vMap_eq (L : List Line) (v : ℤ) : vMap L v =
    (L.filter (fun l => l.v = v)).map (fun l => (l.ty, l.g, l.u)) ++
      (if L.length = 1 ∧ v = 0 then [(2, 1, 0)] else []) := by
  unfold vMap
  by_cases h : L.length = 1
  · rw [if_pos h]
    unfold GateMap.push
    by_cases hu : v = 0
    · subst hu; simp [h, vLines]
    · rw [Function.update_of_ne hu]; simp [hu, vLines]
  · simp [h, vLines]

theorem bl_full {f : File} (hf : AddMultFile f) (i : ℕ) (hi : i < f.length) :
    2 ^ (tradCircuitOf f).bl i = positions f[i].length := by
  have hm : f[i] ∈ f := List.getElem_mem _
  rw [TradReader.tradCircuitOf_bl f i hi]
  exact ((positions_full (List.length_pos_iff.2 (hf.readable.2.2 _ hm).1)).2 (hf.full _ hm)).symm

theorem uGates_eq {f : File} (hf : AddMultFile f) (l : ℕ) (hl : l < f.length) (i : ℕ) :
    ParaTrack.uGates (tradCircuitOf f) l i = (uMap f[l] i).map entry := by
  have hm : f[l] ∈ f := List.getElem_mem _
  have hG := fun g hg => TradReader.tradCircuitOf_gate f l hl g hg
  have key := filter_range_lines f[l] (hf.numbered _ hm) ((tradCircuitOf f).gate l) hG
    (fun x => x.u = i) (fun x g => ((x.ty, g, x.v.toNat) : ℤ × ℕ × ℕ))
  rw [ParaTrack.uGates, bl_full hf l hl, uMap_eq, List.map_append, List.map_map]
  by_cases h1 : f[l].length = 1
  · have hd := TradReader.tradCircuitOf_dummy f l hl h1
    rw [positions, if_pos h1, show 2 = f[l].length + 1 by omega, List.range_succ, List.filter_append,
      List.map_append, key]
    congr 1
    rw [h1]
    by_cases hi : i = 0
    · subst hi; simp [hd, entry]
    · have hi' : ¬ (0 : ℤ) = i := by omega
      simp [hd, hi, hi']
  · rw [positions, if_neg h1, key]
    simp only [h1, false_and, if_false, List.map_nil, List.append_nil]
    rfl

theorem vGates_eq {f : File} (hf : AddMultFile f) (l : ℕ) (hl : l < f.length) (i : ℕ) :
    ParaTrack.vGates (tradCircuitOf f) l i = (vMap f[l] i).map entry := by
  have hm : f[l] ∈ f := List.getElem_mem _
  have hG := fun g hg => TradReader.tradCircuitOf_gate f l hl g hg
  have key := filter_range_lines f[l] (hf.numbered _ hm) ((tradCircuitOf f).gate l) hG
    (fun x => x.v = i) (fun x g => ((x.ty, g, x.u.toNat) : ℤ × ℕ × ℕ))
  rw [ParaTrack.vGates, bl_full hf l hl, vMap_eq, List.map_append, List.map_map]
  by_cases h1 : f[l].length = 1
  · have hd := TradReader.tradCircuitOf_dummy f l hl h1
    rw [positions, if_pos h1, show 2 = f[l].length + 1 by omega, List.range_succ, List.filter_append,
      List.map_append, key]
    congr 1
    rw [h1]
    by_cases hi : i = 0
    · subst hi; simp [hd, entry]
    · have hi' : ¬ (0 : ℤ) = i := by omega
      simp [hd, hi, hi']
  · rw [positions, if_neg h1, key]
    simp only [h1, false_and, if_false, List.map_nil, List.append_nil]
    rfl

end Libra.ParaReader
