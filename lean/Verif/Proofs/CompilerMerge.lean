import Verif.Proofs.CompilerLayers
import Verif.Proofs.Matmul

/-!
# The files written by the compiler
-/

namespace Libra.Compiler
open Libra Spec Matmul

/-- a gate as a line of the file -/
def LGate.line (g : LGate) : Line := ⟨g.ty, g.g, g.u, g.v⟩

/-- a gate of the first layer, always printed as an input -/
def LGate.inputLine (g : LGate) : Line := ⟨3, g.g, g.u, g.v⟩

theorem numbers_eq (g : LGate) : g.numbers = g.line.tokens := rfl

/-- the line of a gate of level 0 in block `r` -/
def blockInputLine (size r : ℕ) (g : LGate) : Line :=
  if g.ty = 3 then ⟨10, g.g + r * size, g.g + r * size, 0⟩ else ⟨2, g.g + r * size, 0, 0⟩

/-- the line of a gate of a higher level in block `r` -/
def blockGateLine (size prev r : ℕ) (g : LGate) : Line :=
  if g.ty = 10 ∨ g.ty = 6 then ⟨g.ty, g.g + r * size, g.u + r * prev, g.v⟩
  else ⟨g.ty, g.g + r * size, g.u + r * prev, g.v + r * prev⟩

/-- the copies of a list of gates -/
def blocks (rep : ℕ) (gs : List LGate) (line : ℕ → LGate → Line) : List Line :=
  (List.range rep).flatMap (fun r => gs.map (line r))

theorem blocks_length (rep : ℕ) (gs : List LGate) (line : ℕ → LGate → Line) :
    (blocks rep gs line).length = gs.length * rep := by
  induction rep with
  | zero => simp [blocks]
  | succ n ih =>
    rw [blocks, List.range_succ, List.flatMap_append, List.length_append, ← blocks, ih]
    simp [Nat.mul_succ]

theorem mem_blocks {rep : ℕ} {gs : List LGate} {line : ℕ → LGate → Line} {l : Line} :
    l ∈ blocks rep gs line ↔ ∃ r < rep, ∃ g ∈ gs, line r g = l := by
  simp [blocks]

theorem blocks_get {rep : ℕ} (gs : List LGate) (line : ℕ → LGate → Line) {r j : ℕ} (hr : r < rep)
    (hj : j < gs.length) : (blocks rep gs line)[r * gs.length + j]? = some (line r gs[j]) := by
  induction rep with
  | zero => omega
  | succ n ih =>
    have hlen := blocks_length n gs line
    rw [blocks, List.range_succ, List.flatMap_append, ← blocks]
    by_cases h : r < n
    · rw [List.getElem?_append_left, ih h]
      rw [hlen, Nat.mul_comm _ n]
      calc r * gs.length + j < r * gs.length + gs.length := by omega
        _ = (r + 1) * gs.length := by ring
        _ ≤ n * gs.length := Nat.mul_le_mul_right _ h
    · have : r = n := by omega
      subst this
      rw [List.getElem?_append_right (by rw [hlen, Nat.mul_comm]; omega), hlen, Nat.mul_comm gs.length,
        Nat.add_sub_cancel_left]
      simp [hj]

theorem printLines {gs : List LGate} {copy : LGate → Outcome LGate} {line : LGate → Line} {Q : LGate → Prop}
    {file out : List ℤ} (hc : ∀ g g', copy g = .ok g' → g'.numbers = (line g).tokens ∧ Q g)
    (h : gs.foldlM (fun file g => do
      let g' ← copy g
      return file ++ g'.numbers) file = .ok out) :
    out = file ++ (gs.map line).flatMap Line.tokens ∧ ∀ g ∈ gs, Q g := by
  refine foldlM_append_inv (motive := fun P s => s = file ++ (P.map line).flatMap Line.tokens ∧ ∀ g ∈ P, Q g)
    (by simp) ?_ h
  rintro P g x y - ⟨rfl, hq⟩ e
  obtain ⟨g', e1, e2⟩ := Outcome.bind_eq_ok' e
  obtain ⟨h1, h2⟩ := hc _ _ e1
  cases e2
  refine ⟨by simp [h1], ?_⟩
  intro k hk
  rw [List.mem_append, List.mem_singleton] at hk
  rcases hk with hk | rfl
  exacts [hq _ hk, h2]

theorem printBlocks_ok {rep : ℕ} {gs : List LGate} {copy : ℕ → LGate → Outcome LGate}
    {line : ℕ → LGate → Line} {Q : LGate → Prop} {file out : List ℤ} (hrep : rep ≠ 0)
    (hc : ∀ r g g', copy r g = .ok g' → g'.numbers = (line r g).tokens ∧ Q g)
    (h : printBlocks rep gs copy file = .ok out) :
    out = file ++ (blocks rep gs line).flatMap Line.tokens ∧ ∀ g ∈ gs, Q g := by
  have := loopM_eq_ok h (fun r s => s = file ++ (blocks r gs line).flatMap Line.tokens ∧
    (r ≠ 0 → ∀ g ∈ gs, Q g)) (by simp [blocks]) (by
      rintro r - s s' ⟨rfl, -⟩ e
      obtain ⟨h1, h2⟩ := printLines (hc r) e
      refine ⟨?_, fun _ => h2⟩
      rw [h1, blocks, blocks, List.range_succ, List.flatMap_append, List.flatMap_append]
      simp)
  exact ⟨this.1, this.2 hrep⟩

theorem blockInput_ok {size r : ℕ} {g g' : LGate} (h : blockInput size r g = .ok g') :
    g'.numbers = (blockInputLine size r g).tokens ∧ (g.ty = 3 ∨ g.ty = 2) := by
  unfold blockInput at h
  split_ifs at h with h3 h2
  · cases h
    exact ⟨by rw [blockInputLine, if_pos h3]; rfl, .inl h3⟩
  · cases h
    exact ⟨by rw [blockInputLine, if_neg h3]; rfl, .inr h2⟩

theorem blockGate_ok {size prev r : ℕ} {g g' : LGate} (h : blockGate size prev r g = .ok g') :
    g'.numbers = (blockGateLine size prev r g).tokens ∧ (g.ty = 10 ∨ g.ty = 6 → g.v = 0) := by
  unfold blockGate at h
  by_cases h1 : g.ty = 10 ∨ g.ty = 6
  · rw [if_pos h1] at h
    obtain ⟨u, h2, h3⟩ := Outcome.bind_eq_ok' h
    cases h3
    have := assert_ok h2
    exact ⟨by rw [blockGateLine, if_pos h1]; rfl, fun _ => by simpa using this⟩
  · rw [if_neg h1] at h
    cases h
    exact ⟨by rw [blockGateLine, if_neg h1]; rfl, fun h => absurd h h1⟩

/-- the lines of level `i` -/
def levelLines (L : Layered) (rep i : ℕ) : List Line :=
  if i = 0 then blocks rep (L.gates 0) (blockInputLine (L.gates 0).length)
  else blocks rep (L.gates i) (blockGateLine (L.gates i).length (L.gates (i - 1)).length)

/-- the circuit file -/
def fileOf (inputs relays : List LGate) (rep : ℕ) (L : Layered) : File :=
  inputs.map LGate.inputLine :: relays.map LGate.line ::
    (List.range L.depth).map (levelLines L rep)

/-- the meta data of level `i` -/
def levelMeta (L : Layered) (rep i : ℕ) (para : ℤ) : MetaLine :=
  ⟨para, ((L.gates i).length : ℤ), rep, L.bitLen i, logRep rep⟩

/-- the meta file -/
def metaOf (var : Variant) (rep : ℕ) (L : Layered) : List MetaLine :=
  (if var = .sha256 then ⟨0, 0, 1, 0, 0⟩ else ⟨0, 0, 0, 0, 0⟩) :: levelMeta L rep 0 0 ::
    (List.range L.depth).map (fun i => levelMeta L rep i 1)

theorem flatMap_levels (n : ℕ) (f : ℕ → List ℤ) (hn : n ≠ 0) :
    (List.range n).flatMap f = f 0 ++ (List.range (n - 1)).flatMap (fun i => f (i + 1)) := by
  obtain ⟨m, rfl⟩ := Nat.exists_eq_succ_of_ne_zero hn
  rw [List.range_succ_eq_map, List.flatMap_cons, List.flatMap_map]
  rfl

theorem merge_ok {var : Variant} {W : Wiring} {L : Layered} {file metaFile : List ℤ} (hd : L.depth ≠ 0)
    (h : merge var W L = .ok (file, metaFile)) :
    ∃ relays : List LGate, W.relays = relays.map some ∧ W.repeatNum ≠ 0 ∧
      file = tokens (fileOf W.inputs relays W.repeatNum L) ∧
      metaFile = (metaOf var W.repeatNum L).flatMap MetaLine.tokens ∧
      (∀ g ∈ L.gates 0, g.ty = 3 ∨ g.ty = 2) ∧
      ∀ i, 0 < i → i < L.depth → ∀ g ∈ L.gates i, g.ty = 10 ∨ g.ty = 6 → g.v = 0 := by
  unfold merge at h
  obtain ⟨f1, h1, h⟩ := Outcome.bind_eq_ok' h
  by_cases hr : W.repeatNum = 0
  · rw [if_pos hr] at h; cases h
  rw [if_neg hr] at h
  obtain ⟨f2, h2, h⟩ := Outcome.bind_eq_ok' h
  have hin : W.inputs.foldl (fun file g => file ++ [3, g.g, g.u, g.v])
      [((2 + L.depth : ℕ) : ℤ), (W.inputs.length : ℤ)] =
      [((2 + L.depth : ℕ) : ℤ), (W.inputs.length : ℤ)] ++
        (W.inputs.map LGate.inputLine).flatMap Line.tokens := by
    refine foldl_append_inv (motive := fun P (s : List ℤ) => s =
      [((2 + L.depth : ℕ) : ℤ), (W.inputs.length : ℤ)] ++ (P.map LGate.inputLine).flatMap Line.tokens)
      (by simp) ?_
    rintro P g x - rfl
    simp [LGate.inputLine, Line.tokens]
  have hrel : ∃ relays : List LGate, W.relays = relays.map some ∧
      f1 = [((2 + L.depth : ℕ) : ℤ), (W.inputs.length : ℤ)] ++
        (W.inputs.map LGate.inputLine).flatMap Line.tokens ++ [(W.relays.length : ℤ)] ++
        (relays.map LGate.line).flatMap Line.tokens := by
    rw [hin] at h1
    refine foldlM_append_inv (motive := fun P (s : List ℤ) => ∃ relays : List LGate, P = relays.map some ∧
      s = [((2 + L.depth : ℕ) : ℤ), (W.inputs.length : ℤ)] ++
        (W.inputs.map LGate.inputLine).flatMap Line.tokens ++ [(W.relays.length : ℤ)] ++
        (relays.map LGate.line).flatMap Line.tokens) ⟨[], by simp⟩ ?_ h1
    rintro P g x y - ⟨relays, rfl, rfl⟩ e
    obtain ⟨g', e1, e2⟩ := Outcome.bind_eq_ok' e
    cases e2
    rw [Outcome.read_ok_iff] at e1
    subst e1
    exact ⟨relays ++ [g'], by simp, by simp [numbers_eq]⟩
  obtain ⟨relays, hR, rfl⟩ := hrel
  refine ⟨relays, hR, hr, ?_⟩
  obtain ⟨h2, hq0⟩ := printBlocks_ok (line := blockInputLine (L.gates 0).length) hr (fun r g g' e => blockInput_ok e) h2
  subst h2
  have := loopM_eq_ok h (fun n (s : List ℤ × List ℤ) =>
    s.1 = [((2 + L.depth : ℕ) : ℤ), (W.inputs.length : ℤ)] ++
        (W.inputs.map LGate.inputLine).flatMap Line.tokens ++ [(W.relays.length : ℤ)] ++
        (relays.map LGate.line).flatMap Line.tokens ++ layerTokens (levelLines L W.repeatNum 0) ++
        (List.range n).flatMap (fun i => layerTokens (levelLines L W.repeatNum (i + 1))) ∧
    s.2 = (if var = .sha256 then ⟨0, 0, 1, 0, 0⟩ else ⟨0, 0, 0, 0, 0⟩ : MetaLine).tokens ++
      (levelMeta L W.repeatNum 0 0).tokens ++ (levelMeta L W.repeatNum 0 1).tokens ++
      (List.range n).flatMap (fun i => (levelMeta L W.repeatNum (i + 1) 1).tokens) ∧
    ∀ i, 0 < i → i < n + 1 → ∀ g ∈ L.gates i, g.ty = 10 ∨ g.ty = 6 → g.v = 0)
    ⟨by simp [layerTokens, levelLines, blocks_length],
     by split_ifs <;> simp [levelMeta, MetaLine.tokens], fun i a b => by omega⟩ (by
      rintro n - ⟨s1, s2⟩ ⟨t1, t2⟩ ⟨e1, e2, e3⟩ e
      obtain ⟨f, e4, e5⟩ := Outcome.bind_eq_ok' e
      obtain ⟨e6, e7⟩ := printBlocks_ok (line := blockGateLine (L.gates (n + 1)).length (L.gates n).length) hr
        (fun r g g' e => blockGate_ok e) e4
      cases e5
      dsimp only at e1 e2
      subst e1 e2
      refine ⟨?_, ?_, ?_⟩
      · rw [e6, List.range_succ, List.flatMap_append]
        simp [layerTokens, levelLines, blocks_length]
      · rw [List.range_succ, List.flatMap_append]
        simp [levelMeta, MetaLine.tokens]
      · intro i hi hin
        by_cases hc : i = n + 1
        · subst hc; exact e7
        · exact e3 i hi (by omega))
  obtain ⟨e1, e2, e3⟩ := this
  dsimp only at e1 e2
  refine ⟨?_, ?_, hq0, fun i h0 hi => e3 i h0 (by omega)⟩
  · have hlen : W.relays.length = relays.length := by rw [hR]; simp
    rw [e1, tokens, fileOf]
    simp only [List.flatMap_cons, List.flatMap_map, List.length_cons, List.length_map, List.length_range]
    rw [flatMap_levels _ _ hd]
    simp [layerTokens, hlen, List.flatMap_map]
    omega
  · rw [e2, metaOf]
    simp only [List.flatMap_cons, List.flatMap_map]
    rw [flatMap_levels _ _ hd]
    simp

end Libra.Compiler
