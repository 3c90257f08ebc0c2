import Verif.Model.MerkleGen
import Verif.Proofs.Sha256Run

/-!
# The generator of the wiring of a Merkle tree, in closed form
-/

namespace Libra.MerkleGen
open Compiler Sha256Gen

/-- the first block of layer `k` -/
def startOf (lgn k : ℕ) : ℕ := 2 ^ (lgn + 1) - 2 ^ (lgn + 1 - k)

theorem startOf_zero (lgn : ℕ) : startOf lgn 0 = 0 := by simp [startOf]

theorem startOf_succ {lgn k : ℕ} (h : k ≤ lgn) : startOf lgn (k + 1) = startOf lgn k + 2 ^ (lgn - k) := by
  unfold startOf
  obtain ⟨d, rfl⟩ := Nat.exists_eq_add_of_le h
  rw [show k + d + 1 - k = d + 1 by omega, show k + d + 1 - (k + 1) = d by omega, show k + d - k = d by omega,
    pow_succ 2 d]
  have : 2 ^ d * 2 ≤ 2 ^ (k + d + 1) := by
    rw [← pow_succ]; exact Nat.pow_le_pow_right (by decide) (by omega)
  omega

theorem startOf_one (lgn : ℕ) : startOf lgn 1 = 2 ^ lgn := by
  rw [startOf_succ (Nat.zero_le _), startOf_zero, Nat.zero_add, Nat.sub_zero]

theorem startOf_last (lgn : ℕ) : startOf lgn lgn = 2 ^ (lgn + 1) - 2 := by
  unfold startOf
  rw [show lgn + 1 - lgn = 1 by omega, pow_one]

/-- the layer below begins where the children of the layer are -/
theorem startOf_child {lgn k : ℕ} (h : k + 1 ≤ lgn) : startOf lgn (k + 1) = 2 ^ lgn + startOf lgn k / 2 ∧
    startOf lgn k % 2 = 0 := by
  obtain ⟨d, rfl⟩ := Nat.exists_eq_add_of_le h
  unfold startOf
  rw [show k + 1 + d + 1 - (k + 1) = d + 1 by omega, show k + 1 + d + 1 - k = d + 1 + 1 by omega,
    pow_succ 2 (k + 1 + d), pow_succ 2 (d + 1)]
  have : 2 ^ (d + 1) ≤ 2 ^ (k + 1 + d) := Nat.pow_le_pow_right (by decide) (by omega)
  omega

theorem startOf_mono {lgn k : ℕ} (h : 1 ≤ k) : 2 ^ lgn ≤ startOf lgn k := by
  unfold startOf
  have : 2 ^ (lgn + 1 - k) ≤ 2 ^ lgn := Nat.pow_le_pow_right (by decide) (by omega)
  rw [pow_succ]
  omega

/-! ### The variables -/

/-- the first new variable of block `b` -/
def freshOf (lgn b : ℕ) : ℕ := 306 + 6928 * min b (2 ^ lgn) + 6432 * (b - 2 ^ lgn)

/-- the first variable of the new hash value of block `b` -/
def hashOf (lgn b : ℕ) : ℕ := freshOf lgn b + if b < 2 ^ lgn then 2176 else 1680

/-- is `b` the root? -/
def isRoot (lgn b : ℕ) : Bool := decide (b = 2 ^ (lgn + 1) - 1 - 1)

/-- the first variable of the bits of the new hash value of block `b` -/
def bitsOf (lgn b : ℕ) : ℕ := hashOf lgn b + if isRoot lgn b then 0 else 8

/-- what is added to `Hout_block` -/
def ownHash (lgn b : ℕ) : List ℕ := if isRoot lgn b then [] else List.range' (hashOf lgn b) 8

/-- the message words, `W_16`, ..., `W_63` and the bits of the message -/
def messageVars (lgn b : ℕ) : List ℕ :=
  if b < 2 ^ lgn then List.range' (freshOf lgn b) 544
  else ownHash lgn (2 * (b - 2 ^ lgn)) ++ ownHash lgn (2 * (b - 2 ^ lgn) + 1) ++ List.range' (freshOf lgn b) 48 ++
    ((vecs (bitsOf lgn (2 * (b - 2 ^ lgn))) 8 33).drop 1 ++ vecs (bitsOf lgn (2 * (b - 2 ^ lgn) + 1)) 8 33).flatMap (List.take 32)

/-- the new hash value of block `b` -/
def hashVars (lgn b : ℕ) : List ℕ := if isRoot lgn b then List.range' 298 8 else List.range' (hashOf lgn b) 8

/-- the inputs of block `b` -/
def blockVars (lgn b : ℕ) : List ℕ :=
  List.range 34 ++ messageVars lgn b ++ List.range' (hashOf lgn b - 1632) 1632 ++ List.range' 34 64 ++ List.range' 98 8 ++
    hashVars lgn b ++ (vecs (bitsOf lgn b) 8 33).flatten ++ List.range' 106 192 ++ List.range' (bitsOf lgn b + 264) 4480

/-- the state with `j` blocks of layer `k` -/
def stateOf (lgn k j : ℕ) : Tree where
  layer := k
  layIdx := j
  Hout := (List.range (k + 1)).map fun i => (List.range (if i = k then j else 2 ^ (lgn - i))).map fun j => ownHash lgn (startOf lgn i + j)
  HoutBits := (List.range (k + 1)).map fun i =>
    (List.range (if i = k then j else 2 ^ (lgn - i))).map fun j => vecs (bitsOf lgn (startOf lgn i + j)) 8 33
  blocks := (List.range (startOf lgn k + j)).map (blockVars lgn)

/-- the common inputs -/
def theCommon : Common := ⟨List.range' 34 64, List.range' 98 8, List.range' 106 192, List.range' 298 8⟩

theorem allocCommon_eq : allocCommon 34 = .ok (theCommon, 306, { inVals := List.range' 34 272 }) := by
  unfold allocCommon
  simp only [bind_def, pure_def, Gen.bind, Outcome.bind, repeatG_alloc, allocN, Gen.pure, Log.append,
    List.append_nil, Nat.reduceAdd, Nat.reduceMul]
  have e : ∀ l : List ℕ, l = List.range' 34 272 → ({ inVals := l } : Log) = { inVals := List.range' 34 272 } :=
    fun _ h => by rw [h]
  exact congrArg Outcome.ok (Prod.ext rfl (Prod.ext rfl (e _ (by simp only [range'_join, Nat.reduceAdd]))))

/-- a new layer begins when the last one is full -/
theorem newLayer_full (lgn k : ℕ) : newLayer lgn (stateOf lgn k (2 ^ (lgn - k))) = stateOf lgn (k + 1) 0 ∨ ¬ k ≤ lgn := by
  by_cases h : k ≤ lgn
  · left
    unfold newLayer
    rw [if_pos (show (stateOf lgn k (2 ^ (lgn - k))).layIdx = 2 ^ (lgn - (stateOf lgn k (2 ^ (lgn - k))).layer) from rfl)]
    have e : ∀ i ∈ List.range (k + 1), (if i = k then 2 ^ (lgn - k) else 2 ^ (lgn - i)) =
        if i = k + 1 then 0 else 2 ^ (lgn - i) := by
      intro i hi
      rw [List.mem_range] at hi
      rw [if_neg (by omega : ¬ i = k + 1)]
      split
      · rename_i h; rw [h]
      · rfl
    unfold stateOf
    congr 1
    · dsimp only
      rw [List.range_succ (n := k + 1), List.map_append]
      congr 1
      · exact List.map_congr_left fun i hi => by rw [e i hi]
      · simp
    · dsimp only
      rw [List.range_succ (n := k + 1), List.map_append]
      congr 1
      · exact List.map_congr_left fun i hi => by rw [e i hi]
      · simp
    · dsimp only
      rw [startOf_succ h, Nat.add_zero]
  · exact .inr h

theorem newLayer_same {lgn k j : ℕ} (h : j < 2 ^ (lgn - k)) : newLayer lgn (stateOf lgn k j) = stateOf lgn k j := by
  unfold newLayer
  exact if_neg (by change ¬ j = 2 ^ (lgn - k); omega)

theorem modify_last {α : Type} (k j : ℕ) (n : ℕ → ℕ) (f : ℕ → ℕ → α) (x : α) (hx : x = f k j) :
    ((List.range (k + 1)).map fun i => (List.range (if i = k then j else n i)).map (f i)).modify k (fun l => l ++ [x]) =
      (List.range (k + 1)).map fun i => (List.range (if i = k then j + 1 else n i)).map (f i) := by
  apply List.ext_getElem
  · simp
  · intro i h1 h2
    rw [List.getElem_modify]
    simp only [List.getElem_map, List.getElem_range]
    by_cases h : k = i
    · subst h
      simp [List.range_succ, hx]
    · rw [if_neg h, if_neg (fun e => h e.symm), if_neg (fun e => h e.symm)]

/-- the next new variable -/
def nextOf (lgn b : ℕ) : ℕ := bitsOf lgn b + 264 + 4480

theorem nextOf_eq {lgn b : ℕ} (h : b + 1 < 2 ^ (lgn + 1) - 1) : nextOf lgn b = freshOf lgn (b + 1) := by
  have hr : isRoot lgn b = false := by
    unfold isRoot
    rw [decide_eq_false_iff_not]
    omega
  unfold nextOf bitsOf
  rw [hr]
  unfold hashOf freshOf
  rw [pow_succ] at h
  split <;> simp <;> omega

theorem index_some {α : Type} {l : List α} {i : ℕ} {a : α} (h : l[i]? = some a) (v : ℕ) : index l i v = .ok (a, v, {}) := by
  unfold index
  rw [h]

theorem message_eq {lgn k j : ℕ} (hj : j < 2 ^ (lgn - k)) (hk : k ≤ lgn) :
    message (stateOf lgn k j) (freshOf lgn (startOf lgn k + j)) =
      .ok (messageVars lgn (startOf lgn k + j), hashOf lgn (startOf lgn k + j) - 1632,
        { inVals := List.range' (freshOf lgn (startOf lgn k + j)) (hashOf lgn (startOf lgn k + j) - 1632 -
          freshOf lgn (startOf lgn k + j)) }) := by
  generalize hb : startOf lgn k + j = b
  unfold message
  rcases Nat.eq_zero_or_pos k with rfl | hpos
  · have hlt : b < 2 ^ lgn := by rw [← hb, startOf_zero]; simpa using hj
    rw [show (stateOf lgn 0 j).layer = 0 from rfl, if_pos rfl]
    unfold hashOf messageVars
    rw [if_pos hlt, if_pos hlt, show freshOf lgn b + 2176 - 1632 = freshOf lgn b + 544 by omega,
      show freshOf lgn b + 544 - freshOf lgn b = 544 by omega]
    simp only [bind_def, pure_def, Gen.bind, Outcome.bind, allocN, Gen.pure, Log.append, List.append_nil, Nat.reduceMul]
    have e1 : List.range' (freshOf lgn b) 16 ++ List.range' (freshOf lgn b + 16) 48 ++ List.range' (freshOf lgn b + 16 + 48) 480 =
      List.range' (freshOf lgn b) 544 := by simp only [range'_join, Nat.add_assoc, Nat.reduceAdd]
    have e2 : List.range' (freshOf lgn b) 16 ++ (List.range' (freshOf lgn b + 16) 48 ++ List.range' (freshOf lgn b + 16 + 48) 480) =
      List.range' (freshOf lgn b) 544 := by rw [← List.append_assoc, e1]
    rw [e1, e2, show freshOf lgn b + 16 + 48 + 480 = freshOf lgn b + 544 by omega]
  · obtain ⟨k, rfl⟩ : ∃ k', k = k' + 1 := ⟨k - 1, by omega⟩
    have hge : ¬ b < 2 ^ lgn := by have := startOf_mono (lgn := lgn) hpos; omega
    obtain ⟨c1, c2⟩ := startOf_child hk
    have hc : 2 * (b - 2 ^ lgn) = startOf lgn k + 2 * j := by omega
    have hc' : 2 * (b - 2 ^ lgn) + 1 = startOf lgn k + (2 * j + 1) := by omega
    have hpow : 2 ^ (lgn - k) = 2 * 2 ^ (lgn - (k + 1)) := by
      rw [← pow_succ', show lgn - (k + 1) + 1 = lgn - k by omega]
    rw [show (stateOf lgn (k + 1) j).layer = k + 1 from rfl, if_neg (Nat.succ_ne_zero k)]
    have i1 : (stateOf lgn (k + 1) j).Hout[k + 1 - 1]? =
        some ((List.range (2 ^ (lgn - k))).map fun j => ownHash lgn (startOf lgn k + j)) := by
      rw [stateOf, List.getElem?_map, List.getElem?_range (by omega)]
      simp
    have i2 : (stateOf lgn (k + 1) j).HoutBits[k + 1 - 1]? =
        some ((List.range (2 ^ (lgn - k))).map fun j => vecs (bitsOf lgn (startOf lgn k + j)) 8 33) := by
      rw [stateOf, List.getElem?_map, List.getElem?_range (by omega)]
      simp
    have i3 : ∀ {α : Type} (f : ℕ → α) (i : ℕ), i < 2 ^ (lgn - k) → ((List.range (2 ^ (lgn - k))).map f)[i]? = some (f i) := by
      intro α f i hi
      rw [List.getElem?_map, List.getElem?_range hi]; rfl
    have hl : (stateOf lgn (k + 1) j).layIdx = j := rfl
    unfold hashOf messageVars
    rw [if_neg hge, if_neg hge, hl, show freshOf lgn b + 1680 - 1632 = freshOf lgn b + 48 by omega,
      show freshOf lgn b + 48 - freshOf lgn b = 48 by omega, hc', hc]
    simp only [bind_def, pure_def, Gen.bind, index_some i1, index_some i2, Outcome.bind,
      index_some (i3 _ (2 * j) (by omega)), index_some (i3 _ (2 * j + 1) (by omega)), allocN, Gen.pure, Log.append, List.append_nil,
      List.nil_append, List.append_assoc]

theorem range'_span {a b c : ℕ} (h1 : a ≤ b) (h2 : b ≤ c) :
    List.range' a (b - a) ++ List.range' b (c - b) = List.range' a (c - a) := by
  rw [range'_join (by omega), show b - a + (c - b) = c - a by omega]

theorem newHash_eq (lgn b : ℕ) : newHash theCommon (isRoot lgn b) (hashOf lgn b) =
    .ok ((ownHash lgn b, hashVars lgn b), bitsOf lgn b, { inVals := List.range' (hashOf lgn b) (bitsOf lgn b - hashOf lgn b) }) := by
  unfold newHash bitsOf ownHash hashVars
  cases isRoot lgn b
  · simp [bind_def, pure_def, Gen.bind, Outcome.bind, allocN, Gen.pure, Log.append]
  · simp [pure_def, Gen.pure, theCommon]

theorem merkleBlock_eq {lgn k j : ℕ} (hj : j < 2 ^ (lgn - k)) (hk : k ≤ lgn) {s : Tree} (hs : newLayer lgn s = stateOf lgn k j) :
    merkleBlock lgn (2 ^ (lgn + 1) - 1) theCommon (startOf lgn k + j) s (freshOf lgn (startOf lgn k + j)) =
      .ok (stateOf lgn k (j + 1), nextOf lgn (startOf lgn k + j),
        { inVals := List.range' (freshOf lgn (startOf lgn k + j)) (nextOf lgn (startOf lgn k + j) - freshOf lgn (startOf lgn k + j)) }) := by
  unfold merkleBlock
  have hle : freshOf lgn (startOf lgn k + j) ≤ hashOf lgn (startOf lgn k + j) - 1632 := by unfold hashOf; split <;> omega
  have hle' : 1632 ≤ hashOf lgn (startOf lgn k + j) := by unfold hashOf; split <;> omega
  have message_eq' := message_eq hj hk
  rw [hs]
  dsimp only
  have key : ({
        layer := (stateOf lgn k j).layer
        layIdx := (stateOf lgn k j).layIdx + 1
        Hout := (stateOf lgn k j).Hout.modify (stateOf lgn k j).layer (fun l => l ++ [ownHash lgn (startOf lgn k + j)])
        HoutBits := (stateOf lgn k j).HoutBits.modify (stateOf lgn k j).layer
          (fun l => l ++ [vecs (bitsOf lgn (startOf lgn k + j)) 8 33])
        blocks := (stateOf lgn k j).blocks ++ [List.range 34 ++ messageVars lgn (startOf lgn k + j) ++
          List.range' (hashOf lgn (startOf lgn k + j) - 1632) 1632 ++ theCommon.K ++ theCommon.H ++ hashVars lgn (startOf lgn k + j) ++
          (vecs (bitsOf lgn (startOf lgn k + j)) 8 33).flatten ++
          theCommon.initBits ++ List.range' (bitsOf lgn (startOf lgn k + j) + 264) 4480] } : Tree) = stateOf lgn k (j + 1) := by
    unfold stateOf
    congr 1
    · exact modify_last k j (fun i => 2 ^ (lgn - i)) (fun i j => ownHash lgn (startOf lgn i + j)) _ rfl
    · exact modify_last k j (fun i => 2 ^ (lgn - i)) (fun i j => vecs (bitsOf lgn (startOf lgn i + j)) 8 33) _ rfl
    · dsimp only
      rw [← Nat.add_assoc, List.range_succ (n := startOf lgn k + j), List.map_append]
      rfl
  rw [show decide (startOf lgn k + j = 2 ^ (lgn + 1) - 1 - 1) = isRoot lgn (startOf lgn k + j) from rfl]
  generalize startOf lgn k + j = b at *
  have hbits : hashOf lgn b ≤ bitsOf lgn b := Nat.le_add_right _ _
  simp only [bind_def, pure_def, Gen.bind, message_eq', Outcome.bind, allocN, Gen.pure, Log.append, List.append_nil,
    List.nil_append, newHash_eq, repeatG_allocN, Nat.reduceMul, Nat.sub_add_cancel hle']
  rw [key]
  have j1 := range'_span (show hashOf lgn b - 1632 ≤ hashOf lgn b from Nat.sub_le _ _) hbits
  have j2 := range'_span (show bitsOf lgn b ≤ bitsOf lgn b + 264 by omega) (show bitsOf lgn b + 264 ≤ nextOf lgn b by unfold nextOf; omega)
  have j3 := range'_span hbits (show bitsOf lgn b ≤ nextOf lgn b by unfold nextOf; omega)
  have j4 := range'_span (show hashOf lgn b - 1632 ≤ hashOf lgn b from Nat.sub_le _ _)
    (show hashOf lgn b ≤ nextOf lgn b by unfold nextOf; omega)
  have j5 := range'_span hle (show hashOf lgn b - 1632 ≤ nextOf lgn b by unfold nextOf; omega)
  rw [show hashOf lgn b - (hashOf lgn b - 1632) = 1632 by omega] at j4
  rw [show bitsOf lgn b + 264 - bitsOf lgn b = 264 by omega, show nextOf lgn b - (bitsOf lgn b + 264) = 4480 by unfold nextOf; omega] at j2
  rw [j2, j3, j4, j5]
  rfl

/-- the loop over the blocks -/
theorem loop_eq (lgn : ℕ) {n : ℕ} (hn : n < 2 ^ (lgn + 1) - 1) : ∃ k j s, k ≤ lgn ∧ j < 2 ^ (lgn - k) ∧ n = startOf lgn k + j ∧
    newLayer lgn s = stateOf lgn k j ∧
    forG n (merkleBlock lgn (2 ^ (lgn + 1) - 1) theCommon) Tree.start 306 =
      .ok (s, freshOf lgn n, { inVals := List.range' 306 (freshOf lgn n - 306) }) := by
  induction n with
  | zero =>
    refine ⟨0, 0, Tree.start, Nat.zero_le _, Nat.two_pow_pos _, by rw [startOf_zero], ?_, ?_⟩
    · have : Tree.start = stateOf lgn 0 0 := by simp [Tree.start, stateOf, startOf_zero]
      rw [this]
      exact newLayer_same (Nat.two_pow_pos _)
    · simp [forG, Gen.pure, freshOf]
  | succ n ih =>
    obtain ⟨k, j, s, hk, hj, e, hs, h⟩ := ih (by omega)
    have hb := merkleBlock_eq hj hk hs
    rw [← e, nextOf_eq hn] at hb
    have hstep : forG (n + 1) (merkleBlock lgn (2 ^ (lgn + 1) - 1) theCommon) Tree.start 306 =
        .ok (stateOf lgn k (j + 1), freshOf lgn (n + 1), { inVals := List.range' 306 (freshOf lgn (n + 1) - 306) }) := by
      rw [forG, Gen.bind, h]
      simp only [Outcome.bind, hb, Log.append, List.append_nil]
      rw [range'_span]
      · unfold freshOf; omega
      · unfold freshOf; omega
    by_cases hfull : j + 1 = 2 ^ (lgn - k)
    · have hlt : k < lgn := by
        rcases Nat.lt_or_eq_of_le hk with h | rfl
        · exact h
        · rw [startOf_last] at e
          rw [Nat.sub_self, pow_zero] at hj
          omega
      refine ⟨k + 1, 0, stateOf lgn k (j + 1), hlt, Nat.two_pow_pos _, ?_, ?_, hstep⟩
      · rw [startOf_succ hk, e]; omega
      · rw [hfull]
        exact (newLayer_full lgn k).resolve_right (by omega)
    · exact ⟨k, j + 1, _, hk, by omega, by omega, newLayer_same (by omega), hstep⟩

/-- the last variable but one -/
def endOf (lgn : ℕ) : ℕ := nextOf lgn (2 ^ (lgn + 1) - 2)

theorem loop_all (lgn : ℕ) : ∃ s, s.blocks = (List.range (2 ^ (lgn + 1) - 1)).map (blockVars lgn) ∧
    forG (2 ^ (lgn + 1) - 1) (merkleBlock lgn (2 ^ (lgn + 1) - 1) theCommon) Tree.start 306 =
      .ok (s, endOf lgn, { inVals := List.range' 306 (endOf lgn - 306) }) := by
  have h2 : 2 ≤ 2 ^ (lgn + 1) := by rw [pow_succ]; have := Nat.two_pow_pos lgn; omega
  obtain ⟨k, j, s, hk, hj, e, hs, h⟩ := loop_eq lgn (n := 2 ^ (lgn + 1) - 2) (by omega)
  have hb := merkleBlock_eq hj hk hs
  rw [← e] at hb
  refine ⟨stateOf lgn k (j + 1), ?_, ?_⟩
  · rw [show 2 ^ (lgn + 1) - 1 = startOf lgn k + (j + 1) by omega]; rfl
  · have hg : forG (2 ^ (lgn + 1) - 2 + 1) (merkleBlock lgn (2 ^ (lgn + 1) - 1) theCommon) Tree.start 306 =
      .ok (stateOf lgn k (j + 1), endOf lgn, { inVals := List.range' 306 (endOf lgn - 306) }) := by
      rw [forG, Gen.bind, h]
      simp only [Outcome.bind, hb, Log.append, List.append_nil]
      rw [range'_span]
      · rfl
      · unfold freshOf; omega
      · unfold nextOf bitsOf hashOf; omega
    rwa [show 2 ^ (lgn + 1) - 2 + 1 = 2 ^ (lgn + 1) - 1 by omega] at hg

end Libra.MerkleGen
