import Verif.Proofs.Merkle
import Verif.Spec.Program

/-!
# The wiring of a Merkle tree: variables of the blocks, and the lines
-/

namespace Libra.MerkleGen
open Compiler Sha256Gen Spec

/-! ### The inputs of a block -/

theorem app_right {l m : List ℕ} {n i : ℕ} (h : l.length = n) (hi : n ≤ i) : (l ++ m).getD i 0 = m.getD (i - n) 0 := by
  rw [List.getD_append_right _ _ _ _ (by omega), h]

theorem app_left {l m : List ℕ} {n i : ℕ} (h : l.length = n) (hi : i < n) : (l ++ m).getD i 0 = l.getD i 0 :=
  List.getD_append _ _ _ _ (by omega)

/-- vectors of the same length, one after the other -/
theorem getD_flatten {ls : List (List ℕ)} {n : ℕ} (h : ∀ l ∈ ls, l.length = n) {a i : ℕ} (ha : a < ls.length) (hi : i < n) :
    ls.flatten.getD (n * a + i) 0 = (ls.getD a []).getD i 0 := by
  induction ls generalizing a with
  | nil => simp at ha
  | cons l ls ih =>
    have hl := h l (by simp)
    rw [List.flatten_cons]
    cases a with
    | zero => rw [Nat.mul_zero, Nat.zero_add, app_left hl hi]; rfl
    | succ a =>
      rw [app_right hl (by rw [Nat.mul_add]; omega), show n * (a + 1) + i - n = n * a + i by rw [Nat.mul_add]; omega,
        ih (fun l hl => h l (List.mem_cons_of_mem _ hl)) (by simpa using ha)]
      rfl

theorem length_flatten {ls : List (List ℕ)} {n : ℕ} (h : ∀ l ∈ ls, l.length = n) : ls.flatten.length = n * ls.length := by
  induction ls with
  | nil => rfl
  | cons l ls ih =>
    rw [List.flatten_cons, List.length_append, h l (by simp), ih (fun l hl => h l (List.mem_cons_of_mem _ hl)), List.length_cons,
      Nat.mul_add]
    omega

theorem vecs_lengths (v n k : ℕ) : ∀ l ∈ vecs v n k, l.length = k := by
  intro l hl
  obtain ⟨i, -, rfl⟩ := List.mem_map.1 hl
  rw [List.length_range']

theorem vecs_length (v n k : ℕ) : (vecs v n k).length = n := by simp [vecs]

theorem flatMap_take (ls : List (List ℕ)) : ls.flatMap (List.take 32) = (ls.map (List.take 32)).flatten := by
  rw [List.flatMap]

variable {lgn b : ℕ}

theorem hashVars_length : (hashVars lgn b).length = 8 := by unfold hashVars; split <;> simp

theorem isRoot_iff : isRoot lgn b = true ↔ b = 2 ^ (lgn + 1) - 2 := by
  unfold isRoot
  rw [decide_eq_true_iff, Nat.sub_sub]

theorem child_lt (hge : 2 ^ lgn ≤ b) (hb : b < 2 ^ (lgn + 1) - 1) : 2 * (b - 2 ^ lgn) + 1 < 2 ^ (lgn + 1) - 2 := by
  rw [pow_succ] at *
  omega

theorem ownHash_eq (h : b < 2 ^ (lgn + 1) - 2) : ownHash lgn b = hashVars lgn b := by
  unfold ownHash hashVars
  rw [if_neg, if_neg] <;> rw [isRoot_iff] <;> omega

/-- the bits of the message of an inner block -/
def childBits (lgn b : ℕ) : List (List ℕ) :=
  ((vecs (bitsOf lgn (2 * (b - 2 ^ lgn))) 8 33).drop 1 ++ vecs (bitsOf lgn (2 * (b - 2 ^ lgn) + 1)) 8 33).map (List.take 32)

theorem childBits_lengths : ∀ l ∈ childBits lgn b, l.length = 32 := by
  intro l hl
  obtain ⟨l', hl', rfl⟩ := List.mem_map.1 hl
  rw [List.length_take]
  rcases List.mem_append.1 hl' with h | h
  · rw [vecs_lengths _ _ _ _ (List.mem_of_mem_drop h)]; rfl
  · rw [vecs_lengths _ _ _ _ h]; rfl

theorem childBits_length : (childBits lgn b).length = 15 := by simp [childBits, vecs_length]

theorem messageVars_inner (hge : 2 ^ lgn ≤ b) (hb : b < 2 ^ (lgn + 1) - 1) : messageVars lgn b =
    hashVars lgn (2 * (b - 2 ^ lgn)) ++ (hashVars lgn (2 * (b - 2 ^ lgn) + 1) ++ (List.range' (freshOf lgn b) 48 ++ (childBits lgn b).flatten)) := by
  have := child_lt hge hb
  unfold messageVars childBits
  rw [if_neg (by omega), ownHash_eq (by omega), ownHash_eq (by omega), flatMap_take]
  simp only [List.append_assoc]

theorem messageVars_length (hb : b < 2 ^ (lgn + 1) - 1) : (messageVars lgn b).length = 544 := by
  by_cases h : b < 2 ^ lgn
  · unfold messageVars
    rw [if_pos h, List.length_range']
  · rw [messageVars_inner (by omega) hb]
    simp [hashVars_length, length_flatten childBits_lengths, childBits_length]

theorem blockVars_assoc : blockVars lgn b = List.range 34 ++ (messageVars lgn b ++ (List.range' (hashOf lgn b - 1632) 1632 ++
    (List.range' 34 64 ++ (List.range' 98 8 ++ (hashVars lgn b ++ ((vecs (bitsOf lgn b) 8 33).flatten ++ (List.range' 106 192 ++
      List.range' (bitsOf lgn b + 264) 4480))))))) := by
  unfold blockVars
  simp only [List.append_assoc]

theorem hbits_length : (vecs (bitsOf lgn b) 8 33).flatten.length = 264 := by
  rw [length_flatten (vecs_lengths _ _ _), vecs_length]

theorem blockVars_length (hb : b < 2 ^ (lgn + 1) - 1) : (blockVars lgn b).length = 7226 := by
  rw [blockVars_assoc]
  simp only [List.length_append, List.length_range, List.length_range', messageVars_length hb, hashVars_length, hbits_length]

theorem at_const {i : ℕ} (hi : i < 34) : (blockVars lgn b).getD i 0 = i := by
  rw [blockVars_assoc, app_left List.length_range hi, List.getD_eq_getElem?_getD, List.getElem?_range hi]
  rfl

theorem at_message (hb : b < 2 ^ (lgn + 1) - 1) {i : ℕ} (hi : i < 544) :
    (blockVars lgn b).getD (34 + i) 0 = (messageVars lgn b).getD i 0 := by
  rw [blockVars_assoc, app_right List.length_range (by omega), app_left (messageVars_length hb) (by omega), Nat.add_sub_cancel_left]

theorem at_schedule (hb : b < 2 ^ (lgn + 1) - 1) {i : ℕ} (hi : i < 1632) :
    (blockVars lgn b).getD (578 + i) 0 = hashOf lgn b - 1632 + i := by
  rw [blockVars_assoc, app_right List.length_range (by omega), app_right (messageVars_length hb) (by omega),
    app_left List.length_range' (by omega), getD_range' (by omega)]
  omega

theorem at_K (hb : b < 2 ^ (lgn + 1) - 1) {i : ℕ} (hi : i < 64) : (blockVars lgn b).getD (2210 + i) 0 = 34 + i := by
  rw [blockVars_assoc, app_right List.length_range (by omega), app_right (messageVars_length hb) (by omega),
    app_right List.length_range' (by omega), app_left List.length_range' (by omega), getD_range' (by omega)]
  omega

theorem at_H (hb : b < 2 ^ (lgn + 1) - 1) {i : ℕ} (hi : i < 8) : (blockVars lgn b).getD (2274 + i) 0 = 98 + i := by
  rw [blockVars_assoc, app_right List.length_range (by omega), app_right (messageVars_length hb) (by omega),
    app_right List.length_range' (by omega), app_right List.length_range' (by omega), app_left List.length_range' (by omega),
    getD_range' (by omega)]
  omega

theorem at_hash (hb : b < 2 ^ (lgn + 1) - 1) {i : ℕ} (hi : i < 8) :
    (blockVars lgn b).getD (2282 + i) 0 = (hashVars lgn b).getD i 0 := by
  rw [blockVars_assoc, app_right List.length_range (by omega), app_right (messageVars_length hb) (by omega),
    app_right List.length_range' (by omega), app_right List.length_range' (by omega), app_right List.length_range' (by omega),
    app_left hashVars_length (by omega), show 2282 + i - 34 - 544 - 1632 - 64 - 8 = i by omega]

theorem at_hbits (hb : b < 2 ^ (lgn + 1) - 1) {i t : ℕ} (hi : i < 8) (ht : t < 33) :
    (blockVars lgn b).getD (2290 + (33 * i + t)) 0 = bitsOf lgn b + 33 * i + t := by
  rw [blockVars_assoc, app_right List.length_range (by omega), app_right (messageVars_length hb) (by omega),
    app_right List.length_range' (by omega), app_right List.length_range' (by omega), app_right List.length_range' (by omega),
    app_right hashVars_length (by omega), app_left hbits_length (by omega),
    show 2290 + (33 * i + t) - 34 - 544 - 1632 - 64 - 8 - 8 = 33 * i + t by omega,
    getD_flatten (vecs_lengths _ _ _) (by rw [vecs_length]; exact hi) ht, getD_vecs hi, getD_range' ht]

theorem at_init (hb : b < 2 ^ (lgn + 1) - 1) {i : ℕ} (hi : i < 192) : (blockVars lgn b).getD (2554 + i) 0 = 106 + i := by
  rw [blockVars_assoc, app_right List.length_range (by omega), app_right (messageVars_length hb) (by omega),
    app_right List.length_range' (by omega), app_right List.length_range' (by omega), app_right List.length_range' (by omega),
    app_right hashVars_length (by omega), app_right hbits_length (by omega), app_left List.length_range' (by omega),
    getD_range' (by omega)]
  omega

theorem at_out (hb : b < 2 ^ (lgn + 1) - 1) {i : ℕ} (hi : i < 4480) :
    (blockVars lgn b).getD (2746 + i) 0 = bitsOf lgn b + 264 + i := by
  rw [blockVars_assoc, app_right List.length_range (by omega), app_right (messageVars_length hb) (by omega),
    app_right List.length_range' (by omega), app_right List.length_range' (by omega), app_right List.length_range' (by omega),
    app_right hashVars_length (by omega), app_right hbits_length (by omega), app_right List.length_range' (by omega),
    getD_range' (by omega)]
  omega

theorem message_leaf (h : b < 2 ^ lgn) {i : ℕ} (hi : i < 544) : (messageVars lgn b).getD i 0 = freshOf lgn b + i := by
  unfold messageVars
  rw [if_pos h, getD_range' hi]

theorem message_left (hge : 2 ^ lgn ≤ b) (hb : b < 2 ^ (lgn + 1) - 1) {i : ℕ} (hi : i < 8) :
    (messageVars lgn b).getD i 0 = (hashVars lgn (2 * (b - 2 ^ lgn))).getD i 0 := by
  rw [messageVars_inner hge hb, app_left hashVars_length hi]

theorem message_right (hge : 2 ^ lgn ≤ b) (hb : b < 2 ^ (lgn + 1) - 1) {i : ℕ} (hi : i < 8) :
    (messageVars lgn b).getD (8 + i) 0 = (hashVars lgn (2 * (b - 2 ^ lgn) + 1)).getD i 0 := by
  rw [messageVars_inner hge hb, app_right hashVars_length (by omega), app_left hashVars_length (by omega), Nat.add_sub_cancel_left]

theorem message_words (hge : 2 ^ lgn ≤ b) (hb : b < 2 ^ (lgn + 1) - 1) {i : ℕ} (hi : i < 48) :
    (messageVars lgn b).getD (16 + i) 0 = freshOf lgn b + i := by
  rw [messageVars_inner hge hb, app_right hashVars_length (by omega), app_right hashVars_length (by omega),
    app_left List.length_range' (by omega), getD_range' (by omega)]
  omega

theorem message_bits (hge : 2 ^ lgn ≤ b) (hb : b < 2 ^ (lgn + 1) - 1) {m t : ℕ} (hm : m < 15) (ht : t < 32) :
    (messageVars lgn b).getD (64 + (32 * m + t)) 0 =
      if m < 7 then bitsOf lgn (2 * (b - 2 ^ lgn)) + 33 * (m + 1) + t else bitsOf lgn (2 * (b - 2 ^ lgn) + 1) + 33 * (m - 7) + t := by
  rw [messageVars_inner hge hb, app_right hashVars_length (by omega), app_right hashVars_length (by omega),
    app_right List.length_range' (by omega), show 64 + (32 * m + t) - 8 - 8 - 48 = 32 * m + t by omega,
    getD_flatten childBits_lengths (by rw [childBits_length]; exact hm) ht]
  have hd : ∀ l : List ℕ, (l.take 32).getD t 0 = l.getD t 0 := by
    intro l
    rw [List.getD_eq_getElem?_getD, List.getElem?_take_of_lt ht, List.getD_eq_getElem?_getD]
  unfold childBits
  rw [List.getD_eq_getElem?_getD (α := List ℕ), List.getElem?_map]
  split
  · rw [List.getElem?_append_left (by simp [vecs_length]; omega), List.getElem?_drop]
    have := getD_vecs (v := bitsOf lgn (2 * (b - 2 ^ lgn))) (n := 8) (k := 33) (i := 1 + m) (by omega)
    rw [List.getD_eq_getElem?_getD] at this
    rw [List.getElem?_eq_getElem (by rw [vecs_length]; omega)] at this ⊢
    rw [Option.getD_some] at this
    rw [Option.map_some, Option.getD_some, this, hd, getD_range' (by omega)]
    omega
  · rw [List.getElem?_append_right (by simp [vecs_length]; omega)]
    have := getD_vecs (v := bitsOf lgn (2 * (b - 2 ^ lgn) + 1)) (n := 8) (k := 33) (i := m - 7) (by omega)
    rw [List.getD_eq_getElem?_getD] at this
    rw [show m - ((vecs (bitsOf lgn (2 * (b - 2 ^ lgn))) 8 33).drop 1).length = m - 7 by simp [vecs_length]]
    rw [List.getElem?_eq_getElem (by rw [vecs_length]; omega)] at this ⊢
    rw [Option.getD_some] at this
    rw [Option.map_some, Option.getD_some, this, hd, getD_range' (by omega)]

/-! ### Bounds -/

theorem freshOf_mono {a b : ℕ} (h : a ≤ b) : freshOf lgn a ≤ freshOf lgn b := by unfold freshOf; omega

theorem next_le (hb : b < 2 ^ (lgn + 1) - 1) : nextOf lgn b ≤ endOf lgn := by
  by_cases h : b + 1 < 2 ^ (lgn + 1) - 1
  · rw [nextOf_eq h]
    refine (freshOf_mono (show b + 1 ≤ 2 ^ (lgn + 1) - 2 by omega)).trans ?_
    unfold endOf nextOf bitsOf hashOf
    omega
  · unfold endOf
    rw [show b = 2 ^ (lgn + 1) - 2 by omega]

theorem bits_lt (hb : b < 2 ^ (lgn + 1) - 1) : bitsOf lgn b + 264 + 4480 ≤ endOf lgn := next_le hb

theorem hash_lt (hb : b < 2 ^ (lgn + 1) - 1) : ∀ a ∈ hashVars lgn b, a < endOf lgn := by
  intro a ha
  have h1 := bits_lt hb
  unfold hashVars at ha
  split at ha
  · rw [List.mem_range'_1] at ha
    omega
  · rename_i h
    rw [List.mem_range'_1] at ha
    unfold bitsOf at h1
    rw [if_neg h] at h1
    omega

theorem fresh_le_bits : freshOf lgn b + 1680 ≤ hashOf lgn b ∧ hashOf lgn b ≤ bitsOf lgn b := by
  unfold bitsOf hashOf
  split <;> omega

theorem vecs_bound {v n k a : ℕ} {l : List ℕ} (hl : l ∈ vecs v n k) (ha : a ∈ l) : a < v + k * n := by
  obtain ⟨i, hi, rfl⟩ := List.mem_map.1 hl
  rw [List.mem_range'_1] at ha
  rw [List.mem_range] at hi
  have : k * (i + 1) ≤ k * n := Nat.mul_le_mul_left k hi
  rw [Nat.mul_add] at this
  omega

theorem childBits_bound (hge : 2 ^ lgn ≤ b) (hb : b < 2 ^ (lgn + 1) - 1) {a : ℕ} {l : List ℕ} (hl : l ∈ childBits lgn b) (ha : a ∈ l) :
    a < endOf lgn := by
  have hc := child_lt hge hb
  obtain ⟨l', hl', rfl⟩ := List.mem_map.1 hl
  have ha := List.mem_of_mem_take ha
  rcases List.mem_append.1 hl' with h | h
  · have := vecs_bound (List.mem_of_mem_drop h) ha
    have := bits_lt (lgn := lgn) (b := 2 * (b - 2 ^ lgn)) (by omega)
    omega
  · have := vecs_bound h ha
    have := bits_lt (lgn := lgn) (b := 2 * (b - 2 ^ lgn) + 1) (by omega)
    omega

theorem end_large : 306 ≤ endOf lgn := by
  have := fresh_le_bits (lgn := lgn) (b := 2 ^ (lgn + 1) - 2)
  unfold endOf nextOf
  unfold freshOf at this
  omega

theorem vars_lt (hb : b < 2 ^ (lgn + 1) - 1) : ∀ a ∈ blockVars lgn b, a < endOf lgn := by
  intro a ha
  have hend := end_large (lgn := lgn)
  have hbits := bits_lt hb
  obtain ⟨hf, hh⟩ := fresh_le_bits (lgn := lgn) (b := b)
  rw [blockVars_assoc] at ha
  simp only [List.mem_append, List.mem_range, List.mem_range'_1] at ha
  rcases ha with h | h | h | h | h | h | h | h | h
  · omega
  · by_cases hleaf : b < 2 ^ lgn
    · unfold messageVars at h
      rw [if_pos hleaf, List.mem_range'_1] at h
      omega
    · have hc := child_lt (by omega) hb
      rw [messageVars_inner (by omega) hb] at h
      simp only [List.mem_append, List.mem_range'_1, List.mem_flatten] at h
      rcases h with h | h | h | ⟨l, hl, h⟩
      · exact hash_lt (by omega) a h
      · exact hash_lt (by omega) a h
      · omega
      · exact childBits_bound (by omega) hb hl h
  · omega
  · omega
  · omega
  · exact hash_lt hb a h
  · obtain ⟨l, hl, h⟩ := List.mem_flatten.1 h
    have := vecs_bound hl h
    omega
  · omega
  · omega

theorem fresh_large : 306 ≤ freshOf lgn b := by unfold freshOf; omega

theorem hash_ge : ∀ a ∈ hashVars lgn b, 34 ≤ a := by
  intro a ha
  have := fresh_large (lgn := lgn) (b := b)
  obtain ⟨hf, hh⟩ := fresh_le_bits (lgn := lgn) (b := b)
  unfold hashVars at ha
  split at ha <;> rw [List.mem_range'_1] at ha <;> omega

theorem vecs_ge {v n k a : ℕ} {l : List ℕ} (hl : l ∈ vecs v n k) (ha : a ∈ l) : v ≤ a := by
  obtain ⟨i, hi, rfl⟩ := List.mem_map.1 hl
  rw [List.mem_range'_1] at ha
  omega

/-- the constants are not used further -/
theorem vars_ge (hb : b < 2 ^ (lgn + 1) - 1) {i : ℕ} (h34 : 34 ≤ i) (hi : i < 7226) : 34 ≤ (blockVars lgn b).getD i 0 := by
  have hl := blockVars_length hb
  rw [blockVars_assoc] at hl ⊢
  rw [app_right List.length_range h34]
  rw [List.length_append, List.length_range] at hl
  rw [List.getD_eq_getElem?_getD, List.getElem?_eq_getElem (by omega), Option.getD_some]
  generalize ha : (_ : List ℕ)[i - 34]'_ = a
  have ha := ha ▸ List.getElem_mem (show i - 34 < _ by omega)
  have hf := fresh_large (lgn := lgn) (b := b)
  obtain ⟨hf', hh⟩ := fresh_le_bits (lgn := lgn) (b := b)
  simp only [List.mem_append, List.mem_range'_1] at ha
  rcases ha with h | h | h | h | h | h | h | h
  · by_cases hleaf : b < 2 ^ lgn
    · unfold messageVars at h
      rw [if_pos hleaf, List.mem_range'_1] at h
      omega
    · rw [messageVars_inner (by omega) hb] at h
      simp only [List.mem_append, List.mem_range'_1, List.mem_flatten] at h
      rcases h with h | h | h | ⟨l, hl, h⟩
      · exact hash_ge a h
      · exact hash_ge a h
      · omega
      · obtain ⟨l', hl', rfl⟩ := List.mem_map.1 hl
        have h := List.mem_of_mem_take h
        have hg : ∀ b, 34 ≤ bitsOf lgn b := fun b => by
          have := fresh_large (lgn := lgn) (b := b)
          obtain ⟨_, _⟩ := fresh_le_bits (lgn := lgn) (b := b)
          omega
        rcases List.mem_append.1 hl' with h' | h'
        · exact (hg _).trans (vecs_ge (List.mem_of_mem_drop h') h)
        · exact (hg _).trans (vecs_ge h' h)
  · omega
  · omega
  · omega
  · exact hash_ge a h
  · obtain ⟨l, hl, h⟩ := List.mem_flatten.1 h
    have := vecs_ge hl h
    omega
  · omega
  · omega

/-! ### The lines -/

/-- the number of padding inputs -/
def padOf (lgn : ℕ) (padding : Bool) : ℕ := if padding then 2 ^ bitLength (endOf lgn - 306 - 1) - 306 else 0

/-- the first output -/
def baseOf (lgn : ℕ) (padding : Bool) : ℕ := endOf lgn + padOf lgn padding

/-- the variables the outputs copy: all blocks, the last one twice -/
def copied (lgn : ℕ) : List ℕ :=
  ((List.range (2 ^ (lgn + 1))).map fun b => blockVars lgn (min b (2 ^ (lgn + 1) - 2))).flatten

/-- the wiring file -/
def rdlLines (lgn : ℕ) (padding : Bool) (x : ℕ → ℤ) : List RStmt :=
  .const 0 0 :: (List.range' 1 33).map (fun i => RStmt.const i (4 * 2 ^ (i - 1))) ++ inputLines x (List.range' 34 272) 34 ++
    inputLines x (List.range' (endOf lgn) (padOf lgn padding)) 306 ++
    inputLines x (List.range' 306 (endOf lgn - 306)) (306 + padOf lgn padding) ++
    ((copied lgn).zipIdx (baseOf lgn padding)).map (fun p => RStmt.pass p.2 p.1 p.1) ++
    ((List.range' (baseOf lgn padding) (copied lgn).length).zipIdx (baseOf lgn padding)).map (fun p => RStmt.output p.2 p.1)

theorem copied_lengths (lgn : ℕ) :
    ∀ l ∈ (List.range (2 ^ (lgn + 1))).map fun b => blockVars lgn (min b (2 ^ (lgn + 1) - 2)), l.length = 7226 := by
  intro l hl
  obtain ⟨b, -, rfl⟩ := List.mem_map.1 hl
  refine blockVars_length ?_
  have := Nat.two_pow_pos lgn
  rw [pow_succ]
  omega

theorem copied_length (lgn : ℕ) : (copied lgn).length = 7226 * 2 ^ (lgn + 1) := by
  unfold copied
  rw [length_flatten (copied_lengths lgn), List.length_map, List.length_range]

theorem copied_at {b i : ℕ} (hb : b < 2 ^ (lgn + 1)) (hi : i < 7226) :
    (copied lgn).getD (7226 * b + i) 0 = (blockVars lgn (min b (2 ^ (lgn + 1) - 2))).getD i 0 := by
  unfold copied
  rw [getD_flatten (copied_lengths lgn) (by rw [List.length_map, List.length_range]; exact hb) hi]
  congr 1
  rw [List.getD_eq_getElem?_getD, List.getElem?_map, List.getElem?_range hb]
  rfl

theorem copied_lt (lgn : ℕ) : ∀ a ∈ copied lgn, a < endOf lgn := by
  intro a ha
  obtain ⟨l, hl, ha⟩ := List.mem_flatten.1 ha
  obtain ⟨b, -, rfl⟩ := List.mem_map.1 hl
  refine vars_lt ?_ a ha
  have := Nat.two_pow_pos lgn
  rw [pow_succ]
  omega

theorem merkleRdl_eq (hl : lgn ≠ 0) (padding : Bool) (x : ℕ → ℤ) : merkleRdl lgn padding x = .ok (rdlLines lgn padding x) := by
  obtain ⟨s, hs, h⟩ := loop_all lgn
  have h2 : 2 ≤ 2 ^ (lgn + 1) := by rw [pow_succ]; have := Nat.two_pow_pos lgn; omega
  have hblocks : s.blocks ++ [s.blocks.getLastD []] =
      (List.range (2 ^ (lgn + 1))).map fun b => blockVars lgn (min b (2 ^ (lgn + 1) - 2)) := by
    have e1 : (List.range (2 ^ (lgn + 1) - 1)).map (blockVars lgn) =
        (List.range (2 ^ (lgn + 1) - 1)).map fun b => blockVars lgn (min b (2 ^ (lgn + 1) - 2)) := by
      refine List.map_congr_left fun b hb => ?_
      rw [List.mem_range] at hb
      rw [Nat.min_eq_left (by omega)]
    have e2 : s.blocks.getLastD [] = blockVars lgn (2 ^ (lgn + 1) - 2) := by
      rw [hs, show 2 ^ (lgn + 1) - 1 = 2 ^ (lgn + 1) - 2 + 1 by omega, List.range_succ, List.map_append]
      simp
    rw [e2, hs, e1]
    conv_rhs => rw [show 2 ^ (lgn + 1) = 2 ^ (lgn + 1) - 1 + 1 by omega, List.range_succ, List.map_append]
    rw [show 2 ^ (lgn + 1) - 1 + 1 = 2 ^ (lgn + 1) by omega]
    congr 1
    rw [List.map_singleton, Nat.min_eq_right (by omega)]
  unfold merkleRdl
  rw [if_neg hl, allocCommon_eq]
  simp only [Outcome.bind]
  rw [h]
  dsimp only
  have hall : (s.blocks ++ [s.blocks.getLastD []]).all (fun b => b.length = 7226) = true := by
    rw [hblocks, List.all_eq_true]
    intro l hl
    rw [decide_eq_true_iff]
    exact copied_lengths lgn l hl
  have he := end_large (lgn := lgn)
  rw [if_pos hall, hblocks, List.length_range', List.length_range']
  unfold rdlLines baseOf padOf copied
  rw [show 34 + 272 + (if padding = true then 2 ^ bitLength (endOf lgn - 306 - 1) - 306 else 0) + (endOf lgn - 306) =
    endOf lgn + (if padding = true then 2 ^ bitLength (endOf lgn - 306 - 1) - 306 else 0) by omega]

end Libra.MerkleGen
