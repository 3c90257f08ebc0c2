import Verif.Proofs.MerkleOk
import Verif.Proofs.Sha256Program
import Verif.Spec.Merkle

/-!
# Values for all variables of a Merkle tree
-/

namespace Libra.MerkleGen
open Compiler Sha256Gen Spec

section
variable {F : Type} [Field F] (lgn : ℕ) (K H : ℕ → Sha256.Word) (leaves : ℕ → ℕ → Sha256.Word)

/-- the hash value of block `b` -/
def hashAt (b : ℕ) : ℕ → Sha256.Word :=
  if b < 2 ^ lgn then Sha256.compress K (leaves b) H
  else if h : 2 * (b - 2 ^ lgn) + 1 < b then
    Sha256.compress K (Sha256.concat (hashAt (2 * (b - 2 ^ lgn))) (hashAt (2 * (b - 2 ^ lgn) + 1))) H
  else fun _ => 0
termination_by b
decreasing_by all_goals omega

/-- the message of block `b` -/
def messageAt (b : ℕ) : ℕ → Sha256.Word :=
  if b < 2 ^ lgn then leaves b
  else Sha256.concat (hashAt lgn K H leaves (2 * (b - 2 ^ lgn))) (hashAt lgn K H leaves (2 * (b - 2 ^ lgn) + 1))

theorem hashAt_eq {b : ℕ} (hb : b < 2 ^ (lgn + 1) - 1) :
    hashAt lgn K H leaves b = Sha256.compress K (messageAt lgn K H leaves b) H := by
  have hp : 2 ^ (lgn + 1) = 2 * 2 ^ lgn := pow_succ' 2 lgn
  unfold messageAt
  by_cases h : b < 2 ^ lgn
  · rw [hashAt, if_pos h, if_pos h]
  · rw [hashAt, if_neg h, if_neg h, dif_pos (by omega)]

/-- the inputs of block `b` -/
def inputsAt (b : ℕ) : ℕ → F :=
  assign (fun t => (schedVal (messageAt lgn K H leaves b 0).toNat (messageAt lgn K H leaves b) t : F)) K H
    (Sha256.compress K (messageAt lgn K H leaves b) H) (witness (messageAt lgn K H leaves b 0).toNat K (messageAt lgn K H leaves b) H)

/-- the place in the block of new variable `r` of block `b` -/
def place (b r : ℕ) : ℕ :=
  if b < 2 ^ lgn then if r < 2176 then 34 + r else if r < 2448 then 2282 + (r - 2176) else 2746 + (r - 2448)
  else if r < 48 then 50 + r else if r < 1680 then 578 + (r - 48)
  else if b = 2 ^ (lgn + 1) - 2 then if r < 1944 then 2290 + (r - 1680) else 2746 + (r - 1944)
  else if r < 1952 then 2282 + (r - 1680) else 2746 + (r - 1952)

/-- the values of the variables -/
def values (n : ℕ) : F :=
  if n < 34 then ((constOf n : ℤ) : F)
  else if n < 98 then ((K (n - 34)).toNat : F)
  else if n < 106 then ((H (n - 98)).toNat : F)
  else if n < 298 then inputsAt lgn K H leaves 0 (2554 + (n - 106))
  else if n < 306 then ((hashAt lgn K H leaves (2 ^ (lgn + 1) - 2) (n - 298)).toNat : F)
  else if n < 306 + 6928 * 2 ^ lgn then
    inputsAt lgn K H leaves ((n - 306) / 6928) (place lgn ((n - 306) / 6928) ((n - 306) % 6928))
  else
    let b := 2 ^ lgn + (n - 306 - 6928 * 2 ^ lgn) / 6432
    inputsAt lgn K H leaves b (place lgn b ((n - 306 - 6928 * 2 ^ lgn) % 6432))

variable {lgn K H leaves}

theorem values_leaf {b r : ℕ} (hb : b < 2 ^ lgn) (hr : r < 6928) :
    values (F := F) lgn K H leaves (freshOf lgn b + r) = inputsAt lgn K H leaves b (place lgn b r) := by
  unfold values freshOf
  rw [Nat.min_eq_left hb.le, show b - 2 ^ lgn = 0 by omega]
  iterate 5 rw [if_neg (by omega)]
  rw [if_pos (by omega), show (306 + 6928 * b + 6432 * 0 + r - 306) / 6928 = b by omega,
    show (306 + 6928 * b + 6432 * 0 + r - 306) % 6928 = r by omega]

theorem values_inner {b r : ℕ} (hb : 2 ^ lgn ≤ b) (hr : r < 6432) :
    values (F := F) lgn K H leaves (freshOf lgn b + r) = inputsAt lgn K H leaves b (place lgn b r) := by
  unfold values freshOf
  rw [Nat.min_eq_right hb]
  obtain ⟨d, rfl⟩ := Nat.exists_eq_add_of_le hb
  generalize 2 ^ lgn = N
  rw [Nat.add_sub_cancel_left]
  iterate 6 rw [if_neg (by omega)]
  dsimp only
  rw [show (306 + 6928 * N + 6432 * d + r - 306 - 6928 * N) / 6432 = d by omega,
    show (306 + 6928 * N + 6432 * d + r - 306 - 6928 * N) % 6432 = r by omega]

/-- a variable with its block -/
theorem values_fresh {b n r : ℕ} (e : n = freshOf lgn b + r) (hr : r < if b < 2 ^ lgn then 6928 else 6432) :
    values (F := F) lgn K H leaves n = inputsAt lgn K H leaves b (place lgn b r) := by
  subst e
  split at hr
  · exact values_leaf ‹_› hr
  · exact values_inner (by omega) hr

theorem inputsAt_hash {b i : ℕ} (hb : b < 2 ^ (lgn + 1) - 1) (hi : i < 8) :
    inputsAt (F := F) lgn K H leaves b (2282 + i) = ((hashAt lgn K H leaves b i).toNat : F) := by
  unfold inputsAt
  rw [assign_O hi, hashAt_eq lgn K H leaves hb]

/-- the hash value of a block -/
theorem values_hash {b i : ℕ} (hb : b < 2 ^ (lgn + 1) - 1) (hi : i < 8) :
    values (F := F) lgn K H leaves ((hashVars lgn b).getD i 0) = ((hashAt lgn K H leaves b i).toNat : F) := by
  unfold hashVars
  have hp : 2 ^ (lgn + 1) = 2 * 2 ^ lgn := pow_succ' 2 lgn
  split
  · rename_i h
    rw [isRoot_iff] at h
    subst h
    rw [getD_range' hi]
    unfold values
    iterate 4 rw [if_neg (by omega)]
    rw [if_pos (by omega), Nat.add_sub_cancel_left]
  · rename_i h
    rw [isRoot_iff] at h
    rw [getD_range' hi, ← inputsAt_hash hb hi]
    unfold hashOf
    split
    · rename_i hl
      rw [values_fresh (b := b) (r := 2176 + i) (by omega) (by rw [if_pos hl]; omega)]
      unfold place
      rw [if_pos hl, if_neg (by omega), if_pos (by omega), Nat.add_sub_cancel_left]
    · rename_i hl
      rw [values_fresh (b := b) (r := 1680 + i) (by omega) (by rw [if_neg hl]; omega)]
      unfold place
      rw [if_neg hl, if_neg (by omega), if_neg (by omega), if_neg h, if_pos (by omega), Nat.add_sub_cancel_left]

/-- the bits of the hash value of a block -/
theorem values_hbits (hl2 : 2 ≤ 2 ^ lgn) {b i : ℕ} (hi : i < 264 + 4480) :
    values (F := F) lgn K H leaves (bitsOf lgn b + i) =
      inputsAt lgn K H leaves b (if i < 264 then 2290 + i else 2746 + (i - 264)) := by
  unfold bitsOf hashOf
  have hp : 2 ^ (lgn + 1) = 2 * 2 ^ lgn := pow_succ' 2 lgn
  have hpos := Nat.two_pow_pos lgn
  by_cases hr : isRoot lgn b = true
  · rw [if_pos hr]
    rw [isRoot_iff] at hr
    by_cases hl : b < 2 ^ lgn
    · omega
    · rw [if_neg hl, values_fresh (b := b) (r := 1680 + i) (by omega) (by rw [if_neg hl]; omega)]
      unfold place
      rw [if_neg hl, if_neg (by omega), if_neg (by omega), if_pos hr]
      split <;> split <;> first | omega | exact congrArg _ (by omega)
  · rw [if_neg hr]
    rw [isRoot_iff] at hr
    by_cases hl : b < 2 ^ lgn
    · rw [if_pos hl, values_fresh (b := b) (r := 2184 + i) (by omega) (by rw [if_pos hl]; omega)]
      unfold place
      rw [if_pos hl, if_neg (by omega)]
      split <;> split <;> first | omega | exact congrArg _ (by omega)
    · rw [if_neg hl, values_fresh (b := b) (r := 1688 + i) (by omega) (by rw [if_neg hl]; omega)]
      unfold place
      rw [if_neg hl, if_neg (by omega), if_neg (by omega), if_neg hr]
      split <;> split <;> first | omega | exact congrArg _ (by omega)

/-- low bits of the hash value with carry -/
theorem bitF_low {b i t : ℕ} (hb : b < 2 ^ (lgn + 1) - 1) (hi : i < 8) (ht : t < 32) :
    inputsAt (F := F) lgn K H leaves b (2290 + (33 * i + t)) = bitF F (hashAt lgn K H leaves b i) t := by
  unfold inputsAt assign
  iterate 7 rw [if_neg (by omega)]
  rw [if_pos (by omega), show (2290 + (33 * i + t) - 2290) / 33 = i by omega, show (2290 + (33 * i + t) - 2290) % 33 = t by omega,
    hashAt_eq lgn K H leaves hb]
  unfold bitF witness Sha256.compress state
  dsimp only
  rw [BitVec.getLsbD_ofNat, BitVec.getLsbD, BitVec.toNat_add, Nat.testBit_mod_two_pow]
  simp only [ht, show t < 33 by omega, decide_true, Bool.true_and]

/-- the bits of word `m + 1` of the message -/
theorem inputsAt_mbits {b m t : ℕ} (hm : m < 15) (ht : t < 32) :
    inputsAt (F := F) lgn K H leaves b (98 + (32 * m + t)) = bitF F (messageAt lgn K H leaves b (m + 1)) t := by
  unfold inputsAt assign
  iterate 2 rw [if_neg (by omega)]
  rw [if_pos (by omega), show 1 + (98 + (32 * m + t) - 98) / 32 = m + 1 by omega, show (98 + (32 * m + t) - 98) % 32 = t by omega]
  show bitF F (Sha256.schedule _ (m + 1)) t = _
  rw [schedule_early _ (by omega)]

theorem inputsAt_message {b i : ℕ} (hi : i < 16) :
    inputsAt (F := F) lgn K H leaves b (34 + i) = ((messageAt lgn K H leaves b i).toNat : F) := by
  unfold inputsAt
  rw [assign_W (by omega)]
  unfold schedVal
  split
  · rename_i h; rw [h]
  · rw [schedule_early _ hi]

theorem inputsAt_init {b b' i : ℕ} (hi : i < 192) :
    inputsAt (F := F) lgn K H leaves b (2554 + i) = inputsAt lgn K H leaves b' (2554 + i) := by
  have : ∀ b, inputsAt (F := F) lgn K H leaves b (2554 + i) =
      if 2554 + i < 2586 then bitF F (H 0) (2554 + i - 2554)
      else if 2554 + i < 2618 then bitF F (H 1) (2554 + i - 2586)
      else if 2554 + i < 2650 then bitF F (H 2) (2554 + i - 2618)
      else if 2554 + i < 2682 then bitF F (H 4) (2554 + i - 2650)
      else if 2554 + i < 2714 then bitF F (H 5) (2554 + i - 2682)
      else bitF F (H 6) (2554 + i - 2714) := by
    intro b
    unfold inputsAt assign
    iterate 8 rw [if_neg (by omega)]
    have h : 2554 + i < 2746 := by omega
    simp only [h, if_true]
    rfl
  rw [this, this]

/-- every input of every block has the value it needs -/
theorem values_block (hl2 : 2 ≤ 2 ^ lgn) {b i : ℕ} (hb : b < 2 ^ (lgn + 1) - 1) (h34 : 34 ≤ i) (hi : i < 7226) :
    values (F := F) lgn K H leaves ((blockVars lgn b).getD i 0) = inputsAt lgn K H leaves b i := by
  have hp : 2 ^ (lgn + 1) = 2 * 2 ^ lgn := pow_succ' 2 lgn
  obtain ⟨i, rfl⟩ := Nat.exists_eq_add_of_le h34
  by_cases c1 : i < 544
  · rw [at_message hb c1]
    by_cases hl : b < 2 ^ lgn
    · rw [message_leaf hl c1, values_fresh (b := b) rfl (by rw [if_pos hl]; omega)]
      unfold place
      rw [if_pos hl, if_pos (by omega)]
    · have hge : 2 ^ lgn ≤ b := by omega
      have hc := child_lt hge hb
      by_cases c2 : i < 8
      · rw [message_left hge hb c2, values_hash (by omega) c2, inputsAt_message (by omega)]
        unfold messageAt Sha256.concat
        rw [if_neg hl, if_pos c2]
      by_cases c3 : i < 16
      · obtain ⟨i, rfl⟩ := Nat.exists_eq_add_of_le (show 8 ≤ i by omega)
        rw [message_right hge hb (by omega), values_hash (by omega) (by omega), inputsAt_message (by omega)]
        unfold messageAt Sha256.concat
        rw [if_neg hl, if_neg c2, Nat.add_sub_cancel_left]
      by_cases c4 : i < 64
      · obtain ⟨i, rfl⟩ := Nat.exists_eq_add_of_le (show 16 ≤ i by omega)
        rw [message_words hge hb (by omega), values_fresh (b := b) rfl (by rw [if_neg hl]; omega)]
        unfold place
        rw [if_neg hl, if_pos (by omega)]
        exact congrArg _ (by omega)
      · obtain ⟨n, rfl⟩ := Nat.exists_eq_add_of_le (show 64 ≤ i by omega)
        obtain ⟨m, t, hm, ht, rfl⟩ : ∃ m t, m < 15 ∧ t < 32 ∧ n = 32 * m + t := ⟨n / 32, n % 32, by omega, by omega, by omega⟩
        rw [message_bits hge hb hm ht, show 34 + (64 + (32 * m + t)) = 98 + (32 * m + t) by omega, inputsAt_mbits hm ht]
        unfold messageAt Sha256.concat
        rw [if_neg hl]
        split
        · rw [if_pos (by omega), Nat.add_assoc, values_hbits hl2 (by omega), if_pos (by omega), bitF_low (by omega) (by omega) ht]
        · rw [if_neg (by omega), Nat.add_assoc, values_hbits hl2 (by omega), if_pos (by omega), bitF_low (by omega) (by omega) ht,
            show m + 1 - 8 = m - 7 by omega]
  by_cases c2 : i < 2176
  · obtain ⟨i, rfl⟩ := Nat.exists_eq_add_of_le (show 544 ≤ i by omega)
    rw [show 34 + (544 + i) = 578 + i by omega, at_schedule hb (by omega)]
    unfold hashOf
    split
    · rename_i hl
      rw [values_fresh (b := b) (r := 544 + i) (by omega) (by rw [if_pos hl]; omega)]
      unfold place
      rw [if_pos hl, if_pos (by omega)]
      exact congrArg _ (by omega)
    · rename_i hl
      rw [values_fresh (b := b) (r := 48 + i) (by omega) (by rw [if_neg hl]; omega)]
      unfold place
      rw [if_neg hl, if_neg (by omega), if_pos (by omega), Nat.add_sub_cancel_left]
  by_cases c3 : i < 2240
  · obtain ⟨i, rfl⟩ := Nat.exists_eq_add_of_le (show 2176 ≤ i by omega)
    rw [show 34 + (2176 + i) = 2210 + i by omega, at_K hb (by omega)]
    unfold inputsAt values
    rw [assign_K (by omega), if_neg (by omega), if_pos (by omega), Nat.add_sub_cancel_left]
  by_cases c4 : i < 2248
  · obtain ⟨i, rfl⟩ := Nat.exists_eq_add_of_le (show 2240 ≤ i by omega)
    rw [show 34 + (2240 + i) = 2274 + i by omega, at_H hb (by omega)]
    unfold inputsAt values
    rw [assign_H (by omega), if_neg (by omega), if_neg (by omega), if_pos (by omega), Nat.add_sub_cancel_left]
  by_cases c5 : i < 2256
  · obtain ⟨i, rfl⟩ := Nat.exists_eq_add_of_le (show 2248 ≤ i by omega)
    rw [show 34 + (2248 + i) = 2282 + i by omega, at_hash hb (by omega), values_hash hb (by omega), inputsAt_hash hb (by omega)]
  by_cases c6 : i < 2520
  · obtain ⟨n, rfl⟩ := Nat.exists_eq_add_of_le (show 2256 ≤ i by omega)
    obtain ⟨m, t, hm, ht, rfl⟩ : ∃ m t, m < 8 ∧ t < 33 ∧ n = 33 * m + t := ⟨n / 33, n % 33, by omega, by omega, by omega⟩
    rw [show 34 + (2256 + (33 * m + t)) = 2290 + (33 * m + t) by omega, at_hbits hb hm ht, Nat.add_assoc,
      values_hbits hl2 (by omega), if_pos (by omega)]
  by_cases c7 : i < 2712
  · obtain ⟨i, rfl⟩ := Nat.exists_eq_add_of_le (show 2520 ≤ i by omega)
    rw [show 34 + (2520 + i) = 2554 + i by omega, at_init hb (by omega), inputsAt_init (b' := 0) (by omega)]
    unfold values
    iterate 3 rw [if_neg (by omega)]
    rw [if_pos (by omega), Nat.add_sub_cancel_left]
  · obtain ⟨i, rfl⟩ := Nat.exists_eq_add_of_le (show 2712 ≤ i by omega)
    rw [show 34 + (2712 + i) = 2746 + i by omega, at_out hb (by omega), Nat.add_assoc, values_hbits hl2 (by omega), if_neg (by omega),
      Nat.add_sub_cancel_left]

/-- the blocks are the nodes of the tree -/
theorem hashAt_node {k j : ℕ} (hk : k ≤ lgn) (hj : j < 2 ^ (lgn - k)) :
    hashAt lgn K H leaves (startOf lgn k + j) = Sha256.merkleNode K H leaves k j := by
  induction k generalizing j with
  | zero =>
    rw [startOf_zero, Nat.zero_add, hashAt, if_pos (show j < 2 ^ lgn from hj)]
    rfl
  | succ k ih =>
    obtain ⟨c1, c2⟩ := startOf_child hk
    have hge := startOf_mono (lgn := lgn) (k := k + 1) (by omega)
    have hp : 2 ^ (lgn - k) = 2 * 2 ^ (lgn - (k + 1)) := by
      rw [← pow_succ', show lgn - (k + 1) + 1 = lgn - k by omega]
    have hlt : startOf lgn (k + 1) + j < 2 ^ (lgn + 1) - 1 := by
      unfold startOf
      have : 2 ^ (lgn + 1 - (k + 1)) ≤ 2 ^ (lgn + 1) := Nat.pow_le_pow_right (by decide) (by omega)
      have e : lgn + 1 - (k + 1) = lgn - (k + 1) + 1 := by omega
      rw [e, pow_succ] at this ⊢
      have := Nat.two_pow_pos (lgn - (k + 1))
      omega
    have hc : 2 * (startOf lgn (k + 1) + j - 2 ^ lgn) = startOf lgn k + 2 * j := by omega
    rw [hashAt_eq _ _ _ _ hlt, messageAt, if_neg (by omega), hc, ih (by omega) (by omega), Nat.add_assoc, ih (by omega) (by omega)]
    rfl

theorem hashAt_root : hashAt lgn K H leaves (2 ^ (lgn + 1) - 2) = Sha256.merkleRoot K H leaves lgn := by
  have h := hashAt_node (K := K) (H := H) (leaves := leaves) (lgn := lgn) (k := lgn) (j := 0) (Nat.le_refl _) (by simp)
  rw [startOf_last, Nat.add_zero] at h
  exact h

/-! ### The numbers are small -/

/-- a number below `B` -/
def Small (B : ℕ) (y : F) : Prop := ∃ k : ℕ, k < B ∧ y = (k : F)

theorem Small.ite {B : ℕ} {c : Prop} [Decidable c] {y z : F} (hy : c → Small B y) (hz : ¬ c → Small B z) :
    Small B (if c then y else z) := by
  split
  · exact hy ‹_›
  · exact hz ‹_›

/-- the numbers in the tree are below `B` -/
structure TreeBound (B lgn : ℕ) (K H : ℕ → Sha256.Word) (leaves : ℕ → ℕ → Sha256.Word) : Prop where
  two : 2 ≤ B
  constants : ∀ i < 64, (K i).toNat < B
  start : ∀ i < 8, (H i).toNat < B
  schedule : ∀ k j t, k ≤ lgn → j < 2 ^ (lgn - k) → t < 64 → (Sha256.schedule (Sha256.nodeMessage K H leaves k j) t).toNat < B
  hash : ∀ k j i, k ≤ lgn → j < 2 ^ (lgn - k) → i < 8 → (Sha256.merkleNode K H leaves k j i).toNat < B

theorem bitF_small {B n : ℕ} (hB : 2 ≤ B) (X : BitVec n) (j : ℕ) : Small B (bitF F X j) :=
  ⟨(X.getLsbD j).toNat, lt_of_le_of_lt (Bool.toNat_le _) hB, rfl⟩

/-- every block is a node -/
theorem exists_node {b : ℕ} (hb : b < 2 ^ (lgn + 1) - 1) : ∃ k j, k ≤ lgn ∧ j < 2 ^ (lgn - k) ∧ b = startOf lgn k + j := by
  induction b with
  | zero => exact ⟨0, 0, Nat.zero_le _, Nat.two_pow_pos _, by rw [startOf_zero]⟩
  | succ b ih =>
    obtain ⟨k, j, hk, hj, e⟩ := ih (by omega)
    by_cases h : j + 1 < 2 ^ (lgn - k)
    · exact ⟨k, j + 1, hk, h, by omega⟩
    · refine ⟨k + 1, 0, ?_, Nat.two_pow_pos _, by rw [startOf_succ hk]; omega⟩
      by_contra hk'
      obtain rfl : k = lgn := by omega
      rw [startOf_last, Nat.sub_self, pow_zero] at *
      omega

theorem messageAt_node {k j : ℕ} (hk : k ≤ lgn) (hj : j < 2 ^ (lgn - k)) :
    messageAt lgn K H leaves (startOf lgn k + j) = Sha256.nodeMessage K H leaves k j := by
  cases k with
  | zero =>
    rw [startOf_zero, Nat.zero_add, messageAt, if_pos (show j < 2 ^ lgn from hj)]
    rfl
  | succ k =>
    obtain ⟨c1, c2⟩ := startOf_child hk
    have hge := startOf_mono (lgn := lgn) (k := k + 1) (by omega)
    have hp : 2 ^ (lgn - k) = 2 * 2 ^ (lgn - (k + 1)) := by
      rw [← pow_succ', show lgn - (k + 1) + 1 = lgn - k by omega]
    have hc : 2 * (startOf lgn (k + 1) + j - 2 ^ lgn) = startOf lgn k + 2 * j := by omega
    rw [messageAt, if_neg (by omega), hc, hashAt_node (by omega) (by omega), Nat.add_assoc, hashAt_node (by omega) (by omega)]
    rfl

theorem inputsAt_small {B : ℕ} (h : TreeBound B lgn K H leaves) {b : ℕ} (hb : b < 2 ^ (lgn + 1) - 1) (n : ℕ) (h34 : 34 ≤ n) (hn : n < 7226) :
    Small B (inputsAt (F := F) lgn K H leaves b n) := by
  obtain ⟨k, j, hk, hj, rfl⟩ := exists_node hb
  have hm := messageAt_node (K := K) (H := H) (leaves := leaves) hk hj
  have hh : ∀ i < 8, (Sha256.compress K (Sha256.nodeMessage K H leaves k j) H i).toNat < B := fun i hi => by
    have := h.hash k j i hk hj hi
    rwa [← hashAt_node hk hj, hashAt_eq _ _ _ _ hb, hm] at this
  unfold inputsAt
  rw [hm]
  have hs := fun t ht => h.schedule k j t hk hj ht
  have h0 : (Sha256.nodeMessage K H leaves k j 0).toNat < B := by
    have := hs 0 (by decide)
    rwa [schedule_early _ (by decide)] at this
  generalize Sha256.nodeMessage K H leaves k j = M at *
  have hb : ∀ {n : ℕ} (X : BitVec n) (j : ℕ), Small B (bitF F X j) := bitF_small h.two
  unfold assign
  rw [if_neg (by omega)]
  refine .ite (fun c => ?_) fun _ => .ite (fun _ => hb _ _) fun _ => .ite (fun _ => hb _ _) fun _ =>
    .ite (fun c => ⟨_, h.constants _ (by omega), rfl⟩) fun _ => .ite (fun c => ⟨_, h.start _ (by omega), rfl⟩) fun _ =>
    .ite (fun c => ⟨_, hh _ (by omega), rfl⟩) fun _ => ?_
  · unfold schedVal
    dsimp only
    split
    · exact ⟨_, h0, rfl⟩
    · exact ⟨_, hs _ (by omega), rfl⟩
  iterate 8 refine .ite (fun _ => hb _ _) fun _ => ?_
  exact hb _ _

theorem place_range (hl2 : 2 ≤ 2 ^ lgn) {b r : ℕ} (hr : r < if b < 2 ^ lgn then 6928 else if b = 2 ^ (lgn + 1) - 2 then 6424 else 6432) :
    34 ≤ place lgn b r ∧ place lgn b r < 7226 := by
  have hp : 2 ^ (lgn + 1) = 2 * 2 ^ lgn := pow_succ' 2 lgn
  unfold place
  split_ifs at hr ⊢ <;> omega

theorem endOf_eq (hl2 : 2 ≤ 2 ^ lgn) : endOf lgn = 306 + 6928 * 2 ^ lgn + 6432 * (2 ^ lgn - 2) + 6424 := by
  have hp : 2 ^ (lgn + 1) = 2 * 2 ^ lgn := pow_succ' 2 lgn
  unfold endOf nextOf bitsOf hashOf freshOf
  rw [if_pos (isRoot_iff.2 rfl), if_neg (by omega), Nat.min_eq_right (by omega)]
  omega

theorem values_small {B : ℕ} (hl2 : 2 ≤ 2 ^ lgn) (h : TreeBound B lgn K H leaves) {n : ℕ} (hn : 34 ≤ n) (hn' : n < endOf lgn) :
    Small B (values (F := F) lgn K H leaves n) := by
  have hp : 2 ^ (lgn + 1) = 2 * 2 ^ lgn := pow_succ' 2 lgn
  rw [endOf_eq hl2] at hn'
  unfold values
  rw [if_neg (by omega)]
  refine .ite (fun c => ⟨_, h.constants _ (by omega), rfl⟩) fun _ => .ite (fun c => ⟨_, h.start _ (by omega), rfl⟩) fun _ =>
    .ite (fun _ => inputsAt_small h (by omega) _ (by omega) (by omega)) fun _ => .ite (fun c => ⟨_, ?_, rfl⟩) fun _ => .ite (fun c => ?_) fun c => ?_
  · rw [hashAt_root]
    exact h.hash lgn 0 (n - 298) (Nat.le_refl _) (by simp) (by omega)
  · have := place_range hl2 (b := (n - 306) / 6928) (r := (n - 306) % 6928) (by rw [if_pos (by omega)]; omega)
    exact inputsAt_small h (by omega) _ this.1 this.2
  · have := place_range hl2 (b := 2 ^ lgn + (n - 306 - 6928 * 2 ^ lgn) / 6432) (r := (n - 306 - 6928 * 2 ^ lgn) % 6432) (by
      rw [if_neg (by omega)]
      split <;> omega)
    exact inputsAt_small h (by omega) _ this.1 this.2

theorem treeBound_word : TreeBound (2 ^ 32) lgn K H leaves :=
  ⟨by decide, fun _ _ => BitVec.isLt _, fun _ _ => BitVec.isLt _, fun _ _ _ _ _ _ => BitVec.isLt _, fun _ _ _ _ _ _ => BitVec.isLt _⟩

/-! ### All variables -/

/-- the variable of input `i` -/
def varOf (lgn : ℕ) (padding : Bool) (i : ℕ) : ℕ := if i < 306 then i else i - padOf lgn padding

open Classical in
/-- the number of input `i` -/
noncomputable def numbers (F : Type) [Field F] (lgn : ℕ) (K H : ℕ → Sha256.Word) (leaves : ℕ → ℕ → Sha256.Word) (padding : Bool) (i : ℕ) : ℤ :=
  if h : ∃ k : ℕ, k < 2 ^ 32 ∧ values (F := F) lgn K H leaves (varOf lgn padding i) = (k : F) then
    if 34 ≤ i ∧ i < baseOf lgn padding ∧ (i < 306 ∨ 306 + padOf lgn padding ≤ i) then (h.choose : ℤ) else 0
  else 0

theorem numbers_range (padding : Bool) (i : ℕ) :
    0 ≤ numbers F lgn K H leaves padding i ∧ numbers F lgn K H leaves padding i < 2 ^ 32 := by
  unfold numbers
  split
  · rename_i h
    have := h.choose_spec.1
    split
    · omega
    · decide
  · decide

theorem numbers_eq (hl2 : 2 ≤ 2 ^ lgn) (padding : Bool) {i : ℕ} (h1 : 34 ≤ i) (h2 : i < baseOf lgn padding)
    (h3 : i < 306 ∨ 306 + padOf lgn padding ≤ i) :
    ((numbers F lgn K H leaves padding i : ℤ) : F) = values lgn K H leaves (varOf lgn padding i) := by
  have hend := end_large (lgn := lgn)
  have hbase : baseOf lgn padding = endOf lgn + padOf lgn padding := rfl
  have h : ∃ k : ℕ, k < 2 ^ 32 ∧ values (F := F) lgn K H leaves (varOf lgn padding i) = (k : F) :=
    values_small (F := F) hl2 (treeBound_word (K := K) (H := H) (leaves := leaves)) (by unfold varOf; split <;> omega) (by unfold varOf; split <;> omega)
  unfold numbers
  rw [dif_pos h, if_pos ⟨h1, h2, h3⟩, Int.cast_natCast, ← h.choose_spec.2]

/-- all numbers are below the bound -/
theorem numbers_small {B : ℕ} (hF : ∀ m n : ℕ, m < 2 ^ 40 → n < 2 ^ 40 → (m : F) = n → m = n) (hB : B ≤ 2 ^ 32) (hl2 : 2 ≤ 2 ^ lgn)
    (h : TreeBound B lgn K H leaves) (padding : Bool) (i : ℕ) : numbers F lgn K H leaves padding i < B := by
  have hend := end_large (lgn := lgn)
  have hbase : baseOf lgn padding = endOf lgn + padOf lgn padding := rfl
  have h2 := h.two
  by_cases hi : 34 ≤ i ∧ i < baseOf lgn padding ∧ (i < 306 ∨ 306 + padOf lgn padding ≤ i)
  · have e := numbers_eq (F := F) (K := K) (H := H) (leaves := leaves) hl2 padding hi.1 hi.2.1 hi.2.2
    obtain ⟨k, hk, e'⟩ := values_small (F := F) hl2 h (n := varOf lgn padding i) (by unfold varOf; split <;> omega)
      (by unfold varOf; split <;> omega)
    obtain ⟨r1, r2⟩ := numbers_range (F := F) (lgn := lgn) (K := K) (H := H) (leaves := leaves) padding i
    obtain ⟨m, hm⟩ := Int.eq_ofNat_of_zero_le r1
    rw [e', hm, Int.cast_natCast] at e
    rw [hm] at r2 ⊢
    have := hF _ _ (by omega) (by omega) e
    omega
  · have : numbers F lgn K H leaves padding i = 0 := by
      unfold numbers
      split
      · rfl
      · rfl
    omega

theorem numbers_public (hl2 : 2 ≤ 2 ^ lgn) (padding : Bool) {i : ℕ} (hi : i < 272) :
    ((numbers F lgn K H leaves padding (34 + i) : ℤ) : F) = values lgn K H leaves (34 + i) := by
  have hend := end_large (lgn := lgn)
  have hbase : baseOf lgn padding = endOf lgn + padOf lgn padding := rfl
  rw [numbers_eq hl2 padding (by omega) (by omega) (by omega), varOf, if_pos (by omega)]

theorem numbers_private (hl2 : 2 ≤ 2 ^ lgn) (padding : Bool) {i : ℕ} (hi : i < endOf lgn - 306) :
    ((numbers F lgn K H leaves padding (306 + padOf lgn padding + i) : ℤ) : F) = values lgn K H leaves (306 + i) := by
  have hbase : baseOf lgn padding = endOf lgn + padOf lgn padding := rfl
  rw [numbers_eq hl2 padding (by omega) (by omega) (by omega), varOf, if_neg (by omega)]
  exact congrArg _ (by omega)

theorem numbers_padding (padding : Bool) {i : ℕ} (hi : i < padOf lgn padding) : numbers F lgn K H leaves padding (306 + i) = 0 := by
  unfold numbers
  split
  · rw [if_neg (by omega)]
  · rfl

/-- a line, unless it is a constant -/
def noConst : RStmt → RStmt
  | .const t _ => .pass t t t
  | l => l

/-- the values of the constants, the inputs and the outputs -/
def treeValues (c : ℕ → F) (lgn : ℕ) (K H : ℕ → Sha256.Word) (leaves : ℕ → ℕ → Sha256.Word) (padding : Bool) (n : ℕ) : F :=
  if n < 34 then c n
  else if n < endOf lgn then values lgn K H leaves n
  else if n < baseOf lgn padding then 0
  else
    let m := (copied lgn).getD (n - baseOf lgn padding) 0
    if m < 34 then c m else values lgn K H leaves m

theorem treeValues_holds (hl2 : 2 ≤ 2 ^ lgn) (c : ℕ → F) (padding : Bool) (l : RStmt)
    (hl : l ∈ rdlLines lgn padding (numbers F lgn K H leaves padding)) :
    RHolds (treeValues c lgn K H leaves padding) (treeValues c lgn K H leaves padding)
      (noConst l) := by
  have hend := end_large (lgn := lgn)
  have hbase : baseOf lgn padding = endOf lgn + padOf lgn padding := rfl
  rcases mem_rdl.1 hl with ⟨t, ht, rfl⟩ | ⟨i, hi, rfl⟩ | ⟨i, hi, rfl⟩ | ⟨i, hi, rfl⟩ | ⟨n, hn, rfl⟩ | ⟨n, hn, rfl⟩
  · rfl
  · show treeValues c lgn K H leaves padding (34 + i) = _
    rw [numbers_public hl2 padding hi]
    unfold treeValues
    rw [if_neg (by omega), if_pos (by omega)]
  · show treeValues c lgn K H leaves padding (endOf lgn + i) = _
    rw [numbers_padding padding hi, Int.cast_zero]
    unfold treeValues
    rw [if_neg (by omega), if_neg (by omega), if_pos (by omega)]
  · show treeValues c lgn K H leaves padding (306 + i) = _
    rw [numbers_private hl2 padding hi]
    unfold treeValues
    rw [if_neg (by omega), if_pos (by omega)]
  · show treeValues c lgn K H leaves padding (baseOf lgn padding + n) = treeValues c lgn K H leaves padding (copied lgn)[n]
    have hm := copied_lt lgn _ (List.getElem_mem hn)
    conv_rhs => unfold treeValues; rw [if_pos hm]
    unfold treeValues
    dsimp only
    rw [if_neg (by omega : ¬ baseOf lgn padding + n < 34), if_neg (by omega : ¬ baseOf lgn padding + n < endOf lgn),
      if_neg (by omega : ¬ baseOf lgn padding + n < baseOf lgn padding), Nat.add_sub_cancel_left, List.getD_eq_getElem?_getD,
      List.getElem?_eq_getElem hn, Option.getD_some]
  · rfl

end
end Libra.MerkleGen
