import Verif.Model.Transcript
import Verif.Spec.Transcript
import Verif.Props.Field

/-! Lemmas about the transcript. -/

namespace Libra.Transcript
open Libra Spec
variable {B : ℕ}

theorem outputBitStream_eq (msg : List (Container B)) (b : Bool) :
    outputBitStream msg b = (msg.filter (fun x => !(x.isRand && !b))).flatMap Container.output := by
  have key : ∀ (acc : List Bool), msg.foldl (fun output x =>
      if x.isRand && !b then output else output ++ x.output) acc =
      acc ++ (msg.filter (fun x => !(x.isRand && !b))).flatMap Container.output := by
    induction msg with
    | nil => simp
    | cons x l ih =>
      intro acc
      rw [List.foldl_cons, ih]
      by_cases h : (x.isRand && !b) = true
      · rw [if_pos h, List.filter_cons, if_neg (by simp [h])]
      · rw [if_neg h, List.filter_cons, if_pos (by rw [Bool.not_eq_true] at h; rw [h]; rfl), List.flatMap_cons, List.append_assoc]
  exact key []

theorem bitStream_length (x : FE) : (FE.bitStream x).length = 256 := by simp [FE.bitStream]

/-- length in bytes -/
def Container.bytes : Container B → ℕ
  | .field _ => 32
  | .rand _ => 32
  | .curve _ => B

theorem flatMap_length {α β : Type} (l : List α) (f : α → List β) (c : ℕ) (h : ∀ x ∈ l, (f x).length = c) :
    (l.flatMap f).length = l.length * c := by
  induction l with
  | nil => simp
  | cons x l ih =>
    rw [List.flatMap_cons, List.length_append, h x (by simp), ih (fun y hy => h y (by simp [hy])),
      List.length_cons]
    ring

theorem output_length (x : Container B) : x.output.length = 8 * x.bytes := by
  cases x with
  | field x => simp [Container.output, bitStream_length, Container.bytes]
  | rand x => simp [Container.output, bitStream_length, Container.bytes]
  | curve x =>
    rw [Container.output, flatMap_length _ _ 8 (by simp)]
    simp [Container.bytes, mul_comm]

theorem stream_length (msg : List (Container B)) (b : Bool) :
    (outputBitStream msg b).length =
      8 * ((msg.filter (fun x => !(x.isRand && !b))).map Container.bytes).sum := by
  rw [outputBitStream_eq]
  induction msg.filter (fun x => !(x.isRand && !b)) with
  | nil => simp
  | cons x l ih => rw [List.flatMap_cons, List.length_append, ih, output_length]; simp; ring

theorem getProofSize_eq (msg : List (Container B)) :
    getProofSize msg = ((msg.filter (fun x => !x.isRand)).map Container.bytes).sum := by
  have key : ∀ acc, msg.foldl (fun ret x => if x.isRand then ret else ret + x.size) acc =
      acc + ((msg.filter (fun x => !x.isRand)).map Container.bytes).sum := by
    induction msg with
    | nil => simp
    | cons x l ih =>
      intro acc
      rw [List.foldl_cons, ih]
      cases x <;> simp [Container.isRand, Container.bytes, Container.size, sizeofFieldElement] <;> ring
  simpa [getProofSize] using key 0

/-- the buffer of `output_to_file` after `n` bits -/
theorem buf_spec (vec : List Bool) (n j k : ℕ) (hk : k < 8) :
    (loop n (fun i buf => Function.update buf (i / 8) (buf (i / 8) |||
      ((BitVec.ofBool (vec.getD i false)).setWidth 8 <<< (i % 8)))) (fun _ => (0 : BitVec 8)) j).getLsbD k =
      (decide (8 * j + k < n) && vec.getD (8 * j + k) false) := by
  induction n with
  | zero => simp [loop]
  | succ n ih =>
    rw [loop]
    by_cases hj : j = n / 8
    · subst hj
      rw [Function.update_self, BitVec.getLsbD_or, ih, BitVec.getLsbD_shiftLeft]
      rcases lt_trichotomy k (n % 8) with h | h | h
      · have h1 : 8 * (n / 8) + k < n := by omega
        have h2 : 8 * (n / 8) + k < n + 1 := by omega
        simp [h1, h2, h]
      · have h0 : 8 * (n / 8) + k = n := by omega
        have h1 : ¬ k < n % 8 := by omega
        have h3 : k - n % 8 = 0 := by omega
        rw [h0, h3]
        simp [hk, h1]
      · have h1 : ¬ 8 * (n / 8) + k < n := by omega
        have h2 : ¬ 8 * (n / 8) + k < n + 1 := by omega
        have h3 : k - n % 8 ≠ 0 := by omega
        simp only [h1, h2, decide_false, Bool.false_and, Bool.false_or]
        have : (BitVec.setWidth 8 (BitVec.ofBool (vec.getD n false))).getLsbD (k - n % 8) = false := by
          cases vec.getD n false
          · simp
          · simp [h3]
        rw [this]; simp
    · rw [Function.update_of_ne hj, ih]
      have : (8 * j + k < n) ↔ (8 * j + k < n + 1) := by omega
      simp [this]

theorem outputToFile_length (msg : List (Container B)) :
    (outputToFile msg).length = ((msg.filter (fun x => !x.isRand)).map Container.bytes).sum := by
  have h := stream_length msg false
  simp only [Bool.not_false, Bool.and_true] at h
  simp only [outputToFile, h, List.length_map, List.length_range]
  rw [if_pos (by omega)]; omega

theorem unpack_map (buf : ℕ → BitVec 8) (n : ℕ) :
    unpack ((List.range n).map buf) = (List.range (8 * n)).map (fun i => (buf (i / 8)).getLsbD (i % 8)) := by
  induction n with
  | zero => simp [unpack]
  | succ n ih =>
    rw [List.range_succ, List.map_append, unpack, List.flatMap_append]
    change unpack _ ++ _ = _
    rw [ih]
    have : 8 * (n + 1) = 8 * n + 8 := by ring
    rw [this, List.range_add, List.map_append]
    congr 1
    simp only [List.map_cons, List.map_nil, List.flatMap_cons, List.flatMap_nil, List.append_nil,
      List.map_map]
    refine List.map_congr_left (fun k hk => ?_)
    rw [List.mem_range] at hk
    simp only [Function.comp]
    rw [show (8 * n + k) / 8 = n by omega, show (8 * n + k) % 8 = k by omega]

theorem unpack_outputToFile (msg : List (Container B)) :
    unpack (outputToFile msg) = outputBitStream msg false := by
  have h := stream_length msg false
  simp only [Bool.not_false, Bool.and_true] at h
  generalize hv : outputBitStream msg false = vec at h
  simp only [outputToFile, hv]
  rw [if_pos (by omega), unpack_map]
  apply List.ext_getElem?
  intro i
  rw [List.getElem?_map]
  by_cases hi : i < vec.length
  · rw [List.getElem?_range (by omega), Option.map_some, buf_spec _ _ _ _ (Nat.mod_lt _ (by decide)),
      Nat.div_add_mod]
    simp [hi]
  · rw [List.getElem?_eq_none (by rw [List.length_range]; omega), List.getElem?_eq_none (by omega)]
    rfl

/-- the message a container stands for -/
def Container.message : Container B → Message B
  | .field x => .number x.toNat
  | .rand x => .number x.toNat
  | .curve x => .point x

/-- every field element is below `2^256` -/
def Container.Small : Container B → Prop
  | .field x => x.toNat < 2 ^ 256
  | .rand x => x.toNat < 2 ^ 256
  | .curve _ => True

theorem ofBits_eq (l : List Bool) : ofBits l = binaryLE l := by
  induction l with
  | nil => rfl
  | cons b l ih => rw [ofBits, ih]; rfl

theorem ofBits_byte (b : BitVec 8) : BitVec.ofNat 8 (ofBits ((List.range 8).map b.getLsbD)) = b := by
  have h : (List.range 8).map b.getLsbD = (List.range 8).map (fun i => decide (b.toNat / 2 ^ i % 2 = 1)) := by
    refine List.map_congr_left (fun i _ => ?_)
    rw [BitVec.getLsbD, Nat.testBit_eq_decide_div_mod_eq]
  rw [h, ofBits_eq, binaryLE_range]
  apply BitVec.eq_of_toNat_eq
  rw [BitVec.toNat_ofNat, Nat.mod_mod]
  exact Nat.mod_eq_of_lt b.isLt

/-- the `i`-th chunk of a concatenation of chunks of equal length -/
theorem chunk {α β : Type} (l : List α) (f : α → List β) (c : ℕ) (h : ∀ x ∈ l, (f x).length = c)
    (rest : List β) (i : ℕ) (hi : i < l.length) :
    (((l.flatMap f ++ rest).drop (c * i)).take c) = f l[i] := by
  induction l generalizing i with
  | nil => simp at hi
  | cons x l ih =>
    have hx := h x (by simp)
    cases i with
    | zero =>
      simp only [Nat.mul_zero, List.drop_zero, List.flatMap_cons, List.append_assoc, List.getElem_cons_zero]
      rw [List.take_append_of_le_length (by omega), List.take_of_length_le (by omega)]
    | succ i =>
      have : c * (i + 1) = (f x).length + c * i := by rw [hx]; ring
      rw [List.flatMap_cons, List.append_assoc, this, List.drop_append, List.getElem_cons_succ,
        List.drop_of_length_le (by omega), List.nil_append, Nat.add_sub_cancel_left]
      exact ih (fun y hy => h y (by simp [hy])) i (by simpa using hi)

theorem decode_flatMap (l : List (Container B)) (hs : ∀ x ∈ l, x.Small) (rest : List Bool) :
    decode (l.map (fun x => x.message.kind)) (l.flatMap Container.output ++ rest) =
      l.map Container.message := by
  induction l with
  | nil => rfl
  | cons x l ih =>
    have ih := ih (fun y hy => hs y (by simp [hy]))
    have hx := hs x (by simp)
    have hn : ∀ y : FE, y.toNat < 2 ^ 256 → ∀ r : List Bool,
        ofBits ((FE.bitStream y ++ r).take 256) = y.toNat ∧ (FE.bitStream y ++ r).drop 256 = r := by
      intro y hy r
      obtain ⟨h1, h2⟩ := Props.C07_bit_stream y hy
      refine ⟨?_, ?_⟩
      · rw [List.take_append_of_le_length (by omega), List.take_of_length_le (by omega), ofBits_eq, h2]
      · rw [List.drop_append, h1, List.drop_of_length_le (by omega)]; simp
    rw [List.map_cons, List.flatMap_cons, List.append_assoc, List.map_cons]
    cases x with
    | field y =>
      obtain ⟨h1, h2⟩ := hn y hx (l.flatMap Container.output ++ rest)
      change Message.number (ofBits (List.take 256 (FE.bitStream y ++ _))) ::
        decode _ (List.drop 256 (FE.bitStream y ++ _)) = Message.number y.toNat :: _
      rw [h1, h2, ih]
    | rand y =>
      obtain ⟨h1, h2⟩ := hn y hx (l.flatMap Container.output ++ rest)
      change Message.number (ofBits (List.take 256 (FE.bitStream y ++ _))) ::
        decode _ (List.drop 256 (FE.bitStream y ++ _)) = Message.number y.toNat :: _
      rw [h1, h2, ih]
    | curve y =>
      have hl := output_length (Container.curve y)
      simp only [Container.bytes] at hl
      change Message.point (fun i : Fin B => BitVec.ofNat 8 (ofBits ((List.drop (8 * (i : ℕ))
        ((Container.curve y).output ++ _)).take 8))) ::
        decode _ (List.drop (8 * B) ((Container.curve y).output ++ _)) = Message.point y :: _
      congr 1
      · congr 1
        funext i
        have := chunk (List.finRange B) (fun i => (List.range 8).map (fun j => (y i).getLsbD j)) 8
          (by simp) (l.flatMap Container.output ++ rest) i (by simp)
        rw [Container.output, this, List.getElem_finRange]
        exact ofBits_byte (y i)
      · rw [List.drop_append, hl, List.drop_of_length_le (by omega)]
        simpa using ih

theorem message_injective {x y : Container B} (h : x.message = y.message) (hr : x.isRand = y.isRand) : x = y := by
  cases x <;> cases y <;> simp only [Container.message, Message.number.injEq, Message.point.injEq, reduceCtorEq,
    Container.isRand] at h hr ⊢
  · rw [U512.toNat_inj h]
  · rw [h]
  · rw [U512.toNat_inj h]

/-! ## Challenges -/

theorem squeeze_state (mix : Mix) (h : BitVec 256) (n : ℕ) :
    ((loop n (fun _ (s : List FE × BitVec 256) =>
      (s.1 ++ [U512.mod ⟨s.2.extractLsb' 0 128, s.2.extractLsb' 128 128, ⟨0, 0, 0⟩⟩],
        hhash mix (s.2.setWidth 512))) ([], h))) =
    ((List.range n).map (fun i => U512.mod ⟨((fun h => hhash mix (BitVec.setWidth 512 h))^[i] h).extractLsb' 0 128,
        ((fun h => hhash mix (BitVec.setWidth 512 h))^[i] h).extractLsb' 128 128, ⟨0, 0, 0⟩⟩),
      (fun h => hhash mix (BitVec.setWidth 512 h))^[n] h) := by
  induction n with
  | zero => rfl
  | succ n ih => rw [loop, ih, List.range_succ, List.map_append, Function.iterate_succ_apply']; rfl

/-- the digest from which challenge `i` is made -/
def state (mix : Mix) (h : BitVec 256) (i : ℕ) : BitVec 256 :=
  (fun h => hhash mix (BitVec.setWidth 512 h))^[i] h

theorem squeeze_eq (mix : Mix) (h : BitVec 256) (n : ℕ) :
    squeeze mix h n = (List.range n).map (fun i =>
      U512.mod ⟨(state mix h i).extractLsb' 0 128, (state mix h i).extractLsb' 128 128, ⟨0, 0, 0⟩⟩) := by
  rw [squeeze, squeeze_state]; rfl

theorem toNat_words (h : BitVec 256) :
    (⟨h.extractLsb' 0 128, h.extractLsb' 128 128, ⟨0, 0, 0⟩⟩ : U512).toNat = h.toNat := by
  simp only [U512.toNat, U256.toNat, BitVec.extractLsb'_toNat, Nat.shiftRight_eq_div_pow]
  have := h.isLt
  have e : (0 : BitVec 64).toNat = 0 := rfl
  have e' : (0 : BitVec 128).toNat = 0 := rfl
  rw [e, e']
  omega

theorem challenge_toNat (h : BitVec 256) :
    (U512.mod ⟨h.extractLsb' 0 128, h.extractLsb' 128 128, ⟨0, 0, 0⟩⟩).toNat = h.toNat % p := by
  rw [U512.toNat_mod _ (by rw [toNat_words]; exact lt_trans h.isLt (Nat.pow_lt_pow_right (by norm_num) (by norm_num))), toNat_words]

/-- After hashing a digest the upper half does not depend on the digest. -/
theorem hhash_upper (mix : Mix) (h : BitVec 256) :
    (hhash mix (h.setWidth 512)).toNat / 2 ^ 128 = (mix 0 0).toNat := by
  have h1 : (BitVec.setWidth 512 h).extractLsb' 256 128 = 0 := by
    apply BitVec.eq_of_toNat_eq
    rw [BitVec.extractLsb'_toNat, BitVec.toNat_setWidth, Nat.shiftRight_eq_div_pow]
    have := h.isLt
    have e : (0 : BitVec 128).toNat = 0 := rfl
    rw [e]; omega
  have h2 : (BitVec.setWidth 512 h).extractLsb' 384 128 = 0 := by
    apply BitVec.eq_of_toNat_eq
    rw [BitVec.extractLsb'_toNat, BitVec.toNat_setWidth, Nat.shiftRight_eq_div_pow]
    have := h.isLt
    have e : (0 : BitVec 128).toNat = 0 := rfl
    rw [e]; omega
  rw [hhash, h1, h2, BitVec.toNat_append]
  generalize mix (BitVec.extractLsb' 0 128 _) _ = b
  have := b.isLt
  rw [← Nat.shiftLeft_add_eq_or_of_lt b.isLt, Nat.shiftLeft_eq]
  omega

end Libra.Transcript
