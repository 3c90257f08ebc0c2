import Verif.Proofs.Transcript

/-!
# C33, C34, C36, C37, C45: the proof transcript

`B` is the size of a curve element in bytes, `mix` the function inside the hash; both are arbitrary.
-/

namespace Libra.Props
open Libra Spec Transcript
variable {B : ℕ}

/-- the messages of the prover in a transcript, in order -/
def sent (msg : List (Container B)) : List (Message B) :=
  (msg.filter (fun x => !x.isRand)).map Container.message

/-- a transcript used in the examples: two challenges, three numbers, two points of 3 bytes -/
def exampleTranscript : List (Container 3) :=
  [.curve (fun i => BitVec.ofNat 8 (100 * i)), .rand (Fp.limbs 5), .field (Fp.limbs 7), .field (Fp.limbs 8),
    .rand (Fp.limbs 6), .field (Fp.limbs (2 ^ 200)), .curve (fun _ => 255)]

/-! ## C33 -/

/-- C33: the announced size is the number of bytes written, which is 32 for every field element and
`B` for every curve element sent. -/
theorem C33_size (msg : List (Container B)) :
    (outputToFile msg).length = getProofSize msg ∧
      getProofSize msg = ((sent msg).map Message.size).sum := by
  rw [outputToFile_length, getProofSize_eq]
  refine ⟨rfl, ?_⟩
  rw [sent, List.map_map]
  congr 1
  refine List.map_congr_left (fun x hx => ?_)
  have := (List.mem_filter.1 hx).2
  cases x <;> simp_all [Container.bytes, Container.message, Message.size, Container.isRand]

example : getProofSize exampleTranscript = 102 ∧ (outputToFile exampleTranscript).length = 102 := by
  decide +kernel

/-! ## C34 -/

/-- C34: the bits of the file are exactly the bits of the messages sent, and the messages can be read
back by a reader that knows which are field elements and which are curve elements. -/
theorem C34_read_back (msg : List (Container B)) (hs : ∀ x ∈ msg, x.Small) :
    unpack (outputToFile msg) = outputBitStream msg false ∧
    decode ((sent msg).map Message.kind) (unpack (outputToFile msg)) = sent msg := by
  rw [unpack_outputToFile]
  refine ⟨rfl, ?_⟩
  rw [outputBitStream_eq, sent, List.map_map]
  have := decode_flatMap (msg.filter (fun x => !(x.isRand && !false)))
    (fun x hx => hs x (List.mem_of_mem_filter hx)) []
  simp only [Bool.not_false, Bool.and_true, List.append_nil] at this ⊢
  exact this

/-- Two proofs with the same sequence of kinds and the same file are the same. -/
theorem C34_injective (msg msg' : List (Container B)) (hs : ∀ x ∈ msg, x.Small) (hs' : ∀ x ∈ msg', x.Small)
    (hk : (sent msg).map Message.kind = (sent msg').map Message.kind) (h : outputToFile msg = outputToFile msg') :
    sent msg = sent msg' := by
  rw [← (C34_read_back msg hs).2, ← (C34_read_back msg' hs').2, hk, h]

/-- The kinds must be known: with points of 32 bytes a number and a point may have the same file. -/
theorem C34_kinds_needed : ∃ msg msg' : List (Container 32), outputToFile msg = outputToFile msg' ∧
    sent msg ≠ sent msg' :=
  ⟨[.field U512.zero], [.curve (fun _ => 0)], by decide +kernel, by simp [sent, Container.isRand, Container.message]⟩

theorem exampleTranscript_small : ∀ x ∈ exampleTranscript, x.Small := by
  have h : ∀ n, n < 2 ^ 256 → (Fp.limbs n).toNat < 2 ^ 256 := fun n hn => by
    rw [Fp.limbs_toNat]; exact lt_of_le_of_lt (Nat.mod_le _ _) hn
  simp only [exampleTranscript, List.mem_cons, List.not_mem_nil, or_false, forall_eq_or_imp, forall_eq,
    Container.Small, true_and, and_true]
  exact ⟨h _ (by norm_num), h _ (by norm_num), h _ (by norm_num), h _ (by norm_num), h _ (by norm_num)⟩

example := C34_read_back exampleTranscript exampleTranscript_small

/-! ## C36 -/

/-- C36 for transcripts of the same form (the same sequence of curve elements, field elements and
challenges): different transcripts give different bit strings to the hash. -/
theorem C36_same_form_partial (msg msg' : List (Container B)) (hs : ∀ x ∈ msg, x.Small)
    (hs' : ∀ x ∈ msg', x.Small)
    (hk : msg.map (fun x => (x.message.kind, x.isRand)) = msg'.map (fun x => (x.message.kind, x.isRand)))
    (h : pad (outputBitStream msg true) = pad (outputBitStream msg' true)) : msg = msg' := by
  have key : ∀ m : List (Container B), (∀ x ∈ m, x.Small) →
      decode (m.map (fun x => x.message.kind)) (pad (outputBitStream m true)) = m.map Container.message := by
    intro m hm
    rw [pad, outputBitStream_eq]
    simp only [Bool.not_true, Bool.and_false, Bool.not_false, List.filter_true]
    exact decode_flatMap m hm _
  have hk1 : msg.map (fun x => x.message.kind) = msg'.map (fun x => x.message.kind) := by
    have := congrArg (List.map Prod.fst) hk
    rwa [List.map_map, List.map_map] at this
  have hk2 : msg.map (fun x => x.isRand) = msg'.map (fun x => x.isRand) := by
    have := congrArg (List.map Prod.snd) hk
    rwa [List.map_map, List.map_map] at this
  have hm : msg.map Container.message = msg'.map Container.message := by
    rw [← key msg hs, ← key msg' hs', hk1, h]
  clear hs hs' hk h key hk1
  induction msg generalizing msg' with
  | nil => cases msg' with
    | nil => rfl
    | cons y l' => simp at hm
  | cons x l ih => cases msg' with
    | nil => simp at hm
    | cons y l' =>
      simp only [List.map_cons, List.cons.injEq] at hm hk2
      rw [message_injective hm.1 hk2.1, ih l' hk2.2 hm.2]

/-- C36 is false: after a field element, further zero field elements up to the next multiple of 512
bits change nothing; the challenges are the same for every hash function. -/
theorem C36_false : ∃ msg msg' : List (Container B), msg ≠ msg' ∧ sent msg ≠ sent msg' ∧
    pad (outputBitStream msg true) = pad (outputBitStream msg' true) ∧
    ∀ mix size, (random mix msg size >>= fun r => pure r.1) = (random mix msg' size >>= fun r => pure r.1) := by
  have h : pad (outputBitStream ([.field U512.zero] : List (Container B)) true) =
      pad (outputBitStream ([.field U512.zero, .field U512.zero] : List (Container B)) true) := by
    have hb : FE.bitStream U512.zero = List.replicate 256 false := by decide +kernel
    have pr : ∀ n, pad (List.replicate n false) = List.replicate (n + (512 - n % 512) % 512) false := fun n => by
      rw [pad, List.length_replicate, List.replicate_append_replicate]
    have h1 : outputBitStream ([.field U512.zero] : List (Container B)) true = FE.bitStream U512.zero := rfl
    have h2 : outputBitStream ([.field U512.zero, .field U512.zero] : List (Container B)) true =
      FE.bitStream U512.zero ++ FE.bitStream U512.zero := rfl
    rw [h1, h2, hb, List.replicate_append_replicate, pr, pr]
  refine ⟨[.field U512.zero], [.field U512.zero, .field U512.zero], by simp, by simp [sent, Container.isRand], h,
    fun mix size => ?_⟩
  rw [random, random, h]
  generalize absorb mix _ = o
  cases o <;> rfl

/-- On the empty transcript `random` reads a vector element that does not exist. -/
theorem C36_empty (mix : Mix) (size : ℕ) : random mix ([] : List (Container B)) size = .undefined := by
  have : pad (outputBitStream ([] : List (Container B)) true) = [] := by simp [pad, outputBitStream]
  rw [random, this]; rfl

example := C36_same_form_partial exampleTranscript exampleTranscript exampleTranscript_small exampleTranscript_small rfl rfl

/-! ## C37 -/

theorem stream_ne (hB : 0 < B) (msg : List (Container B)) (hne : msg ≠ []) :
    (pad (outputBitStream msg true)).length ≠ 0 := by
  rw [pad, List.length_append, stream_length]
  simp only [Bool.not_true, Bool.and_false, Bool.not_false, List.filter_true]
  obtain ⟨x, l, rfl⟩ := List.exists_cons_of_ne_nil hne
  rw [List.map_cons, List.sum_cons]
  have : 0 < x.bytes := by cases x <;> simp [Container.bytes, hB]
  omega

theorem random_ok (hB : 0 < B) (mix : Mix) (msg : List (Container B)) (hne : msg ≠ []) :
    ∃ h, absorb mix (pad (outputBitStream msg true)) = .ok h ∧
      ∀ size, random mix msg size = .ok (squeeze mix h size, msg ++ (squeeze mix h size).map .rand) := by
  have hl := stream_ne hB msg hne
  have e : ∃ h, absorb mix (pad (outputBitStream msg true)) = .ok h := by
    rw [absorb, if_neg hl]; exact ⟨_, rfl⟩
  obtain ⟨h, e⟩ := e
  exact ⟨h, e, fun size => by rw [random, e]; rfl⟩

/-- C37: on a non-empty transcript, `random(size)` returns `size` canonical field elements and records
exactly these, in order, as challenges; the proof file and its size are not affected. -/
theorem C37_random (hB : 0 < B) (mix : Mix) (msg : List (Container B)) (hne : msg ≠ []) (size : ℕ) :
    ∃ r, random mix msg size = .ok (r, msg ++ r.map .rand) ∧ r.length = size ∧ (∀ x ∈ r, x.toNat < p) ∧
      outputToFile (msg ++ r.map .rand) = outputToFile msg ∧
      getProofSize (msg ++ r.map .rand) = getProofSize msg := by
  obtain ⟨h, -, e⟩ := random_ok hB mix msg hne
  have hst : ∀ r : List FE, outputBitStream (msg ++ r.map .rand) false = outputBitStream msg false := by
    intro r
    rw [outputBitStream_eq, outputBitStream_eq, List.filter_append]
    have : (r.map (Container.rand (B := B))).filter (fun x => !(x.isRand && !false)) = [] := by
      rw [List.filter_eq_nil_iff]; intro x hx
      obtain ⟨y, -, rfl⟩ := List.mem_map.1 hx
      simp [Container.isRand]
    rw [this, List.append_nil]
  have hf : ∀ r : List FE, outputToFile (msg ++ r.map .rand) = outputToFile msg := fun r => by
    rw [outputToFile, outputToFile, hst]
  refine ⟨_, e size, ?_, ?_, hf _, ?_⟩
  · rw [squeeze_eq, List.length_map, List.length_range]
  · intro x hx
    rw [squeeze_eq] at hx
    obtain ⟨i, -, rfl⟩ := List.mem_map.1 hx
    rw [challenge_toNat]
    exact Nat.mod_lt _ PrimeField.p_pos
  · rw [← (C33_size _).1, ← (C33_size _).1, hf]

/-- `random()` is the first element of `random(1)`. -/
theorem C37_random1 (hB : 0 < B) (mix : Mix) (msg : List (Container B)) (hne : msg ≠ []) :
    ∃ x : FE, random mix msg 1 = .ok ([x], msg ++ [.rand x]) ∧ random1 mix msg = .ok (x, msg ++ [.rand x]) ∧
      x.toNat < p := by
  obtain ⟨r, e, hl, hc, -⟩ := C37_random hB mix msg hne 1
  obtain ⟨x, rfl⟩ := List.length_eq_one_iff.1 hl
  refine ⟨x, e, ?_, hc x (by simp)⟩
  rw [random1, e]; rfl

example := C37_random (B := 3) (by decide) (fun a b => a ^^^ b) exampleTranscript (by simp [exampleTranscript]) 5

/-! ## C45 -/

theorem half_constant (hB : 0 < B) (mix : Mix) (msg : List (Container B)) (size : ℕ) (r : List FE)
    (msg' : List (Container B)) (hne : msg ≠ []) (h : random mix msg size = .ok (r, msg')) (i : ℕ)
    (hi : i < r.length) (h1 : 1 ≤ i) : ∃ x < 2 ^ 128, r[i].toNat = (x + 2 ^ 128 * (mix 0 0).toNat) % p := by
  obtain ⟨d, -, e⟩ := random_ok hB mix msg hne
  rw [e size] at h
  obtain ⟨rfl, -⟩ := Prod.mk.inj (Outcome.ok.inj h)
  have hi' := hi
  rw [squeeze_eq, List.length_map, List.length_range] at hi'
  refine ⟨(state mix d i).toNat % 2 ^ 128, Nat.mod_lt _ (by norm_num), ?_⟩
  obtain ⟨j, rfl⟩ : ∃ j, i = j + 1 := ⟨i - 1, by omega⟩
  have : (state mix d (j + 1)).toNat / 2 ^ 128 = (mix 0 0).toNat := by
    rw [state, Function.iterate_succ_apply', hhash_upper]
  simp only [squeeze_eq, List.getElem_map, List.getElem_range, challenge_toNat]
  rw [← this, Nat.mod_add_div]

/-- C45 is false: all challenges of one call except the first are `x + 2^128 k` modulo `p` with
`x < 2^128` and a number `k` that depends on the hash function only. -/
theorem C45_half_constant (hB : 0 < B) (mix : Mix) : ∃ k, ∀ (msg : List (Container B)) (size : ℕ) r msg',
    msg ≠ [] → random mix msg size = .ok (r, msg') → ∀ i (hi : i < r.length), 1 ≤ i →
      ∃ x < 2 ^ 128, r[i].toNat = (x + 2 ^ 128 * k) % p :=
  ⟨(mix 0 0).toNat, fun msg size r msg' hne h i hi h1 => half_constant hB mix msg size r msg' hne h i hi h1⟩

/-- at most `2^128` values (of more than `2^253`) are possible -/
theorem C45_few_values (hB : 0 < B) (mix : Mix) : ∃ S : Finset ℕ, S.card ≤ 2 ^ 128 ∧ 2 ^ 253 < p ∧
    ∀ (msg : List (Container B)) (size : ℕ) r msg', msg ≠ [] → random mix msg size = .ok (r, msg') →
      ∀ i (hi : i < r.length), 1 ≤ i → r[i].toNat ∈ S := by
  obtain ⟨k, hk⟩ := C45_half_constant hB mix
  refine ⟨(Finset.range (2 ^ 128)).image (fun x => (x + 2 ^ 128 * k) % p),
    (Finset.card_image_le).trans (by rw [Finset.card_range]), by decide +kernel, fun msg size r msg' hne h i hi h1 => ?_⟩
  obtain ⟨x, hx, e⟩ := hk msg size r msg' hne h i hi h1
  exact Finset.mem_image.2 ⟨x, Finset.mem_range.2 hx, e.symm⟩

theorem setBits_zero (x : List Bool) (cur off n : ℕ) (data : BitVec 512)
    (h : ∀ i < n, x.getD (cur + i) false = false) : setBits x cur off n data = data := by
  induction n with
  | zero => rfl
  | succ n ih =>
    rw [setBits, loop]
    change setBits x cur off n data ||| _ = _
    rw [ih (fun i hi => h i (by omega)), h n (by omega)]
    have : (BitVec.setWidth 512 (BitVec.ofBool false)) = 0#512 := by decide +kernel
    rw [this, BitVec.zero_shiftLeft, BitVec.or_zero]

/-- The first challenge has the same defect when the last block of 256 bits is padding only, that is when
the length of the transcript leaves a remainder between 1 and 256 modulo 512. -/
theorem C45_first_challenge (mix : Mix) (msg : List (Container B)) (size : ℕ) (r : List FE)
    (msg' : List (Container B)) (hlong : 512 < (outputBitStream msg true).length)
    (hrem : 1 ≤ (outputBitStream msg true).length % 512 ∧ (outputBitStream msg true).length % 512 ≤ 256)
    (h : random mix msg size = .ok (r, msg')) :
    ∀ i (hi : i < r.length), ∃ x < 2 ^ 128, r[i].toNat = (x + 2 ^ 128 * (mix 0 0).toNat) % p := by
  generalize hx : outputBitStream msg true = x at hlong hrem
  have hlen : (pad x).length = x.length + (512 - x.length % 512) := by
    rw [pad, List.length_append, List.length_replicate]; omega
  obtain ⟨K, hK⟩ : ∃ K, ((pad x).length - 512 + 255) / 256 = K + 1 :=
    ⟨((pad x).length - 512 + 255) / 256 - 1, by omega⟩
  have hz : ∀ i < 256, (pad x).getD (512 + 256 * K + i) false = false := by
    intro i hi
    rw [pad, List.getD_append_right _ _ _ _ (by omega), List.getD_eq_getElem?_getD, List.getElem?_replicate]
    split_ifs <;> rfl
  obtain ⟨d, hd, hup⟩ : ∃ d : BitVec 256, absorb mix (pad x) = .ok d ∧ d.toNat / 2 ^ 128 = (mix 0 0).toNat := by
    rw [absorb, if_neg (by omega), hK, loop]
    refine ⟨_, rfl, ?_⟩
    rw [setBits_zero _ _ _ _ _ hz, hhash_upper]
  intro i hi
  rw [random, hx, hd] at h
  obtain ⟨rfl, -⟩ := Prod.mk.inj (Outcome.ok.inj h)
  refine ⟨(state mix d i).toNat % 2 ^ 128, Nat.mod_lt _ (by norm_num), ?_⟩
  have : (state mix d i).toNat / 2 ^ 128 = (mix 0 0).toNat := by
    cases i with
    | zero => exact hup
    | succ j => rw [state, Function.iterate_succ_apply', hhash_upper]
  simp only [squeeze_eq, List.getElem_map, List.getElem_range, challenge_toNat]
  rw [← this, Nat.mod_add_div]

/-- three field elements are such a transcript -/
example (mix : Mix) (a b c : FE) (size : ℕ) (r : List FE) (msg' : List (Container B))
    (h : random mix [.field a, .field b, .field c] size = .ok (r, msg')) :
    ∀ i (hi : i < r.length), ∃ x < 2 ^ 128, r[i].toNat = (x + 2 ^ 128 * (mix 0 0).toNat) % p :=
  have hl : (outputBitStream ([.field a, .field b, .field c] : List (Container B)) true).length = 768 := by
    rw [stream_length]; rfl
  C45_first_challenge mix _ size r msg' (by rw [hl]; decide) (by rw [hl]; decide) h

end Libra.Props
