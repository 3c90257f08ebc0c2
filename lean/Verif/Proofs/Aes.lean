import Verif.Proofs.AesTables
import Mathlib.Tactic.IntervalCases
import Mathlib.Tactic.NormNum

/-! The functions on `__m128i` are those of FIPS 197. -/

namespace Libra
namespace Aes

open Spec.Aes (Word State)

/-- the bytes of a block -/
def bytes (x : BitVec 128) : Fin 16 → BitVec 8 := fun i => byte x i

/-- byte `i` of a 32-bit element -/
def dwordOf (w : BitVec 32) (i : ℕ) : BitVec 8 := w.extractLsb' (8 * i) 8
theorem byte_pack (f : ℕ → BitVec 8) (i : ℕ) (hi : i < 16) : byte (pack f) i = f i := by
  unfold byte pack
  interval_cases i <;>
  · repeat (rw [BitVec.extractLsb'_append_eq_of_le] <;> [skip; (norm_num; done)])
    try rw [BitVec.extractLsb'_append_eq_of_add_le] <;> [skip; (norm_num; done)]
    exact BitVec.extractLsb'_eq_self

theorem dword_pack4 (a b c d : BitVec 32) : dword (pack4 a b c d) 0 = a ∧ dword (pack4 a b c d) 1 = b ∧
    dword (pack4 a b c d) 2 = c ∧ dword (pack4 a b c d) 3 = d := by
  unfold dword pack4
  refine ⟨?_, ?_, ?_, ?_⟩ <;>
  · repeat (rw [BitVec.extractLsb'_append_eq_of_le] <;> [skip; (norm_num; done)])
    try rw [BitVec.extractLsb'_append_eq_of_add_le] <;> [skip; (norm_num; done)]
    exact BitVec.extractLsb'_eq_self

theorem byte_dword (x : BitVec 128) (j i : ℕ) (hi : i < 4) :
    byte x (4 * j + i) = dwordOf (dword x j) i := by
  apply BitVec.eq_of_getLsbD_eq
  intro k hk
  simp only [byte, dword, dwordOf, BitVec.getLsbD_extractLsb', hk, decide_true, Bool.true_and]
  rw [show (decide (8 * i + k < 32)) = true by simp; omega, Bool.true_and]
  congr 1; omega

theorem dword_xor (x y : BitVec 128) (j : ℕ) : dword (x ^^^ y) j = dword x j ^^^ dword y j :=
  BitVec.extractLsb'_xor
theorem byte_xor (x y : BitVec 128) (j : ℕ) : byte (x ^^^ y) j = byte x j ^^^ byte y j :=
  BitVec.extractLsb'_xor
theorem dwordOf_xor (x y : BitVec 32) (j : ℕ) : dwordOf (x ^^^ y) j = dwordOf x j ^^^ dwordOf y j :=
  BitVec.extractLsb'_xor

theorem dword_slli_zero (x : BitVec 128) : dword (slli x 4) 0 = 0 := by
  apply BitVec.eq_of_getLsbD_eq
  intro k hk
  simp [dword, slli, hk]

theorem dword_slli_succ (x : BitVec 128) (j : ℕ) (hj : j < 3) : dword (slli x 4) (j + 1) = dword x j := by
  apply BitVec.eq_of_getLsbD_eq
  intro k hk
  simp only [dword, slli, BitVec.getLsbD_extractLsb', BitVec.getLsbD_shiftLeft, hk, decide_true, Bool.true_and]
  have h1 : 32 * (j + 1) + k < 128 := by omega
  have h2 : ¬ 32 * (j + 1) + k < 32 := by omega
  have h3 : 32 * (j + 1) + k - 8 * 4 = 32 * j + k := by omega
  simp [h1, h2, h3]

theorem dwordOf_subWord (w : BitVec 32) (i : ℕ) (hi : i < 4) : dwordOf (subWord w) i = sbox (dwordOf w i) := by
  unfold dwordOf subWord
  interval_cases i <;>
  · repeat (rw [BitVec.extractLsb'_append_eq_of_le] <;> [skip; (norm_num; done)])
    try rw [BitVec.extractLsb'_append_eq_of_add_le] <;> [skip; (norm_num; done)]
    exact BitVec.extractLsb'_eq_self

theorem dwordOf_rotWord (w : BitVec 32) (i : ℕ) (hi : i < 4) : dwordOf (rotWord w) i = dwordOf w ((i + 1) % 4) := by
  apply BitVec.eq_of_getLsbD_eq
  intro k hk
  simp only [dwordOf, rotWord, BitVec.getLsbD_extractLsb', BitVec.getLsbD_rotateRight, hk, decide_true, Bool.true_and]
  by_cases h : i < 3
  · rw [show decide (8 * i + k < 32 - 8 % 32) = true by simp; omega, cond_true,
      show (i + 1) % 4 = i + 1 by omega]
    congr 1; omega
  · obtain rfl : i = 3 := by omega
    rw [show decide (8 * 3 + k < 32 - 8 % 32) = false by simp, cond_false,
      show decide (8 * 3 + k < 32) = true by simp; omega, Bool.true_and]
    congr 1; omega

theorem dwordOf_rcon (b : BitVec 8) (i : ℕ) (hi : i < 4) : dwordOf (b.setWidth 32) i = if i = 0 then b else 0 := by
  apply BitVec.eq_of_getLsbD_eq
  intro k hk
  by_cases h : i = 0
  · subst h; simp [dwordOf, BitVec.getLsbD_setWidth, hk]; omega
  · have : 8 ≤ 8 * i + k := by omega
    simp [dwordOf, BitVec.getLsbD_setWidth, hk, h, BitVec.getLsbD_of_ge _ _ this]
theorem bytes_inj {x y : BitVec 128} (h : bytes x = bytes y) : x = y := by
  apply BitVec.eq_of_getLsbD_eq
  intro j hj
  have := congrArg (fun b => b.getLsbD (j % 8)) (congrFun h ⟨j / 8, by omega⟩)
  simp only [bytes, byte, BitVec.getLsbD_extractLsb'] at this
  rw [show 8 * (j / 8) + j % 8 = j by omega] at this
  simpa [Nat.mod_lt] using this


/-- the state of a block -/
def state (x : BitVec 128) : State := fun r c => byte x (r + 4 * c)

theorem state_eq (x : BitVec 128) : state x = Spec.Aes.stateOf (bytes x) := rfl

theorem state_xor (x k : BitVec 128) (w : ℕ → Word) (n : ℕ)
    (hk : ∀ r c : Fin 4, byte k (r + 4 * c) = w (4 * n + c) r) :
    state (x ^^^ k) = Spec.Aes.addRoundKey w n (state x) := by
  funext r c
  simp only [state, byte_xor, Spec.Aes.addRoundKey, hk]

theorem state_pack (f : ℕ → BitVec 8) (r c : Fin 4) : state (pack f) r c = f (r + 4 * c) :=
  byte_pack f _ (by omega)

theorem state_sub_shift (x : BitVec 128) :
    state (subBytes (shiftRows x)) = Spec.Aes.shiftRows (Spec.Aes.subBytes (state x)) := by
  funext r c
  rw [subBytes, state_pack, shiftRows, byte_pack _ _ (by omega), sbox_eq]
  simp only [Spec.Aes.shiftRows, Spec.Aes.subBytes, state, Fin.val_add]
  congr 2
  omega

theorem state_mix (x : BitVec 128) : state (mixColumns x) = Spec.Aes.mixColumns (state x) := by
  funext r c
  rw [mixColumns, state_pack]
  simp only [Spec.Aes.mixColumns, ← triple_eq, ← double_eq, state, Fin.val_add]
  have h1 : 4 * ((r.val + 4 * c.val) / 4) + (r.val + 4 * c.val) % 4 = r.val + 4 * c.val := by omega
  have h2 : 4 * ((r.val + 4 * c.val) / 4) + (r.val + 4 * c.val + 1) % 4 = (r.val + 1) % 4 + 4 * c.val := by omega
  have h3 : 4 * ((r.val + 4 * c.val) / 4) + (r.val + 4 * c.val + 2) % 4 = (r.val + 2) % 4 + 4 * c.val := by omega
  have h4 : 4 * ((r.val + 4 * c.val) / 4) + (r.val + 4 * c.val + 3) % 4 = (r.val + 3) % 4 + 4 * c.val := by omega
  rw [h1, h2, h3, h4]
  rfl


theorem state_aesenc (x k : BitVec 128) (w : ℕ → Word) (n : ℕ)
    (hk : ∀ r c : Fin 4, byte k (r + 4 * c) = w (4 * n + c) r) :
    state (aesenc x k) =
      Spec.Aes.addRoundKey w n (Spec.Aes.mixColumns (Spec.Aes.shiftRows (Spec.Aes.subBytes (state x)))) := by
  rw [aesenc, state_xor _ k w n hk, state_mix, state_sub_shift]

theorem state_aesenclast (x k : BitVec 128) (w : ℕ → Word) (n : ℕ)
    (hk : ∀ r c : Fin 4, byte k (r + 4 * c) = w (4 * n + c) r) :
    state (aesenclast x k) =
      Spec.Aes.addRoundKey w n (Spec.Aes.shiftRows (Spec.Aes.subBytes (state x))) := by
  rw [aesenclast, state_xor _ k w n hk, state_sub_shift]

/-! ### the key schedule -/

/-- `x` holds the four words of round `n` -/
def Holds (w : ℕ → Word) (n : ℕ) (x : BitVec 128) : Prop :=
  ∀ c < 4, ∀ r : Fin 4, dwordOf (dword x c) r = w (4 * n + c) r

theorem holds_byte {w : ℕ → Word} {n : ℕ} {x : BitVec 128} (h : Holds w n x) (r c : Fin 4) :
    byte x (r + 4 * c) = w (4 * n + c) r := by
  rw [Nat.add_comm, byte_dword x c r r.isLt]
  exact h c c.isLt r

theorem prefix_xor (x : BitVec 128) :
    let y := loop 3 (fun _ s => s ^^^ slli s 4) x
    dword y 0 = dword x 0 ∧ dword y 1 = dword x 1 ^^^ dword x 0 ∧
    dword y 2 = dword x 2 ^^^ (dword x 1 ^^^ dword x 0) ∧
    dword y 3 = dword x 3 ^^^ (dword x 2 ^^^ (dword x 1 ^^^ dword x 0)) := by
  have e1 := fun s => dword_slli_succ s 0 (by omega)
  have e2 := fun s => dword_slli_succ s 1 (by omega)
  have e3 := fun s => dword_slli_succ s 2 (by omega)
  simp only [Nat.zero_add, Nat.reduceAdd] at e1 e2 e3
  simp only [loop, dword_xor, dword_slli_zero, e1, e2, e3]
  refine ⟨?_, ?_, ?_, ?_⟩ <;>
  · apply BitVec.eq_of_getLsbD_eq
    intro k hk
    simp only [BitVec.getLsbD_xor, show ((0 : BitVec 32).getLsbD k) = false from BitVec.getLsbD_zero]
    cases (dword x 0).getLsbD k <;> cases (dword x 1).getLsbD k <;> cases (dword x 2).getLsbD k <;>
      cases (dword x 3).getLsbD k <;> rfl

/-- one step of the key schedule with the round constant `b` -/
def extend (x : BitVec 128) (b : BitVec 8) : BitVec 128 :=
  loop 3 (fun _ s => s ^^^ slli s 4) x ^^^ shuffle (keygenassist x b) 3 3 3 3

theorem dword_extend (x : BitVec 128) (b : BitVec 8) :
    let t := rotWord (subWord (dword x 3)) ^^^ b.setWidth 32
    dword (extend x b) 0 = dword x 0 ^^^ t ∧
    dword (extend x b) 1 = dword x 1 ^^^ dword (extend x b) 0 ∧
    dword (extend x b) 2 = dword x 2 ^^^ dword (extend x b) 1 ∧
    dword (extend x b) 3 = dword x 3 ^^^ dword (extend x b) 2 := by
  intro t
  obtain ⟨p0, p1, p2, p3⟩ := prefix_xor x
  have hs : ∀ j < 4, dword (shuffle (keygenassist x b) 3 3 3 3) j = t := by
    intro j hj
    obtain ⟨q0, q1, q2, q3⟩ := dword_pack4 (dword (keygenassist x b) 3) (dword (keygenassist x b) 3)
      (dword (keygenassist x b) 3) (dword (keygenassist x b) 3)
    have hk : dword (keygenassist x b) 3 = t := (dword_pack4 _ _ _ _).2.2.2
    unfold shuffle
    interval_cases j
    · rw [q0, hk]
    · rw [q1, hk]
    · rw [q2, hk]
    · rw [q3, hk]
  simp only [extend, dword_xor, p0, p1, p2, p3, hs 0 (by omega), hs 1 (by omega), hs 2 (by omega),
    hs 3 (by omega), BitVec.xor_assoc, and_self]

theorem sub_rot (v : Word) : Spec.Aes.subWord (Spec.Aes.rotWord v) = Spec.Aes.rotWord (Spec.Aes.subWord v) := rfl

theorem keyWord_first (key : Fin 16 → BitVec 8) (n : ℕ) : Spec.Aes.keyWord key (4 * (n + 1)) =
    Spec.Aes.xorWord (Spec.Aes.keyWord key (4 * n))
      (Spec.Aes.xorWord (Spec.Aes.subWord (Spec.Aes.rotWord (Spec.Aes.keyWord key (4 * n + 3))))
        (Spec.Aes.rcon (n + 1))) := by
  rw [Spec.Aes.keyWord, dif_neg (by omega)]
  dsimp only
  rw [if_pos (by omega), show 4 * (n + 1) - 4 = 4 * n by omega, show 4 * (n + 1) - 1 = 4 * n + 3 by omega,
    show 4 * (n + 1) / 4 = n + 1 by omega]

theorem keyWord_next (key : Fin 16 → BitVec 8) (n c : ℕ) (hc : c < 3) :
    Spec.Aes.keyWord key (4 * (n + 1) + (c + 1)) =
    Spec.Aes.xorWord (Spec.Aes.keyWord key (4 * n + (c + 1))) (Spec.Aes.keyWord key (4 * (n + 1) + c)) := by
  rw [Spec.Aes.keyWord, dif_neg (by omega)]
  dsimp only
  rw [if_neg (by omega), show 4 * (n + 1) + (c + 1) - 4 = 4 * n + (c + 1) by omega,
    show 4 * (n + 1) + (c + 1) - 1 = 4 * (n + 1) + c by omega]

theorem holds_extend (key : Fin 16 → BitVec 8) (n : ℕ) (x : BitVec 128) (b : BitVec 8)
    (hb : Spec.Aes.xtime^[n] 1 = b) (h : Holds (Spec.Aes.keyWord key) n x) :
    Holds (Spec.Aes.keyWord key) (n + 1) (extend x b) := by
  obtain ⟨d0, d1, d2, d3⟩ := dword_extend x b
  have h0 : ∀ r : Fin 4, dwordOf (dword (extend x b) 0) r = Spec.Aes.keyWord key (4 * (n + 1)) r := by
    intro r
    rw [d0, keyWord_first, dwordOf_xor, dwordOf_xor, dwordOf_rotWord _ _ r.isLt, dwordOf_subWord _ _ (by omega),
      dwordOf_rcon _ _ r.isLt]
    simp only [Spec.Aes.xorWord, Spec.Aes.subWord, Spec.Aes.rotWord, Spec.Aes.rcon, Nat.add_sub_cancel, hb]
    rw [h 0 (by omega) r, sbox_eq]
    have e := h 3 (by omega) (r + 1)
    rw [Fin.val_add] at e
    rw [show ((r : ℕ) + 1) % 4 = (r.val + (1 : Fin 4).val) % 4 from rfl, e]
    by_cases hr : r = 0
    · subst hr; rfl
    · have hr' : ¬ (r : ℕ) = 0 := fun h => hr (Fin.ext h)
      rw [if_neg hr, if_neg hr']; rfl
  have step : ∀ c < 3, dword (extend x b) (c + 1) = dword x (c + 1) ^^^ dword (extend x b) c →
      (∀ r : Fin 4, dwordOf (dword (extend x b) c) r = Spec.Aes.keyWord key (4 * (n + 1) + c) r) →
      ∀ r : Fin 4, dwordOf (dword (extend x b) (c + 1)) r =
        Spec.Aes.keyWord key (4 * (n + 1) + (c + 1)) r := by
    intro c hc e hp r
    rw [e, dwordOf_xor, hp, keyWord_next key n c hc, h (c + 1) (by omega) r]
    rfl
  have h1 := step 0 (by omega) d1 h0
  have h2 := step 1 (by omega) d2 h1
  have h3 := step 2 (by omega) d3 h2
  intro c hc r
  interval_cases c
  · exact h0 r
  · exact h1 r
  · exact h2 r
  · exact h3 r

theorem secExtend_holds (key : Fin 16 → BitVec 8) (n : ℕ) (hn : n < 10) (x : BitVec 128)
    (h : Holds (Spec.Aes.keyWord key) n x) :
    ∃ y, secExtend x n = .ok y ∧ Holds (Spec.Aes.keyWord key) (n + 1) y := by
  have go : ∀ b, Spec.Aes.xtime^[n] 1 = b → secExtend x n = .ok (extend x b) →
      ∃ y, secExtend x n = .ok y ∧ Holds (Spec.Aes.keyWord key) (n + 1) y :=
    fun b hb e => ⟨_, e, holds_extend key n x b hb h⟩
  interval_cases n
  · exact go 0x01 (by decide) rfl
  · exact go 0x02 (by decide) rfl
  · exact go 0x04 (by decide) rfl
  · exact go 0x08 (by decide) rfl
  · exact go 0x10 (by decide) rfl
  · exact go 0x20 (by decide) rfl
  · exact go 0x40 (by decide) rfl
  · exact go 0x80 (by decide) rfl
  · exact go 0x1B (by decide) rfl
  · exact go 0x36 (by decide) rfl

theorem holds_key (k : BitVec 128) : Holds (Spec.Aes.keyWord (bytes k)) 0 k := by
  intro c hc r
  rw [Spec.Aes.keyWord, dif_pos (by omega), ← byte_dword k c r r.isLt]
  simp only [bytes, Nat.mul_zero, Nat.zero_add]

/-- the rounds -/
theorem enc_state (x k : BitVec 128) : ∃ y, enc x k = .ok y ∧
    state y = Spec.Aes.cipher (bytes k) (state x) := by
  have hr : ∀ m ≤ 9, ∃ y s, loopM m (fun i (s : BitVec 128 × BitVec 128) => do
      let secret ← secExtend s.2 i
      return (aesenc s.1 secret, secret)) (x ^^^ k, k) = .ok (y, s) ∧
      Holds (Spec.Aes.keyWord (bytes k)) m s ∧
      state y = (List.range m).foldl (fun s i => Spec.Aes.addRoundKey (Spec.Aes.keyWord (bytes k)) (i + 1)
        (Spec.Aes.mixColumns (Spec.Aes.shiftRows (Spec.Aes.subBytes s))))
        (Spec.Aes.addRoundKey (Spec.Aes.keyWord (bytes k)) 0 (state x)) := by
    intro m
    induction m with
    | zero =>
      intro _
      exact ⟨_, _, rfl, holds_key k, state_xor x k _ 0 (holds_byte (holds_key k))⟩
    | succ m ih =>
      intro hm
      obtain ⟨y, s, e, hs, hy⟩ := ih (by omega)
      obtain ⟨s', e', hs'⟩ := secExtend_holds (bytes k) m (by omega) s hs
      refine ⟨aesenc y s', s', ?_, hs', ?_⟩
      · rw [loopM_succ, e]
        show (do let secret ← secExtend s m; return (aesenc y secret, secret)) = _
        rw [e']; rfl
      · rw [List.range_succ, List.foldl_append, ← hy, state_aesenc y s' _ (m + 1) (holds_byte hs')]
        rfl
  obtain ⟨y, s, e, hs, hy⟩ := hr 9 (le_refl _)
  obtain ⟨s', e', hs'⟩ := secExtend_holds (bytes k) 9 (by omega) s hs
  refine ⟨aesenclast y s', ?_, ?_⟩
  · rw [enc]
    dsimp only
    rw [e]
    show (do let secret ← secExtend s 9; return aesenclast y secret) = _
    rw [e']; rfl
  · rw [state_aesenclast y s' _ 10 (holds_byte hs'), hy]
    rfl

end Aes
end Libra
