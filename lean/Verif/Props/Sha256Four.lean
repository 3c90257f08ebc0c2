import Verif.Proofs.Sha256FourProgram
import Verif.Props.Sha256

/-!
# The SHA-256 benchmark in blocks of four rounds

`write4 false` writes the program for four rounds and `write4Rdl false x` the wiring file that makes sixteen blocks of it from one message.
Among the inputs of the wiring are the schedule (2147 to 2210, the message is 2147 to 2162), the round constants (2211 to 2274), the old hash
value (2275 to 2282) and the new one (2283 to 2290), all as field elements; `x` gives their values.
-/

namespace Libra.Props
open Libra Compiler Sha256Gen Reader
open Libra.Spec.Sha256 (Word compress)
open Libra.Spec hiding Holds

/-- Both generators succeed: their assertions hold. -/
theorem C104_generates : (∃ P, write4 false = .ok P) ∧ ∀ x, ∃ W, write4Rdl false x = .ok W := by
  obtain ⟨L, -, -, -, -, h⟩ := write4_eq
  exact ⟨⟨_, h⟩, fun x => ⟨_, write4Rdl_eq x⟩⟩

theorem accepts4_congr {P : List Stmt} (hP : write4 false = .ok P) {inp inp' : ℕ → Fp} (h : ∀ i < 1137, inp i = inp' i) :
    Accepts P inp ↔ Accepts P inp' := by
  obtain ⟨L, l1, l2, -, -, l3⟩ := write4_eq
  rw [l3] at hP
  obtain rfl := Outcome.ok.inj hP
  refine exists_congr fun w => and_congr_left fun _ => ?_
  rw [holds_lines l2, holds_lines l2]
  exact and_congr_left fun _ => forall₂_congr fun i hi => by rw [h i hi]

/-- the values of the inputs of a block -/
theorem rdl4_block {x : ℕ → ℤ} {f : RStmt → RStmt} (hf : ∀ t a b, f (.pass t a b) = .pass t a b) (hf' : ∀ o a, f (.output o a) = .output o a)
    {out v : ℕ → Fp} (hv : ∀ l ∈ rdl4 x, RHolds out v (f l)) {b i : ℕ} (hb : b < 16) (hi : i < 1137) :
    out (7261 + (b * 1137 + i)) = blk v b i := by
  have h1 := hv _ (mem_rdl4.2 (.inr (.inr (.inr (.inl ⟨b * 1137 + i, by omega, rfl⟩)))))
  have h2 := hv _ (mem_rdl4.2 (.inr (.inr (.inr (.inr ⟨b * 1137 + i, by omega, rfl⟩)))))
  rw [hf, vals4_at hb hi] at h1
  rw [hf'] at h2
  exact h2.trans h1

/-- from accepted blocks to the compression function -/
theorem sound4 {P : List Stmt} (hP : write4 false = .ok P) {x : ℕ → ℤ} {v : ℕ → Fp} (v0 : v 0 = 0) (v1 : v 1 = 1)
    (vi : ∀ i, 35 ≤ i → i < 7261 → v i = (readNumber (x i) : Fp)) (hacc : ∀ b < 16, Accepts P (blk v b)) {K H : ℕ → Word}
    (hK : ∀ i < 64, (readNumber (x (2211 + i)) : Fp) = ((K i).toNat : Fp))
    (hH : ∀ i < 8, (readNumber (x (2275 + i)) : Fp) = ((H i).toNat : Fp)) {m0 : Word} (h0 : (readNumber (x 2147) : Fp) = (m0.toNat : Fp)) :
    ∃ M : ℕ → Word, M 0 = m0 ∧ (∀ t < 16, (readNumber (x (2147 + t)) : Fp) = ((M t).toNat : Fp)) ∧
      ∀ i < 8, (readNumber (x (2283 + i)) : Fp) = ((compress K M H i).toNat : Fp) := by
  obtain ⟨y, -, hy, -⟩ := blocks_sound hP v0 v1 hacc
  have e0 : inp64 v 34 = (m0.toNat : Fp) := by
    rw [show 34 = 34 + 0 from rfl, inp64_W (by decide), vi _ (by decide) (by decide), h0]
  refine ⟨message m0 y, if_pos rfl, fun t ht => ?_, fun i hi => ?_⟩
  · rw [← vi _ (by omega) (by omega), ← inp64_W (G := v) (by omega)]
    exact (schedule_eq fp_small hy e0 t (by omega)).2
  · rw [← vi _ (by omega) (by omega), ← inp64_Hout (G := v)]
    exact eqs_compress fp_small hy e0 (fun i hi => by rw [inp64_K hi, vi _ (by omega) (by omega), hK i hi])
      (fun i hi => by rw [inp64_H hi, vi _ (by omega) (by omega), hH i hi]) i hi

/-- If all sixteen blocks are accepted, the round constants and the old hash value are words, and word 0 of the message is a word, then the
other words of the message are words and the new hash value is the compression function of the message and the old one. -/
theorem C104_sound {P : List Stmt} (hP : write4 false = .ok P) {x : ℕ → ℤ} {W : List RStmt} (hW : write4Rdl false x = .ok W) {base : ℕ}
    (hbase : IsLeast {o | ∃ a, .output o a ∈ W} base) {out v : ℕ → Fp} (hv : ∀ l ∈ W, RHolds out v l.asRead)
    (hacc : ∀ b < 16, Accepts P (fun i => out (base + (b * 1137 + i)))) {K H : ℕ → Word}
    (hK : ∀ i < 64, (readNumber (x (2211 + i)) : Fp) = ((K i).toNat : Fp))
    (hH : ∀ i < 8, (readNumber (x (2275 + i)) : Fp) = ((H i).toNat : Fp)) {m0 : Word} (h0 : (readNumber (x 2147) : Fp) = (m0.toNat : Fp)) :
    ∃ M : ℕ → Word, M 0 = m0 ∧ (∀ t < 16, (readNumber (x (2147 + t)) : Fp) = ((M t).toNat : Fp)) ∧
      ∀ i < 8, (readNumber (x (2283 + i)) : Fp) = ((compress K M H i).toNat : Fp) := by
  rw [write4Rdl_eq] at hW
  obtain rfl := Outcome.ok.inj hW
  obtain rfl := hbase.unique (rdl4_least x)
  have v0 : v 0 = 0 := by
    have := hv _ (mem_rdl4.2 (.inl rfl))
    rw [show (RStmt.const 0 0).asRead = .const 0 0 by decide] at this
    exact Eq.trans this Int.cast_zero
  have v1 : v 1 = 1 := by
    have := hv _ (mem_rdl4.2 (.inr (.inl ⟨0, by decide, rfl⟩)))
    rw [show (RStmt.const (1 + 0) (2 ^ (0 + if 0 = 0 then 0 else 1))).asRead = .const 1 1 by decide] at this
    exact Eq.trans this Int.cast_one
  have vi : ∀ i, 35 ≤ i → i < 7261 → v i = (readNumber (x i) : Fp) := fun i h1 h2 => by
    obtain ⟨j, rfl⟩ := Nat.exists_eq_add_of_le h1
    exact hv _ (mem_rdl4.2 (.inr (.inr (.inl ⟨j, by omega, rfl⟩))))
  exact sound4 hP v0 v1 vi (fun b hb => (accepts4_congr hP fun i hi => rdl4_block (fun _ _ _ => rfl) (fun _ _ => rfl) hv hb hi).1 (hacc b hb))
    hK hH h0

/-- the inputs for a message with `n0` in place of word 0 -/
theorem numbers4_wiring {P : List Stmt} (hP : write4 false = .ok P) (n0 : ℕ) (K M H : ℕ → Word) (hn : Admissible n0 M) :
    ∃ (x : ℕ → ℤ) (W : List RStmt) (base : ℕ) (out v : ℕ → Fp), (∀ i, 0 ≤ x i ∧ x i < 2 ^ 40) ∧ write4Rdl false x = .ok W ∧
      IsLeast {o | ∃ a, .output o a ∈ W} base ∧ (∀ l ∈ W, RHolds out v l) ∧
      (∀ b < 16, Accepts P (fun i => out (base + (b * 1137 + i)))) ∧
      (∀ i < 64, x (2211 + i) = (K i).toNat) ∧ (∀ i < 8, x (2275 + i) = (H i).toNat) ∧ x 2147 = n0 ∧
      (∀ t, 1 ≤ t → t < 16 → x (2147 + t) = (M t).toNat) ∧ ∀ i < 8, x (2283 + i) = (compress K M H i).toNat := by
  let N := numbers4 n0 K M H
  let v : ℕ → Fp := fun n => if n < 7261 then (N n : Fp) else (N (vals4.getD (n - 7261) 0) : Fp)
  have hv : ∀ n < 7261, v n = (N n : Fp) := fun n hn => if_pos hn
  have hlt : ∀ n, vals4.getD n 0 < 7261 := by
    intro n
    rw [List.getD_eq_getElem?_getD]
    rcases h : vals4[n]? with _ | a
    · decide
    · exact vals4_lt a (List.mem_of_getElem? h)
  have hR : ∀ l ∈ rdl4 (fun i => (N i : ℤ)), RHolds v v l := by
    intro l hl
    rcases mem_rdl4.1 hl with rfl | ⟨i, hi, rfl⟩ | ⟨i, hi, rfl⟩ | ⟨n, hn, rfl⟩ | ⟨n, hn, rfl⟩
    · show v 0 = ((0 : ℤ) : Fp)
      rw [hv 0 (by decide), Int.cast_zero]
      exact Nat.cast_zero
    · show v (1 + i) = (((2 : ℤ) ^ (i + if i = 0 then 0 else 1) : ℤ) : Fp)
      have : N (1 + i) = 2 ^ (i + if i = 0 then 0 else 1) := by
        rcases Nat.eq_zero_or_pos i with rfl | h
        · rfl
        · obtain ⟨j, rfl⟩ := Nat.exists_eq_add_of_le' h
          show numbers4 n0 K M H (1 + (j + 1)) = _
          unfold numbers4
          rw [if_neg (by omega), if_neg (by omega), if_pos (by omega), if_neg (by omega), show 1 + (j + 1) - 2 = j by omega, pow_succ, pow_succ]
          omega
      rw [hv _ (by omega), this]
      push_cast
      rfl
    · show v (35 + i) = (((N (35 + i) : ℕ) : ℤ) : Fp)
      rw [hv _ (by omega), Int.cast_natCast]
    · show v (7261 + n) = v (vals4.getD n 0)
      rw [hv _ (hlt n)]
      show (if 7261 + n < 7261 then _ else _) = _
      rw [if_neg (by omega), Nat.add_sub_cancel_left]
    · rfl
  refine ⟨fun i => (N i : ℤ), _, 7261, v, v, fun i => ⟨Int.natCast_nonneg _, ?_⟩, write4Rdl_eq _, rdl4_least _, hR, fun b hb => ?_, fun i hi => ?_,
    fun i hi => ?_, ?_, fun t h1 h2 => ?_, fun i hi => ?_⟩
  · have : N i < 2 ^ 40 := by
      rcases Nat.lt_or_ge i 35 with h | h
      · show numbers4 n0 K M H i < 2 ^ 40
        unfold numbers4
        by_cases h0 : i = 0
        · rw [if_pos h0]; decide
        by_cases h1 : i = 1
        · rw [if_neg h0, if_pos h1]; decide
        rw [if_neg h0, if_neg h1, if_pos h]
        have := Nat.pow_le_pow_right (n := 2) (by decide) (show i - 2 ≤ 32 by omega)
        omega
      · exact (numbers4_lt hn h).trans (by decide)
    show ((N i : ℕ) : ℤ) < 2 ^ 40
    exact_mod_cast this
  · exact (accepts4_congr hP fun i hi => rdl4_block (f := id) (fun _ _ _ => rfl) (fun _ _ => rfl) hR hb hi).2 (numbers4_accepted hP hn (fun n h _ => hv n h) hb)
  · exact congrArg Nat.cast (numbers4_K hi)
  · exact congrArg Nat.cast (numbers4_H hi)
  · exact congrArg Nat.cast ((numbers4_W (t := 0) (by decide)).trans (if_pos rfl))
  · refine congrArg Nat.cast ((numbers4_W (by omega)).trans ?_)
    rw [schedVal_pos (by omega), schedule_early M h2]
  · exact congrArg Nat.cast (numbers4_O hi)

/-- Every message is accepted, with the hash value of the compression function. -/
theorem C104_complete {P : List Stmt} (hP : write4 false = .ok P) (K M H : ℕ → Word) :
    ∃ (x : ℕ → ℤ) (W : List RStmt) (base : ℕ) (out v : ℕ → Fp), (∀ i, 0 ≤ x i ∧ x i < 2 ^ 40) ∧ write4Rdl false x = .ok W ∧
      IsLeast {o | ∃ a, .output o a ∈ W} base ∧ (∀ l ∈ W, RHolds out v l) ∧
      (∀ b < 16, Accepts P (fun i => out (base + (b * 1137 + i)))) ∧
      (∀ i < 64, x (2211 + i) = (K i).toNat) ∧ (∀ i < 8, x (2275 + i) = (H i).toNat) ∧
      (∀ t < 16, x (2147 + t) = (M t).toNat) ∧ ∀ i < 8, x (2283 + i) = (compress K M H i).toNat := by
  have b0 := (M 0).isLt
  have b9 := (M 9).isLt
  have b1 := (Spec.Sha256.sigma0 (M 1)).isLt
  have b14 := (Spec.Sha256.sigma1 (M 14)).isLt
  obtain ⟨x, W, base, out, v, h1, h2, h3, h4, h5, h6, h7, h8, h9, h10⟩ := numbers4_wiring hP (M 0).toNat K M H
    ⟨Nat.mod_eq_of_lt b0, by omega, by omega⟩
  refine ⟨x, W, base, out, v, h1, h2, h3, h4, h5, h6, h7, fun t ht => ?_, h10⟩
  rcases Nat.eq_zero_or_pos t with rfl | hpos
  · exact h8
  · exact h9 t hpos ht

/-- The word 0 is not checked, as in the program for 64 rounds: with `2^32` added to it the blocks are accepted with the same hash value. -/
theorem C104_second_preimage {P : List Stmt} (hP : write4 false = .ok P) (K M H : ℕ → Word)
    (hM : (M 0).toNat + 2 ^ 32 + (M 9).toNat + ((Spec.Sha256.sigma0 (M 1)).toNat + (Spec.Sha256.sigma1 (M 14)).toNat) < 2 ^ 34) :
    ∃ (x : ℕ → ℤ) (W : List RStmt) (base : ℕ) (out v : ℕ → Fp), (∀ i, 0 ≤ x i ∧ x i < 2 ^ 40) ∧ write4Rdl false x = .ok W ∧
      IsLeast {o | ∃ a, .output o a ∈ W} base ∧ (∀ l ∈ W, RHolds out v l) ∧
      (∀ b < 16, Accepts P (fun i => out (base + (b * 1137 + i)))) ∧
      (∀ i < 64, x (2211 + i) = (K i).toNat) ∧ (∀ i < 8, x (2275 + i) = (H i).toNat) ∧ x 2147 = (M 0).toNat + 2 ^ 32 ∧
      (∀ t, 1 ≤ t → t < 16 → x (2147 + t) = (M t).toNat) ∧ ∀ i < 8, x (2283 + i) = (compress K M H i).toNat := by
  have b0 := (M 0).isLt
  obtain ⟨x, W, base, out, v, h1, h2, h3, h4, h5, h6, h7, h8, h9, h10⟩ := numbers4_wiring hP ((M 0).toNat + 2 ^ 32) K M H
    ⟨by omega, by omega, hM⟩
  exact ⟨x, W, base, out, v, h1, h2, h3, h4, h5, h6, h7, by rw [h8]; push_cast; rfl, h9, h10⟩

/-- The program is one for which the compiler keeps the meaning, and it has 1137 inputs. -/
theorem C104_program {P : List Stmt} (hP : write4 false = .ok P) :
    ProgramOk P ∧ (∀ t a b, .sum t a b ∉ P) ∧ inputCount P = 1137 := by
  obtain ⟨L, -, h2, -, -, h4⟩ := write4_eq
  rw [h4] at hP
  obtain rfl := Outcome.ok.inj hP
  exact straight_program h2 _ _

/-! ### Examples -/

/-- the padded message "abc" is accepted, with the constants of the standard -/
example : ∃ (P : List Stmt) (x : ℕ → ℤ) (W : List RStmt) (base : ℕ) (out v : ℕ → Fp), write4 false = .ok P ∧ write4Rdl false x = .ok W ∧
    IsLeast {o | ∃ a, .output o a ∈ W} base ∧ (∀ l ∈ W, RHolds out v l) ∧
    (∀ b < 16, Accepts P (fun i => out (base + (b * 1137 + i)))) ∧ (∀ t < 16, x (2147 + t) = (abc t).toNat) := by
  obtain ⟨⟨P, hP⟩, -⟩ := C104_generates
  obtain ⟨x, W, base, out, v, -, h2, h3, h4, h5, -, -, h8, -⟩ := C104_complete hP (fun i => Spec.Sha256.roundConstants.getD i 0) abc
    (fun i => Spec.Sha256.initialHash.getD i 0)
  exact ⟨P, x, W, base, out, v, hP, h2, h3, h4, h5, h8⟩

end Libra.Props
