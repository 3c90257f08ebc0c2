import Verif.Proofs.MerkleComplete
import Verif.Props.CompiledProofs
import Verif.Props.Numbers

/-!
# The Merkle tree benchmark

`merkleRdl lgn padding x` writes the wiring file of a tree with `2^lgn` leaves, whose public inputs are 34 to 97 (the round constants), 98
to 105 (the hash value every block starts from), 106 to 297 (bits of it) and 298 to 305 (the root). Blocks 0 to `2^lgn - 1` are the leaves.
-/

namespace Libra.Props
open Libra Compiler Sha256Gen Reader MerkleGen Zk
open Libra.Spec.Sha256 (Word compress concat merkleNode merkleRoot roundConstants schedule rounds)
open Libra.Spec hiding Holds

/-! ### The files -/

/-- The generator succeeds for every number of leaves, and the wiring file is one for which the compiler keeps the meaning, complete, with
the inputs of `2^(lgn + 1)` blocks. -/
theorem C65_wiring (lgn : ℕ) (hl : 1 ≤ lgn) (padding : Bool) (x : ℕ → ℤ) (hx : ∀ i, -2 ^ 63 ≤ x i ∧ x i < 2 ^ 63) :
    ∃ W base, merkleRdl lgn padding x = .ok W ∧ WiringOk W ∧ WiringComplete W base ∧ outputCount W = 7226 * 2 ^ (lgn + 1) ∧
      (lgn ≤ 15 → base ≤ 0x3f3f3f3f) ∧ (lgn ≤ 10 → W.length ≤ 2 ^ 29) :=
  ⟨_, baseOf lgn padding, merkleRdl_eq (by omega) padding x, rdl_ok hx, rdl_complete, rdl_count, fun h => by
    interval_cases lgn <;> cases padding <;> decide +kernel, fun h => by
    rw [rdl_length]
    interval_cases lgn <;> cases padding <;> decide +kernel⟩

/-- The generator stops at its assertion for a single leaf. -/
theorem C65_single (padding : Bool) (x : ℕ → ℤ) : merkleRdl 0 padding x = .assertFail := rfl

/-- Padding: the numbers from `2^k` on are those of the private inputs, of which there are at most `2^k` and more than half as many; the inputs
between the public ones and these are not used by any block. -/
theorem C65_padding (lgn : ℕ) (hl : 1 ≤ lgn) (x : ℕ → ℤ) :
    ∃ W k n, merkleRdl lgn true x = .ok W ∧ n ≤ 2 ^ k ∧ 2 ^ k < 2 * n ∧
      (∀ i, (∃ t y, .input t i y ∈ W) ↔ 34 ≤ i ∧ i < 2 ^ k + n) ∧
      ∀ t i y, .input t i y ∈ W → 306 ≤ i → i < 2 ^ k → ∀ o a b, .pass o a b ∈ W → a ≠ t ∧ b ≠ t := by
  have hp : 2 ≤ 2 ^ lgn := by
    obtain ⟨k, rfl⟩ := Nat.exists_eq_succ_of_ne_zero (show lgn ≠ 0 by omega)
    have := Nat.two_pow_pos k
    rw [Nat.succ_eq_add_one, pow_succ]
    omega
  have hend : 306 + 13856 ≤ endOf lgn := by rw [endOf_eq hp]; omega
  have hk : bitLength (endOf lgn - 306 - 1) = Nat.log2 (endOf lgn - 306 - 1) + 1 := if_neg (by omega)
  have h1 := Nat.lt_log2_self (n := endOf lgn - 306 - 1)
  have h2 := Nat.log2_self_le (n := endOf lgn - 306 - 1) (by omega)
  rw [← hk] at h1
  have h3 : 2 ^ bitLength (endOf lgn - 306 - 1) = 2 * 2 ^ Nat.log2 (endOf lgn - 306 - 1) := by rw [hk, pow_succ, mul_comm]
  have hpad : padOf lgn true = 2 ^ bitLength (endOf lgn - 306 - 1) - 306 := rfl
  generalize bitLength (endOf lgn - 306 - 1) = k at *
  refine ⟨_, k, endOf lgn - 306, merkleRdl_eq (by omega) true x, by omega, by omega, fun i => ?_, ?_⟩
  · constructor
    · rintro ⟨t, y, h⟩
      rcases mem_rdl.1 h with ⟨a, ha, e⟩ | ⟨a, ha, e⟩ | ⟨a, ha, e⟩ | ⟨a, ha, e⟩ | ⟨a, ha, e⟩ | ⟨a, ha, e⟩
      · cases e
      all_goals first | (cases e; done) | (obtain ⟨-, rfl, -⟩ := RStmt.input.inj e; omega)
    · rintro ⟨hi, hi'⟩
      rcases Nat.lt_or_ge i 306 with h | h
      · refine ⟨i, x i, mem_rdl.2 (.inr (.inl ⟨i - 34, by omega, ?_⟩))⟩
        rw [Nat.add_sub_cancel' hi]
      rcases Nat.lt_or_ge i (2 ^ k) with h' | h'
      · obtain ⟨j, rfl⟩ := Nat.exists_eq_add_of_le h
        have hj : j < padOf lgn true := by omega
        exact ⟨endOf lgn + j, x (306 + j), mem_rdl.2 (.inr (.inr (.inl ⟨j, hj, rfl⟩)))⟩
      · refine ⟨306 + (i - 2 ^ k), x i, mem_rdl.2 (.inr (.inr (.inr (.inl ⟨i - 2 ^ k, by omega, ?_⟩))))⟩
        rw [show 306 + padOf lgn true = 2 ^ k by omega, Nat.add_sub_cancel' h']
  · intro t i y h hi hi' o a b hpass
    have hb : a < endOf lgn ∧ b < endOf lgn := by
      rcases mem_rdl.1 hpass with ⟨c, hc, e⟩ | ⟨c, hc, e⟩ | ⟨c, hc, e⟩ | ⟨c, hc, e⟩ | ⟨c, hc, e⟩ | ⟨c, hc, e⟩
      · cases e
      · cases e
      · cases e
      · cases e
      · obtain ⟨-, rfl, rfl⟩ := RStmt.pass.inj e
        exact ⟨copied_lt lgn _ (List.getElem_mem hc), copied_lt lgn _ (List.getElem_mem hc)⟩
      · cases e
    rcases mem_rdl.1 h with ⟨c, hc, e⟩ | ⟨c, hc, e⟩ | ⟨c, hc, e⟩ | ⟨c, hc, e⟩ | ⟨c, hc, e⟩ | ⟨c, hc, e⟩
    · cases e
    · obtain ⟨-, rfl, -⟩ := RStmt.input.inj e; omega
    · obtain ⟨rfl, -, -⟩ := RStmt.input.inj e; omega
    · obtain ⟨-, rfl, -⟩ := RStmt.input.inj e; omega
    · cases e
    · cases e

variable {G1 G2 GT : Type} [AddCommGroup G1] [AddCommGroup G2] [AddCommGroup GT]
  [Module (ZMod p) G1] [Module (ZMod p) G2] [Module (ZMod p) GT] [DecidableEq GT]

/-- The whole way for trees of up to `2^10` leaves: both generators succeed, the compiler accepts their files, the verifier reads the circuit
and accepts the honest prover, for all inputs (`x`), secrets and challenges. -/
theorem C65_complete (E : Pairing G1 G2 GT) (lgn : ℕ) (hl : 1 ≤ lgn) (hl' : lgn ≤ 10) (padding : Bool) (x : ℕ → ℤ)
    (hx : ∀ i, -2 ^ 63 ≤ x i ∧ x i < 2 ^ 63) :
    ∃ P W file metaFile C, write64 = .ok P ∧ merkleRdl lgn padding x = .ok W ∧ compile .sha256 P W = .ok (file, metaFile) ∧
      readZk file metaFile = .ok C ∧
        ∀ coins : Coins Fp, Zk.CoinsOk C coins → ∀ (junk : Zk.Prover Fp G1 G2) (tables : Zk.VTables Fp) (ch : Zk.Challenges Fp),
          Zk.verify E C (Zk.honest E C coins junk) tables ch = .ok () := by
  obtain ⟨P, hP⟩ := C58_generates
  obtain ⟨W, base, h1, h2, h3, h4, h5, h6⟩ := C65_wiring lgn hl padding x hx
  obtain ⟨file, metaFile, C, h7, h8⟩ := C63_sha256 E hP h2 h3 (h5 (by omega)) h4 (by omega) (h6 hl')
  exact ⟨P, W, file, metaFile, C, hP, h1, h7, h8⟩

/-! ### The tree -/

theorem schedule_congr {M M' : ℕ → Word} (h : ∀ t < 16, M t = M' t) (t : ℕ) : schedule M t = schedule M' t := by
  induction t using Nat.strong_induction_on with
  | _ t ih =>
    unfold schedule
    dsimp only
    split
    · exact h t ‹_›
    · rw [ih (t - 2) (by omega), ih (t - 7) (by omega), ih (t - 15) (by omega), ih (t - 16) (by omega)]

/-- only sixteen words of the message count -/
theorem compress_congr (K H : ℕ → Word) {M M' : ℕ → Word} (h : ∀ t < 16, M t = M' t) : compress K M H = compress K M' H := by
  have : schedule M = schedule M' := funext (schedule_congr h)
  funext i
  unfold compress
  rw [this]

theorem readNumber_zero : readNumber 0 = 0 := by decide

/-- Accepted trees: if the public inputs contain the round constants `K` and the first hash value `H`, and every block is accepted, and
the first word of every leaf is a word, then the inputs of the leaves are messages, and the public inputs contain the root of their tree. -/
theorem C66_root {P : List Stmt} (hP : write64 = .ok P) {lgn : ℕ} {padding : Bool} {x : ℕ → ℤ} {W : List RStmt}
    (hW : merkleRdl lgn padding x = .ok W) {base : ℕ} (hbase : IsLeast {o | ∃ a, .output o a ∈ W} base) {out v : ℕ → Fp}
    (hv : ∀ l ∈ W, RHolds out v l.asRead) {K H : ℕ → Word} (hK : ∀ i < 64, (readNumber (x (34 + i)) : Fp) = ((K i).toNat : Fp))
    (hH : ∀ i < 8, (readNumber (x (98 + i)) : Fp) = ((H i).toNat : Fp))
    (hacc : ∀ b < 2 ^ (lgn + 1) - 1, Accepts P (fun i => out (base + (b * 7226 + i))))
    (hfirst : ∀ j < 2 ^ lgn, ∃ m : Word, out (base + (j * 7226 + 34)) = (m.toNat : Fp)) :
    ∃ leaves : ℕ → ℕ → Word, (∀ j < 2 ^ lgn, ∀ t < 16, out (base + (j * 7226 + (34 + t))) = ((leaves j t).toNat : Fp)) ∧
      ∀ i < 8, (readNumber (x (298 + i)) : Fp) = ((merkleRoot K H leaves lgn i).toNat : Fp) := by
  have hl : lgn ≠ 0 := by
    rintro rfl
    rw [C65_single] at hW
    cases hW
  rw [merkleRdl_eq hl] at hW
  obtain rfl := Outcome.ok.inj hW
  have hb0 : base = baseOf lgn padding := by
    refine hbase.unique ⟨⟨_, mem_rdl_output.2 ⟨rfl, Nat.le_refl _, ?_⟩⟩, ?_⟩
    · have := Nat.two_pow_pos (lgn + 1); omega
    · rintro o ⟨a, ha⟩
      exact (mem_rdl_output.1 ha).2.1
  subst hb0
  have hin : ∀ b < 2 ^ (lgn + 1) - 1, ∀ i < 7226, out (baseOf lgn padding + (b * 7226 + i)) = v ((blockVars lgn b).getD i 0) := by
    intro b hb i hi
    have := rdl_block hv (b := b) (by omega) hi
    rwa [Nat.min_eq_left (by omega)] at this
  have hpubv : ∀ i < 272, v (34 + i) = (readNumber (x (34 + i)) : Fp) := fun i hi => hv _ (mem_rdl.2 (.inr (.inl ⟨i, hi, rfl⟩)))
  have hpub : ∀ b < 2 ^ (lgn + 1) - 1, Public (fun i => out (baseOf lgn padding + (b * 7226 + i))) K H := by
    intro b hb
    refine ⟨?_, fun i hi => ?_, fun i hi => ?_⟩
    · rw [hin b hb 0 (by decide), at_const (by decide)]
      have := hv _ (mem_rdl.2 (.inl ⟨0, by decide, rfl⟩))
      simp only [RStmt.asRead, RHolds, constOf, if_pos, readNumber_zero, Int.cast_zero] at this
      exact this
    · rw [hin b hb _ (by omega), at_K hb hi, hpubv i (by omega), hK i hi]
    · rw [hin b hb _ (by omega), at_H hb hi, show 98 + i = 34 + (64 + i) by omega, hpubv _ (by omega),
        show 34 + (64 + i) = 98 + i by omega, hH i hi]
  have hpow : 2 ^ (lgn + 1) = 2 * 2 ^ lgn := pow_succ' 2 lgn
  have hpos := Nat.two_pow_pos lgn
  have hleaf : ∀ j, ∃ M : ℕ → Word, j < 2 ^ lgn →
      (∀ t < 16, out (baseOf lgn padding + (j * 7226 + (34 + t))) = ((M t).toNat : Fp)) ∧
      ∀ i < 8, out (baseOf lgn padding + (j * 7226 + (2282 + i))) = ((compress K M H i).toNat : Fp) := by
    intro j
    by_cases hj : j < 2 ^ lgn
    · obtain ⟨m, hm⟩ := hfirst j hj
      have hl2 : 2 ≤ 2 ^ lgn := by
        obtain ⟨k, rfl⟩ := Nat.exists_eq_succ_of_ne_zero hl
        have := Nat.two_pow_pos k
        rw [Nat.succ_eq_add_one, pow_succ]
        omega
      obtain ⟨M, -, h1, h2⟩ := C58_sound hP (hacc j (by omega)) (hpub j (by omega)) hm
      exact ⟨M, fun _ => ⟨h1, h2⟩⟩
    · exact ⟨fun _ => 0, fun h => absurd h hj⟩
  choose leaves hleaves using hleaf
  refine ⟨leaves, fun j hj => (hleaves j hj).1, ?_⟩
  have key : ∀ k ≤ lgn, ∀ j < 2 ^ (lgn - k), ∀ i < 8,
      out (baseOf lgn padding + ((startOf lgn k + j) * 7226 + (2282 + i))) = ((merkleNode K H leaves k j i).toNat : Fp) := by
    intro k
    induction k with
    | zero =>
      intro _ j hj i hi
      rw [startOf_zero, Nat.zero_add]
      exact (hleaves j hj).2 i hi
    | succ k ih =>
      intro hk j hj i hi
      obtain ⟨c1, c2⟩ := startOf_child hk
      have hge := startOf_mono (lgn := lgn) (k := k + 1) (by omega)
      have hp : 2 ^ (lgn - k) = 2 * 2 ^ (lgn - (k + 1)) := by
        rw [← pow_succ', show lgn - (k + 1) + 1 = lgn - k by omega]
      have hlt : startOf lgn (k + 1) + j < 2 ^ (lgn + 1) - 1 := by
        unfold startOf
        have : 2 ^ (lgn + 1 - (k + 1)) ≤ 2 ^ (lgn + 1) := Nat.pow_le_pow_right (by decide) (by omega)
        have e : lgn + 1 - (k + 1) = lgn - (k + 1) + 1 := by omega
        rw [e, pow_succ] at this ⊢
        have := Nat.two_pow_pos (lgn - (k + 1))
        omega
      have hc : 2 * (startOf lgn (k + 1) + j - 2 ^ lgn) = startOf lgn k + 2 * j := by omega
      have hclt := child_lt (b := startOf lgn (k + 1) + j) (by omega) hlt
      rw [hc] at hclt
      have hmsg : ∀ t < 16, out (baseOf lgn padding + ((startOf lgn (k + 1) + j) * 7226 + (34 + t))) =
          ((concat (merkleNode K H leaves k (2 * j)) (merkleNode K H leaves k (2 * j + 1)) t).toNat : Fp) := by
        intro t ht
        rw [hin _ hlt _ (by omega), at_message hlt (by omega)]
        unfold Spec.Sha256.concat
        by_cases h8 : t < 8
        · rw [if_pos h8, message_left (by omega) hlt h8, hc, ← at_hash (by omega) h8, ← hin _ (by omega) _ (by omega)]
          exact ih (by omega) (2 * j) (by omega) t h8
        · obtain ⟨t, rfl⟩ := Nat.exists_eq_add_of_le (show 8 ≤ t by omega)
          rw [if_neg h8, message_right (by omega) hlt (by omega), hc, ← at_hash (by omega) (by omega), ← hin _ (by omega) _ (by omega),
            Nat.add_sub_cancel_left]
          exact ih (by omega) (2 * j + 1) (by omega) t (by omega)
      obtain ⟨M, -, h1, h2⟩ := C58_sound hP (hacc _ hlt) (hpub _ hlt) (hmsg 0 (by decide))
      rw [h2 i hi, merkleNode]
      rw [compress_congr K H (M := M) fun t ht => ?_]
      have e := (h1 t ht).symm.trans (hmsg t ht)
      exact BitVec.eq_of_toNat_eq (fp_small _ _ (by omega) (by omega) e)
  intro i hi
  have h := key lgn (Nat.le_refl _) 0 (by simp) i hi
  have hr : startOf lgn lgn + 0 < 2 ^ (lgn + 1) - 1 := by rw [startOf_last]; omega
  rw [hin _ hr _ (by omega), at_hash hr hi] at h
  unfold hashVars at h
  rw [if_pos (isRoot_iff.2 (by rw [startOf_last, Nat.add_zero])), getD_range' hi, show 298 + i = 34 + (264 + i) by omega,
    hpubv _ (by omega), show 34 + (264 + i) = 298 + i by omega] at h
  exact h

/-- The same for the compiled circuit: there is a place for every test of the program, in the circuits of all trees of up to `2^10` leaves, such that if the gates in
these places are zero in all blocks then the public inputs contain the root of the tree. -/
theorem C66_circuit (var : Compiler.Variant) {P : List Stmt} (hP : write64 = .ok P) :
    ∃ layer pos size : ℕ → ℕ, ∀ (lgn : ℕ) (padding : Bool) (x : ℕ → ℤ) (W : List RStmt) (file metaFile : List ℤ),
      lgn ≤ 10 → (∀ i, -2 ^ 63 ≤ x i ∧ x i < 2 ^ 63) → merkleRdl lgn padding x = .ok W → compile var P W = .ok (file, metaFile) →
      ∃ C base, readZk file metaFile = .ok C ∧ ∀ out v : ℕ → Fp, (∀ l ∈ W, RHolds out v l.asRead) →
        (∀ b < 2 ^ (lgn + 1) - 1, ∀ o t, .output o t ∈ P → value C (layer t) (b * size (layer t) + pos t) = (0 : Fp)) →
        ∀ K H : ℕ → Word, (∀ i < 64, (readNumber (x (34 + i)) : Fp) = ((K i).toNat : Fp)) →
          (∀ i < 8, (readNumber (x (98 + i)) : Fp) = ((H i).toNat : Fp)) →
          (∀ j < 2 ^ lgn, ∃ m : Word, out (base + (j * 7226 + 34)) = (m.toNat : Fp)) →
          ∃ leaves : ℕ → ℕ → Word, (∀ j < 2 ^ lgn, ∀ t < 16, out (base + (j * 7226 + (34 + t))) = ((leaves j t).toNat : Fp)) ∧
            ∀ i < 8, (readNumber (x (298 + i)) : Fp) = ((merkleRoot K H leaves lgn i).toNat : Fp) := by
  obtain ⟨layer, pos, size, h⟩ := C61_accepts var hP
  refine ⟨layer, pos, size, fun lgn padding x W file metaFile hl hx hW hc => ?_⟩
  have hl0 : 1 ≤ lgn := by
    rcases Nat.eq_zero_or_pos lgn with rfl | h
    · rw [C65_single] at hW
      cases hW
    · exact h
  obtain ⟨W', base, h1, h2, h3, h4, h5, h6⟩ := C65_wiring lgn hl0 padding x hx
  obtain rfl := Outcome.ok.inj (h1.symm.trans hW)
  have hleast : IsLeast {o | ∃ a, .output o a ∈ W'} base := by
    refine ⟨(h3.numbers base).2 ⟨Nat.le_refl _, ?_⟩, fun o ho => ((h3.numbers o).1 ho).1⟩
    have := Nat.two_pow_pos (lgn + 1)
    omega
  obtain ⟨C, c1, c2⟩ := h W' file metaFile base hc h2 hleast (h5 (by omega)) ⟨_, h4⟩
    ((C69_sha256 var hP).2 W' file metaFile hc (lgn + 1) (by omega) h4 (h6 hl))
  exact ⟨C, base, c1, fun out v hv hz K H hK hH hfirst => C66_root hP hW hleast hv hK hH
    (fun b hb => (c2 out v hv b (by omega)).1 (hz b hb)) hfirst⟩

/-! ### Every tree is accepted -/

/-- the values for a tree, for any values of the constants other than the first -/
theorem tree_values {P : List Stmt} (hP : write64 = .ok P) {lgn : ℕ} (hl : 1 ≤ lgn) (padding : Bool) (K H : ℕ → Word)
    (leaves : ℕ → ℕ → Word) (c : ℕ → Fp) (hc : c 0 = 0) :
    ∃ x : ℕ → ℤ, (∀ i, 0 ≤ x i ∧ x i < 2 ^ 32) ∧ (∀ i < 64, x (34 + i) = (K i).toNat) ∧ (∀ i < 8, x (98 + i) = (H i).toNat) ∧
      (∀ i < 8, x (298 + i) = (merkleRoot K H leaves lgn i).toNat) ∧ (TreeBound (2 ^ 31) lgn K H leaves → ∀ i, x i < 2 ^ 31) ∧
      ∃ v : ℕ → Fp, (∀ l ∈ rdlLines lgn padding x, RHolds v v (noConst l)) ∧
        (∀ t < 34, v t = c t) ∧
        (∀ b < 2 ^ (lgn + 1), Accepts P (fun i => v (baseOf lgn padding + (b * 7226 + i)))) ∧
        ∀ j < 2 ^ lgn, ∀ t < 16, v (baseOf lgn padding + (j * 7226 + (34 + t))) = ((leaves j t).toNat : Fp) := by
  have hpow : 2 ^ (lgn + 1) = 2 * 2 ^ lgn := pow_succ' 2 lgn
  have hl2 : 2 ≤ 2 ^ lgn := by
    obtain ⟨k, rfl⟩ := Nat.exists_eq_succ_of_ne_zero (show lgn ≠ 0 by omega)
    have := Nat.two_pow_pos k
    rw [Nat.succ_eq_add_one, pow_succ]
    omega
  have hsmall : ∀ (i : ℕ) (X : Word), values lgn K H leaves (34 + i) = ((X.toNat : ℕ) : Fp) → i < 272 →
      numbers Fp lgn K H leaves padding (34 + i) = X.toNat := by
    intro i X h hi
    have e := (numbers_public hl2 padding hi).trans h
    obtain ⟨h0, h1⟩ := numbers_range (F := Fp) (lgn := lgn) (K := K) (H := H) (leaves := leaves) padding (34 + i)
    obtain ⟨k, hk⟩ := Int.eq_ofNat_of_zero_le h0
    rw [hk] at e h1 ⊢
    rw [Int.cast_natCast] at e
    have := X.isLt
    rw [fp_small k X.toNat (by omega) (by omega) e]
  refine ⟨numbers Fp lgn K H leaves padding, numbers_range padding, fun i hi => hsmall i _ ?_ (by omega), fun i hi => ?_, fun i hi => ?_,
    fun h i => by simpa using numbers_small fp_small (by decide) hl2 h padding i,
    treeValues c lgn K H leaves padding, treeValues_holds hl2 c padding, fun t ht => if_pos ht, ?_, ?_⟩
  · unfold values
    rw [if_neg (by omega), if_pos (by omega), Nat.add_sub_cancel_left]
  · rw [show 98 + i = 34 + (64 + i) by omega]
    refine hsmall _ _ ?_ (by omega)
    unfold values
    rw [if_neg (by omega), if_neg (by omega), if_pos (by omega), show 34 + (64 + i) - 98 = i by omega]
  · rw [show 298 + i = 34 + (264 + i) by omega]
    refine hsmall _ _ ?_ (by omega)
    unfold values
    rw [if_neg (by omega), if_neg (by omega), if_neg (by omega), if_neg (by omega), if_pos (by omega),
      show 34 + (264 + i) - 298 = i by omega, hashAt_root]
  all_goals
    have hin : ∀ b < 2 ^ (lgn + 1), ∀ i < 7226, treeValues c lgn K H leaves padding (baseOf lgn padding + (b * 7226 + i)) =
        if (blockVars lgn (min b (2 ^ (lgn + 1) - 2))).getD i 0 < 34 then c ((blockVars lgn (min b (2 ^ (lgn + 1) - 2))).getD i 0)
        else values lgn K H leaves ((blockVars lgn (min b (2 ^ (lgn + 1) - 2))).getD i 0) := by
      intro b hb i hi
      have hend := end_large (lgn := lgn)
      have hbase : baseOf lgn padding = endOf lgn + padOf lgn padding := rfl
      unfold treeValues
      rw [if_neg (by omega), if_neg (by omega), if_neg (by omega), Nat.add_sub_cancel_left, Nat.mul_comm b, copied_at hb hi]
    have hval : ∀ b < 2 ^ (lgn + 1), ∀ i < 7226, 34 ≤ i → treeValues c lgn K H leaves padding (baseOf lgn padding + (b * 7226 + i)) =
        inputsAt lgn K H leaves (min b (2 ^ (lgn + 1) - 2)) i := by
      intro b hb i hi h34
      rw [hin b hb i hi, if_neg, values_block hl2 (by omega) h34 hi]
      exact Nat.not_lt.2 (vars_ge (by omega) h34 hi)
  · intro b hb
    refine program_accepts hP _ K (messageAt lgn K H leaves (min b (2 ^ (lgn + 1) - 2))) H ⟨?_, ?_, ?_⟩ ?_
      fun n h1 h2 => hval b hb n h2 h1
    · exact Nat.mod_eq_of_lt (messageAt lgn K H leaves (min b (2 ^ (lgn + 1) - 2)) 0).isLt
    · have := (messageAt lgn K H leaves (min b (2 ^ (lgn + 1) - 2)) 0).isLt
      omega
    · have h0 := (messageAt lgn K H leaves (min b (2 ^ (lgn + 1) - 2)) 0).isLt
      have h1 := (messageAt lgn K H leaves (min b (2 ^ (lgn + 1) - 2)) 9).isLt
      have h2 := (Spec.Sha256.sigma0 (messageAt lgn K H leaves (min b (2 ^ (lgn + 1) - 2)) 1)).isLt
      have h3 := (Spec.Sha256.sigma1 (messageAt lgn K H leaves (min b (2 ^ (lgn + 1) - 2)) 14)).isLt
      omega
    · rw [hin b hb 0 (by decide), at_const (by decide), if_pos (by decide), hc]
  · intro j hj t ht
    rw [hval j (by omega) _ (by omega) (by omega), Nat.min_eq_left (by omega), inputsAt_message ht, messageAt, if_pos hj]

/-- C67. For every tree there are 32-bit numbers for the inputs, with the round constants, the first hash value and the root in the public
ones, such that all blocks are accepted, if the circuit is given the numbers of the wiring file. -/
theorem C67_tree {P : List Stmt} (hP : write64 = .ok P) {lgn : ℕ} (hl : 1 ≤ lgn) (padding : Bool) (K H : ℕ → Word)
    (leaves : ℕ → ℕ → Word) :
    ∃ x : ℕ → ℤ, (∀ i, 0 ≤ x i ∧ x i < 2 ^ 32) ∧ (∀ i < 64, x (34 + i) = (K i).toNat) ∧ (∀ i < 8, x (98 + i) = (H i).toNat) ∧
      (∀ i < 8, x (298 + i) = (merkleRoot K H leaves lgn i).toNat) ∧
      ∃ W base, merkleRdl lgn padding x = .ok W ∧ IsLeast {o | ∃ a, .output o a ∈ W} base ∧
        ∃ out v : ℕ → Fp, (∀ l ∈ W, RHolds out v l) ∧ (∀ b < 2 ^ (lgn + 1), Accepts P (fun i => out (base + (b * 7226 + i)))) ∧
          ∀ j < 2 ^ lgn, ∀ t < 16, out (base + (j * 7226 + (34 + t))) = ((leaves j t).toNat : Fp) := by
  obtain ⟨x, h1, h2, h3, h4, hx', v, h5, h6, h7, h8⟩ := tree_values hP hl padding K H leaves (fun t => ((constOf t : ℤ) : Fp)) (by simp [constOf])
  refine ⟨x, h1, h2, h3, h4, _, baseOf lgn padding, merkleRdl_eq (by omega) padding x, rdl_least, v, v, fun l hm => ?_, h7, h8⟩
  have := h5 l hm
  cases l with
  | const t c =>
    rcases mem_rdl.1 hm with ⟨t', ht, e⟩ | ⟨i, hi, e⟩ | ⟨i, hi, e⟩ | ⟨i, hi, e⟩ | ⟨n, hn, e⟩ | ⟨n, hn, e⟩
    · obtain ⟨rfl, rfl⟩ := RStmt.const.inj e
      exact h6 _ ht
    all_goals cases e
  | input t i y => exact this
  | output o t => exact this
  | pass t a b => exact this

/-- C67 for the numbers as the circuit has them: for trees all of whose words are below `2^31` (the round constants, the first hash value, the
schedules and hash values of all nodes). Missing: all other trees, see `C68_false`. -/
theorem C67_read_partial {P : List Stmt} (hP : write64 = .ok P) {lgn : ℕ} (hl : 1 ≤ lgn) (padding : Bool) (K H : ℕ → Word)
    (leaves : ℕ → ℕ → Word) (hx : TreeBound (2 ^ 31) lgn K H leaves) :
    ∃ x : ℕ → ℤ, (∀ i, 0 ≤ x i ∧ x i < 2 ^ 31) ∧ (∀ i < 64, x (34 + i) = (K i).toNat) ∧ (∀ i < 8, x (98 + i) = (H i).toNat) ∧
      (∀ i < 8, x (298 + i) = (merkleRoot K H leaves lgn i).toNat) ∧
      ∃ W base, merkleRdl lgn padding x = .ok W ∧ IsLeast {o | ∃ a, .output o a ∈ W} base ∧
        ∃ out v : ℕ → Fp, (∀ l ∈ W, RHolds out v l.asRead) ∧ (∀ b < 2 ^ (lgn + 1), Accepts P (fun i => out (base + (b * 7226 + i)))) ∧
          ∀ j < 2 ^ lgn, ∀ t < 16, out (base + (j * 7226 + (34 + t))) = ((leaves j t).toNat : Fp) := by
  obtain ⟨x, h1, h2, h3, h4, hx', v, h5, h6, h7, h8⟩ := tree_values hP hl padding K H leaves
    (fun t => ((readNumber (constOf t) : ℤ) : Fp)) (by simp [constOf, readNumber_zero])
  have hx := hx' hx
  refine ⟨x, fun i => ⟨(h1 i).1, hx i⟩, h2, h3, h4, _, baseOf lgn padding, merkleRdl_eq (by omega) padding x, rdl_least, v, v, fun l hm => ?_,
    h7, h8⟩
  have := h5 l hm
  rcases mem_rdl.1 hm with ⟨t', ht, rfl⟩ | ⟨i, hi, rfl⟩ | ⟨i, hi, rfl⟩ | ⟨i, hi, rfl⟩ | ⟨n, hn, rfl⟩ | ⟨n, hn, rfl⟩
  · exact h6 _ ht
  all_goals first
    | exact this
    | (simp only [RStmt.asRead, RHolds] at this ⊢
       rw [readNumber_kept (h1 _).1 (hx _)]
       exact this)

/-! The tree of zeros, with zeros for the constants and the first hash value, meets the bound. -/

theorem schedule_zero (t : ℕ) : schedule (fun _ => 0) t = 0 := by
  induction t using Nat.strong_induction_on with
  | _ t ih =>
    unfold schedule
    dsimp only
    split
    · rfl
    · rw [ih (t - 2) (by omega), ih (t - 7) (by omega), ih (t - 15) (by omega), ih (t - 16) (by omega)]
      decide

theorem compress_zero (i : ℕ) : compress (fun _ => 0) (fun _ => 0) (fun _ => 0) i = 0 := by
  unfold compress
  have hs : schedule (fun _ => 0) = fun _ => 0 := funext schedule_zero
  have : ∀ n, rounds (fun _ => 0) (fun _ => 0) ⟨0, 0, 0, 0, 0, 0, 0, 0⟩ n = ⟨0, 0, 0, 0, 0, 0, 0, 0⟩ := by
    intro n
    induction n with
    | zero => rfl
    | succ n ih => rw [rounds, ih]; decide
  rw [hs, this]
  unfold Spec.Sha256.Vars.word
  split <;> rfl

theorem node_zero (k j : ℕ) : merkleNode (fun _ => 0) (fun _ => 0) (fun _ _ => 0) k j = fun _ => 0 := by
  induction k generalizing j with
  | zero => exact funext compress_zero
  | succ k ih =>
    rw [merkleNode, ih, ih]
    have : concat (fun _ => 0) (fun _ => 0) = fun _ => (0 : Word) := by
      funext i
      unfold Spec.Sha256.concat
      split <;> rfl
    rw [this]
    exact funext compress_zero

theorem zero_bound (lgn : ℕ) : TreeBound (2 ^ 31) lgn (fun _ => 0) (fun _ => 0) (fun _ _ => 0) := by
  refine ⟨by decide, fun _ _ => by decide, fun _ _ => by decide, fun k j t _ _ _ => ?_, fun k j i _ _ _ => ?_⟩
  · have : Spec.Sha256.nodeMessage (fun _ => 0) (fun _ => 0) (fun _ _ => 0) k j = fun _ => 0 := by
      cases k with
      | zero => rfl
      | succ k =>
        rw [Spec.Sha256.nodeMessage, node_zero, node_zero]
        funext i
        unfold Spec.Sha256.concat
        split <;> rfl
    rw [this, schedule_zero]
    decide
  · rw [node_zero]
    exact Nat.two_pow_pos 31

/-- The hypotheses of `C66_root` are met by it, for every number of leaves. -/
example (lgn : ℕ) (hl : 1 ≤ lgn) : ∃ (P : List Stmt) (x : ℕ → ℤ) (W : List RStmt) (base : ℕ) (out v : ℕ → Fp) (K H : ℕ → Word),
    write64 = .ok P ∧ merkleRdl lgn true x = .ok W ∧ IsLeast {o | ∃ a, .output o a ∈ W} base ∧ (∀ l ∈ W, RHolds out v l.asRead) ∧
    (∀ i < 64, (readNumber (x (34 + i)) : Fp) = ((K i).toNat : Fp)) ∧ (∀ i < 8, (readNumber (x (98 + i)) : Fp) = ((H i).toNat : Fp)) ∧
    (∀ b < 2 ^ (lgn + 1) - 1, Accepts P (fun i => out (base + (b * 7226 + i)))) ∧
    ∀ j < 2 ^ lgn, ∃ m : Word, out (base + (j * 7226 + 34)) = (m.toNat : Fp) := by
  obtain ⟨P, hP⟩ := C58_generates
  obtain ⟨x, h1, h2, h3, h4, W, base, h5, h6, out, v, h7, h8, h9⟩ := C67_read_partial hP hl true _ _ _ (zero_bound lgn)
  refine ⟨P, x, W, base, out, v, fun _ => 0, fun _ => 0, hP, h5, h6, h7, fun i hi => ?_, fun i hi => ?_, fun b hb => h8 b (by omega),
    fun j hj => ⟨_, h9 j hj 0 (by decide)⟩⟩
  · rw [readNumber_kept (h1 _).1 (h1 _).2, h2 i hi, Int.cast_natCast]
  · rw [readNumber_kept (h1 _).1 (h1 _).2, h3 i hi, Int.cast_natCast]

/-- the range of the numbers in a circuit -/
theorem readNumber_range (c : ℤ) : (0 ≤ readNumber c ∧ readNumber c < 2 ^ 31) ∨ (2 ^ 64 - 2 ^ 31 ≤ readNumber c ∧ readNumber c < 2 ^ 64) := by
  unfold readNumber inputNumber int32
  split <;> omega

/-- The expected property: the benchmark can be run on SHA-256, that is, there are wiring files whose blocks get its round constants. -/
def RunsOnSha256 : Prop :=
  ∃ (W : List RStmt) (base : ℕ) (out v : ℕ → Fp) (H : ℕ → Word), WiringOk W ∧ WiringComplete W base ∧ 7226 ≤ outputCount W ∧
    (∀ l ∈ W, RHolds out v l.asRead) ∧ Public (fun i => out (base + i)) (fun i => roundConstants.getD i 0) H

/-- C68. No block of any compiled circuit has the round constants of SHA-256 as inputs. -/
theorem C68_blocks {W : List RStmt} (hW : WiringOk W) {base : ℕ} (hc : WiringComplete W base) {out v : ℕ → Fp}
    (hv : ∀ l ∈ W, RHolds out v l.asRead) {b : ℕ} (hb : 7226 * (b + 1) ≤ outputCount W) (H : ℕ → Word) :
    ¬ Public (fun i => out (base + (b * 7226 + i))) (fun i => roundConstants.getD i 0) H := by
  intro h
  have h2 := h.constants 2 (by decide)
  rw [show (roundConstants.getD 2 0).toNat = 0xb5c0fbcf from rfl] at h2
  obtain ⟨t, ht⟩ := (hc.numbers (base + (b * 7226 + (2210 + 2)))).2 ⟨by omega, by omega⟩
  obtain ⟨a, a', ha⟩ := hc.copies _ _ ht
  have e1 := hv _ ht
  have e2 := hv _ ha
  simp only [RStmt.asRead, RHolds] at e1 e2
  have hp : (2 : ℤ) ^ 65 < p := by decide
  have key : ∀ y : ℤ, v a = (readNumber y : Fp) → False := by
    intro y e
    have := (e1.trans (e2.trans e)).symm.trans h2
    have := Fp.intCast_inj (a := readNumber y) (b := 0xb5c0fbcf) (this.trans (by norm_num))
      (by rcases readNumber_range y with h | h <;> rw [abs_lt] <;> constructor <;> omega)
    rcases readNumber_range y with h | h <;> omega
  rcases hW.source _ _ _ ha with ⟨c, h⟩ | ⟨i, y, h⟩
  · exact key c (hv _ h)
  · exact key y (hv _ h)

/-- The property is false. -/
theorem C68_false : ¬ RunsOnSha256 := by
  rintro ⟨W, base, out, v, H, h1, h2, h3, h4, h5⟩
  refine C68_blocks h1 h2 h4 (b := 0) (by omega) H ?_
  simpa using h5

end Libra.Props
