import Verif.Proofs.Sha256FourCompiled
import Verif.Props.Sha256Four
import Verif.Props.Merkle

/-!
# The compiled circuit of the SHA-256 benchmark in blocks of four rounds

The compiler makes of the program and the wiring of `sha256gen.py -4` a circuit of sixteen blocks. Here for the
option `-R`, that is, without the random combination.
-/

namespace Libra.Props
open Libra Compiler Sha256Gen Reader Libra.Zk
open Libra.Spec.Sha256 (Word compress)
open Libra.Spec hiding Holds

variable {G1 G2 GT : Type} [AddCommGroup G1] [AddCommGroup G2] [AddCommGroup GT]
  [Module (ZMod p) G1] [Module (ZMod p) G2] [Module (ZMod p) GT] [DecidableEq GT]

/-- The program meets the conditions of the compiler, whose theorems (C50, C61–C63, C69) hold for it with every wiring. -/
theorem C106_program {P : List Stmt} (hP : write4 false = .ok P) :
    ProgramOk P ∧ Acceptable P ∧ (∀ t a b, .sum t a b ∉ P) ∧ inputCount P = 1137 := by
  obtain ⟨h1, h2, -, h4, h5, -⟩ := write4_ok hP
  exact ⟨h1, h2, h4, h5⟩

/-- the compiler succeeds and its output is not too large for the reader -/
theorem compiled4 {P : List Stmt} (hP : write4 false = .ok P) {x : ℕ → ℤ} (hx : ∀ i, -2 ^ 63 ≤ x i ∧ x i < 2 ^ 63)
    {W : List RStmt} (hW : write4Rdl false x = .ok W) :
    (∃ file metaFile, compile .sha256 P W = .ok (file, metaFile)) ∧
      ∀ file metaFile, compile .sha256 P W = .ok (file, metaFile) → FitsReader file := by
  obtain ⟨p1, p2, p3, -, p5, p6, -⟩ := write4_ok hP
  obtain ⟨w1, w2, -, w4, w5, -⟩ := write4Rdl_ok hW hx
  rw [← p5] at w4
  refine ⟨compile_succeeds p1 p3 p2 w1 w2 ?_ (by decide) w4, fun file metaFile h => C69_fits _ P W p1 p2 file metaFile h 4 w4 ?_ w5 ?_⟩
  · decide
  · omega
  · omega

/-- The whole way: the compiler accepts program and wiring, the verifier reads the circuit, and accepts the honest prover, for all inputs,
secrets and challenges. -/
theorem C106_complete (E : Pairing G1 G2 GT) {P : List Stmt} (hP : write4 false = .ok P) {x : ℕ → ℤ}
    (hx : ∀ i, -2 ^ 63 ≤ x i ∧ x i < 2 ^ 63) {W : List RStmt} (hW : write4Rdl false x = .ok W) :
    ∃ file metaFile C, compile .sha256 P W = .ok (file, metaFile) ∧ readZk file metaFile = .ok C ∧
      ∀ coins : Coins Fp, CoinsOk C coins → ∀ (junk : Prover Fp G1 G2) (tables : VTables Fp) (ch : Zk.Challenges Fp),
        Zk.verify E C (Zk.honest E C coins junk) tables ch = .ok () := by
  obtain ⟨p1, -, -, -, p5, -⟩ := write4_ok hP
  obtain ⟨w1, -, -, w4, -⟩ := write4Rdl_ok hW hx
  obtain ⟨⟨file, metaFile, h⟩, hfit⟩ := compiled4 hP hx hW
  rw [← p5] at w4
  obtain ⟨C, c1, c2, c3, -, -, c5⟩ := C63_parallel _ P W p1 w1 file metaFile h 4 w4 (hfit _ _ h)
  refine ⟨file, metaFile, C, h, c1, fun coins hco junk tables ch => C23_zk_complete E C c2 c3 (fun i hi => ?_) coins hco junk tables ch⟩
  obtain ⟨a, b⟩ := c5 i (by omega)
  exact ⟨a, lt_of_le_of_lt b (by norm_num)⟩

/-- There is a place for every output of the program, in the circuits for all inputs, such that a block is accepted if and only if the gates
in these places are zero in it. -/
theorem C106_accepts {P : List Stmt} (hP : write4 false = .ok P) :
    ∃ layer pos size : ℕ → ℕ, ∀ (x : ℕ → ℤ) (W : List RStmt) (file metaFile : List ℤ) (base : ℕ), (∀ i, -2 ^ 63 ≤ x i ∧ x i < 2 ^ 63) →
      write4Rdl false x = .ok W → compile .sha256 P W = .ok (file, metaFile) → IsLeast {o | ∃ a, .output o a ∈ W} base →
      ∃ C, readZk file metaFile = .ok C ∧ ∀ out v : ℕ → Fp, (∀ l ∈ W, RHolds out v l.asRead) → ∀ b < 16,
        ((∀ o t, .output o t ∈ P → value C (layer t) (b * size (layer t) + pos t) = (0 : Fp)) ↔
          Accepts P (fun i => out (base + (b * 1137 + i)))) := by
  obtain ⟨p1, -, -, p4, p5, -, p7⟩ := write4_ok hP
  obtain ⟨layer, pos, size, h⟩ := C50_compile .sha256 P p1 p4
  refine ⟨layer, pos, size, fun x W file metaFile base hx hW hc hbase => ?_⟩
  obtain ⟨w1, -, w3, w4, -⟩ := write4Rdl_ok hW hx
  rw [← p5] at w4
  have hb : base ≤ 0x3f3f3f3f := by
    obtain rfl := hbase.unique w3
    decide
  obtain ⟨C, c1, -, -, c4⟩ := h W file metaFile base hc w1 hbase hb ⟨4, w4⟩ ((compiled4 hP hx hW).2 _ _ hc)
  refine ⟨C, c1, fun out v hR b hb => ?_⟩
  have hpos : 0 < inputCount P := by rw [p5]; decide
  obtain ⟨⟨w, hw⟩, hall⟩ := (c4 Fp out v hR).2 b (by rw [w4]; exact Nat.mul_lt_mul_of_pos_left hb hpos)
  rw [← p5]
  constructor
  · intro hzero
    refine ⟨w, hw, fun o t hot => ?_⟩
    obtain ⟨st, hst, e⟩ := p7 o t hot
    rw [← (hall w hw st hst t e).2.2]
    exact hzero o t hot
  · rintro ⟨w, hw, hz⟩ o t hot
    obtain ⟨st, hst, e⟩ := p7 o t hot
    rw [(hall w hw st hst t e).2.2]
    exact hz o t hot

/-- If the gates in these places are zero in all blocks, the round constants, the old hash value and
word 0 of the message are words, then the other words of the message are words and the new hash value is the compression function. -/
theorem C106_circuit {P : List Stmt} (hP : write4 false = .ok P) :
    ∃ layer pos size : ℕ → ℕ, ∀ (x : ℕ → ℤ) (W : List RStmt) (file metaFile : List ℤ), (∀ i, -2 ^ 63 ≤ x i ∧ x i < 2 ^ 63) →
      write4Rdl false x = .ok W → compile .sha256 P W = .ok (file, metaFile) →
      ∃ C, readZk file metaFile = .ok C ∧
        ((∀ b < 16, ∀ o t, .output o t ∈ P → value C (layer t) (b * size (layer t) + pos t) = (0 : Fp)) → ∀ (K H : ℕ → Word) (m0 : Word),
          (∀ i < 64, (readNumber (x (2211 + i)) : Fp) = ((K i).toNat : Fp)) → (∀ i < 8, (readNumber (x (2275 + i)) : Fp) = ((H i).toNat : Fp)) →
          (readNumber (x 2147) : Fp) = (m0.toNat : Fp) →
          ∃ M : ℕ → Word, M 0 = m0 ∧ (∀ t < 16, (readNumber (x (2147 + t)) : Fp) = ((M t).toNat : Fp)) ∧
            ∀ i < 8, (readNumber (x (2283 + i)) : Fp) = ((compress K M H i).toNat : Fp)) := by
  obtain ⟨layer, pos, size, h⟩ := C106_accepts hP
  refine ⟨layer, pos, size, fun x W file metaFile hx hW hc => ?_⟩
  obtain ⟨-, -, w3, -, -, w6⟩ := write4Rdl_ok hW hx
  obtain ⟨C, c1, c2⟩ := h x W file metaFile _ hx hW hc w3
  obtain ⟨v, hv⟩ := w6 Fp
  exact ⟨C, c1, fun hz K H m0 hK hH h0 => C104_sound hP hW w3 hv (fun b hb => (c2 v v hv b hb).1 (hz b hb)) hK hH h0⟩

/-- As with the program for 64 rounds (C68), the inputs of the circuit cannot be the round constants of SHA-256: the reader keeps 32 bits with a
sign, and word 2 of the constants is above `2^31`. -/
theorem C106_constants (x : ℕ → ℤ) :
    ¬ ∀ i < 64, (readNumber (x (2211 + i)) : Fp) = ((Spec.Sha256.roundConstants.getD i 0).toNat : Fp) := by
  intro h
  have h2 := h 2 (by decide)
  rw [show (Spec.Sha256.roundConstants.getD 2 0).toNat = 0xb5c0fbcf from rfl] at h2
  have hp : (2 : ℤ) ^ 65 < p := by decide
  have := Fp.intCast_inj (a := readNumber (x (2211 + 2))) (b := 0xb5c0fbcf) (h2.trans (by norm_num))
    (by rcases readNumber_range (x (2211 + 2)) with h | h <;> rw [abs_lt] <;> constructor <;> omega)
  rcases readNumber_range (x (2211 + 2)) with h | h <;> omega

/-- Bounds on everything the blocks get as numbers, other than bits: the schedule, the constants, the hash values, and the variables `d` and `h`
between the blocks. -/
structure Bounded (B : ℕ) (K M H : ℕ → Word) : Prop where
  schedule : ∀ t < 64, (Spec.Sha256.schedule M t).toNat < B
  constants : ∀ t < 64, (K t).toNat < B
  old : ∀ i < 8, (H i).toNat < B
  new : ∀ i < 8, (compress K M H i).toNat < B
  d : ∀ t ≤ 16, (Spec.Sha256.rounds K (Spec.Sha256.schedule M) ⟨H 0, H 1, H 2, H 3, H 4, H 5, H 6, H 7⟩ (4 * t)).d.toNat < B
  h : ∀ t ≤ 16, (Spec.Sha256.rounds K (Spec.Sha256.schedule M) ⟨H 0, H 1, H 2, H 3, H 4, H 5, H 6, H 7⟩ (4 * t)).h.toNat < B

theorem numbers4_bound {K M H : ℕ → Word} (hB : Bounded (2 ^ 31) K M H) {n : ℕ} (hn : 35 ≤ n) (hn' : n < 7261) :
    numbers4 (M 0).toNat K M H n < 2 ^ 31 := by
  have hb : ∀ b : Bool, b.toNat < 2 ^ 31 := fun b => by cases b <;> decide
  unfold numbers4
  rw [if_neg (by omega), if_neg (by omega), if_neg (by omega)]
  have hi : ∀ (c : Prop) [Decidable c] (a b : ℕ), (c → a < 2 ^ 31) → (¬c → b < 2 ^ 31) → (if c then a else b) < 2 ^ 31 := fun c _ a b ha hb => by
    by_cases hc : c
    · rw [if_pos hc]; exact ha hc
    · rw [if_neg hc]; exact hb hc
  refine hi _ _ _ (fun _ => hb _) fun _ => ?_
  refine hi _ _ _ (fun _ => hb _) fun _ => ?_
  refine hi _ _ _ (fun _ => ?_) fun _ => ?_
  · unfold schedVal
    refine hi _ _ _ (fun _ => ?_) fun _ => hB.schedule _ (by omega)
    have := hB.schedule 0 (by decide)
    rwa [schedule_early M (by decide)] at this
  refine hi _ _ _ (fun _ => hB.constants _ (by omega)) fun _ => ?_
  refine hi _ _ _ (fun _ => hB.old _ (by omega)) fun _ => ?_
  refine hi _ _ _ (fun _ => hB.new _ (by omega)) fun _ => ?_
  refine hi _ _ _ (fun _ => hb _) fun _ => ?_
  refine hi _ _ _ (fun _ => hB.d _ (by omega)) fun _ => ?_
  refine hi _ _ _ (fun _ => hB.h _ (by omega)) fun _ => ?_
  refine hi _ _ _ (fun _ => hb _) fun _ => ?_
  refine hi _ _ _ (fun _ => hb _) fun _ => ?_
  refine hi _ _ _ (fun _ => hb _) fun _ => ?_
  refine hi _ _ _ (fun _ => hb _) fun _ => ?_
  refine hi _ _ _ (fun _ => hb _) fun _ => ?_
  refine hi _ _ _ (fun _ => hb _) fun _ => ?_
  exact hi _ _ _ (fun _ => hb _) fun _ => hb _

/-- If all these numbers are below `2^31`, then there are inputs for the message and its hash value such that all blocks of the circuit are
accepted. -/
theorem C106_read {P : List Stmt} (hP : write4 false = .ok P) {K M H : ℕ → Word} (hB : Bounded (2 ^ 31) K M H) :
    ∃ x : ℕ → ℤ, (∀ i, 0 ≤ x i ∧ x i < 2 ^ 31) ∧ (∀ i < 64, x (2211 + i) = (K i).toNat) ∧ (∀ i < 8, x (2275 + i) = (H i).toNat) ∧
      (∀ t < 16, x (2147 + t) = (M t).toNat) ∧ (∀ i < 8, x (2283 + i) = (compress K M H i).toNat) ∧
      ∀ W base, write4Rdl false x = .ok W → IsLeast {o | ∃ a, .output o a ∈ W} base →
        ∀ out v : ℕ → Fp, (∀ l ∈ W, RHolds out v l.asRead) → ∀ b < 16, Accepts P (fun i => out (base + (b * 1137 + i))) := by
  let N := numbers4 (M 0).toNat K M H
  let x : ℕ → ℤ := fun i => if 35 ≤ i ∧ i < 7261 then (N i : ℤ) else 0
  have hx : ∀ i, 35 ≤ i → i < 7261 → x i = (N i : ℤ) := fun i h1 h2 => if_pos ⟨h1, h2⟩
  have hr : ∀ i, 0 ≤ x i ∧ x i < 2 ^ 31 := fun i => by
    by_cases h : 35 ≤ i ∧ i < 7261
    · have := numbers4_bound hB h.1 h.2
      rw [hx i h.1 h.2]
      exact ⟨Int.natCast_nonneg _, by exact_mod_cast this⟩
    · rw [show x i = 0 from if_neg h]; decide
  have b0 := (M 0).isLt
  have b9 := (M 9).isLt
  have b1 := (Spec.Sha256.sigma0 (M 1)).isLt
  have b14 := (Spec.Sha256.sigma1 (M 14)).isLt
  have hn : Admissible (M 0).toNat M := ⟨Nat.mod_eq_of_lt b0, by omega, by omega⟩
  refine ⟨x, hr, fun i hi => ?_, fun i hi => ?_, fun t ht => ?_, fun i hi => ?_, fun W base hW hbase out v hv b hb => ?_⟩
  · rw [hx _ (by omega) (by omega)]; exact congrArg Nat.cast (numbers4_K hi)
  · rw [hx _ (by omega) (by omega)]; exact congrArg Nat.cast (numbers4_H hi)
  · rw [hx _ (by omega) (by omega)]
    refine congrArg Nat.cast ((numbers4_W (by omega)).trans ?_)
    rcases Nat.eq_zero_or_pos t with rfl | hpos
    · exact if_pos rfl
    · rw [schedVal_pos (by omega), schedule_early M ht]
  · rw [hx _ (by omega) (by omega)]; exact congrArg Nat.cast (numbers4_O hi)
  · rw [write4Rdl_eq] at hW
    obtain rfl := Outcome.ok.inj hW
    obtain rfl := hbase.unique (rdl4_least x)
    refine (accepts4_congr hP fun i hi => rdl4_block (fun _ _ _ => rfl) (fun _ _ => rfl) hv hb hi).2 (numbers4_accepted (K := K) (H := H) hP hn (fun n h1 h2 => ?_) hb)
    rcases Nat.lt_or_ge n 35 with h | h
    · rcases show n = 0 ∨ n = 1 by omega with rfl | rfl
      · have := hv _ (mem_rdl4.2 (.inl rfl))
        rw [show (RStmt.const 0 0).asRead = .const 0 0 by decide] at this
        exact (Eq.trans this Int.cast_zero).trans Nat.cast_zero.symm
      · have := hv _ (mem_rdl4.2 (.inr (.inl ⟨0, by decide, rfl⟩)))
        rw [show (RStmt.const (1 + 0) (2 ^ (0 + if 0 = 0 then 0 else 1))).asRead = .const 1 1 by decide] at this
        exact (Eq.trans this Int.cast_one).trans Nat.cast_one.symm
    · have e : v n = (readNumber (x n) : Fp) := by
        obtain ⟨j, rfl⟩ := Nat.exists_eq_add_of_le h
        exact hv _ (mem_rdl4.2 (.inr (.inr (.inl ⟨j, by omega, rfl⟩))))
      rw [e, readNumber_kept (hr n).1 (hr n).2, hx n h h1, Int.cast_natCast]

/-! ### Examples -/

theorem zero_bounded : Bounded (2 ^ 31) (fun _ => 0) (fun _ => 0) (fun _ => 0) := by
  have hs : Spec.Sha256.schedule (fun _ => 0) = fun _ => 0 := funext schedule_zero
  have hr : ∀ n, Spec.Sha256.rounds (fun _ => 0) (fun _ => 0) ⟨0, 0, 0, 0, 0, 0, 0, 0⟩ n = ⟨0, 0, 0, 0, 0, 0, 0, 0⟩ := by
    intro n
    induction n with
    | zero => rfl
    | succ n ih => rw [Spec.Sha256.rounds, ih]; decide
  refine ⟨fun t _ => ?_, fun _ _ => by decide, fun _ _ => by decide, fun i _ => ?_, fun t _ => ?_, fun t _ => ?_⟩
  · rw [schedule_zero]; decide
  · rw [compress_zero]; decide
  · rw [hs, hr]; decide
  · rw [hs, hr]; decide

/-- The gates of `C106_circuit` are zero for the message of zeros, with zeros for the constants and the old hash value. -/
example {P : List Stmt} (hP : write4 false = .ok P) : ∃ (layer pos size : ℕ → ℕ) (x : ℕ → ℤ) (W : List RStmt) (file metaFile : List ℤ)
    (C : Circuit), (∀ i, 0 ≤ x i ∧ x i < 2 ^ 31) ∧ write4Rdl false x = .ok W ∧ compile .sha256 P W = .ok (file, metaFile) ∧
    readZk file metaFile = .ok C ∧
    (∀ b < 16, ∀ o t, .output o t ∈ P → value C (layer t) (b * size (layer t) + pos t) = (0 : Fp)) ∧
    (∀ i < 8, x (2283 + i) = (compress (fun _ => 0) (fun _ => 0) (fun _ => 0) i).toNat) := by
  obtain ⟨layer, pos, size, h⟩ := C106_accepts hP
  obtain ⟨x, h1, -, -, -, h5, h6⟩ := C106_read hP zero_bounded
  obtain ⟨W, hW⟩ := C104_generates.2 x
  have hx : ∀ i, -2 ^ 63 ≤ x i ∧ x i < 2 ^ 63 := fun i => ⟨by have := (h1 i).1; omega, by have := (h1 i).2; omega⟩
  obtain ⟨⟨file, metaFile, hc⟩, -⟩ := compiled4 hP hx hW
  obtain ⟨-, -, w3, -, -, w6⟩ := write4Rdl_ok hW hx
  obtain ⟨v, hv⟩ := w6 Fp
  obtain ⟨C, c1, c2⟩ := h x W file metaFile _ hx hW hc w3
  exact ⟨layer, pos, size, x, W, file, metaFile, C, h1, hW, hc, c1, fun b hb => (c2 v v hv b hb).2 (h6 W _ hW w3 v v hv b hb), h5⟩


/-- the circuit exists -/
example (E : Pairing G1 G2 GT) : ∃ P W file metaFile C, write4 false = .ok P ∧ write4Rdl false (fun _ => 1) = .ok W ∧
    compile .sha256 P W = .ok (file, metaFile) ∧ readZk file metaFile = .ok C := by
  obtain ⟨⟨P, hP⟩, hW⟩ := C104_generates
  obtain ⟨W, hW⟩ := hW fun _ => 1
  obtain ⟨file, metaFile, C, h1, h2, -⟩ := C106_complete E hP (fun _ => by decide) hW
  exact ⟨P, W, file, metaFile, C, hP, hW, h1, h2⟩

end Libra.Props
