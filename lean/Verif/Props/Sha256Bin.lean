import Verif.Proofs.Sha256Bin
import Verif.Props.Sha256

/-!
# The SHA-256 generator in `bin`

`bin/sha256gen_merkle.py` adds up the bits of a word with `SS`, which is their plain sum, where `tests/SHA256/sha256gen.py` uses
`EXPSUM`, the number with these binary digits. The inputs are numbered as in `Props/Sha256`.
-/

namespace Libra.Props
open Libra Compiler
open Libra.Spec.Sha256 (Word compress roundConstants initialHash)
open Libra.Spec hiding Holds

/-- The generator succeeds: its assertions hold. -/
theorem C100_generates : ∃ P, Sha256Bin.write64 = .ok P := by
  obtain ⟨v, L, -, h⟩ := Sha256Bin.write64_eq
  exact ⟨_, h⟩

/-- As `Accepts`, with the meaning that the compiler gives to the lines (`SS` leaves out the last summand, see `C51_sum_partial`). -/
def AcceptsCompiled (P : List Stmt) (inp : ℕ → Fp) : Prop :=
  ∃ w : ℕ → Fp, (∀ s ∈ P, HoldsCompiled inp w s) ∧ ∀ o t, .output o t ∈ P → w t = 0

/-- The expected property (`C59_complete`, for this generator): every message is accepted with the hash value of the compression function. -/
def AcceptsMessages (P : List Stmt) : Prop :=
  ∀ K M H : ℕ → Word, ∃ inp : ℕ → Fp, Accepts P inp ∧ Public inp K H ∧ (∀ t < 16, inp (34 + t) = ((M t).toNat : Fp)) ∧
    ∀ i < 8, inp (2282 + i) = ((compress K M H i).toNat : Fp)

/-- In every accepted block the words 1 to 63 of the message schedule, six of the eight old hash values and all new ones are numbers up to
32: the sum of 32 bits. This holds for the meaning of `SS`, and for the meaning the compiler gives to it. -/
theorem C100_small {P : List Stmt} (hP : Sha256Bin.write64 = .ok P) {inp : ℕ → Fp} (h : Accepts P inp ∨ AcceptsCompiled P inp) :
    (∀ t, 1 ≤ t → t < 64 → ∃ n ≤ 32, inp (34 + t) = ((n : ℕ) : Fp)) ∧
    (∀ i < 8, i ≠ 3 → i ≠ 7 → ∃ n ≤ 32, inp (2274 + i) = ((n : ℕ) : Fp)) ∧
    ∀ i < 8, ∃ n ≤ 32, inp (2282 + i) = ((n : ℕ) : Fp) := by
  have key : ∃ w : ℕ → Fp, (∀ i < 7226, w i = inp i) ∧ Sha256Bin.Facts w := by
    rcases h with ⟨w, h1, h2⟩ | ⟨w, h1, h2⟩
    · exact ⟨w, Sha256Bin.program_facts hP (.inl fun _ => Iff.rfl) h1 h2⟩
    · exact ⟨w, Sha256Bin.program_facts hP (.inr fun _ => Iff.rfl) h1 h2⟩
  obtain ⟨w, hw, hf⟩ := key
  refine ⟨fun t h1 h2 => ?_, fun i hi h3 h7 => ?_, fun i hi => ?_⟩
  · rw [← hw _ (by omega)]; exact hf.words t h1 h2
  · rw [← hw _ (by omega)]; exact hf.hash i hi h3 h7
  · rw [← hw _ (by omega)]; exact hf.result i hi

/-- No block is accepted that starts from the initial hash value of SHA-256 (its first word is enough). -/
theorem C100_rejects {P : List Stmt} (hP : Sha256Bin.write64 = .ok P) {inp : ℕ → Fp} (h0 : inp 2274 = ((initialHash.getD 0 0).toNat : Fp)) :
    ¬ Accepts P inp ∧ ¬ AcceptsCompiled P inp := by
  have key : ¬ (Accepts P inp ∨ AcceptsCompiled P inp) := by
    intro h
    obtain ⟨n, hn, e⟩ := (C100_small hP h).2.1 0 (by decide) (by decide) (by decide)
    have := fp_small (initialHash.getD 0 0).toNat n (by decide +kernel) (by omega) (h0.symm.trans e)
    have hb : 32 < (initialHash.getD 0 0).toNat := by decide +kernel
    omega
  exact ⟨fun h => key (.inl h), fun h => key (.inr h)⟩

/-- The property is false. -/
theorem C100_false {P : List Stmt} (hP : Sha256Bin.write64 = .ok P) : ¬ AcceptsMessages P := by
  intro h
  obtain ⟨inp, h1, h2, -⟩ := h (fun _ => 0) (fun _ => 0) fun i => initialHash.getD i 0
  exact (C100_rejects hP (h2.hash 0 (by decide))).1 h1

/-- The theorems are about a program, and the other generator's program accepts such blocks. -/
example : (∃ P, Sha256Bin.write64 = .ok P) ∧ ∃ P, Sha256Gen.write64 = .ok P ∧ ∃ inp : ℕ → Fp, Accepts P inp ∧
    inp 2274 = ((initialHash.getD 0 0).toNat : Fp) := by
  obtain ⟨P, hP⟩ := C58_generates
  obtain ⟨inp, h1, h2, -⟩ := C59_complete hP (fun _ => 0) (fun _ => 0) fun i => initialHash.getD i 0
  exact ⟨C100_generates, P, hP, inp, h1, h2.hash 0 (by decide)⟩

end Libra.Props
