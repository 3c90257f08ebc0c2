import Verif.Props.Compiler

/-!
# Numbers of the wiring file (C64)

The constants and inputs of a wiring file are `long long`s; a gate of a circuit holds an `int`, and the field element made of it
is the one of its value modulo `2^64`. `readNumber` is the result. The theorems on compiled circuits (C50, C51, C61–C63) take all
numbers that fit a `long long`, and are about the numbers as read.
-/

namespace Libra.Props
open Libra Spec Compiler Reader

/-- The number that enters the circuit is the number of the wiring file exactly for `0 ≤ c < 2^31`. -/
theorem C64_exact (c : ℤ) (hc : -2 ^ 63 ≤ c ∧ c < 2 ^ 63) : (readNumber c : Fp) = (c : Fp) ↔ 0 ≤ c ∧ c < 2 ^ 31 := by
  have hi : -2 ^ 31 ≤ int32 c ∧ int32 c < 2 ^ 31 := by unfold int32; omega
  have hp : (2 : ℤ) ^ 65 < p := by decide
  unfold readNumber inputNumber
  constructor
  · intro h
    have := Fp.intCast_inj h (by rw [abs_lt]; split <;> constructor <;> omega)
    unfold int32 at *
    split at this <;> omega
  · rintro ⟨h0, h1⟩
    have e : int32 c = c := by unfold int32; omega
    rw [e, if_pos h0]

/-- the numbers of a wiring file are in the range in which they are kept -/
def Kept (W : List RStmt) : Prop :=
  (∀ t c, .const t c ∈ W → 0 ≤ c ∧ c < 2 ^ 31) ∧ ∀ t i x, .input t i x ∈ W → 0 ≤ x ∧ x < 2 ^ 31

theorem readNumber_kept {c : ℤ} (h0 : 0 ≤ c) (h1 : c < 2 ^ 31) : readNumber c = c := by
  have e : int32 c = c := by unfold int32; omega
  rw [readNumber, e, inputNumber, if_pos h0]

/-- C64, for wiring files with numbers below `2^31`: in every block of the compiled circuit, the values of the inputs are those
the wiring file gives them. -/
theorem C64_partial (var : Compiler.Variant) (P : List Stmt) (hP : ProgramOk P) :
    ∃ layer pos size : ℕ → ℕ, ∀ (W : List RStmt) (file metaFile : List ℤ) (base : ℕ),
      compile var P W = .ok (file, metaFile) → WiringOk W → Kept W →
      IsLeast {o | ∃ a, .output o a ∈ W} base → base ≤ 0x3f3f3f3f →
      (∃ e, outputCount W = inputCount P * 2 ^ e) → FitsReader file →
      ∃ C, readZk file metaFile = .ok C ∧
        ∀ (F : Type) [CommRing F] (out v : ℕ → F), (∀ l ∈ W, RHolds out v l) →
          ∀ r, inputCount P * r < outputCount W → ∀ t i, .input t i ∈ P →
            value C (layer t) (r * size (layer t) + pos t) = out (base + (r * inputCount P + i)) := by
  obtain ⟨layer, pos, size, h⟩ := C51_sum_partial var P hP
  refine ⟨layer, pos, size, fun W file metaFile base h1 h2 hk h3 h4 h5 h6 => ?_⟩
  obtain ⟨C, c1, -, -, c4⟩ := h W file metaFile base h1 h2 h3 h4 h5 h6
  refine ⟨C, c1, fun F _ out v hR r hr t i hin => ?_⟩
  have hR' : ∀ l ∈ W, RHolds out v l.asRead := by
    intro l hl
    have := hR l hl
    cases l with
    | const t c =>
      obtain ⟨a, b⟩ := hk.1 _ _ hl
      simpa only [RStmt.asRead, readNumber_kept a b] using this
    | input t i x =>
      obtain ⟨a, b⟩ := hk.2 _ _ _ hl
      simpa only [RStmt.asRead, readNumber_kept a b] using this
    | output _ _ => exact this
    | pass _ _ _ => exact this
  obtain ⟨⟨w, hw⟩, a2⟩ := (c4 F out v hR').2 r hr
  have := hw _ hin
  rw [(a2 w hw _ hin t rfl).2.2]
  exact this

example : Kept bitsWiring := by
  constructor <;> simp [bitsWiring]
  omega

/-- values in the integers determine those in every ring -/
theorem value_cast {R : Type} [CommRing R] (C : Circuit) (l g : ℕ) : ((value C l g : ℤ) : R) = value C l g := by
  induction l generalizing g with
  | zero => unfold value inputValue; split <;> simp
  | succ l ih =>
    have hg : ∀ (x : Gate) (a : ℤ → ℤ) (b : ℤ → R), (∀ i, ((a i : ℤ) : R) = b i) →
        ((gateValue x a : ℤ) : R) = gateValue x b := by
      intro x a b hab
      unfold gateValue
      repeat' split
      all_goals simp [hab]
    exact hg _ _ _ (fun i => ih _)

/-- an input and its double -/
def bigProgram : List Stmt := [.input 0 0, .gate .add 1 0 0, .output 0 1]

/-- two blocks; the inputs are two of the powers of two that the generated Merkle tree begins with -/
def bigWiring : List RStmt :=
  [.const 0 (2 ^ 31), .const 1 (2 ^ 32), .pass 2 0 0, .pass 3 1 1, .output 2 2, .output 3 3]

/-- the circuit of `bigProgram` -/
def bigCircuit : Circuit := circuitWithMeta
  [[⟨3, 0, 2147483648, 0⟩, ⟨3, 1, 4294967296, 0⟩, ⟨3, 2, 0, 0⟩, ⟨3, 3, 0, 0⟩],
    [⟨10, 0, 0, 0⟩, ⟨2, 1, 0, 0⟩, ⟨10, 2, 1, 0⟩, ⟨2, 3, 0, 0⟩], [⟨10, 0, 0, 0⟩, ⟨2, 1, 0, 0⟩, ⟨10, 2, 2, 0⟩, ⟨2, 3, 0, 0⟩],
    [⟨0, 0, 0, 0⟩, ⟨2, 1, 0, 0⟩, ⟨0, 2, 2, 2⟩, ⟨2, 3, 2, 2⟩]]
  [⟨0, 0, 0, 0, 0⟩, ⟨0, 2, 2, 1, 1⟩, ⟨1, 2, 2, 1, 1⟩, ⟨1, 2, 2, 1, 1⟩]

/-- C64 is false of the code: no gate of the circuit compiled from `bigProgram` and `bigWiring` has the value of an input of the
program in the first or second block. -/
theorem C64_false : ∃ file metaFile C, compile .root bigProgram bigWiring = .ok (file, metaFile) ∧
    readZk file metaFile = .ok C ∧ ∃ out v : ℕ → Fp, (∀ l ∈ bigWiring, RHolds out v l) ∧
      ∀ l g, value C l g ≠ out 2 ∧ value C l g ≠ out 3 := by
  refine ⟨[4, 4, 3, 0, 2147483648, 0, 3, 1, 4294967296, 0, 3, 2, 0, 0, 3, 3, 0, 0, 4, 10, 0, 0, 0, 2, 1, 0, 0, 10, 2, 1, 0, 2,
    3, 0, 0, 4, 10, 0, 0, 0, 2, 1, 0, 0, 10, 2, 2, 0, 2, 3, 0, 0, 4, 0, 0, 0, 0, 2, 1, 0, 0, 0, 2, 2, 2, 2, 3, 2, 2],
    [0, 0, 0, 0, 0, 0, 2, 2, 1, 1, 1, 2, 2, 1, 1, 1, 2, 2, 1, 1], bigCircuit, by decide +kernel, by decide +kernel,
    fun o => if o = 2 then ((2 ^ 31 : ℤ) : Fp) else ((2 ^ 32 : ℤ) : Fp),
    fun t => if t = 0 ∨ t = 2 then ((2 ^ 31 : ℤ) : Fp) else ((2 ^ 32 : ℤ) : Fp), ?_, fun l g => ?_⟩
  · intro l hl
    simp only [bigWiring, List.mem_cons, List.not_mem_nil, or_false] at hl
    rcases hl with rfl | rfl | rfl | rfl | rfl | rfl <;> simp [RHolds]
  · have key : ∀ x : ℤ, 0 < x → x < 2 ^ 33 → value bigCircuit l g ≠ (x : Fp) := by
      intro x h0 h1
      have hp : (2 : ℤ) ^ 67 < p := by decide
      have hv : value bigCircuit l g = ((0 : ℤ) : Fp) ∨ value bigCircuit l g = ((2 ^ 64 - 2 ^ 31 : ℤ) : Fp) ∨
          value bigCircuit l g = ((2 ^ 65 - 2 ^ 32 : ℤ) : Fp) := by
        have hi : (value bigCircuit l g : ℤ) = 0 ∨ (value bigCircuit l g : ℤ) = 2 ^ 64 - 2 ^ 31 ∨
            (value bigCircuit l g : ℤ) = 2 ^ 65 - 2 ^ 32 := by
          by_contra hc
          exact value_ne_of_check (C := bigCircuit) (x := value bigCircuit l g) (by tauto) (by
            have hall : ∀ l < bigCircuit.depth, ∀ g < (bigCircuit.layer l).gates.length,
                (value bigCircuit l g : ℤ) = 0 ∨ (value bigCircuit l g : ℤ) = 2 ^ 64 - 2 ^ 31 ∨
                  (value bigCircuit l g : ℤ) = 2 ^ 65 - 2 ^ 32 := by decide +kernel
            intro l' hl' g' hg' e
            rw [← e] at hc
            exact hc (hall l' hl' g' hg')) l g rfl
        rw [← value_cast]
        exact hi.imp (congrArg _) (Or.imp (congrArg _) (congrArg _))
      rcases hv with e | e | e <;> rw [e] <;> intro h <;>
        · have := Fp.intCast_inj h (by rw [abs_lt]; constructor <;> omega)
          omega
    exact ⟨key _ (by norm_num) (by norm_num), key _ (by norm_num) (by norm_num)⟩

end Libra.Props
