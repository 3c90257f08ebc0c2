import Verif.Proofs.Gen
import Verif.Props.TradPrograms
import Verif.Props.Matmul
import Verif.Props.Inputs

/-!
# C78-C81: one file for both families of programs; the generator of test circuits
-/

namespace Libra.Props
open Libra Spec Finset Reader TradReader Gen FastTrack

variable {F : Type} [CommRing F]

theorem sameLayers_refl (C : Circuit) : SameLayers C C := ⟨rfl, fun _ => rfl, fun _ => rfl⟩

/-! ## C78: what a file means does not depend on the program -/

/-- For every file for the traditional protocols, the reader of the linear-time protocol and the
reader of the traditional protocols both succeed, and line `g` of layer `i` has the same value in both
circuits. -/
theorem C78_same_values (f : File) (rest : List ℤ) (hf : AddMultFile f) (hd : f.length + 1 < 1000000) :
    ∃ C C', readPlain (tokens f ++ rest) = .ok C ∧ readTrad (tokens f ++ rest) = .ok C' ∧
      C.depth = f.length + 1 ∧ C'.depth = f.length ∧ WellFormed false C ∧
      ∀ i (h : i < f.length), ∀ g < f[i].length, (value C (i + 1) g : F) = value C' i g := by
  have hg := addMult_good (zk := false) hf hd
  have hin : Inputs (f.headD []) := fun l hl => by
    rcases hg.inputs l hl with a | ⟨a, -⟩
    · exact Or.inr a
    · exact Or.inl a
  have hs := sameLayers_refl (circuitOf false f)
  refine ⟨_, _, readPlain_ok f rest hg.readable ((FileOk_iff false f).2 ⟨hg.numbered, hin, by simp⟩),
    readTrad_ok f rest hf.readable hf.numbered, circuitOf_depth false hg.readable.1, tradCircuitOf_depth f,
    goodFile_wf hg hs, fun i h g hlt => value_eq hf hs i h g (lt_of_lt_of_le hlt ?_)⟩
  unfold positions
  split_ifs <;> omega

/-- the wires of a file of the traditional protocols exist -/
theorem addMult_fileOk {f : File} (hf : AddMultFile f) (hw : DummyWires f)
    (h0 : ∀ l ∈ f.headD [], l.ty = 2 → l.v = 0) : FileOk true f := by
  have hin : Inputs (f.headD []) := fun l hl => by
    rcases hf.inputs l hl with a | ⟨a, -⟩
    · exact Or.inr a
    · exact Or.inl a
  refine (FileOk_iff true f).2 ⟨hf.numbered, hin, fun _ => ?_⟩
  intro i h l hl
  cases i with
  | zero =>
    have hl' : l ∈ f.headD [] := by
      cases f with
      | nil => simp at h
      | cons L f => simpa using hl
    rcases hf.inputs l hl' with a | ⟨a, b⟩
    · simp [WiresOk, a]
    · have c := h0 l hl' a
      simp [WiresOk, a, b, c, Wire]
  | succ i =>
    have e : (f[i]?.getD []) = f[i] := by simp [show i < f.length by omega]
    dsimp only
    rw [e]
    rcases hf.gates i h l hl with ⟨a, hu, hv⟩ | a
    · rcases a with a | a <;> simp [WiresOk, a, hu, hv]
    · obtain ⟨hu, hv⟩ := hw i h l hl a
      simp [WiresOk, a, hu, hv]

/-- The same for the reader of the zero-knowledge version, with any well-formed meta file. -/
theorem C78_same_values_zk (f : File) (ms : List MetaLine) (rest rest' : List ℤ) (hf : AddMultFile f)
    (hw : DummyWires f) (h0 : ∀ l ∈ f.headD [], l.ty = 2 → l.v = 0) (hd : f.length + 1 < 1000000)
    (hm : ∀ m ∈ ms, m.Ok) (hl : ms.length = f.length) :
    ∃ C C', readZk (tokens f ++ rest) (ms.flatMap MetaLine.tokens ++ rest') = .ok C ∧
      readTrad (tokens f ++ rest) = .ok C' ∧ WellFormed true C ∧
      ∀ i (h : i < f.length), ∀ g < f[i].length, (value C (i + 1) g : F) = value C' i g := by
  have hg := addMult_good (zk := true) hf hd
  have hs := withMeta_same (f := f) (ms := ms) hl
  refine ⟨_, _, readZk_ok f ms rest rest' hg.readable
    (addMult_fileOk hf hw h0) hm hl,
    readTrad_ok f rest hf.readable hf.numbered,
    goodFile_wf hg hs, fun i h g hlt => value_eq hf hs i h g (lt_of_lt_of_le hlt ?_)⟩
  unfold positions
  split_ifs <;> omega

/-- the file of C75: the output `(5 + 7) * (7 * 5)` in all three -/
example : ∃ C C', readPlain (tokens tradFile ++ []) = .ok C ∧ readTrad (tokens tradFile ++ []) = .ok C' ∧
    (value C 3 0 : ℤ) = value C' 2 0 := by
  obtain ⟨C, C', h1, h2, -, -, -, h⟩ := C78_same_values (F := ℤ) tradFile [] tradFile_good (by decide)
  exact ⟨C, C', h1, h2, h 2 (by decide) 0 (by decide)⟩

example : ∃ C C', readZk (tokens tradFile ++ []) ([⟨0, 0, 0, 0, 0⟩, ⟨0, 0, 0, 0, 0⟩,
      (⟨1, 1, 1, 0, 0⟩ : MetaLine)].flatMap MetaLine.tokens ++ []) = .ok C ∧
    readTrad (tokens tradFile ++ []) = .ok C' ∧ (value C 3 0 : ℤ) = value C' 2 0 := by
  obtain ⟨C, C', h1, h2, -, h⟩ := C78_same_values_zk (F := ℤ) tradFile
    [⟨0, 0, 0, 0, 0⟩, ⟨0, 0, 0, 0, 0⟩, ⟨1, 1, 1, 0, 0⟩] [] [] tradFile_good tradFile_wires
    (by decide) (by decide) (by
      intro m hm
      simp only [List.mem_cons, List.not_mem_nil, or_false] at hm
      rcases hm with rfl | rfl | rfl
      · exact ⟨by decide, fun h => absurd rfl h⟩
      · exact ⟨by decide, fun h => absurd rfl h⟩
      · exact ⟨by decide, fun _ => by decide⟩) rfl
  exact ⟨C, C', h1, h2, h 2 (by decide) 0 (by decide)⟩

/-! ## C79: the matrix circuits of mode 2 -/

theorem entries_dec {n : ℕ} {M : ℕ → ℕ → ℤ} (h : Entries n M) : ∀ i < n, ∀ j < n, dec (M i j) ≤ 10 :=
  fun i hi j hj => le_trans (dec_int (k := 0) (h i hi j hj).1 (by simpa using (h i hi j hj).2)) (by norm_num)

theorem entries_nonneg {n : ℕ} {M : ℕ → ℕ → ℤ} (h : Entries n M) : ∀ i < n, ∀ j < n, 0 ≤ M i j :=
  fun i hi j hj => (h i hi j hj).1

/-- For every size `2^lg` up to 256 and all matrices, the circuit file written in mode 2 is read by both
readers, and the outputs of the circuit are the entries of the product of the two matrices. -/
theorem C79_matrix_product (n lg : ℕ) (hk : n = 2 ^ lg) (hlg : lg ≤ 8) (A B : ℕ → ℕ → ℤ) (hA : Entries n A)
    (hB : Entries n B) : ∃ file metaFile C C', mode2 n A B = .ok (file, metaFile) ∧
      readPlain file = .ok C ∧ readTrad file = .ok C' ∧ C.depth = lg + 3 ∧ C'.depth = lg + 2 ∧
      ∀ i < n, ∀ j < n, (value C (lg + 2) (i * n + j) : F) = product n A B i j ∧
        (value C' (lg + 1) (i * n + j) : F) = product n A B i j := by
  obtain ⟨len, r, -, -, e⟩ := mode2_eq hk hlg (entries_dec hA) (entries_dec hB)
  obtain ⟨hf, -⟩ := file2_good hk hlg hA hB
  have hlen : (file2 n lg A B).length = lg + 2 := by simp [file2]
  obtain ⟨C, C', h1, h2, h3, h4, -, h5⟩ := C78_same_values (F := F) (file2 n lg A B) [] hf (by omega)
  rw [List.append_nil] at h1 h2
  have hC' : C' = tradCircuitOf (file2 n lg A B) := by
    have := readTrad_ok (file2 n lg A B) [] hf.readable hf.numbered
    rw [List.append_nil, h2] at this
    exact Outcome.ok.inj this
  refine ⟨_, _, C, C', e, h1, h2, by omega, by omega, fun i hi j hj => ?_⟩
  have hout := file2_output (F := F) hk (entries_nonneg hA) (entries_nonneg hB) i j hi hj
  rw [← hC'] at hout
  have hij : i * n + j < n * n := by
    calc i * n + j < i * n + n := by omega
      _ = (i + 1) * n := by ring
      _ ≤ n * n := Nat.mul_le_mul_right _ hi
  refine ⟨?_, hout⟩
  rw [h5 (lg + 1) (by omega) (i * n + j) ?_, hout, product]
  simp only [file2_grid, grid_get, List.length_map, List.length_range]
  rw [size2_pow hk _ (by omega), show 3 * lg + 1 - (lg + 1) = lg + lg by omega, pow_add, ← hk]
  exact hij

/-- All three programs accept honest proofs of the circuit, whatever the random values: the
linear-time one, `bclogc` and (for `2^l` copies, `l ≥ 1`) `bc_clogc`. -/
theorem C79_accepted (n lg : ℕ) (hk : n = 2 ^ lg) (hlg : lg ≤ 8) (A B : ℕ → ℕ → ℤ) (hA : Entries n A)
    (hB : Entries n B) : ∃ file metaFile C, mode2 n A B = .ok (file, metaFile) ∧ readPlain file = .ok C ∧
      (∀ (junk : FastTrack.Prover Fp) tables ch, FastTrack.verify C (FastTrack.honest C junk) tables ch = .ok ()) ∧
      (∀ (copies : ℕ) (junk : ℕ → Cmt.Prover Fp) (tables : ℕ → BetaTables Fp) (ch : ℕ → Challenges Fp),
        bclogc file copies junk tables ch = .ok true) ∧
      (∀ (copies l : ℕ), 1 ≤ l → 2 ^ l ≤ copies → 3 * lg + 1 + l ≤ 30 →
        ∀ (junk : Blocked.Prover Fp) (tables : BetaTables Fp) (ch : Blocked.BlockChallenges Fp),
        bcClogc file copies l junk tables ch = .ok true) := by
  obtain ⟨len, r, -, -, e⟩ := mode2_eq hk hlg (entries_dec hA) (entries_dec hB)
  obtain ⟨hf, hw⟩ := file2_good hk hlg hA hB
  have hlen : (file2 n lg A B).length = lg + 2 := by simp [file2]
  obtain ⟨C, h1, h2⟩ := C19_from_file (F := Fp) (file2 n lg A B) [] (addMult_good hf (by omega))
  have e0 := List.append_nil (tokens (file2 n lg A B))
  refine ⟨_, _, C, e, by rw [← e0]; exact h1, h2, fun copies junk tables ch => ?_,
    fun copies l hl hc hs junk tables ch => ?_⟩
  · rw [← e0]
    exact C77_pass _ [] hf (by omega) copies junk tables ch
  · rw [← e0]
    refine C76_pass _ [] hf hw copies l hl hc (fun L hL => ?_) junk tables ch
    rw [file2_grid] at hL
    obtain ⟨i, hi, rfl⟩ := grid_mem hL
    rw [List.length_map, List.length_range, size2_pow hk i hi, width, Nat.clog_pow _ _ (by norm_num)]
    omega

/-- The largest size is 256: beyond, the program adds to an `int` that overflows. -/
theorem C79_limit (n lg : ℕ) (hk : n = 2 ^ lg) (A B : ℕ → ℕ → ℤ) (hA : Entries n A) (hB : Entries n B) :
    (∃ out, mode2 n A B = .ok out) ↔ n ≤ 256 := by
  constructor
  · rintro ⟨out, h⟩
    by_contra hn
    have : 9 ≤ lg := by
      by_contra hc
      have : n ≤ 2 ^ 8 := by rw [hk]; exact Nat.pow_le_pow_right (by norm_num) (by omega)
      omega
    rw [mode2_large hk this (entries_dec hA) (entries_dec hB)] at h
    cases h
  · intro hn
    have : lg ≤ 8 := by
      by_contra hc
      have : 2 ^ 9 ≤ n := by rw [hk]; exact Nat.pow_le_pow_right (by norm_num) (by omega)
      omega
    obtain ⟨len, r, -, -, e⟩ := mode2_eq hk this (entries_dec hA) (entries_dec hB)
    exact ⟨_, e⟩

/-- other sizes stop the program -/
theorem C79_not_power (n : ℕ) (A B : ℕ → ℕ → ℤ) (hn : ∀ k, n ≠ 2 ^ k) : mode2 n A B = .assertFail := by
  have : Matmul.popcount n ≠ 1 := fun h => by
    obtain ⟨k, hk⟩ := Matmul.popcount_eq_one h
    exact hn k hk
  rw [mode2, Outcome.assert, if_neg (by simpa using this)]
  rfl

/-- `[[1, 2], [3, 4]]` times `[[1, 4], [2, 5]]` starts with 5, and so does the circuit's output -/
example : ∃ file metaFile C, mode2 2 (fun i j => 2 * i + j + 1) (fun i j => i + 3 * j + 1) =
      .ok (file, metaFile) ∧ readPlain file = .ok C ∧ (value C 3 0 : ℤ) = 5 := by
  obtain ⟨f, m, C, C', h1, h2, -, -, -, h3⟩ := C79_matrix_product (F := ℤ) 2 1 rfl (by norm_num)
    (fun i j => 2 * i + j + 1) (fun i j => i + 3 * j + 1)
    (fun i hi j hj => by dsimp only; omega) (fun i hi j hj => by dsimp only; omega)
  exact ⟨f, m, C, h1, h2, ((h3 0 (by norm_num) 0 (by norm_num)).1).trans (by decide)⟩

/-! ## C80: the circuits of modes 0 and 1 -/

/-- the values `rand()` returns -/
def Rand (w : ℕ) (rand : ℕ → ℤ) : Prop := ∀ j < 2 ^ w, 0 ≤ rand j ∧ rand j < 2 ^ 31

/-- Mode 1 with `d ≥ 2` layers and `2^w` inputs: both readers read the file; with the inputs `x`, output `j`
is `(2^(d-2) x (2j)) * (2^(d-2) x (2j+1))`. -/
theorem C80_doubling (d w : ℕ) (hd : 2 ≤ d) (hd' : d + 1 < 1000000) (hw : 6 ≤ w) (hw' : w ≤ 26) (rand : ℕ → ℤ)
    (hr : Rand w rand) : ∃ file metaFile C C', mode1 d w rand = .ok (file, metaFile) ∧
      readPlain file = .ok C ∧ readTrad file = .ok C' ∧ C.depth = d + 1 ∧ C'.depth = d ∧
      ∀ j < 2 ^ (w - 1),
        (value C d j : F) = 2 ^ (d - 2) * (rand (j * 2) : F) * (2 ^ (d - 2) * (rand (j * 2 + 1) : F)) ∧
        (value C' (d - 1) j : F) = 2 ^ (d - 2) * (rand (j * 2) : F) * (2 ^ (d - 2) * (rand (j * 2 + 1) : F)) := by
  obtain ⟨len, r, -, -, e⟩ := mode1_eq hd hw hw' (rand := rand) (fun j hj =>
    dec_int (k := 9) (hr j hj).1 (lt_trans (hr j hj).2 (by norm_num)))
  obtain ⟨hf, -⟩ := file1_good hd (by omega) (by omega) (by omega) hr
  have hlen : (file1 d w rand).length = d := by rw [file1_grid hd, grid_length]
  obtain ⟨C, C', h1, h2, h3, h4, -, h5⟩ := C78_same_values (F := F) (file1 d w rand) [] hf (by omega)
  rw [List.append_nil] at h1 h2
  have hC' : C' = tradCircuitOf (file1 d w rand) := by
    have := readTrad_ok (file1 d w rand) [] hf.readable hf.numbered
    rw [List.append_nil, h2] at this
    exact Outcome.ok.inj this
  refine ⟨_, _, C, C', e, h1, h2, by omega, by omega, fun j hj => ?_⟩
  have hout := file1_output (F := F) hd (by omega : 1 ≤ w) (fun j hj => (hr j hj).1) j hj
  rw [← hC'] at hout
  refine ⟨?_, hout⟩
  have := h5 (d - 1) (by omega) j (by
    simp only [file1_grid hd, grid_get, List.length_map, List.length_range]
    rw [size01, if_neg (by omega)]; exact hj)
  rw [show d - 1 + 1 = d by omega] at this
  rw [this, hout]

/-- a circuit of the smallest width, 64 -/
example : ∃ file metaFile C, mode1 3 6 (fun j => j) = .ok (file, metaFile) ∧ readPlain file = .ok C ∧
    (value C 3 5 : ℤ) = 20 * 22 := by
  obtain ⟨f, m, C, C', h1, h2, -, -, -, h3⟩ := C80_doubling (F := ℤ) 3 6 (by norm_num) (by norm_num)
    (by norm_num) (by norm_num) (fun j => j) (fun j hj => ⟨by positivity, by
      have : (j : ℤ) < 64 := by exact_mod_cast hj
      dsimp only; omega⟩)
  exact ⟨f, m, C, h1, h2, ((h3 5 (by norm_num)).1).trans (by norm_num)⟩

/-- In mode 1 fewer than 64 inputs stop the program. -/
theorem C80_narrow (d w : ℕ) (hw : w ≤ 5) (rand : ℕ → ℤ) : mode1 d w rand = .assertFail := by
  rw [mode1, Outcome.assert, if_neg (by simpa using (by omega : ¬ 5 < w))]
  rfl

/-- Mode 0 shifts by the width and by one less: it is defined for the widths from 1 to 30 and no others. -/
theorem C80_width (d w : ℕ) (rand : ℕ → ℤ) : mode0 d w rand = .undefined ↔ w = 0 ∨ 31 ≤ w := by
  unfold mode0
  by_cases h : w = 0 ∨ 31 ≤ w
  · rw [if_pos h]; simp [h]
  · rw [if_neg h]; simp [h]

/-- Mode 0 with `d ≥ 2` layers and `2^w` inputs `x`: every middle layer combines each value with that of gate 0
by exclusive or, the last layer keeps the values at even positions. In terms of the signs `1 - 2 v`,
output `j` is `(1 - 2 x (2j)) * (1 - 2 x 0) ^ (2^(d-2) - 1)`. The honest proof is accepted. -/
theorem C80_xor (d w : ℕ) (hd : 2 ≤ d) (hd' : d + 1 < 1000000) (hw : 1 ≤ w) (hw' : w ≤ 30) (rand : ℕ → ℤ)
    (hr : Rand w rand) : ∃ file C, mode0 d w rand = .ok file ∧ readPlain file = .ok C ∧ C.depth = d + 1 ∧
      (∀ (junk : FastTrack.Prover Fp) tables ch, FastTrack.verify C (FastTrack.honest C junk) tables ch = .ok ()) ∧
      ∀ j < 2 ^ (w - 1), (1 - 2 * value C d j : F) =
        (1 - 2 * (rand (j * 2) : F)) * (1 - 2 * (rand 0 : F)) ^ (2 ^ (d - 2) - 1) := by
  have hg := file0_good hd hd' hw hw' hr
  have hin : Inputs ((file0 d w rand).headD []) := fun l hl => by
    rcases hg.inputs l hl with a | ⟨a, -⟩
    · exact Or.inr a
    · exact Or.inl a
  have hread := readPlain_ok (file0 d w rand) [] hg.readable
    ((FileOk_iff false _).2 ⟨hg.numbered, hin, by simp⟩)
  rw [List.append_nil] at hread
  have hdesc := describes_of_same hg.readable.1 (sameLayers_refl (circuitOf false (file0 d w rand)))
  have hlen : (file0 d w rand).length = d := by rw [file0_grid hd, grid_length]
  refine ⟨_, _, mode0_eq hd hw hw' rand, hread, by rw [hdesc.depth, hlen],
    fun junk tables ch => C19_complete _ (goodFile_wf hg (sameLayers_refl _)) junk tables ch, ?_⟩
  have hpow : 2 ^ (w - 1) * 2 = 2 ^ w := by rw [← pow_succ, Nat.sub_add_cancel hw]
  have h30 : 2 ^ w ≤ 2 ^ 30 := Nat.pow_le_pow_right (by norm_num) hw'
  have hh : (file0 d w rand).headD [] = (List.range (2 ^ w)).map (fun j : ℕ => ⟨3, j, rand j, 0⟩) := rfl
  have hgate : ∀ i, i + 1 < d → ∀ g < size01 d w (i + 1), (circuitOf false (file0 d w rand)).gate (i + 2) g =
      gateOf false (line0 d rand (i + 1) g) := by
    intro i hi g hlt
    have := hdesc.gates i (by omega) g (by
      simp only [file0_grid hd, grid_get, List.length_map, List.length_range]; exact hlt)
    rw [Circuit.gate, Layer.gate, this]
    simp only [file0_grid hd, grid_get, List.getElem_map, List.getElem_range]
    rfl
  have hmid : ∀ i, i + 1 < d → ∀ g < 2 ^ w, (1 - 2 * value (circuitOf false (file0 d w rand)) (i + 1) g : F) =
      (1 - 2 * (rand g : F)) * (1 - 2 * (rand 0 : F)) ^ (2 ^ i - 1) := by
    intro i
    induction i with
    | zero =>
      intro hi g hlt
      have hl : g < ((file0 d w rand).headD []).length := by rw [hh]; simpa using hlt
      have e1 : (circuitOf false (file0 d w rand)).gate 1 g = ⟨4, (g : ℤ), 0⟩ := by
        rw [Circuit.gate, Layer.gate, hdesc.relay g hl]; rfl
      have e0 : (circuitOf false (file0 d w rand)).gate 0 g = ⟨3, rand g, 0⟩ := by
        rw [Circuit.gate, Layer.gate, hdesc.inputs g hl]
        simp only [hh, List.getElem_map, List.getElem_range, Option.getD_some]
        rw [gateOf]
        dsimp only
        obtain ⟨x0, x1⟩ := hr g hlt
        rw [Reader.int32_id ⟨by omega, x1⟩]
        simp [int32]
      have : (value (circuitOf false (file0 d w rand)) (0 + 1) g : F) = (rand g : F) := by
        rw [value, e1, gateValue]
        simp [value, e0, inputValue, inputNumber_eq (hr g hlt).1]
      rw [this]
      simp
    | succ i ih =>
      intro hi g hlt
      have e : (circuitOf false (file0 d w rand)).gate (i + 2) g = ⟨8, (g : ℕ), 0⟩ := by
        rw [hgate i (by omega) g (by rw [size01, if_pos hi]; exact hlt), line0, if_neg (by omega), if_pos hi, gateOf]
        dsimp only
        rw [Reader.int32_id ⟨by omega, by omega⟩]
        simp [int32]
      have h1 := ih (by omega) g hlt
      have h2 := ih (by omega) 0 (by positivity)
      have hv : (value (circuitOf false (file0 d w rand)) (i + 1 + 1) g : F) =
          value (circuitOf false (file0 d w rand)) (i + 1) g + value (circuitOf false (file0 d w rand)) (i + 1) 0 -
          2 * value (circuitOf false (file0 d w rand)) (i + 1) g * value (circuitOf false (file0 d w rand)) (i + 1) 0 := by
        rw [value, e, gateValue]
        simp
      rw [hv, show ∀ a b : F, 1 - 2 * (a + b - 2 * a * b) = (1 - 2 * a) * (1 - 2 * b) by intros; ring, h1, h2]
      have h3 : 2 ^ (i + 1) - 1 = (2 ^ i - 1) + 1 + (2 ^ i - 1) := by
        have : 1 ≤ 2 ^ i := Nat.one_le_two_pow
        rw [pow_succ]; omega
      rw [h3, pow_add, pow_add]
      ring
  intro j hj
  obtain ⟨e, rfl⟩ : ∃ e, d = e + 2 := ⟨d - 2, by omega⟩
  have hlast : (circuitOf false (file0 (e + 2) w rand)).gate (e + 2) j = ⟨10, (j * 2 : ℕ), 0⟩ := by
    rw [hgate e (by omega) j (by rw [size01, if_neg (by omega)]; exact hj), line0, if_neg (by omega),
      if_neg (by omega), gateOf]
    dsimp only
    rw [Reader.int32_id ⟨by omega, by omega⟩]
    simp [int32]
  have hv : (value (circuitOf false (file0 (e + 2) w rand)) (e + 2) j : F) =
      value (circuitOf false (file0 (e + 2) w rand)) (e + 1) (j * 2) := by
    rw [value, hlast, gateValue]
    simp only [Int.toNat_natCast]
    norm_num
  rw [hv, show e + 2 - 2 = e by omega]
  exact hmid e (by omega) (j * 2) (by omega)

/-- three layers, the inputs 1, 0, 1, 1: the outputs are 1 xor 1 and 1 xor 1 -/
example : ∃ file C, mode0 3 2 (fun j => if j = 1 then 0 else 1) = .ok file ∧ readPlain file = .ok C ∧
    (1 - 2 * value C 3 1 : ℤ) = 1 := by
  obtain ⟨f, C, h1, h2, -, -, h3⟩ := C80_xor (F := ℤ) 3 2 (by norm_num) (by norm_num) (by norm_num)
    (by norm_num) (fun j => if j = 1 then 0 else 1) (fun j _ => by dsimp only; split_ifs <;> norm_num)
  exact ⟨f, C, h1, h2, (h3 1 (by norm_num)).trans (by decide)⟩

/-! ## C81: the meta files, and mode 5 -/

theorem loopM_undefined {σ : Type} {n : ℕ} (hn : 0 < n) {b : ℕ → σ → Outcome σ} {s : σ} (h : b 0 s = .undefined) :
    loopM n b s = .undefined := by
  induction n with
  | zero => omega
  | succ n ih =>
    rw [loopM_succ]
    rcases Nat.eq_zero_or_pos n with rfl | hn
    · exact h
    · rw [ih hn]; rfl

/-- a meta file whose first line marks a layer as parallel, with a fifth number above 30 -/
theorem readZk_bad_meta {f : File} {rest metaRest : List ℤ} (hr : Readable f) (hl : FileOk true f) {a b c d e : ℤ}
    (h : ∀ x ∈ [a, b, c, d, e], -2 ^ 31 ≤ x ∧ x < 2 ^ 31) (ha : a ≠ 0) (he : 31 ≤ e) :
    readZk (tokens f ++ rest) ([a, b, c, d, e] ++ metaRest) = .undefined := by
  unfold readZk
  rw [readLayers_ok .zk f rest hr hl, Outcome.ok_bind]
  dsimp only
  rw [loopM_undefined (by simpa using List.length_pos_iff.2 hr.1)]
  · rfl
  unfold readMeta
  simp only [List.cons_append, List.nil_append]
  rw [readD_cons (h _ (by simp)), Outcome.ok_bind]
  dsimp only
  rw [readD_cons (h _ (by simp)), Outcome.ok_bind]
  dsimp only
  rw [readD_cons (h _ (by simp)), Outcome.ok_bind]
  dsimp only
  rw [readD_cons (h _ (by simp)), Outcome.ok_bind]
  dsimp only
  rw [readD_cons (h _ (by simp)), Outcome.ok_bind]
  dsimp only
  rw [checkPara, if_pos ha, if_pos (.inr he)]
  rfl

/-- no circuit file goes with such a meta file -/
theorem readZk_bad_meta' {file metaRest : List ℤ} {a b c d e : ℤ} (ha : a ≠ 0) (he : 31 ≤ e) (C : Circuit) :
    readZk file ([a, b, c, d, e] ++ metaRest) ≠ .ok C := by
  intro h
  obtain ⟨f, ms, rest, rest', -, h2, h3, -, h5, h6, -⟩ := readZk_inv h
  cases ms with
  | nil =>
    have := List.length_pos_iff.2 h3.1
    simp at h5
    omega
  | cons m ms =>
    have hm := (h6 m (by simp)).2
    rw [List.flatMap_cons, MetaLine.tokens] at h2
    simp only [List.cons_append, List.cons.injEq] at h2
    obtain ⟨rfl, -, -, -, rfl, -⟩ := h2
    have := (hm ha).2.1
    omega

theorem file2_head {n lg : ℕ} {A B : ℕ → ℕ → ℤ} : ∀ l ∈ (file2 n lg A B).headD [], l.ty = 2 → l.v = 0 := by
  intro l hl
  simp only [file2, List.headD_cons, List.mem_map] at hl
  obtain ⟨g, -, rfl⟩ := hl
  intro h
  rw [entryLine] at h
  split_ifs at h <;> simp at h

/-- Mode 2 also writes a meta file. The zero-knowledge version cannot read it, for any size: with the
circuit file written along with it the shift `1 << log_repeat_num` is undefined, and no circuit
file is accepted with it. -/
theorem C81_matrix_false (n lg : ℕ) (hk : n = 2 ^ lg) (hlg : lg ≤ 8) (A B : ℕ → ℕ → ℤ) (hA : Entries n A)
    (hB : Entries n B) : ∃ file metaFile, mode2 n A B = .ok (file, metaFile) ∧
      readZk file metaFile = .undefined ∧ ∀ file' C, readZk file' metaFile ≠ .ok C := by
  obtain ⟨len, r, hlen, hlen', e⟩ := mode2_eq hk hlg (entries_dec hA) (entries_dec hB)
  obtain ⟨hf, hw⟩ := file2_good hk hlg hA hB
  have hpos : 0 < n := by rw [hk]; positivity
  have hn : n ≤ 2 ^ 8 := by rw [hk]; exact Nat.pow_le_pow_right (by norm_num) hlg
  obtain ⟨hn2, hn3⟩ := cube_le hn
  have hl2 : (file2 n lg A B).length = lg + 2 := by simp [file2]
  have e0 := List.append_nil (tokens (file2 n lg A B))
  refine ⟨_, _, e, ?_, fun file' C => readZk_bad_meta' (by positivity) (by omega) C⟩
  rw [← e0]
  refine readZk_bad_meta (addMult_good (zk := true) hf (by omega)).readable (addMult_fileOk hf hw file2_head) ?_
    (by positivity) (by omega)
  intro x hx
  simp only [List.mem_cons, List.not_mem_nil, or_false] at hx
  rcases hx with rfl | rfl | rfl | rfl | rfl <;> omega

/-- The circuit file of mode 2 alone is fine: with a meta file that announces no repetition, the
zero-knowledge version reads it, and the outputs are the entries of the product. Missing from the full
claim: the meta file written along with it, see `C81_matrix_false`. -/
theorem C81_matrix_partial (n lg : ℕ) (hk : n = 2 ^ lg) (hlg : lg ≤ 8) (A B : ℕ → ℕ → ℤ) (hA : Entries n A)
    (hB : Entries n B) : ∃ file metaFile C, mode2 n A B = .ok (file, metaFile) ∧
      readZk file ((List.replicate (lg + 2) (⟨0, 0, 0, 0, 0⟩ : MetaLine)).flatMap MetaLine.tokens) = .ok C ∧
      WellFormed true C ∧ ∀ i < n, ∀ j < n, (value C (lg + 2) (i * n + j) : F) = product n A B i j := by
  obtain ⟨len, r, hlen, hlen', e⟩ := mode2_eq hk hlg (entries_dec hA) (entries_dec hB)
  obtain ⟨hf, hw⟩ := file2_good hk hlg hA hB
  have hl2 : (file2 n lg A B).length = lg + 2 := by simp [file2]
  obtain ⟨C, C', h1, h2, h3, h4⟩ := C78_same_values_zk (F := F) (file2 n lg A B)
    (List.replicate (lg + 2) ⟨0, 0, 0, 0, 0⟩) [] [] hf hw file2_head (by omega) (by
      intro m hm
      obtain ⟨-, rfl⟩ := List.mem_replicate.1 hm
      exact ⟨by decide, fun h => absurd rfl h⟩) (by simp [hl2])
  rw [List.append_nil, List.append_nil] at h1
  rw [List.append_nil] at h2
  refine ⟨_, _, C, e, h1, h3, fun i hi j hj => ?_⟩
  have hC' : C' = tradCircuitOf (file2 n lg A B) := by
    have := readTrad_ok (file2 n lg A B) [] hf.readable hf.numbered
    rw [List.append_nil, h2] at this
    exact Outcome.ok.inj this
  have hout := file2_output (F := F) hk (entries_nonneg hA) (entries_nonneg hB) i j hi hj
  rw [← hC'] at hout
  rw [h4 (lg + 1) (by omega) (i * n + j) ?_, hout, product]
  simp only [file2_grid, grid_get, List.length_map, List.length_range]
  rw [size2_pow hk _ (by omega), show 3 * lg + 1 - (lg + 1) = lg + lg by omega, pow_add, ← hk]
  calc i * n + j < i * n + n := by omega
    _ = (i + 1) * n := by ring
    _ ≤ n * n := Nat.mul_le_mul_right _ hi

/-- two matrices that meet the hypotheses -/
example : Entries 4 (fun i j => i + j) ∧ Entries 4 (fun i j => 3 * j) := by
  constructor <;> intro i hi j hj <;> dsimp only <;> omega

/-- The same for mode 1. -/
theorem C81_doubling_false (d w : ℕ) (hd : 2 ≤ d) (hd' : d + 1 < 1000000) (hw : 6 ≤ w) (hw' : w ≤ 26)
    (rand : ℕ → ℤ) (hr : Rand w rand) : ∃ file metaFile, mode1 d w rand = .ok (file, metaFile) ∧
      readZk file metaFile = .undefined ∧ ∀ file' C, readZk file' metaFile ≠ .ok C := by
  obtain ⟨len, r, hlen, hlen', e⟩ := mode1_eq hd hw hw' (rand := rand) (fun j hj =>
    dec_int (k := 9) (hr j hj).1 (lt_trans (hr j hj).2 (by norm_num)))
  obtain ⟨hf, hdw⟩ := file1_good hd (by omega) (by omega) (by omega) hr
  have hl1 : (file1 d w rand).length = d := by rw [file1_grid hd, grid_length]
  have hp : 2 ^ (w - 5) ≤ 2 ^ 21 := Nat.pow_le_pow_right (by norm_num) (by omega)
  have h0 : ∀ l ∈ (file1 d w rand).headD [], l.ty = 2 → l.v = 0 := by
    intro l hl
    simp only [file1, List.headD_cons, List.mem_map] at hl
    obtain ⟨g, -, rfl⟩ := hl
    simp
  have e0 := List.append_nil (tokens (file1 d w rand))
  refine ⟨_, _, e, ?_, fun file' C => readZk_bad_meta' (by norm_num) (by omega) C⟩
  rw [← e0]
  refine readZk_bad_meta (addMult_good (zk := true) hf (by omega)).readable (addMult_fileOk hf hdw h0) ?_
    (by norm_num) (by omega)
  obtain ⟨q, hq⟩ : ∃ q, q = 2 ^ (w - 5) := ⟨_, rfl⟩
  rw [← hq] at hp ⊢
  intro x hx
  simp only [List.mem_cons, List.not_mem_nil, or_false] at hx
  rcases hx with rfl | rfl | rfl | rfl | rfl <;> omega

/-- Mode 5, the test of addition trees, with its two layers announced: the two sum gates have
empty ranges. So the outputs are 0 instead of the sum of the `2^w` ones, for every number of inputs, and
the reader of the zero-knowledge version does not accept the file. -/
theorem C81_sum_false (w : ℕ) (hw' : w ≤ 30) : ∃ file C, mode5 2 w = .ok file ∧
    readPlain file = .ok C ∧ (value C 2 0 : F) = 0 ∧ (value C 2 1 : F) = 0 ∧
    ∀ metaFile, readZk file metaFile = .exit ∨ readZk file metaFile = .assertFail := by
  have h30 : 2 ^ w ≤ 2 ^ 30 := Nat.pow_le_pow_right (by norm_num) hw'
  have h1 : 1 ≤ 2 ^ w := Nat.one_le_two_pow
  set f : File := [(List.range (2 ^ w)).map (fun j : ℕ => ⟨3, j, 1, 0⟩), [⟨5, 0, 0, 0⟩, ⟨5, 1, 0, 0⟩]] with hf
  have hfile : mode5 2 w = .ok (tokens f) := by
    rw [mode5, if_neg (by omega)]
    have h1 := writes_layer (n := 2 ^ w) (body := fun j => put 3 j 1 0)
      (fun j : ℕ => ⟨3, j, 1, 0⟩) (fun i _ o => rfl) ⟨[2], 0⟩
    dsimp only at h1 ⊢
    rw [Nat.cast_ofNat, h1, hf, tokens]
    simp [layerTokens, Line.tokens]
  have hr : Readable f := by
    refine ⟨by simp [hf], by simp [hf], fun L hL => ?_⟩
    simp only [hf, List.mem_cons, List.not_mem_nil, or_false] at hL
    rcases hL with rfl | rfl
    · refine ⟨by simp, by simp; omega, fun l hl => ?_⟩
      simp only [List.mem_map, List.mem_range] at hl
      obtain ⟨g, hg, rfl⟩ := hl
      refine ⟨?_, ?_, ?_, ?_⟩ <;> dsimp only <;> omega
    · refine ⟨by simp, by simp, fun l hl => ?_⟩
      simp only [List.mem_cons, List.not_mem_nil, or_false] at hl
      rcases hl with rfl | rfl <;> norm_num [Line.InRange]
  have hn : ∀ L ∈ f, Numbered L := by
    intro L hL
    simp only [hf, List.mem_cons, List.not_mem_nil, or_false] at hL
    rcases hL with rfl | rfl
    · intro j hj; simp
    · unfold Numbered; decide
  have hi : Inputs (f.headD []) := by
    intro l hl
    simp only [hf, List.headD_cons, List.mem_map] at hl
    obtain ⟨g, -, rfl⟩ := hl
    exact .inr rfl
  obtain ⟨C, hC, hdesc⟩ := C10_plain f [] hr hn hi
  rw [List.append_nil] at hC
  have hg : ∀ g < 2, C.gate 2 g = ⟨5, 0, 0⟩ := by
    intro g hg
    have := hdesc.gates 0 (by simp [hf]) g (by simpa [hf] using hg)
    rw [Circuit.gate, Layer.gate, this]
    obtain rfl | rfl : g = 0 ∨ g = 1 := by omega
    · rfl
    · rfl
  refine ⟨_, C, hfile, hC, ?_, ?_, fun metaFile => ?_⟩
  · rw [value, hg 0 (by norm_num), gateValue]; simp
  · rw [value, hg 1 (by norm_num), gateValue]; simp
  · rw [← List.append_nil (tokens f)]
    refine C11_rejected f [] metaFile hr (fun ⟨_, _, h⟩ => ?_)
    have := h 1 (by simp [hf]) ⟨5, 0, 0, 0⟩ (by simp [hf])
    rw [WiresOk, if_neg (by decide), if_pos rfl] at this
    exact absurd this.2.1 (by decide)

/-- eight ones, the output is 0 -/
example : ∃ file C, mode5 2 3 = .ok file ∧ readPlain file = .ok C ∧ (value C 2 0 : ℤ) ≠ 8 := by
  obtain ⟨f, C, h1, h2, h3, -⟩ := C81_sum_false (F := ℤ) 3 (by norm_num)
  exact ⟨f, C, h1, h2, by rw [h3]; norm_num⟩

end Libra.Props
