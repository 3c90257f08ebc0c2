import Verif.Proofs.LanczosDirectFile
import Verif.Props.Inputs
import Verif.Props.Lanczos
import Verif.Props.Zk

/-!
# C97, C98: the circuits written by `bin/gen_lanczos.py`
-/

namespace Libra.Props
open Libra Spec Reader Finset LanczosDirect

variable {G1 G2 GT : Type} [AddCommGroup G1] [AddCommGroup G2] [AddCommGroup GT]
  [Module (ZMod p) G1] [Module (ZMod p) G2] [Module (ZMod p) GT] [DecidableEq GT]

/-- a meta file for a circuit of four layers without repeated blocks -/
def plainMeta : List MetaLine := List.replicate 4 ⟨0, 0, 0, 0, 0⟩

theorem plainMeta_ok : ∀ m ∈ plainMeta, m.Ok := by
  intro m hm
  obtain rfl := List.eq_of_mem_replicate hm
  exact ⟨by decide, fun h => absurd rfl h⟩

/-- C97, the image has a power of two of windows in a row: the file written by the generator is read by both readers (with a meta file that
declares no repeated blocks), and the verifiers accept the honest provers. Missing from the full claim: other images, for which it is false
(`C97_false`). -/
theorem C97_accepted_partial (E : Pairing G1 G2 GT) (ratio n : ℕ) (hr : ratio ≠ 0) (hn : ∃ k, n = 2 ^ k) (hs : Fits ratio n)
    (coeffs : List ℤ) (hc : coeffs.length = 2 * ratio) (x : ℕ → ℤ) (hw : Words ratio n coeffs x) :
    ∃ file, LanczosDirect.generate ratio (ratio * (n + 3)) coeffs x = .ok file ∧
      (∃ C, readPlain file = .ok C ∧ WellFormed false C ∧ ∀ junk tables ch,
        FastTrack.verify (F := Fp) C (FastTrack.honest C junk) tables ch = .ok ()) ∧
      ∃ C, readZk file (plainMeta.flatMap MetaLine.tokens) = .ok C ∧ WellFormed true C ∧ ∀ coins : Zk.Coins Fp, Zk.CoinsOk C coins → ∀ junk tables ch,
        Zk.verify E C (Zk.honest E C coins junk) tables ch = .ok () := by
  obtain ⟨k, hk⟩ := hn
  have hn0 : n ≠ 0 := by rw [hk]; positivity
  have hg := file_good false hr hk hs hc hw
  have hg' := file_good true hr hk hs hc hw
  have hin : Inputs ((LanczosDirect.file ratio n coeffs x).headD []) := fun l hl => by
    rcases hg.inputs l hl with a | ⟨a, -⟩
    · exact Or.inr a
    · exact Or.inl a
  refine ⟨_, LanczosDirect.generate_eq hr hn0 hc x, ?_, ?_⟩
  · have hread := readPlain_ok _ [] hg.readable ((FileOk_iff false _).2 ⟨hg.numbered, hin, by simp⟩)
    rw [List.append_nil] at hread
    have hwf := goodFile_wf hg ⟨rfl, fun _ => rfl, fun _ => rfl⟩
    exact ⟨_, hread, hwf, fun junk tables ch => C19_complete _ hwf junk tables ch⟩
  · have hread := readZk_ok (LanczosDirect.file ratio n coeffs x) plainMeta [] [] hg'.readable
      ((FileOk_iff true _).2 ⟨hg'.numbered, hin, fun _ => file_wired hr hs hc hw⟩) plainMeta_ok rfl
    rw [List.append_nil, List.append_nil] at hread
    have hsame := withMeta_same (f := LanczosDirect.file ratio n coeffs x) (ms := plainMeta) rfl
    have hwf := goodFile_wf hg' hsame
    have hdesc := describes_of_same hg'.readable.1 hsame
    refine ⟨_, hread, hwf, fun coins hco junk tables ch => C23_zk_complete E _ hwf ?_ ?_ coins hco junk tables ch⟩
    · intro i h2 hi hp
      exfalso
      have hd := hdesc.depth
      rw [hd] at hi
      obtain rfl | rfl | rfl : i = 2 ∨ i = 3 ∨ i = 4 := by change i < 5 at hi; omega
      all_goals
        revert hp
        simp [circuitWithMeta, layersOf, LanczosDirect.file, plainMeta, List.replicate, Circuit.layer, withMeta]
    · intro i hi
      rw [hdesc.depth] at hi
      have hbl : ∀ j < 4, 1 ≤ (circuitWithMeta (LanczosDirect.file ratio n coeffs x) plainMeta).bl (j + 1) ∧
          (circuitWithMeta (LanczosDirect.file ratio n coeffs x) plainMeta).bl (j + 1) ≤ 30 := by
        intro j hj
        have h := hdesc.bitLength j hj
        exact ⟨h.1.1, h.2 ⟨by norm_num, (file_lengths hr hn0 hs _ (List.getElem_mem _)).2⟩⟩
      have : 1 ≤ (circuitWithMeta (LanczosDirect.file ratio n coeffs x) plainMeta).bl i ∧
          (circuitWithMeta (LanczosDirect.file ratio n coeffs x) plainMeta).bl i ≤ 30 := by
        cases i with
        | zero => rw [hdesc.inputLength]; exact hbl 0 (by omega)
        | succ j => exact hbl j (by change j + 1 + 1 < 5 at hi; omega)
      exact ⟨this.1, lt_of_le_of_lt this.2 (by norm_num)⟩

/-- C97 is false for all other images: the generator writes a file and the reader accepts it, but the evaluation reads gates that do not
exist. -/
theorem C97_false {F : Type} [CommRing F] (ratio n : ℕ) (hr : ratio ≠ 0) (hn0 : n ≠ 0) (hn : ∀ k, n ≠ 2 ^ k) (hs : Fits ratio n)
    (coeffs : List ℤ) (hc : coeffs.length = 2 * ratio) (x : ℕ → ℤ) (hw : Words ratio n coeffs x)
    (ms : List MetaLine) (hm : ∀ m ∈ ms, m.Ok) (hlen : ms.length = 4) :
    ∃ file C, LanczosDirect.generate ratio (ratio * (n + 3)) coeffs x = .ok file ∧ readZk file (ms.flatMap MetaLine.tokens) = .ok C ∧
      (evaluate .zk C : Outcome (List (List F))) = .undefined := by
  have hin : Inputs ((LanczosDirect.file ratio n coeffs x).headD []) := fun l hl => by
    rcases file_inputs hc hw l hl with a | ⟨a, -⟩
    · exact Or.inr a
    · exact Or.inl a
  obtain ⟨C, h1, -, h2⟩ := C13_exact (F := F) (LanczosDirect.file ratio n coeffs x) ms [] [] (file_readable hr hn0 hs hc hw)
    file_numbered hin (file_wired hr hs hc hw) hm hlen (fun L hL l hl => by
      obtain ⟨i, hi, rfl⟩ := List.mem_iff_getElem.1 hL
      simp only [List.getElem_tail] at hl
      exact (file_lines hr hs i (by rw [List.length_tail] at hi; omega) l hl).known true) (by simp [LanczosDirect.file])
  rw [List.append_nil, List.append_nil] at h1
  refine ⟨_, C, LanczosDirect.generate_eq hr hn0 hc x, h1, h2 ⟨(List.range (n * n)).map (LanczosDirect.sumLine (4 * ratio)),
    by simp [LanczosDirect.file], fun k hk => ?_⟩⟩
  rw [List.length_map, List.length_range] at hk
  obtain ⟨m, -, rfl⟩ := (Nat.dvd_prime_pow Nat.prime_two).1 ⟨n, hk.symm⟩
  exact hn m rfl

/-- The other arguments: the program ends without writing a circuit. -/
theorem C97_usage (rat npix : ℕ) (coeffs : List ℤ) (x : ℕ → ℤ) :
    LanczosDirect.generate rat npix coeffs x = .exit ↔ rat = 0 ∨ ∀ n, n ≠ 0 → npix ≠ rat * (n + 3) := by
  unfold LanczosDirect.generate
  constructor
  · intro h
    by_contra hcon
    push Not at hcon
    obtain ⟨hr, n, hn, rfl⟩ := hcon
    have hge : ¬ rat * (n + 3) < 4 * rat := by
      rw [Nat.mul_comm 4, not_lt]; exact Nat.mul_le_mul_left _ (by omega)
    rw [if_neg hge, if_neg hr, if_neg (by simp)] at h
    unfold LanczosDirect.printCircuit LanczosDirect.inputLayer at h
    dsimp only at h
    split_ifs at h <;> cases h
  · intro h
    by_cases h1 : npix < 4 * rat
    · rw [if_pos h1]
    rw [if_neg h1]
    by_cases h2 : rat = 0
    · rw [if_pos h2]
    rw [if_neg h2]
    refine if_pos fun h3 => ?_
    obtain ⟨m, rfl⟩ := Nat.dvd_of_mod_eq_zero h3
    have : 4 ≤ m := by
      by_contra hm
      exact h1 (by rw [Nat.mul_comm]; exact Nat.mul_lt_mul_of_pos_right (by omega) (by omega))
    exact (h.resolve_left h2) (m - 3) (by omega) (by rw [Nat.sub_add_cancel (by omega)])

/-- C98, what the circuit computes: every output is the sum over its window of the products of a pixel and a factor that depends on the column only.
Missing from the full claim: that these factors are the weights of the filter, which is false (`C98_false`). -/
theorem C98_output_partial {F : Type} [CommRing F] (ratio n : ℕ) (hr : ratio ≠ 0) (hn : n ≠ 0) (hs : Fits ratio n)
    (coeffs : List ℤ) (hc : coeffs.length = 2 * ratio) (x : ℕ → ℤ) (hw : Words ratio n coeffs x) :
    ∃ file C, LanczosDirect.generate ratio (ratio * (n + 3)) coeffs x = .ok file ∧ readPlain file = .ok C ∧ C.depth = 5 ∧
      ∀ row < n, ∀ col < n, (value C 4 (col * n + row) : F) = ∑ i ∈ range (4 * ratio), ∑ k ∈ range (4 * ratio),
        (readNumber (x (ratio * (n + 3) * (ratio * row + i) + (ratio * col + k))) : F) * directFactor ratio n coeffs x k := by
  have hin : Inputs ((LanczosDirect.file ratio n coeffs x).headD []) := fun l hl => by
    rcases file_inputs hc hw l hl with a | ⟨a, -⟩
    · exact Or.inr a
    · exact Or.inl a
  obtain ⟨C, h1, h2⟩ := C10_plain (LanczosDirect.file ratio n coeffs x) [] (file_readable hr hn hs hc hw) file_numbered hin
  rw [List.append_nil] at h1
  exact ⟨_, C, LanczosDirect.generate_eq hr hn hc x, h1, h2.depth, fun row hrow col hcol => direct_output hr hs hc h2 hrow hcol⟩

/-- Not only are the factors not the weights of the filter: for no size and no coefficients is the first output a weighted sum of the pixels
at all. -/
theorem C98_not_linear (ratio n : ℕ) (hr : ratio ≠ 0) (hn : n ≠ 0) (hs : Fits ratio n) (coeffs : List ℤ)
    (hc : coeffs.length = 2 * ratio) (hw : ∀ c ∈ coeffs, -2 ^ 63 ≤ c ∧ c < 2 ^ 63) :
    ¬ ∃ w : ℕ → Fp, ∀ x : ℕ → ℤ, (∀ i, 0 ≤ x i ∧ x i ≤ 256) → ∀ file C,
      LanczosDirect.generate ratio (ratio * (n + 3)) coeffs x = .ok file → readPlain file = .ok C →
        value C 4 0 = ∑ p ∈ range ((ratio * (n + 3)) ^ 2), w p * (x p : Fp) := by
  rintro ⟨w, h⟩
  have key : ∀ c : ℤ, 0 ≤ c → c ≤ 256 → (∑ p ∈ range ((ratio * (n + 3)) ^ 2), w p) * (c : Fp) =
      (4 * ratio : ℕ) * ((c : Fp) * ((∑ k ∈ range (4 * ratio - 1), directFactor ratio n coeffs (fun _ => 0) k) + (c : Fp))) := by
    intro c h0 h1
    obtain ⟨file, C, e1, e2, -, e4⟩ := C98_output_partial (F := Fp) ratio n hr hn hs coeffs hc (fun _ => c)
      ⟨hw, fun _ _ => by constructor <;> dsimp only <;> omega⟩
    have := h (fun _ => c) (fun _ => ⟨h0, h1⟩) file C e1 e2
    have h4 := e4 0 (by omega) 0 (by omega)
    rw [Nat.zero_mul, Nat.zero_add, this, ← Finset.sum_mul] at h4
    rw [h4]
    have hc' : readNumber c = c := readNumber_kept h0 (by omega)
    simp only [hc', ← Finset.mul_sum, Finset.sum_const, card_range, nsmul_eq_mul]
    rw [mul_left_comm]
    refine congrArg _ (congrArg _ ?_)
    obtain ⟨m, hm⟩ : ∃ m, 4 * ratio = m + 1 := ⟨4 * ratio - 1, by omega⟩
    rw [hm, Finset.sum_range_succ, Nat.add_sub_cancel]
    congr 1
    · refine Finset.sum_congr rfl fun k hk => ?_
      have := Finset.mem_range.1 hk
      unfold directFactor
      split_ifs <;> first | rfl | omega
    · unfold directFactor
      rw [if_neg (by omega), if_neg (by omega), hc']
  have k1 := key 1 (by norm_num) (by norm_num)
  have k2 := key 2 (by norm_num) (by norm_num)
  have : ((8 * ratio : ℕ) : Fp) = 0 := by
    push_cast at k1 k2 ⊢
    linear_combination 2 * k1 - k2
  have hz : ((8 * ratio : ℕ) : ZMod p) = 0 := by
    have := congrArg Fp.equiv this
    rwa [map_natCast, map_zero] at this
  rw [ZMod.natCast_eq_zero_iff] at hz
  have h5 := Nat.le_of_dvd (by omega) hz
  have h6 := hs.1
  have : ratio < 2 ^ 30 := by
    have : 2 * ratio < 2 ^ 30 := lt_of_le_of_lt (Nat.le_add_left _ _) h6
    omega
  have : p ≤ 2 ^ 33 := by omega
  norm_num [p] at this

/-- In particular, the circuit does not scale the image, for any size and any coefficients. -/
theorem C98_false (ratio n : ℕ) (hr : ratio ≠ 0) (hn : n ≠ 0) (hs : Fits ratio n) (coeffs : List ℤ)
    (hc : coeffs.length = 2 * ratio) (hw : ∀ c ∈ coeffs, -2 ^ 63 ≤ c ∧ c < 2 ^ 63) :
    ∃ x : ℕ → ℤ, (∀ i, 0 ≤ x i ∧ x i ≤ 256) ∧ ∃ file C,
      LanczosDirect.generate ratio (ratio * (n + 3)) coeffs x = .ok file ∧ readPlain file = .ok C ∧
        value C 4 0 ≠ Lanczos.scaled ratio (fun i => (readNumber (coeffs.getD i 0) : Fp))
          (fun i j => (x (ratio * (n + 3) * i + j) : Fp)) 0 0 := by
  by_contra hcon
  push Not at hcon
  refine C98_not_linear ratio n hr hn hs coeffs hc hw ⟨fun p => ∑ i ∈ range (4 * ratio), ∑ j ∈ range (4 * ratio),
    if p = ratio * (n + 3) * i + j then Lanczos.weight ratio (fun i => (readNumber (coeffs.getD i 0) : Fp)) i *
      Lanczos.weight ratio (fun i => (readNumber (coeffs.getD i 0) : Fp)) j else 0, fun x hx file C e1 e2 => ?_⟩
  rw [hcon x hx file C e1 e2, Lanczos.scaled]
  simp only [Finset.sum_mul]
  conv_rhs => rw [Finset.sum_comm]
  refine Finset.sum_congr rfl fun i hi => ?_
  conv_rhs => rw [Finset.sum_comm]
  refine Finset.sum_congr rfl fun j hj => ?_
  have hlt := window_lt (n := n) (xrep := 0) (yrep := 0) (by omega) (by omega) (Finset.mem_range.1 hi) (Finset.mem_range.1 hj)
  rw [Nat.mul_zero, Nat.zero_add, Nat.add_zero] at hlt
  rw [Finset.sum_eq_single (ratio * (n + 3) * i + j)]
  · rw [if_pos rfl, Nat.mul_zero, Nat.zero_add, Nat.zero_add]
  · intro p _ hp; rw [if_neg hp, zero_mul]
  · intro h; exact absurd (Finset.mem_range.2 hlt) h

/-- sizes covered: an image of 4 by 4 pixels with one window, and one of 1024 by 1024 with ratio 16 and 61 * 61 windows -/
example : Fits 1 1 ∧ Fits 16 61 := by unfold Fits; norm_num

/-- 4 is a power of two, 61 is not -/
example : (∃ k, 4 = 2 ^ k) ∧ Fits 16 4 ∧ ∀ k, 61 ≠ 2 ^ k := by
  refine ⟨⟨2, rfl⟩, by unfold Fits; norm_num, fun k h => ?_⟩
  rcases k with _ | k
  · omega
  · rw [pow_succ] at h; omega

/-- numbers the generator writes -/
example : Words 1 1 [-7 * 2 ^ 16, 2 ^ 40] (fun i => i % 257) := by
  refine ⟨by decide, fun i hi => ?_⟩
  dsimp only; omega

/-- the coefficients 3 and 5, and an image of ones: the output is `4 * (3 + 5 + 3 + 1)`, the filter gives `(5 + 3 + 3 + 5) ^ 2` -/
example : (∃ file C, LanczosDirect.generate 1 4 [3, 5] (fun _ => 1) = .ok file ∧ readPlain file = .ok C ∧ (value C 4 0 : ℤ) = 48) ∧
    Lanczos.scaled 1 (fun i => ([3, 5].getD i 0 : ℤ)) (fun _ _ => 1) 0 0 = 256 := by
  refine ⟨?_, by decide⟩
  obtain ⟨file, C, h1, h2, -, h4⟩ := C98_output_partial (F := ℤ) 1 1 (by norm_num) (by norm_num) (by unfold Fits; norm_num) [3, 5] rfl
    (fun _ => 1) ⟨by decide, fun _ _ => by norm_num⟩
  exact ⟨file, C, h1, h2, (h4 0 (by norm_num) 0 (by norm_num)).trans (by decide)⟩

/-- arguments for which the program stops -/
example : LanczosDirect.generate 3 13 [] (fun _ => 0) = .exit ∧ LanczosDirect.generate 3 9 [] (fun _ => 0) = .exit := by decide

end Libra.Props
