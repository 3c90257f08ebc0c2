import Verif.Proofs.Matmul
import Verif.Props.Reader
import Verif.Props.Zk

/-!
# C49: the circuits of the matrix benchmark
-/

namespace Libra.Props
open Libra Spec Finset Reader Matmul

/-- entry `(i, j)` of the product of two `n × n` matrices -/
def product {F : Type} [CommRing F] (n : ℕ) (A B : ℕ → ℕ → ℤ) (i j : ℕ) : F :=
  ∑ k ∈ range n, (A i k : F) * (B k j : F)

/-- the entries the generator draws -/
def Entries (n : ℕ) (M : ℕ → ℕ → ℤ) : Prop := ∀ i < n, ∀ j < n, 0 ≤ M i j ∧ M i j < 10

theorem matmul_good {n k : ℕ} (hk : n = 2 ^ k) (hn : n * n * n < 2 ^ 31) {A B : ℕ → ℕ → ℤ}
    (hA : Entries n A) (hB : Entries n B) : GoodFile true (file n A B) := by
  have hpos : 0 < n := by rw [hk]; positivity
  have hn2 : n * n ≤ n * n * n := Nat.le_mul_of_pos_right _ hpos
  have hk10 : k ≤ 10 := by
    by_contra hcon
    have : 2 ^ 11 ≤ n := by rw [hk]; exact Nat.pow_le_pow_right (by norm_num) (by omega)
    have h3 : 2 ^ 11 * 2 ^ 11 * 2 ^ 11 ≤ n * n * n := Nat.mul_le_mul (Nat.mul_le_mul this this) this
    norm_num at h3 hn; omega
  have hle : n ≤ 2 ^ 10 := by rw [hk]; exact Nat.pow_le_pow_right (by norm_num) hk10
  have h2 : n * n ≤ 2 ^ 20 := le_trans (Nat.mul_le_mul hle hle) (by norm_num)
  have h3 : n * n * n ≤ 2 ^ 30 := le_trans (Nat.mul_le_mul h2 hle) (by norm_num)
  have hin : ∀ g < n * n * 2, ∃ x : ℤ, inputLine n A B g = ⟨3, g, x, 0⟩ ∧ 0 ≤ x ∧ x < 10 := by
    intro g hg
    rw [inputLine]
    split_ifs with h
    · exact ⟨_, rfl, hA _ ((Nat.div_lt_iff_lt_mul hpos).2 h) _ (Nat.mod_lt _ hpos)⟩
    · exact ⟨_, rfl, hB _ ((Nat.div_lt_iff_lt_mul hpos).2 (by omega)) _ (Nat.mod_lt _ hpos)⟩
  have hw : ∀ m, 1 ≤ m → ∀ x : ℕ, x < m → Wire (width m) (x : ℤ) := by
    intro m hm x hx
    refine ⟨by positivity, ?_⟩
    have : x < 2 ^ width m := lt_of_lt_of_le hx (le_trans (Nat.le_pow_clog (by norm_num) m)
      (Nat.pow_le_pow_right (by norm_num) (le_max_right _ _)))
    exact_mod_cast this
  have hprod : ∀ g < n * n * n, g / (n * n) < n ∧ g % n < n ∧ g / n % n < n := fun g hg =>
    ⟨(Nat.div_lt_iff_lt_mul (by positivity)).2 (by rw [Nat.mul_comm, Nat.mul_assoc] at *; linarith),
      Nat.mod_lt _ hpos, Nat.mod_lt _ hpos⟩
  have hmul : ∀ a b, a < n → b < n → a * b < n * n := fun a b ha hb => Nat.mul_lt_mul'' ha hb
  refine ⟨⟨by simp [file], by simp [file], ?_⟩, ?_, ?_, ?_, ?_, ?_⟩
  · intro L hL
    simp only [file, List.mem_cons, List.not_mem_nil, or_false] at hL
    rcases hL with rfl | rfl | rfl
    · refine ⟨by simp; omega, by simp; omega, fun l hl => ?_⟩
      simp only [List.mem_map, List.mem_range] at hl
      obtain ⟨g, hg, rfl⟩ := hl
      obtain ⟨x, e, hx⟩ := hin g hg
      rw [e]
      refine ⟨?_, ?_, ?_, ?_⟩ <;> dsimp only <;> omega
    · refine ⟨by simp; omega, by simp; omega, fun l hl => ?_⟩
      simp only [List.mem_map, List.mem_range] at hl
      obtain ⟨g, hg, rfl⟩ := hl
      obtain ⟨a1, a2, a3⟩ := hprod g hg
      have b1 := hmul _ _ a1 a2
      have b2 := hmul _ _ a2 a3
      refine ⟨?_, ?_, ?_, ?_⟩ <;> dsimp only [productLine] <;> omega
    · refine ⟨by simp; omega, by simp; omega, fun l hl => ?_⟩
      simp only [List.mem_map, List.mem_range] at hl
      obtain ⟨g, hg, rfl⟩ := hl
      have : g * n + n ≤ n * n * n := by
        calc g * n + n = (g + 1) * n := by ring
          _ ≤ n * n * n := Nat.mul_le_mul_right _ hg
      refine ⟨?_, ?_, ?_, ?_⟩ <;> dsimp only [sumLine] <;> omega
  · intro L hL
    simp only [file, List.mem_cons, List.not_mem_nil, or_false] at hL
    rcases hL with rfl | rfl | rfl <;> intro j hj <;>
      simp only [List.length_map, List.length_range] at hj <;>
      simp only [List.getElem_map, List.getElem_range]
    · obtain ⟨x, e, -⟩ := hin j hj; rw [e]
    · rfl
    · rfl
  · intro L hL
    simp only [file, List.mem_cons, List.not_mem_nil, or_false] at hL
    rcases hL with rfl | rfl | rfl <;> simp only [List.length_map, List.length_range, hk]
    · exact ⟨k + k + 1, by ring⟩
    · exact ⟨k + k + k, by ring⟩
    · exact ⟨k + k, by ring⟩
  · intro l hl
    simp only [file, List.headD_cons, List.mem_map, List.mem_range] at hl
    obtain ⟨g, hg, rfl⟩ := hl
    obtain ⟨x, e, hx⟩ := hin g hg
    rw [e]
    exact .inl rfl
  · simp [file]
  · intro i hi l hl
    obtain h | h : i = 0 ∨ i = 1 := by change i + 1 < 3 at hi; omega
    · subst h
      simp only [file, Nat.zero_add, List.getElem_cons_succ, List.getElem_cons_zero, List.mem_map,
        List.mem_range] at hl
      obtain ⟨g, hg, rfl⟩ := hl
      obtain ⟨a1, a2, a3⟩ := hprod g hg
      have b1 := hmul _ _ a1 a2
      have b2 := hmul _ _ a2 a3
      simp only [file, List.getElem_cons_zero, List.length_map, List.length_range]
      rw [gateOf_productLine (by omega) (by omega)]
      refine ⟨.inl ⟨.inr (.inl rfl), hw _ (by omega) _ (by omega), hw _ (by omega) _ (by omega)⟩,
        by simp, by simp, by simp⟩
    · subst h
      simp only [file, Nat.one_add, List.getElem_cons_succ, List.getElem_cons_zero, List.mem_map,
        List.mem_range] at hl
      obtain ⟨g, hg, rfl⟩ := hl
      have hb : g * n + n ≤ n * n * n := by
        calc g * n + n = (g + 1) * n := by ring
          _ ≤ n * n * n := Nat.mul_le_mul_right _ hg
      simp only [file, List.getElem_cons_succ, List.getElem_cons_zero, List.length_map, List.length_range]
      rw [gateOf_sumLine (by omega)]
      refine ⟨.inr (.inr (.inr (.inr (.inl ⟨rfl, by positivity, ?_⟩)))), by simp, by simp, by simp⟩
      have := (Nat.le_pow_clog (by norm_num : 1 < 2) (n * n * n))
      have h4 : g * n + n ≤ 2 ^ width (n * n * n) := le_trans hb (le_trans this
        (Nat.pow_le_pow_right (by norm_num) (le_max_right _ _)))
      dsimp only
      exact_mod_cast h4

theorem matmul_wired {n : ℕ} (hpos : 0 < n) (A B : ℕ → ℕ → ℤ) : Wired (file n A B) := by
  have hw : ∀ m, 1 ≤ m → ∀ x : ℕ, x < m → Wire (width m) (x : ℤ) := by
    intro m hm x hx
    refine ⟨by positivity, ?_⟩
    have : x < 2 ^ width m := lt_of_lt_of_le hx (le_trans (Nat.le_pow_clog (by norm_num) m)
      (Nat.pow_le_pow_right (by norm_num) (le_max_right _ _)))
    exact_mod_cast this
  intro i hi l hl
  obtain h | h | h : i = 0 ∨ i = 1 ∨ i = 2 := by change i < 3 at hi; omega
  · subst h
    simp only [file, List.getElem_cons_zero, List.mem_map, List.mem_range] at hl
    obtain ⟨g, hg, rfl⟩ := hl
    rw [WiresOk, if_pos (by rw [inputLine]; split_ifs <;> rfl)]
    trivial
  · subst h
    simp only [file, List.getElem_cons_succ, List.getElem_cons_zero, List.mem_map, List.mem_range] at hl
    obtain ⟨g, hg, rfl⟩ := hl
    have a1 : g / (n * n) < n := (Nat.div_lt_iff_lt_mul (by positivity)).2 (by
      rw [Nat.mul_comm, Nat.mul_assoc] at *; linarith)
    have a2 : g % n < n := Nat.mod_lt _ hpos
    have a3 : g / n % n < n := Nat.mod_lt _ hpos
    have b1 : g / (n * n) * (g % n) < n * n := Nat.mul_lt_mul'' a1 a2
    have b2 : g % n * (g / n % n) < n * n := Nat.mul_lt_mul'' a2 a3
    change WiresOk (width ((List.range (n * n * 2)).map (inputLine n A B)).length) _
    rw [List.length_map, List.length_range, WiresOk, if_neg (by simp [productLine]),
      if_neg (by simp [productLine])]
    exact ⟨hw _ (by omega) _ (by omega), hw _ (by omega) _ (by omega), by simp [productLine]⟩
  · subst h
    simp only [file, List.getElem_cons_succ, List.getElem_cons_zero, List.mem_map, List.mem_range] at hl
    obtain ⟨g, hg, rfl⟩ := hl
    have hb : g * n + n ≤ n * n * n := by
      calc g * n + n = (g + 1) * n := by ring
        _ ≤ n * n * n := Nat.mul_le_mul_right _ hg
    change WiresOk (width ((List.range (n * n * n)).map (productLine n)).length) _
    rw [List.length_map, List.length_range, WiresOk, if_neg (by simp [sumLine]),
      if_pos (by simp [sumLine])]
    have h4 : g * n + n ≤ 2 ^ width (n * n * n) := le_trans hb (le_trans
      (Nat.le_pow_clog (by norm_num : 1 < 2) (n * n * n))
        (Nat.pow_le_pow_right (by norm_num) (le_max_right _ _)))
    refine ⟨by simp only [sumLine]; positivity, by simp only [sumLine]; omega, ?_⟩
    simp only [sumLine]
    exact_mod_cast h4

/-- What the benchmark circuit computes. For every size `2^k` for which the generator's `int` arithmetic
does not overflow and all matrices, the two files are accepted by the reader, `evaluate()` succeeds,
and output `(i, j)` is `∑ k, a (i * k) * a (k * j)`, where `a x` is entry `x` of the first matrix, row by
row. Missing from the full claim: that this is the product of the two matrices, which is false
(`C49_false`). -/
theorem C49_output_partial {F : Type} [CommRing F] (n : ℕ) (hp : ∃ k, n = 2 ^ k) (hn : n * n * n < 2 ^ 31)
    (A B : ℕ → ℕ → ℤ) (hA : Entries n A) (hB : Entries n B) :
    ∃ file metaFile C, generate n A B = .ok (file, metaFile) ∧ readZk file metaFile = .ok C ∧
      WellFormed true C ∧ C.depth = 4 ∧
      (∃ vals : List (List F), evaluate .zk C = .ok vals) ∧
      ∀ i < n, ∀ j < n, (value C 3 (i * n + j) : F) = ∑ k ∈ range n,
        (A (i * k / n) (i * k % n) : F) * (A (k * j / n) (k * j % n) : F) := by
  obtain ⟨k, hk⟩ := hp
  have hpos : 0 < n := by rw [hk]; positivity
  have hg := matmul_good hk hn hA hB
  have hm : ∀ m ∈ metaLines, m.Ok := by
    intro m hm
    simp only [metaLines, List.mem_cons, List.not_mem_nil, or_false, or_self] at hm
    subst hm
    exact ⟨by decide, fun h => absurd rfl h⟩
  have hin : Inputs ((file n A B).headD []) := fun l hl => by
    rcases hg.inputs l hl with a | ⟨a, -⟩
    · exact Or.inr a
    · exact Or.inl a
  have hwired := matmul_wired hpos A B
  have hread := readZk_ok (file n A B) metaLines [] [] hg.readable
    ((FileOk_iff true _).2 ⟨hg.numbered, hin, fun _ => hwired⟩) hm rfl
  have hsame := withMeta_same (f := file n A B) (ms := metaLines) rfl
  have hwf := goodFile_wf hg hsame
  have hdesc := describes_of_same hg.readable.1 hsame
  rw [List.append_nil, List.append_nil] at hread
  refine ⟨_, _, _, generate_eq (by rw [hk]; exact popcount_pow k) hn A B, hread, hwf, hdesc.depth,
    ⟨_, evaluate_ok hwf.toEvaluable⟩, fun i hi j hj => ?_⟩
  have hgate : ∀ i' (h : i' + 1 < (file n A B).length), ∀ g (hg : g < (file n A B)[i' + 1].length),
      (circuitWithMeta (file n A B) metaLines).gate (i' + 2) g =
        gateOf true (file n A B)[i' + 1][g] := by
    intro i' h g hg'
    rw [Circuit.gate, Layer.gate, hdesc.gates i' h g hg']
    rfl
  have hn2 : n * n ≤ n * n * n := Nat.le_mul_of_pos_right _ hpos
  have hij : i * n + j < n * n := by
    calc i * n + j < i * n + n := by omega
      _ = (i + 1) * n := by ring
      _ ≤ n * n := Nat.mul_le_mul_right _ hi
  have hijn : (i * n + j) * n + n ≤ n * n * n := by
    calc (i * n + j) * n + n = (i * n + j + 1) * n := by ring
      _ ≤ n * n * n := Nat.mul_le_mul_right _ hij
  have h3 : (circuitWithMeta (file n A B) metaLines).gate 3 (i * n + j) =
      ⟨5, (((i * n + j) * n : ℕ) : ℤ), (((i * n + j) * n + n : ℕ) : ℤ)⟩ := by
    rw [hgate 1 (by simp [file]) _ (by simpa [file] using hij)]
    simp only [file, Nat.one_add, List.getElem_cons_succ, List.getElem_cons_zero, List.getElem_map,
      List.getElem_range]
    exact gateOf_sumLine (by omega)
  have h2 : ∀ k < n, (circuitWithMeta (file n A B) metaLines).gate 2 ((i * n + j) * n + k) =
      ⟨1, ((i * k : ℕ) : ℤ), ((k * j : ℕ) : ℤ)⟩ := by
    intro k hk'
    have hlt : (i * n + j) * n + k < n * n * n := by omega
    rw [hgate 0 (by simp [file]) _ (by simpa [file] using hlt)]
    simp only [file, Nat.zero_add, List.getElem_cons_succ, List.getElem_cons_zero, List.getElem_map,
      List.getElem_range]
    have e1 : ((i * n + j) * n + k) / (n * n) = i := by
      rw [← Nat.div_div_eq_div_mul, Nat.mul_comm _ n, Nat.mul_add_div hpos, Nat.div_eq_of_lt hk',
        Nat.add_zero, Nat.mul_comm i n, Nat.mul_add_div hpos, Nat.div_eq_of_lt hj, Nat.add_zero]
    have e2 : ((i * n + j) * n + k) % n = k := by
      rw [Nat.mul_comm _ n, Nat.mul_add_mod, Nat.mod_eq_of_lt hk']
    have e3 : ((i * n + j) * n + k) / n % n = j := by
      rw [Nat.mul_comm _ n, Nat.mul_add_div hpos, Nat.div_eq_of_lt hk', Nat.add_zero,
        Nat.mul_comm i n, Nat.mul_add_mod, Nat.mod_eq_of_lt hj]
    have m1 : i * k < n * n := Nat.mul_lt_mul'' hi hk'
    have m2 : k * j < n * n := Nat.mul_lt_mul'' hk' hj
    rw [gateOf_productLine (by rw [e1, e2]; omega) (by rw [e2, e3]; omega), e1, e2, e3]
  have h1 : ∀ g < n * n, (value (circuitWithMeta (file n A B) metaLines) 1 g : F) =
      (A (g / n) (g % n) : F) := by
    intro g hg'
    have hlen : g < ((file n A B).headD []).length := by simp [file]; omega
    have e1 : (circuitWithMeta (file n A B) metaLines).gate 1 g = ⟨4, (g : ℤ), 0⟩ := by
      rw [Circuit.gate, Layer.gate, hdesc.relay g hlen]; rfl
    have e0 : (circuitWithMeta (file n A B) metaLines).gate 0 g = ⟨3, A (g / n) (g % n), 0⟩ := by
      rw [Circuit.gate, Layer.gate, hdesc.inputs g hlen]
      simp only [file, List.headD_cons, List.getElem_map, List.getElem_range, Option.getD_some,
        inputLine, if_pos hg']
      obtain ⟨x0, x1⟩ := hA _ ((Nat.div_lt_iff_lt_mul hpos).2 hg') _ (Nat.mod_lt g hpos)
      rw [gateOf]
      have : int32 (A (g / n) (g % n)) = A (g / n) (g % n) := by rw [int32]; omega
      rw [this]
      simp [int32]
    rw [value, e1, gateValue]
    obtain ⟨x0, -⟩ := hA _ ((Nat.div_lt_iff_lt_mul hpos).2 hg') _ (Nat.mod_lt g hpos)
    simp [value, e0, inputValue, inputNumber_eq x0]
  have hv2 : ∀ k < n, (value (circuitWithMeta (file n A B) metaLines) 2 ((i * n + j) * n + k) : F) =
      (A (i * k / n) (i * k % n) : F) * (A (k * j / n) (k * j % n) : F) := by
    intro k hk'
    rw [value, h2 k hk', gateValue]
    simp only [one_ne_zero, if_false, if_true, Int.toNat_natCast]
    rw [h1 _ (Nat.mul_lt_mul'' hi hk'), h1 _ (Nat.mul_lt_mul'' hk' hj)]
  rw [value, h3, gateValue]
  have e5 : (5 : ℤ) ≠ 0 ∧ (5 : ℤ) ≠ 1 ∧ (5 : ℤ) ≠ 2 ∧ (5 : ℤ) ≠ 3 ∧ (5 : ℤ) ≠ 4 := by decide
  simp only [e5.1, e5.2.1, e5.2.2.1, e5.2.2.2.1, e5.2.2.2.2, if_false, if_true]
  rw [show ((((i * n + j) * n + n : ℕ) : ℤ) - (((i * n + j) * n : ℕ) : ℤ)).toNat = n by omega]
  refine sum_congr rfl (fun k hk' => ?_)
  rw [show ((((i * n + j) * n : ℕ) : ℤ) + (k : ℤ)).toNat = (i * n + j) * n + k by omega]
  exact hv2 k (mem_range.1 hk')

/-- The output is not the matrix product, for any size: it does not depend on the second matrix. -/
theorem C49_ignores_second (F : Type) [CommRing F] (n : ℕ) (hp : ∃ k, n = 2 ^ k)
    (hn : n * n * n < 2 ^ 31) (A B B' : ℕ → ℕ → ℤ) (hA : Entries n A) (hB : Entries n B)
    (hB' : Entries n B') : ∃ file metaFile C file' metaFile' C',
      generate n A B = .ok (file, metaFile) ∧ readZk file metaFile = .ok C ∧
      generate n A B' = .ok (file', metaFile') ∧ readZk file' metaFile' = .ok C' ∧
      ∀ i < n, ∀ j < n, (value C 3 (i * n + j) : F) = value C' 3 (i * n + j) := by
  obtain ⟨f, m, C, h1, h2, -, -, -, h3⟩ := C49_output_partial (F := F) n hp hn A B hA hB
  obtain ⟨f', m', C', h1', h2', -, -, -, h3'⟩ := C49_output_partial (F := F) n hp hn A B' hA hB'
  exact ⟨f, m, C, f', m', C', h1, h2, h1', h2', fun i hi j hj => by rw [h3 i hi j hj, h3' i hi j hj]⟩

/-- For every size there are matrices whose product the circuit does not compute. -/
theorem C49_false (n : ℕ) (hp : ∃ k, n = 2 ^ k) (hn : n * n * n < 2 ^ 31) :
    ∃ (A B : ℕ → ℕ → ℤ) (file metaFile : List ℤ) (C : Circuit), Entries n A ∧ Entries n B ∧
      generate n A B = .ok (file, metaFile) ∧ readZk file metaFile = .ok C ∧
      (value C 3 0 : Fp) ≠ product n A B 0 0 := by
  have hpos : 0 < n := by obtain ⟨k, rfl⟩ := hp; positivity
  have hA : Entries n (fun _ _ => 1) := fun _ _ _ _ => ⟨by norm_num, by norm_num⟩
  have hB : Entries n (fun _ _ => 0) := fun _ _ _ _ => ⟨by norm_num, by norm_num⟩
  obtain ⟨f, m, C, h1, h2, -, -, -, h3⟩ := C49_output_partial (F := Fp) n hp hn _ _ hA hB
  refine ⟨_, _, f, m, C, hA, hB, h1, h2, ?_⟩
  have := h3 0 hpos 0 hpos
  rw [Nat.zero_mul, Nat.zero_add] at this
  rw [this, product]
  simp only [Int.cast_one, Int.cast_zero, mul_zero, mul_one, sum_const_zero, sum_const, card_range,
    nsmul_eq_mul]
  intro h0
  have : (((n : ℕ) : ZMod p)) = 0 := by
    have := congrArg Fp.equiv h0
    simpa using this
  rw [ZMod.natCast_eq_zero_iff] at this
  have h5 := Nat.le_of_dvd hpos this
  have : n ≤ n * n * n := by nlinarith
  have : p ≤ 2 ^ 31 := by omega
  norm_num [p] at this

/-- the sizes 1, 2, ..., 1024 are the ones covered -/
example : (∃ k, 1024 = 2 ^ k) ∧ 1024 * 1024 * 1024 < 2 ^ 31 := ⟨⟨10, by norm_num⟩, by norm_num⟩

/-- two matrices the generator can draw -/
example : Entries 2 (fun i j => 2 * i + j + 1) ∧ Entries 2 (fun i j => i + 3 * j + 1) := by
  constructor <;> intro i hi j hj <;> dsimp only <;> omega

/-- `[[1, 2], [3, 4]]` times `[[1, 4], [2, 5]]` starts with 5, the circuit's first output is 2 -/
example : (product 2 (fun i j => 2 * i + j + 1) (fun i j => i + 3 * j + 1) 0 0 : ℤ) = 5 ∧
    ∃ file metaFile C, generate 2 (fun i j => 2 * i + j + 1) (fun i j => i + 3 * j + 1) =
      .ok (file, metaFile) ∧ readZk file metaFile = .ok C ∧ (value C 3 0 : ℤ) = 2 := by
  refine ⟨by decide, ?_⟩
  obtain ⟨f, m, C, h1, h2, -, -, -, h3⟩ := C49_output_partial (F := ℤ) 2 ⟨1, rfl⟩ (by norm_num)
    (fun i j => 2 * i + j + 1) (fun i j => i + 3 * j + 1)
    (fun i hi j hj => by dsimp only; omega) (fun i hi j hj => by dsimp only; omega)
  exact ⟨f, m, C, h1, h2, (h3 0 (by norm_num) 0 (by norm_num)).trans (by decide)⟩

end Libra.Props
