import Verif.Spec.LanczosDirect
import Verif.Proofs.LanczosDirect
import Verif.Proofs.FileValue

/-!
# The circuit file of `bin/gen_lanczos.py` is well formed
-/

namespace Libra.LanczosDirect
open Libra Spec Reader MerkleGen

/-- the gates above the inputs: products, sums of ranges, and dummies -/
inductive LineOk (m : ℕ) : Line → Prop
  | mult (g u v : ℕ) : g < 2 ^ 30 → u < m → v < m → LineOk m ⟨1, g, u, v⟩
  | sum (g u w : ℕ) : g < 2 ^ 30 → 0 < w → u + w ≤ m → LineOk m ⟨5, g, u, ((u + w : ℕ) : ℤ)⟩
  | dummy (g : ℕ) : g < 2 ^ 30 → LineOk m ⟨2, g, 0, 0⟩

theorem mem_padLayer {m : ℕ} {f : ℕ → Line} {l : Line} (h : l ∈ padLayer m f) :
    ∃ g < 2 ^ bitLength m, g < m ∧ l = f g ∨ m ≤ g ∧ l = ⟨2, g, 0, 0⟩ := by
  obtain ⟨g, hg, rfl⟩ := List.mem_map.1 h
  refine ⟨g, List.mem_range.1 hg, ?_⟩
  unfold padLine
  split_ifs with h'
  · exact .inl ⟨h', rfl⟩
  · exact .inr ⟨by omega, rfl⟩

theorem padLayer_length (m : ℕ) (f : ℕ → Line) : (padLayer m f).length = 2 ^ bitLength m := by
  rw [padLayer, List.length_map, List.length_range]

theorem pad_le {m : ℕ} (h : m < 2 ^ 30) : 2 ^ bitLength m ≤ 2 ^ 30 := Nat.pow_le_pow_right (by norm_num) (bitLength_le h)

theorem padLayer_ok {m m' : ℕ} {f : ℕ → Line} (hm : m < 2 ^ 30) (h : ∀ g < m, LineOk m' (f g)) :
    ∀ l ∈ padLayer m f, LineOk m' l := by
  intro l hl
  obtain ⟨g, hg, ⟨h1, rfl⟩ | ⟨-, rfl⟩⟩ := mem_padLayer hl
  · exact h g h1
  · exact .dummy g (lt_of_lt_of_le hg (pad_le hm))

theorem le_width (m : ℕ) : m ≤ 2 ^ width m :=
  le_trans (Nat.le_pow_clog (by norm_num) m) (Nat.pow_le_pow_right (by norm_num) (le_max_right _ _))

theorem LineOk.wires {m : ℕ} {l : Line} (h : LineOk m l) : WiresOk (width m) l := by
  have hw : ∀ x : ℕ, x < m → Wire (width m) (x : ℤ) := fun x hx =>
    ⟨by positivity, by exact_mod_cast lt_of_lt_of_le hx (le_width m)⟩
  cases h with
  | mult g u v _ hu hv => exact ⟨hw u hu, hw v hv, by simp⟩
  | sum g u w _ h0 hle =>
    refine ⟨by positivity, ?_, ?_⟩
    · dsimp only; omega
    · dsimp only; exact_mod_cast le_trans hle (le_width m)
  | dummy g _ => exact ⟨⟨le_refl _, by positivity⟩, ⟨le_refl _, by positivity⟩, by simp⟩

theorem LineOk.inRange {m : ℕ} (hm : m ≤ 2 ^ 30) {l : Line} (h : LineOk m l) : l.InRange := by
  cases h <;> refine ⟨⟨?_, ?_⟩, ⟨?_, ?_⟩, ⟨?_, ?_⟩, ⟨?_, ?_⟩⟩ <;> dsimp only <;> omega

theorem LineOk.gate {m : ℕ} (hm : m ≤ 2 ^ 30) {l : Line} (h : LineOk m l) (zk : Bool) :
    GateOk zk (width m) (gateOf zk l) ∧ GateProvable (gateOf zk l) := by
  have hw : ∀ x : ℕ, x < m → Wire (width m) (x : ℤ) := fun x hx =>
    ⟨by positivity, by exact_mod_cast lt_of_lt_of_le hx (le_width m)⟩
  cases h with
  | mult g u v _ hu hv =>
    rw [gateOf]
    dsimp only
    rw [Matmul.int32_nat (by omega), Matmul.int32_nat (by omega), if_neg (by simp)]
    exact ⟨.inl ⟨.inr (.inl rfl), hw u hu, hw v hv⟩, by simp, by simp, by simp⟩
  | sum g u w _ h0 hle =>
    rw [gateOf]
    dsimp only
    rw [Matmul.int32_nat (by omega), Matmul.int32_nat (by omega), if_neg (by simp)]
    refine ⟨.inr (.inr (.inr (.inr (.inl ⟨rfl, by positivity, ?_⟩)))), by simp, by simp, by simp⟩
    dsimp only
    exact_mod_cast le_trans hle (le_width m)
  | dummy g _ => exact ⟨.inr (.inl rfl), by simp [gateOf], by simp [gateOf], by simp [gateOf]⟩

theorem LineOk.known {m : ℕ} {l : Line} (h : LineOk m l) (zk : Bool) : KnownType (gateOf zk l) := by
  cases h <;> exact .inl (by simp [gateOf])

variable {ratio n : ℕ} {coeffs : List ℤ} {x : ℕ → ℤ}

/-- the parts of the number of a product -/
theorem product_parts {g : ℕ} (hg : g < n * n * (4 * ratio) ^ 2) : ∃ xrep < n, ∃ yrep < n, ∃ y < 4 * ratio, ∃ k < 4 * ratio,
    g = (xrep * n + yrep) * ((4 * ratio) * (4 * ratio)) + (y * (4 * ratio) + k) := by
  rw [Nat.pow_two] at hg
  have hr : 0 < 4 * ratio := by
    rcases Nat.eq_zero_or_pos (4 * ratio) with h | h
    · rw [h] at hg; simp at hg
    · exact h
  have hn : 0 < n := by
    rcases Nat.eq_zero_or_pos n with h | h
    · rw [h] at hg; simp at hg
    · exact h
  have hb : g / (4 * ratio * (4 * ratio)) < n * n := (Nat.div_lt_iff_lt_mul (by positivity)).2 hg
  refine ⟨g / (4 * ratio * (4 * ratio)) / n, (Nat.div_lt_iff_lt_mul hn).2 hb, g / (4 * ratio * (4 * ratio)) % n, Nat.mod_lt _ hn,
    g % (4 * ratio * (4 * ratio)) / (4 * ratio), (Nat.div_lt_iff_lt_mul hr).2 (Nat.mod_lt _ (by positivity)),
    g % (4 * ratio * (4 * ratio)) % (4 * ratio), Nat.mod_lt _ hr, ?_⟩
  rw [Nat.mul_comm (_ / n), Nat.div_add_mod, Nat.mul_comm (_ / (4 * ratio)) (4 * ratio), Nat.div_add_mod, Nat.mul_comm,
    Nat.div_add_mod]

/-- the window of an output lies in the image -/
theorem window_lt {xrep yrep y k : ℕ} (hx : xrep < n) (hy : yrep < n) (hw : y < 4 * ratio) (hk : k < 4 * ratio) :
    ratio * (n + 3) * (ratio * yrep + y) + ratio * xrep + k < (ratio * (n + 3)) ^ 2 := by
  have h1 : ∀ a b, a < n → b < 4 * ratio → ratio * a + b < ratio * (n + 3) := by
    intro a b ha hb
    calc ratio * a + b < ratio * a + 4 * ratio := by omega
      _ = ratio * (a + 4) := by ring
      _ ≤ ratio * (n + 3) := Nat.mul_le_mul_left _ (by omega)
  have a1 := h1 yrep y hy hw
  have a2 := h1 xrep k hx hk
  rw [Nat.pow_two]
  calc ratio * (n + 3) * (ratio * yrep + y) + ratio * xrep + k < ratio * (n + 3) * (ratio * yrep + y) + ratio * (n + 3) := by omega
    _ = ratio * (n + 3) * (ratio * yrep + y + 1) := by ring
    _ ≤ _ := Nat.mul_le_mul_left _ a1

theorem kernelAt_lt {total k : ℕ} (hk : k < 4 * ratio) : kernelAt ratio total k < total + 2 * ratio := by
  unfold kernelAt; split_ifs <;> omega

theorem sumLine_ok {w m g : ℕ} (hw : 0 < w) (h30 : g < 2 ^ 30) (h : (g + 1) * w ≤ m) : LineOk m (sumLine w g) :=
  .sum g (g * w) w h30 hw (by rw [Nat.add_one_mul] at h; exact h)

theorem Fits.rows (hr : ratio ≠ 0) (h : Fits ratio n) : n * n * 4 * ratio < 2 ^ 30 := by
  refine lt_of_le_of_lt ?_ h.2
  rw [Nat.mul_assoc (n * n), Nat.pow_two, ← Nat.mul_assoc (n * n) (4 * ratio)]
  exact Nat.le_mul_of_pos_right (n * n * (4 * ratio)) (by omega)

theorem file_lines (hr : ratio ≠ 0) (hs : Fits ratio n) (i : ℕ) (hi : i + 1 < (file ratio n coeffs x).length) :
    ∀ l ∈ (file ratio n coeffs x)[i + 1], LineOk (file ratio n coeffs x)[i].length l := by
  have h30 := hs.rows hr
  have hw : 0 < 4 * ratio := by omega
  obtain rfl | rfl | rfl : i = 0 ∨ i = 1 ∨ i = 2 := by change i + 1 < 4 at hi; omega
  · simp only [file, Nat.zero_add, List.getElem_cons_succ, List.getElem_cons_zero, padLayer_length]
    refine padLayer_ok hs.2 (fun g hg => ?_)
    obtain ⟨xrep, hx, yrep, hy, y, hw, k, hk, rfl⟩ := product_parts hg
    rw [productLine_at ratio hy hw hk]
    have hlt := lt_bitLength ((ratio * (n + 3)) ^ 2 + 2 * ratio)
    have a1 := window_lt hx hy hw hk
    have a2 := kernelAt_lt (total := (ratio * (n + 3)) ^ 2) hk
    exact .mult _ _ _ (lt_trans hg hs.2) (by omega) (by omega)
  · simp only [file, Nat.one_add, List.getElem_cons_succ, List.getElem_cons_zero, padLayer_length]
    refine padLayer_ok h30 (fun g hg => sumLine_ok hw (by omega) ?_)
    have : (g + 1) * (4 * ratio) ≤ n * n * (4 * ratio) ^ 2 := by
      rw [Nat.pow_two, ← Nat.mul_assoc (n * n) (4 * ratio), ← Nat.mul_assoc (n * n)]
      exact Nat.mul_le_mul_right (4 * ratio) hg
    exact le_trans this (lt_bitLength _).le
  · simp only [file, List.getElem_cons_succ, List.getElem_cons_zero, padLayer_length]
    intro l hl
    obtain ⟨g, hg, rfl⟩ := List.mem_map.1 hl
    have hg := List.mem_range.1 hg
    have : (g + 1) * (4 * ratio) ≤ n * n * 4 * ratio := by
      rw [Nat.mul_assoc (n * n)]; exact Nat.mul_le_mul_right _ hg
    have h1 : n * n ≤ n * n * (4 * ratio) := Nat.le_mul_of_pos_right _ hw
    rw [← Nat.mul_assoc] at h1
    exact sumLine_ok hw (by omega) (le_trans this (lt_bitLength _).le)

theorem input_lines (hw : Words ratio n coeffs x) (hc : coeffs.length = 2 * ratio) :
    ∀ l ∈ padLayer ((ratio * (n + 3)) ^ 2 + 2 * ratio) (inputLine ((ratio * (n + 3)) ^ 2) coeffs x),
      ∃ g < 2 ^ bitLength ((ratio * (n + 3)) ^ 2 + 2 * ratio),
        l = ⟨2, (g : ℕ), 0, 0⟩ ∨ ∃ c : ℤ, (-2 ^ 63 ≤ c ∧ c < 2 ^ 63) ∧ l = ⟨3, (g : ℕ), c, 0⟩ := by
  intro l hl
  obtain ⟨g, hg, ⟨h1, rfl⟩ | ⟨-, rfl⟩⟩ := mem_padLayer hl
  · refine ⟨g, hg, .inr ?_⟩
    unfold inputLine
    split_ifs with h
    · exact ⟨_, hw.2 g h, rfl⟩
    · refine ⟨_, hw.1 _ ?_, rfl⟩
      rw [List.getD_eq_getElem?_getD, List.getElem?_eq_getElem (by omega)]
      exact List.getElem_mem _
  · exact ⟨g, hg, .inl rfl⟩

theorem file_lengths (hr : ratio ≠ 0) (hn : n ≠ 0) (hs : Fits ratio n) : ∀ L ∈ file ratio n coeffs x, L ≠ [] ∧ L.length ≤ 2 ^ 30 := by
  have h30 := hs.rows hr
  have hp : ∀ m f, m < 2 ^ 30 → padLayer m f ≠ [] ∧ (padLayer m f).length ≤ 2 ^ 30 := fun m f hm =>
    ⟨List.ne_nil_of_length_pos (by rw [padLayer_length]; positivity), by rw [padLayer_length]; exact pad_le hm⟩
  intro L hL
  simp only [file, List.mem_cons, List.not_mem_nil, or_false] at hL
  rcases hL with rfl | rfl | rfl | rfl
  · exact hp _ _ hs.1
  · exact hp _ _ hs.2
  · exact hp _ _ h30
  · have h1 : n * n ≤ n * n * (4 * ratio) := Nat.le_mul_of_pos_right _ (by omega)
    rw [← Nat.mul_assoc] at h1
    refine ⟨List.ne_nil_of_length_pos ?_, ?_⟩ <;> rw [List.length_map, List.length_range]
    · exact Nat.mul_pos (by omega) (by omega)
    · omega

theorem file_readable (hr : ratio ≠ 0) (hn : n ≠ 0) (hs : Fits ratio n) (hc : coeffs.length = 2 * ratio) (hw : Words ratio n coeffs x) :
    Readable (file ratio n coeffs x) := by
  refine ⟨by simp [file], by simp [file], fun L hL => ⟨(file_lengths hr hn hs L hL).1, (file_lengths hr hn hs L hL).2, ?_⟩⟩
  obtain ⟨i, hi, rfl⟩ := List.mem_iff_getElem.1 hL
  cases i with
  | zero =>
    intro l hl
    obtain ⟨g, hg, h⟩ := input_lines hw hc l hl
    have := pad_le hs.1
    rcases h with rfl | ⟨c, hc', rfl⟩ <;> refine ⟨⟨?_, ?_⟩, ⟨?_, ?_⟩, ⟨?_, ?_⟩, ⟨?_, ?_⟩⟩ <;> dsimp only <;> omega
  | succ i =>
    intro l hl
    exact (file_lines hr hs i hi l hl).inRange (file_lengths hr hn hs _ (List.getElem_mem _)).2

theorem padLayer_numbered {m : ℕ} {f : ℕ → Line} (h : ∀ g < m, (f g).g = g) : Numbered (padLayer m f) := by
  intro j hj
  simp only [padLayer, List.getElem_map, List.getElem_range, padLine]
  split_ifs with hj'
  · exact h j hj'
  · rfl

theorem file_numbered : ∀ L ∈ file ratio n coeffs x, Numbered L := by
  intro L hL
  simp only [file, List.mem_cons, List.not_mem_nil, or_false] at hL
  rcases hL with rfl | rfl | rfl | rfl
  · exact padLayer_numbered fun g _ => by unfold inputLine; split_ifs <;> rfl
  · exact padLayer_numbered fun g _ => rfl
  · exact padLayer_numbered fun g _ => rfl
  · intro j hj
    simp only [List.getElem_map, List.getElem_range]
    rfl

theorem file_inputs (hc : coeffs.length = 2 * ratio) (hw : Words ratio n coeffs x) :
    ∀ l ∈ (file ratio n coeffs x).headD [], l.ty = 3 ∨ l.ty = 2 ∧ l.u = 0 := by
  intro l hl
  obtain ⟨g, -, rfl | ⟨c, -, rfl⟩⟩ := input_lines hw hc l hl
  · exact .inr ⟨rfl, rfl⟩
  · exact .inl rfl

theorem file_wired (hr : ratio ≠ 0) (hs : Fits ratio n) (hc : coeffs.length = 2 * ratio) (hw : Words ratio n coeffs x) :
    Wired (file ratio n coeffs x) := by
  intro i hi l hl
  cases i with
  | zero =>
    obtain ⟨g, -, rfl | ⟨c, -, rfl⟩⟩ := input_lines hw hc l hl
    · exact ⟨⟨le_refl _, by positivity⟩, ⟨le_refl _, by positivity⟩, by simp⟩
    · exact True.intro
  | succ i =>
    have := (file_lines hr hs i hi l hl).wires
    dsimp only
    rwa [List.getElem?_eq_getElem (by omega), Option.getD_some]

theorem file_good (zk : Bool) (hr : ratio ≠ 0) {k : ℕ} (hn : n = 2 ^ k) (hs : Fits ratio n) (hc : coeffs.length = 2 * ratio)
    (hw : Words ratio n coeffs x) : GoodFile zk (file ratio n coeffs x) := by
  have hn0 : n ≠ 0 := by rw [hn]; positivity
  refine ⟨file_readable hr hn0 hs hc hw, file_numbered, ?_, file_inputs hc hw, by simp [file], fun i hi l hl =>
    (file_lines hr hs i hi l hl).gate (file_lengths hr hn0 hs _ (List.getElem_mem _)).2 zk⟩
  intro L hL
  simp only [file, List.mem_cons, List.not_mem_nil, or_false] at hL
  rcases hL with rfl | rfl | rfl | rfl
  · exact ⟨_, padLayer_length _ _⟩
  · exact ⟨_, padLayer_length _ _⟩
  · exact ⟨_, padLayer_length _ _⟩
  · exact ⟨k + k, by rw [List.length_map, List.length_range, hn, pow_add]⟩

end Libra.LanczosDirect

namespace Libra.Props
open Libra Spec Reader Finset LanczosDirect

theorem direct_output {F : Type} [CommRing F] {zk : Bool} {ratio n : ℕ} (hr : ratio ≠ 0) (hs : Fits ratio n) {coeffs : List ℤ}
    (hc : coeffs.length = 2 * ratio) {x : ℕ → ℤ} {C : Circuit} (h : Describes zk (LanczosDirect.file ratio n coeffs x) C)
    {row col : ℕ} (hrow : row < n) (hcol : col < n) :
    (value C 4 (col * n + row) : F) = ∑ i ∈ range (4 * ratio), ∑ k ∈ range (4 * ratio),
      (readNumber (x (ratio * (n + 3) * (ratio * row + i) + (ratio * col + k))) : F) * directFactor ratio n coeffs x k := by
  have hT : 1 ≤ (ratio * (n + 3)) ^ 2 := Nat.one_le_pow _ _ (Nat.mul_pos (Nat.pos_of_ne_zero hr) (by omega))
  have h30 := hs.rows hr
  have hb : col * n + row < n * n := by
    calc col * n + row < col * n + n := by omega
      _ = (col + 1) * n := by ring
      _ ≤ n * n := Nat.mul_le_mul_right _ hcol
  have hin : ∀ g < (ratio * (n + 3)) ^ 2 + 2 * ratio, (value C 1 g : F) =
      (readNumber (if g < (ratio * (n + 3)) ^ 2 then x g else coeffs.getD (g - (ratio * (n + 3)) ^ 2) 0) : F) := by
    intro g hg
    have hlen : g < ((LanczosDirect.file ratio n coeffs x).headD []).length := by
      simp only [LanczosDirect.file, List.headD_cons, padLayer_length]
      exact lt_trans hg (lt_bitLength _)
    rw [h.value_input hlen]
    simp only [LanczosDirect.file, List.headD_cons, padLayer, List.getElem_map, List.getElem_range, padLine, if_pos hg,
      LanczosDirect.inputLine]
    split_ifs with hg' <;> simp [inputValue, gateOf, readNumber]
  have h4 : (value C 4 (col * n + row) : F) = ∑ i ∈ range (4 * ratio), value C 3 ((col * n + row) * (4 * ratio) + i) := by
    rw [h.value_succ (i := 2) (by simp [LanczosDirect.file]) (by simpa [LanczosDirect.file] using hb)]
    simp only [LanczosDirect.file, List.getElem_cons_succ, List.getElem_cons_zero, List.getElem_map, List.getElem_range]
    refine gateValue_range zk ?_ (fun k => value C 3 k)
    have : (col * n + row) * (4 * ratio) + 4 * ratio ≤ n * n * 4 * ratio := by
      rw [← Nat.add_one_mul, Nat.mul_assoc (n * n)]; exact Nat.mul_le_mul_right _ hb
    omega
  rw [h4]
  refine sum_congr rfl fun i hi => ?_
  have hi := mem_range.1 hi
  have hg3 : (col * n + row) * (4 * ratio) + i < n * n * 4 * ratio := by
    calc (col * n + row) * (4 * ratio) + i < (col * n + row) * (4 * ratio) + 4 * ratio := by omega
      _ = (col * n + row + 1) * (4 * ratio) := by ring
      _ ≤ n * n * (4 * ratio) := Nat.mul_le_mul_right _ hb
      _ = _ := by ring
  have hg2 : ∀ k < 4 * ratio, ((col * n + row) * (4 * ratio) + i) * (4 * ratio) + k < n * n * (4 * ratio) ^ 2 := by
    intro k hk
    calc ((col * n + row) * (4 * ratio) + i) * (4 * ratio) + k <
          ((col * n + row) * (4 * ratio) + i) * (4 * ratio) + 4 * ratio := by omega
      _ = ((col * n + row) * (4 * ratio) + i + 1) * (4 * ratio) := by ring
      _ ≤ n * n * 4 * ratio * (4 * ratio) := Nat.mul_le_mul_right _ hg3
      _ = _ := by ring
  have h3 : (value C 3 ((col * n + row) * (4 * ratio) + i) : F) = ∑ k ∈ range (4 * ratio),
      value C 2 (((col * n + row) * (4 * ratio) + i) * (4 * ratio) + k) := by
    rw [h.value_succ (i := 1) (by simp [LanczosDirect.file])
      (by simp only [LanczosDirect.file, Nat.one_add, List.getElem_cons_succ, List.getElem_cons_zero, padLayer_length]
          exact lt_trans hg3 (lt_bitLength _))]
    simp only [LanczosDirect.file, Nat.one_add, List.getElem_cons_succ, List.getElem_cons_zero, padLayer, List.getElem_map,
      List.getElem_range, padLine, if_pos hg3]
    refine gateValue_range zk ?_ (fun k => value C 2 k)
    have := hg2 (4 * ratio - 1) (by omega)
    have := hs.2
    omega
  rw [h3]
  refine sum_congr rfl fun k hk => ?_
  have hk := mem_range.1 hk
  have hlt := hg2 k hk
  have e : ((col * n + row) * (4 * ratio) + i) * (4 * ratio) + k =
      (col * n + row) * ((4 * ratio) * (4 * ratio)) + (i * (4 * ratio) + k) := by ring
  have a1 := window_lt hcol hrow hi hk
  have a2 := kernelAt_lt (total := (ratio * (n + 3)) ^ 2) hk
  have hs1 := hs.1
  rw [h.value_succ (i := 0) (by simp [LanczosDirect.file])
    (by simp only [LanczosDirect.file, Nat.zero_add, List.getElem_cons_succ, List.getElem_cons_zero, padLayer_length]
        exact lt_trans hlt (lt_bitLength _))]
  simp only [LanczosDirect.file, Nat.zero_add, List.getElem_cons_succ, List.getElem_cons_zero, padLayer, List.getElem_map,
    List.getElem_range, padLine, if_pos hlt]
  rw [e, productLine_at ratio hrow hi hk]
  refine (gateValue_mult zk (by omega) (by omega) (fun k => value C 1 k)).trans ?_
  rw [hin _ (by omega), hin _ (by omega), if_pos a1, Nat.add_assoc]
  refine congrArg _ ?_
  unfold directFactor kernelAt
  by_cases c1 : k < 2 * ratio
  · rw [if_pos c1, if_pos c1, if_neg (by omega), Nat.add_sub_cancel_left]
  · rw [if_neg c1, if_neg c1]
    by_cases c2 : k < 4 * ratio - 1
    · rw [if_pos c2, if_neg (by omega), show (ratio * (n + 3)) ^ 2 + (4 * ratio - 2) - k - (ratio * (n + 3)) ^ 2 = 4 * ratio - 2 - k by omega]
    · rw [if_neg c2, if_pos (by omega), show (ratio * (n + 3)) ^ 2 + (4 * ratio - 2) - k = (ratio * (n + 3)) ^ 2 - 1 by omega]

end Libra.Props
