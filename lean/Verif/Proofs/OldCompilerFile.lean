import Verif.Proofs.OldCompilerNames
import Verif.Proofs.CompilerValue
import Verif.Proofs.FileValue

/-!
# The older circuit compilers: the circuit file
-/

namespace Libra.OldCompiler
open Spec Compiler Reader Libra.Props

/-! ### Padding -/

theorem digits_sum_one (n : ℕ) (h : (Nat.digits 2 n).sum = 1) : ∃ k, n = 2 ^ k := by
  induction n using Nat.strong_induction_on with
  | _ n ih =>
    have h0 : n ≠ 0 := by rintro rfl; simp at h
    rw [Nat.digits_def' (by norm_num) (Nat.pos_of_ne_zero h0), List.sum_cons] at h
    rcases Nat.mod_two_eq_zero_or_one n with h2 | h2
    · rw [h2, Nat.zero_add] at h
      obtain ⟨k, hk⟩ := ih (n / 2) (by omega) h
      exact ⟨k + 1, by rw [pow_succ, ← hk]; omega⟩
    · rw [h2] at h
      have hz : (Nat.digits 2 (n / 2)).sum = 0 := by omega
      have : n / 2 = 0 := by
        by_contra hne
        have hl := Nat.getLast_digit_ne_zero 2 hne
        have hm : _ ∈ Nat.digits 2 (n / 2) := List.getLast_mem (Nat.digits_ne_nil_iff_ne_zero.2 hne)
        exact hl (List.sum_eq_zero_iff.1 hz _ hm)
      exact ⟨0, by rw [pow_zero]; omega⟩

theorem doubled_pow (n j : ℕ) : ∃ k, doubled n (2 ^ j) = 2 ^ k ∧ n ≤ 2 ^ k := by
  by_cases h : 2 ^ j < n
  · have hlt : n - 2 ^ (j + 1) < n - 2 ^ j := by
      have : 0 < 2 ^ j := Nat.two_pow_pos j
      rw [pow_succ]; omega
    obtain ⟨k, e, hk⟩ := doubled_pow n (j + 1)
    refine ⟨k, ?_, hk⟩
    rw [doubled, dif_pos ⟨Nat.two_pow_pos j, h⟩, ← e, pow_succ, Nat.mul_comm]
  · exact ⟨j, by rw [doubled, dif_neg (fun hh => h hh.2)], by omega⟩
termination_by n - 2 ^ j

theorem padding_pow (n : ℕ) : ∃ k, n + padding n = 2 ^ k := by
  unfold padding
  split
  · obtain ⟨k, e, hk⟩ := doubled_pow n 0
    exact ⟨k, by rw [pow_zero] at e; rw [e]; omega⟩
  · next h => exact digits_sum_one n (not_not.1 h)

/-! ### The file -/

/-- the line of gate `a` -/
def lineOf (s : St) (t : Names) (a : ℕ) : Line := ⟨(s.node a).ty, t.id a, t.u a, t.v a⟩

/-- the lines of a layer -/
def fileLines (s : St) (t : Names) (L : List ℕ) : List Line :=
  L.map (lineOf s t) ++ (List.range (padding L.length)).map (fun j => ⟨2, ((j + L.length : ℕ) : ℤ), 0, 0⟩)

/-- the file -/
def oldFile (s : St) (t : Names) (D : ℕ) : File := (List.range D).map (fun l => fileLines s t (layer s l))

theorem fileLines_length (s : St) (t : Names) (L : List ℕ) : (fileLines s t L).length = L.length + padding L.length := by
  simp [fileLines]

theorem oldFile_length (s : St) (t : Names) (D : ℕ) : (oldFile s t D).length = D := by simp [oldFile]

theorem oldFile_getElem (s : St) (t : Names) {D l : ℕ} (h : l < (oldFile s t D).length) :
    (oldFile s t D)[l] = fileLines s t (layer s l) := by simp [oldFile]

theorem printLayer_eq (s : St) (t : Names) (L : List ℕ) : printLayer s t L = layerTokens (fileLines s t L) := by
  unfold printLayer layerTokens
  rw [fileLines_length]
  congr 1
  unfold fileLines
  rw [List.flatMap_append, List.flatMap_map, List.flatMap_map]
  rfl

theorem normalized_tokens (s : St) (t : Names) (D : ℕ) :
    (D : ℤ) :: (List.range D).flatMap (fun l => printLayer s t (layer s l)) = tokens (oldFile s t D) := by
  unfold tokens
  rw [oldFile_length]
  congr 1
  unfold oldFile
  rw [List.flatMap_map]
  exact List.flatMap_congr (fun l _ => printLayer_eq s t (layer s l))

theorem mem_fileLines {s : St} {t : Names} {L : List ℕ} {x : Line} (h : x ∈ fileLines s t L) :
    (∃ a ∈ L, x = lineOf s t a) ∨ ∃ j < padding L.length, x = ⟨2, ((j + L.length : ℕ) : ℤ), 0, 0⟩ := by
  rcases List.mem_append.1 h with h | h
  · obtain ⟨a, ha, rfl⟩ := List.mem_map.1 h
    exact Or.inl ⟨a, ha, rfl⟩
  · obtain ⟨j, hj, rfl⟩ := List.mem_map.1 h
    exact Or.inr ⟨j, List.mem_range.1 hj, rfl⟩

/-- where a gate is -/
theorem fileLines_pos {s : St} {t : Names} {l a : ℕ} (ha : a < s.size) (hl : s.lvl a = l) :
    ∃ h : pos s a < (fileLines s t (layer s l)).length, (fileLines s t (layer s l))[pos s a] = lineOf s t a := by
  have hp : pos s a < (layer s l).length := by
    have := pos_lt ha (by omega)
    rwa [hl, Int.toNat_natCast] at this
  refine ⟨by rw [fileLines_length]; omega, ?_⟩
  have hg : (layer s l)[pos s a] = a := by
    have : ∀ m, m = l → ∀ h : (layer s m).idxOf a < (layer s m).length, (layer s m)[(layer s m).idxOf a] = a := by
      intro m _ h; exact List.getElem_idxOf h
    have e := this (s.lvl a).toNat (by omega)
    unfold pos
    simp only [hl, Int.toNat_natCast] at e ⊢
    exact List.getElem_idxOf _
  unfold fileLines
  rw [List.getElem_append_left (by rw [List.length_map]; exact hp), List.getElem_map, hg]

theorem mem_oldFile {s : St} {t : Names} {D : ℕ} {K : List Line} (h : K ∈ oldFile s t D) : ∃ l < D, K = fileLines s t (layer s l) := by
  obtain ⟨l, hl, rfl⟩ := List.mem_map.1 h
  exact ⟨l, List.mem_range.1 hl, rfl⟩

/-- the position of an operand -/
theorem operand_pos {n1 D : ℕ} {s : St} {mx : ℤ} (h : LInv n1 D (n1 + D) 0 s mx) {a i : ℕ} (ha : a < s.size)
    (hl : s.lvl a = i) : pos s a < (layer s i).length ∧ i < D := by
  have := pos_lt ha (by omega)
  rw [hl, Int.toNat_natCast] at this
  exact ⟨this, by have := (h.lvls a ha).2; omega⟩

theorem level_zero {n1 D : ℕ} {s : St} {mx : ℤ} (h : LInv n1 D (n1 + D) 0 s mx) {a : ℕ} (ha : a < s.size) :
    (s.node a).ty = 3 ↔ s.lvl a = 0 := by
  constructor
  · exact fun h3 => (h.leaf a ha h3).1
  · intro h0
    by_contra h3
    obtain ⟨c, hc, -, hlc, -⟩ := (h.src a ha h3).1
    have := (h.lvls c hc).1
    omega

/-- the file is good -/
theorem oldFile_good {n1 D : ℕ} {s : St} {mx : ℤ} {t : Names} (h : LInv n1 D (n1 + D) 0 s mx) (ht : Named s t) (hD : 0 < D)
    (hfit : FitsReader (tokens (oldFile s t D))) : GoodFile false (oldFile s t D) := by
  obtain ⟨f, e, hf1, hf2⟩ := hfit
  obtain rfl := tokens_inj e
  rw [oldFile_length] at hf1
  have hsmall : ∀ l < D, (layer s l).length + padding (layer s l).length ≤ 2 ^ 30 := by
    intro l hl
    have := hf2 (fileLines s t (layer s l)) (List.mem_map.2 ⟨l, List.mem_range.2 hl, rfl⟩)
    rwa [fileLines_length] at this
  have hne : ∀ l < D, 0 < (layer s l).length := by
    intro l hl
    exact List.length_pos_of_mem (mem_layer.2 ⟨by have := h.size; omega, (h.zero l hl).2⟩)
  have hpos31 : ∀ a < s.size, (pos s a : ℤ) < 2 ^ 30 := by
    intro a ha
    obtain ⟨i, hi⟩ : ∃ i : ℕ, s.lvl a = i := ⟨(s.lvl a).toNat, by have := (h.lvls a ha).1; omega⟩
    obtain ⟨h1, h2⟩ := operand_pos h ha hi
    have := hsmall i h2
    omega
  have hty : ∀ a < s.size, -2 ^ 31 ≤ (s.node a).ty ∧ (s.node a).ty < 2 ^ 31 := by
    intro a ha
    rcases h.ty a ha with e | e | e | e | e | e | e <;> rw [e] <;> norm_num
  have hnum : ∀ L ∈ oldFile s t D, Numbered L := by
    intro L hL j hj
    obtain ⟨l, hl, rfl⟩ := mem_oldFile hL
    unfold fileLines at hj ⊢
    by_cases hlt : j < (layer s l).length
    · rw [List.getElem_append_left (by rw [List.length_map]; exact hlt), List.getElem_map]
      change t.id _ = _
      rw [ht.id _ (mem_layer.1 (List.getElem_mem hlt)).1, pos_getElem hlt]
    · rw [List.getElem_append_right (by rw [List.length_map]; omega), List.getElem_map]
      dsimp only
      rw [List.getElem_range, List.length_map]
      congr 1
      omega
  refine ⟨⟨?_, ?_, fun L hL => ?_⟩, hnum, fun L hL => ?_, fun l hl => ?_, ?_, fun i hi l hl => ?_⟩
  · intro e; have := oldFile_length s t D; rw [e] at this; simp at this; omega
  · rw [oldFile_length]; omega
  · obtain ⟨l, hl, rfl⟩ := mem_oldFile hL
    have hs := hsmall l hl
    refine ⟨fun e => ?_, by rw [fileLines_length]; exact hs, fun x hx => ?_⟩
    · have := fileLines_length s t (layer s l); rw [e] at this; have := hne l hl; simp at *; omega
    · rcases mem_fileLines hx with ⟨a, ha, rfl⟩ | ⟨j, hj, rfl⟩
      · obtain ⟨ha, hal⟩ := mem_layer.1 ha
        unfold Line.InRange lineOf
        dsimp only
        refine ⟨hty a ha, ?_, ?_⟩
        · rw [ht.id a ha]; have := hpos31 a ha; omega
        · by_cases h3 : (s.node a).ty = 3
          · obtain ⟨-, h4, h5⟩ := h.leaf a ha h3
            rw [(ht.leaf a ha h3).1, (ht.leaf a ha h3).2, h4]
            exact ⟨h5, by norm_num⟩
          · obtain ⟨c, hc, -, -, e⟩ := ht.u a ha h3
            rw [e]
            refine ⟨by have := hpos31 c hc; omega, ?_⟩
            rcases ht.v a ha h3 with ⟨c, hc, -, -, e⟩ | ⟨-, e⟩
            · rw [e]; have := hpos31 c hc; omega
            · rw [e]; norm_num
      · unfold Line.InRange
        dsimp only
        refine ⟨by norm_num, ?_, by norm_num, by norm_num⟩
        omega
  · obtain ⟨l, hl, rfl⟩ := mem_oldFile hL
    rw [fileLines_length]
    exact padding_pow _
  · have e : (oldFile s t D).headD [] = fileLines s t (layer s 0) := by
      obtain ⟨n, rfl⟩ : ∃ n, D = n + 1 := ⟨D - 1, by omega⟩
      unfold oldFile
      rw [List.range_succ_eq_map, List.map_cons, List.headD_cons]
    rw [e] at hl
    rcases mem_fileLines hl with ⟨a, ha, rfl⟩ | ⟨j, hj, rfl⟩
    · obtain ⟨ha, hal⟩ := mem_layer.1 ha
      exact Or.inl ((level_zero h ha).2 (by simpa using hal))
    · exact Or.inr ⟨rfl, rfl⟩
  · rw [oldFile_length]; omega
  · rw [oldFile_getElem] at hl
    rw [oldFile_getElem, fileLines_length]
    rw [oldFile_length] at hi
    rcases mem_fileLines hl with ⟨a, ha, rfl⟩ | ⟨j, hj, rfl⟩
    · obtain ⟨ha, hal⟩ := mem_layer.1 ha
      have h3 : (s.node a).ty ≠ 3 := by
        intro h3
        have := (level_zero h ha).1 h3
        omega
      have wire : ∀ c < s.size, s.lvl a = s.lvl c + 1 → ∀ x : ℤ, x = pos s c →
          Wire (width ((layer s i).length + padding (layer s i).length)) (int32 x) := by
        rintro c hc hlc x rfl
        rw [Matmul.int32_nat (by have := hpos31 c hc; omega)]
        obtain ⟨h1, -⟩ := operand_pos h (i := i) hc (by push_cast at hal; omega)
        refine ⟨Int.natCast_nonneg _, ?_⟩
        have hle : (layer s i).length + padding (layer s i).length ≤ 2 ^ width ((layer s i).length + padding (layer s i).length) :=
          le_trans (Nat.le_pow_clog (by norm_num) _) (Nat.pow_le_pow_right (by norm_num) (le_max_right _ _))
        have : pos s c < 2 ^ width ((layer s i).length + padding (layer s i).length) := by omega
        exact_mod_cast this
      obtain ⟨c, hc, -, hlc, ec⟩ := ht.u a ha h3
      have wu := wire c hc hlc _ ec
      have hgo : gateOf false (lineOf s t a) = ⟨(s.node a).ty, int32 (t.u a), if (s.node a).ty = 6 then 0 else int32 (t.v a)⟩ := by
        unfold gateOf lineOf; simp
      rw [hgo]
      unfold GateOk GateProvable
      dsimp only
      by_cases h6 : (s.node a).ty = 6
      · rw [h6]
        refine ⟨Or.inr (Or.inr (Or.inr (Or.inl ⟨by norm_num, wu⟩))), by norm_num, by norm_num, fun _ => rfl⟩
      · rcases ht.v a ha h3 with ⟨d, hd, -, hld, ed⟩ | ⟨h6', -⟩
        · have wv := wire d hd hld _ ed
          rw [if_neg h6]
          have := h.ty a ha
          unfold TyOk at this
          refine ⟨Or.inl ⟨by omega, wu, wv⟩, by omega, by omega, fun h => by omega⟩
        · exact absurd h6' h6
    · have : gateOf false ⟨2, ((j + (layer s (i + 1)).length : ℕ) : ℤ), 0, 0⟩ = ⟨2, 0, 0⟩ := by
        unfold gateOf; simp [int32]
      rw [this]
      exact ⟨Or.inr (Or.inl rfl), by norm_num, by norm_num, fun _ => rfl⟩

theorem gateValue_cross {F : Type} [CommRing F] {x y : ℤ → F} {ty u v u' v' : ℤ} (ht : TyOk ty) (h3 : ty ≠ 3)
    (hu : x u' = y u) (hv : ty ≠ 6 → x v' = y v) : gateValue ⟨ty, u', v'⟩ x = gateValue ⟨ty, u, v⟩ y := by
  rcases ht with rfl | rfl | rfl | rfl | rfl | rfl | rfl <;> simp_all [gateValue]

/-- the values of the circuit satisfy the graph -/
theorem oldFile_sat {n1 D : ℕ} {s : St} {mx : ℤ} {t : Names} (h : LInv n1 D (n1 + D) 0 s mx) (ht : Named s t)
    (hg : GoodFile false (oldFile s t D)) {C : Circuit} (hC : Describes false (oldFile s t D) C) {F : Type} [CommRing F] :
    Sat (F := F) (fun x => value C ((s.lvl (s.addr x)).toNat + 1) (pos s (s.addr x))) s := by
  intro a ha
  have hD : 0 < D := by have := h.lvls a ha; omega
  have h31 : ∀ c < s.size, pos s c < 2 ^ 31 := by
    intro c hc
    obtain ⟨i, hi⟩ : ∃ i : ℕ, s.lvl c = i := ⟨(s.lvl c).toNat, by have := (h.lvls c hc).1; omega⟩
    obtain ⟨h1, h2⟩ := operand_pos h hc hi
    have := (hg.readable.2.2 (fileLines s t (layer s i)) (List.mem_map.2 ⟨i, List.mem_range.2 h2, rfl⟩)).2.1
    rw [fileLines_length] at this
    omega
  unfold Sat1
  dsimp only
  rw [h.addr a ha]
  by_cases h3 : (s.node a).ty = 3
  · rw [if_pos h3]
    have h0 := (level_zero h ha).1 h3
    rw [h0]
    have e : (oldFile s t D).headD [] = fileLines s t (layer s 0) := by
      obtain ⟨n, rfl⟩ : ∃ n, D = n + 1 := ⟨D - 1, by omega⟩
      unfold oldFile
      rw [List.range_succ_eq_map, List.map_cons, List.headD_cons]
    obtain ⟨hp, ep⟩ := fileLines_pos (t := t) ha (l := 0) (by rw [h0]; rfl)
    have hv := hC.value_input (F := F) (j := pos s a) (by rw [e]; exact hp)
    simp only [e, ep] at hv
    change value C 1 (pos s a) = _
    rw [hv]
    unfold inputValue gateOf lineOf readNumber
    dsimp only
    rw [if_pos h3, (ht.leaf a ha h3).1]
  · rw [if_neg h3]
    obtain ⟨c, hc, idc, hlc, ec⟩ := ht.u a ha h3
    obtain ⟨i, hi⟩ : ∃ i : ℕ, s.lvl c = i := ⟨(s.lvl c).toNat, by have := (h.lvls c hc).1; omega⟩
    have hai : s.lvl a = ((i + 1 : ℕ) : ℤ) := by push_cast; omega
    have hiD : i + 1 < D := by have := (h.lvls a ha).2; omega
    obtain ⟨hp, ep⟩ := fileLines_pos (t := t) ha hai
    have hv := hC.value_succ (F := F) (i := i) (by rw [oldFile_length]; exact hiD) (j := pos s a)
      (by rw [oldFile_getElem]; exact hp)
    simp only [oldFile_getElem, ep] at hv
    rw [hai, Int.toNat_natCast, hv]
    unfold gateOf lineOf
    dsimp only
    refine gateValue_cross (h.ty a ha) h3 ?_ (fun h6 => ?_)
    · rw [ec, Matmul.int32_nat (h31 c hc), ← idc, h.addr c hc, hi, Int.toNat_natCast, Int.toNat_natCast]
    · rcases ht.v a ha h3 with ⟨d, hd, idd, hld, ed⟩ | ⟨h6', -⟩
      · rw [if_neg (by simp [h6]), ed, Matmul.int32_nat (h31 d hd), ← idd, h.addr d hd, Int.toNat_natCast]
        have : (s.lvl d).toNat = i := by omega
        rw [this]
      · exact absurd h6' h6

end Libra.OldCompiler
