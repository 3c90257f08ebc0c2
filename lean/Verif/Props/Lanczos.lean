import Verif.Proofs.LanczosLevels
import Verif.Proofs.LanczosWiring
import Verif.Props.CompilerOutputs
import Verif.Props.Sha256
import Verif.Props.Numbers

/-!
# The image scaling benchmark

`tests/lanczos/lanczos2.py ratio npix` writes the program of a symmetric filter for one pixel of the scaled image, and the wiring file for
all pixels.
-/

namespace Libra.Props
open Libra Spec Compiler Reader LanczosGen Sha256Gen
open Finset (range)

/-- the program, and what the proofs below need of it -/
theorem lanczos_program {ratio : ℕ} (hr : ratio ≠ 0) : ∃ (l : List Stmt) (t : ℕ),
    printPws ratio = .ok (straightProgram (nInputs ratio) l [t] (nInputs ratio + l.length)) ∧
    Straight (nInputs ratio) l ∧ AllGates l ∧ t < nInputs ratio + l.length ∧ l.length = (4 * ratio + 1) * (8 * ratio - 1) ∧
    (∀ lv : ℕ → ℕ, (∀ s ∈ l, LevelOk lv s) → Below lv l [t] ∧ 0 < lv t) ∧
    ∀ (F : Type) [CommRing F] (w : ℕ → F), Sat w l →
      w t = Lanczos.scaled ratio (fun k => w (16 * ratio ^ 2 + k)) (fun i j => w (4 * ratio * i + j)) 0 0 := by
  obtain ⟨t, L, h1, h2, h3, h4, h5⟩ := pwsBody_emits hr (le_refl (nInputs ratio))
  refine ⟨L.lines, t, ?_, h3, pwsBody_gates _ _ _ _ h1, h5, ?_, fun lv hlv => pwsBody_below hr _ _ _ _ h1 hlv, fun F _ w hs =>
    pwsBody_run _ _ _ _ h1 hs⟩
  · unfold printPws
    rw [h1]
    rfl
  · have := (pwsBody_cost hr _ _ _ _ h1).1
    have hno := pwsBody_tests _ _ _ _ h1
    rw [hno] at this
    simpa using this

/-- a program of inputs and gates is understood by all versions of the compiler -/
theorem gates_understood {n m : ℕ} {l : List Stmt} {o : List ℕ} (h : AllGates l) (var : Compiler.Variant) :
    ∀ s ∈ straightProgram n l o m, Understands var s := by
  intro s hs
  unfold straightProgram at hs
  rcases List.mem_append.1 hs with hs | hs
  · rcases List.mem_append.1 hs with hs | hs
    · obtain ⟨i, -, rfl⟩ := List.mem_map.1 hs; exact True.intro
    · obtain ⟨op, t, a, b, rfl⟩ := h s hs; exact True.intro
  · obtain ⟨i, -, rfl⟩ := List.mem_map.1 hs; exact True.intro

theorem lanczos_ok {ratio : ℕ} (hr : ratio ≠ 0) {l : List Stmt} {t : ℕ} (h : Straight (nInputs ratio) l) (hg : AllGates l)
    (ht : t < nInputs ratio + l.length) : ∃ lv : ℕ → ℕ, (∀ i < nInputs ratio, lv i = 0) ∧ (∀ s ∈ l, LevelOk lv s) ∧
      (∀ s ∈ straightProgram (nInputs ratio) l [t] (nInputs ratio + l.length), LevelOk lv s) ∧
      Acceptable (straightProgram (nInputs ratio) l [t] (nInputs ratio + l.length)) := by
  obtain ⟨lv, hb, hw⟩ := exists_depths h fun _ => 0
  have hl : ∀ s ∈ l, LevelOk lv s := by
    intro s hs
    have := hw s hs
    obtain ⟨op, t, a, b, rfl⟩ := hg s hs
    exact this
  refine ⟨lv, hb, hl, ?_, straight_acceptable h (by unfold nInputs; positivity) _ (by simpa using ht) hb hl⟩
  intro s hs
  unfold straightProgram at hs
  rcases List.mem_append.1 hs with hs | hs
  · rcases List.mem_append.1 hs with hs | hs
    · obtain ⟨i, hi, rfl⟩ := List.mem_map.1 hs; exact hb i (List.mem_range.1 hi)
    · exact hl s hs
  · obtain ⟨i, -, rfl⟩ := List.mem_map.1 hs; exact True.intro

theorem mem_straight {n m : ℕ} {l : List Stmt} {o : List ℕ} {s : Stmt} : s ∈ straightProgram n l o m ↔
    (∃ i < n, s = .input i i) ∨ s ∈ l ∨ s ∈ (o.zipIdx m).map fun p => Stmt.output p.2 p.1 := by
  unfold straightProgram
  rw [List.append_assoc, List.mem_append, List.mem_append]
  simp only [List.mem_map, List.mem_range, eq_comm]

/-- all solutions of the program give the pixel -/
theorem lanczos_value {ratio : ℕ} {l : List Stmt} {t m : ℕ} (h : Straight (nInputs ratio) l) {F : Type} [CommRing F]
    (hv : ∀ w : ℕ → F, Sat w l → w t = Lanczos.scaled ratio (fun k => w (16 * ratio ^ 2 + k)) (fun i j => w (4 * ratio * i + j)) 0 0)
    {inp w : ℕ → F} (hw : ∀ s ∈ straightProgram (nInputs ratio) l [t] m, Spec.Holds inp w s) :
    w t = Lanczos.scaled ratio (fun k => inp (16 * ratio ^ 2 + k)) (fun i j => inp (4 * ratio * i + j)) 0 0 := by
  have hin : ∀ i < nInputs ratio, w i = inp i := fun i hi => hw (.input i i) (mem_straight.2 (.inl ⟨i, hi, rfl⟩))
  have hsat : Sat w l := fun s hs => by
    obtain ⟨u, -, hu⟩ := straight_mem h s hs
    exact (holds_congr hu fun _ _ => rfl).1 (hw s (mem_straight.2 (.inr (.inl hs))))
  rw [hv w hsat]
  unfold Lanczos.scaled
  refine Finset.sum_congr rfl fun i hi => Finset.sum_congr rfl fun j hj => ?_
  rw [Finset.mem_range] at hi hj
  simp only [mul_zero, zero_add]
  have hc : ∀ i < 4 * ratio, Lanczos.weight ratio (fun k => w (16 * ratio ^ 2 + k)) i =
      Lanczos.weight ratio (fun k => inp (16 * ratio ^ 2 + k)) i := by
    intro i hi
    unfold Lanczos.weight
    split <;> exact hin _ (by unfold nInputs; omega)
  rw [hc i hi, hc j hj, hin _ (by have := pixel_lt hi hj; unfold nInputs; omega)]

/-- The program of the benchmark, for every ratio: the compiler accepts it, its sizes are as given, and its one output is the pixel that the filter
gives for the window and the coefficients of its inputs. -/
theorem C71_program (ratio : ℕ) (hr : ratio ≠ 0) : ∃ P o t, printPws ratio = .ok P ∧ ProgramOk P ∧ Acceptable P ∧
    inputCount P = 16 * ratio ^ 2 + 2 * ratio ∧ P.length = 48 * ratio ^ 2 + 6 * ratio ∧
    (∀ o' t', .output o' t' ∈ P ↔ o' = o ∧ t' = t) ∧
    ∀ (F : Type) [CommRing F] (inp w : ℕ → F), (∀ s ∈ P, Spec.Holds inp w s) →
      w t = Lanczos.scaled ratio (fun k => inp (16 * ratio ^ 2 + k)) (fun i j => inp (4 * ratio * i + j)) 0 0 := by
  obtain ⟨l, t, h1, h2, h3, h4, h5, h6, h7⟩ := lanczos_program hr
  obtain ⟨a1, a2, a3⟩ := straight_program h2 [t] (nInputs ratio + l.length)
  obtain ⟨lv, -, -, -, hA⟩ := lanczos_ok hr h2 h3 h4
  refine ⟨_, nInputs ratio + l.length, t, h1, a1, hA, a3, ?_, fun o' t' => ?_, fun F _ inp w hw => lanczos_value h2 (h7 F) hw⟩
  · unfold straightProgram
    simp only [List.length_append, List.length_map, List.length_range, List.length_zipIdx, List.length_cons, List.length_nil, h5]
    obtain ⟨m, rfl⟩ := Nat.exists_eq_succ_of_ne_zero hr
    rw [show 8 * m.succ - 1 = 8 * m + 7 by omega]
    unfold nInputs
    rw [Nat.succ_eq_add_one]
    ring
  · rw [mem_straight]
    constructor
    · rintro (⟨i, -, e⟩ | hs | hs)
      · cases e
      · obtain ⟨op, t, a, b, e⟩ := h3 _ hs
        cases e
      · simp only [List.zipIdx_cons, List.zipIdx_nil, List.map_cons, List.map_nil, List.mem_singleton, Stmt.output.injEq] at hs
        exact hs
    · rintro ⟨rfl, rfl⟩
      exact .inr (.inr (by simp))

/-- The generator runs to its end exactly for images that are at least four times the ratio wide and whose width the ratio divides, and
if there are as many coefficients as it expects. -/
theorem C72_generates (ratio npix : ℕ) (coeffs : List ℤ) (x : ℕ → ℤ) : (∃ P W, generate ratio npix coeffs x = .ok (P, W)) ↔
    ratio ≠ 0 ∧ coeffs.length = 2 * ratio ∧ ∃ n ≠ 0, npix = ratio * (n + 3) := by
  constructor
  · rintro ⟨P, W, h⟩
    unfold generate at h
    split_ifs at h with h1 h2 h3
    obtain ⟨P', -, h⟩ := Outcome.bind_eq_ok' h
    obtain ⟨W', h, -⟩ := Outcome.bind_eq_ok' h
    obtain ⟨q, rfl⟩ := Nat.dvd_of_mod_eq_zero (not_not.1 h3)
    have hq : 4 ≤ q := by
      by_contra hq
      have := Nat.mul_le_mul_left ratio (show q ≤ 3 by omega)
      omega
    refine ⟨h2, ?_, q - 3, by omega, by rw [show q - 3 + 3 = q by omega]⟩
    unfold printRdl at h
    dsimp only at h
    split_ifs at h with h4 h5
    omega
  · rintro ⟨h1, h2, n, hn, rfl⟩
    obtain ⟨P, -, -, hP, -⟩ := C71_program ratio h1
    refine ⟨P, rdlOf ratio n coeffs x, ?_⟩
    have hle : 4 * ratio ≤ ratio * (n + 3) := by
      rw [Nat.mul_comm]; exact Nat.mul_le_mul_left _ (by omega)
    have hreps : 1 + (ratio * (n + 3) - 4 * ratio) / ratio = n := by
      have : ratio * (n + 3) - 4 * ratio = ratio * (n - 1) := by
        obtain ⟨m, rfl⟩ := Nat.exists_eq_succ_of_ne_zero hn
        rw [Nat.succ_eq_add_one, Nat.add_sub_cancel, show ratio * (m + 1 + 3) = ratio * m + 4 * ratio by ring, Nat.add_sub_cancel]
      rw [this, Nat.mul_div_cancel_left _ (Nat.pos_of_ne_zero h1)]
      omega
    unfold generate
    rw [if_neg (by omega), if_neg h1, if_neg (by simp), hP, hreps]
    show ((printRdl ratio (ratio * (n + 3)) (n ^ 2) coeffs x).bind fun W => Outcome.ok (P, W)) = _
    rw [printRdl_eq h1 hn h2]
    rfl

theorem generate_eq {ratio n : ℕ} (hr : ratio ≠ 0) (hn : n ≠ 0) {coeffs : List ℤ} (hc : coeffs.length = 2 * ratio) {x : ℕ → ℤ} {P : List Stmt}
    (hP : printPws ratio = .ok P) : generate ratio (ratio * (n + 3)) coeffs x = .ok (P, rdlOf ratio n coeffs x) := by
  obtain ⟨P', W, h⟩ := (C72_generates ratio (ratio * (n + 3)) coeffs x).2 ⟨hr, hc, n, hn, rfl⟩
  have h' := h
  unfold generate at h'
  split_ifs at h'
  obtain ⟨P1, e1, h'⟩ := Outcome.bind_eq_ok' h'
  obtain ⟨W1, e2, h'⟩ := Outcome.bind_eq_ok' h'
  have hreps : 1 + (ratio * (n + 3) - 4 * ratio) / ratio = n := by
    have : ratio * (n + 3) - 4 * ratio = ratio * (n - 1) := by
      obtain ⟨m, rfl⟩ := Nat.exists_eq_succ_of_ne_zero hn
      rw [Nat.succ_eq_add_one, Nat.add_sub_cancel, show ratio * (m + 1 + 3) = ratio * m + 4 * ratio by ring, Nat.add_sub_cancel]
    rw [this, Nat.mul_div_cancel_left _ (Nat.pos_of_ne_zero hr)]
    omega
  rw [hreps, printRdl_eq hr hn hc] at e2
  rw [hP] at e1
  obtain rfl := Outcome.ok.inj e1
  obtain rfl := Outcome.ok.inj e2
  rw [h]
  exact h'.symm

/-- the sizes of the files -/
theorem lanczos_sizes {ratio k : ℕ} (hr : ratio ≠ 0) (hsize : (288 * ratio ^ 2 + 36 * ratio) * 4 ^ k ≤ 2 ^ 30) :
    startOf ratio (2 ^ k) + nInputs ratio * (2 ^ k * 2 ^ k) ≤ 0x3f3f3f3f ∧
      startOf ratio (2 ^ k) + 2 * (nInputs ratio * (2 ^ k * 2 ^ k)) ≤ 2 ^ 29 := by
  have hk : 1 ≤ 2 ^ k := Nat.one_le_two_pow
  have e : (4 : ℕ) ^ k = 2 ^ k * 2 ^ k := by rw [← mul_pow]; norm_num
  rw [e] at hsize
  unfold startOf nInputs
  generalize 2 ^ k = n at *
  have h1 : (ratio * (n + 3)) ^ 2 ≤ 16 * ratio ^ 2 * (n * n) := by
    have : ratio * (n + 3) ≤ ratio * (4 * n) := Nat.mul_le_mul_left _ (by omega)
    calc (ratio * (n + 3)) ^ 2 ≤ (ratio * (4 * n)) ^ 2 := Nat.pow_le_pow_left this 2
      _ = _ := by ring
  have h2 : 2 * ratio ≤ 2 * ratio * (n * n) := Nat.le_mul_of_pos_right _ (by positivity)
  have h3 : (288 * ratio ^ 2 + 36 * ratio) * (n * n) = 288 * (ratio ^ 2 * (n * n)) + 36 * (ratio * (n * n)) := by ring
  have h4 : (16 * ratio ^ 2 + 2 * ratio) * (n * n) = 16 * (ratio ^ 2 * (n * n)) + 2 * (ratio * (n * n)) := by ring
  have h5 : 16 * ratio ^ 2 * (n * n) = 16 * (ratio ^ 2 * (n * n)) := by ring
  have h6 : 2 * ratio * (n * n) = 2 * (ratio * (n * n)) := by ring
  rw [h3] at hsize
  rw [h4]
  rw [h5] at h1
  rw [h6] at h2
  norm_num at *
  constructor <;> omega

/-- values of the lines of the wiring file -/
theorem lanczos_values (ratio n : ℕ) (coeffs : List ℤ) (x : ℕ → ℤ) (F : Type) [CommRing F] :
    ∃ out v : ℕ → F, ∀ l ∈ rdlOf ratio n coeffs x, RHolds out v l.asRead := by
  let v0 : ℕ → F := fun a => if a < (ratio * (n + 3)) ^ 2 then (readNumber (x a) : F) else
    (readNumber (coeffs.getD (a - (ratio * (n + 3)) ^ 2) 0) : F)
  let v : ℕ → F := fun a => if a < startOf ratio n then v0 a else v0 ((sourcesOf ratio n (n * n)).getD (a - startOf ratio n) 0)
  refine ⟨fun o => v (o - nInputs ratio * (n * n)), v, fun l hl => ?_⟩
  rcases mem_rdlOf.1 hl with ⟨i, hi, rfl⟩ | ⟨k, hk, rfl⟩ | ⟨m, hm, rfl⟩ | ⟨o, ho, rfl⟩
  · simp only [RStmt.asRead, RHolds, v, v0]
    rw [if_pos (by unfold startOf; omega), if_pos hi]
  · simp only [RStmt.asRead, RHolds, v, v0]
    rw [if_pos (by unfold startOf; omega), if_neg (by omega), Nat.add_sub_cancel]
  · simp only [RStmt.asRead, RHolds, v]
    rw [if_neg (by omega), if_pos (sourcesOf_lt (List.getElem_mem hm)), Nat.add_sub_cancel_left, List.getD_eq_getElem?_getD,
      List.getElem?_eq_getElem hm]
    rfl
  · simp only [RStmt.asRead, RHolds]
    rw [show startOf ratio n + nInputs ratio * (n * n) + o - nInputs ratio * (n * n) = o + startOf ratio n by omega]

/-- The benchmark, for every ratio and every image of the right width, up to the sizes the verifier can read: the generator writes the
files, the compiler compiles them, the verifier reads the circuit, and the last layer of the circuit has the pixels of the scaled image, column by
column, and zeros at the odd positions. The pixels and the coefficients are the numbers as the verifier reads them. -/
theorem C72_scales (var : Compiler.Variant) (ratio k : ℕ) (hr : ratio ≠ 0) (hr' : ratio ≤ 144)
    (hsize : (288 * ratio ^ 2 + 36 * ratio) * 4 ^ k ≤ 2 ^ 30)
    (coeffs : List ℤ) (hlen : coeffs.length = 2 * ratio) (hc : ∀ c ∈ coeffs, -2 ^ 63 ≤ c ∧ c < 2 ^ 63)
    (npix : ℕ) (hn : npix = ratio * (2 ^ k + 3)) (x : ℕ → ℤ) (hx : ∀ i < npix ^ 2, -2 ^ 63 ≤ x i ∧ x i < 2 ^ 63) :
    ∃ P W file metaFile C, generate ratio npix coeffs x = .ok (P, W) ∧ compile var P W = .ok (file, metaFile) ∧
      readZk file metaFile = .ok C ∧ WellFormed true C ∧ C.bl (C.depth - 1) = 2 * k + 1 ∧
      ∀ (F : Type) [CommRing F], ∀ row < 2 ^ k, ∀ col < 2 ^ k,
        value C (C.depth - 1) (2 * (2 ^ k * col + row)) = Lanczos.scaled ratio (fun i => (readNumber (coeffs.getD i 0) : F))
          (fun i j => (readNumber (x (npix * i + j)) : F)) row col ∧
        value C (C.depth - 1) (2 * (2 ^ k * col + row) + 1) = (0 : F) := by
  subst hn
  have hk : 2 ^ k ≠ 0 := by positivity
  have h4 : (4 : ℕ) ^ k = 2 ^ (2 * k) := by rw [pow_mul]; norm_num
  have hkk : 2 ^ k * 2 ^ k = 2 ^ (2 * k) := by rw [← pow_add]; congr 1; omega
  obtain ⟨hbase, hlenW⟩ := lanczos_sizes hr hsize
  obtain ⟨l, t, h1, h2, h3, h4', h5, h6, h7⟩ := lanczos_program hr
  obtain ⟨a1, a2, a3⟩ := straight_program h2 [t] (nInputs ratio + l.length)
  obtain ⟨lv, lv0, lvl, lvP, hA⟩ := lanczos_ok hr h2 h3 h4'
  obtain ⟨P', -, -, e1, -, -, -, hPlen, -⟩ := C71_program ratio hr
  obtain rfl := Outcome.ok.inj (h1.symm.trans e1)
  change ProgramOk (straightProgram (nInputs ratio) l [t] (nInputs ratio + l.length)) at a1
  change ∀ t' a b, Stmt.sum t' a b ∉ straightProgram (nInputs ratio) l [t] (nInputs ratio + l.length) at a2
  change inputCount (straightProgram (nInputs ratio) l [t] (nInputs ratio + l.length)) = nInputs ratio at a3
  have hW := rdlOf_ok (ratio := ratio) (n := 2 ^ k) hx hc
  have hcomplete := rdlOf_complete (ratio := ratio) (n := 2 ^ k) (coeffs := coeffs) (x := x)
  have hcount := rdlOf_count (ratio := ratio) (n := 2 ^ k) (coeffs := coeffs) (x := x)
  have hleast := rdlOf_least (ratio := ratio) (n := 2 ^ k) (coeffs := coeffs) (x := x) hr hk
  have hlenW' := rdlOf_length (ratio := ratio) (n := 2 ^ k) (coeffs := coeffs) (x := x)
  rw [← a3] at hcount
  rw [hkk] at hcount
  have hlines : (straightProgram (nInputs ratio) l [t] (nInputs ratio + l.length)).length < 999997 := by
    rw [hPlen]
    have := Nat.pow_le_pow_left hr' 2
    omega
  have hblocks : 6 * (straightProgram (nInputs ratio) l [t] (nInputs ratio + l.length)).length * 2 ^ (2 * k) ≤ 2 ^ 30 := by
    rw [hPlen, ← h4]
    refine le_trans (le_of_eq ?_) hsize
    ring
  obtain ⟨layer, pos, size, hcomp⟩ := C69_compiles var _ a1 (gates_understood h3 var) hA a2 hlines
  obtain ⟨file, metaFile, C, c1, c2, c3, c4⟩ := hcomp _ _ (2 * k) hW hcomplete hbase hcount (by rw [hlenW']; exact hlenW) hblocks
  have hfit := C69_fits var _ _ a1 hA file metaFile c1 (2 * k) hcount hlines (by rw [hlenW']; exact hlenW) hblocks
  obtain ⟨hbelow, hpos⟩ := h6 lv lvl
  have hdeep : Deepest (straightProgram (nInputs ratio) l [t] (nInputs ratio + l.length)) lv [t] := by
    have htl : ∃ s ∈ straightProgram (nInputs ratio) l [t] (nInputs ratio + l.length), target s = some t := by
      obtain ⟨s, e, ht, -⟩ := straight_at h2 [t] (nInputs ratio + l.length) h4'
      exact ⟨s, List.mem_of_getElem? e, ht⟩
    have hle : ∀ s ∈ straightProgram (nInputs ratio) l [t] (nInputs ratio + l.length), ∀ t', target s = some t' → t' = t ∨ lv t' < lv t := by
      intro s hs t' ht'
      rcases mem_straight.1 hs with ⟨i, hi, rfl⟩ | hs | hs
      · obtain rfl := Option.some.inj ht'
        exact .inr (by rw [lv0 i hi]; exact hpos)
      · obtain ⟨y, hy, e⟩ := hbelow s hs t' ht'
        rw [List.mem_singleton.1 hy] at e
        exact e
      · obtain ⟨p, -, rfl⟩ := List.mem_map.1 hs
        cases ht'
    refine ⟨by simp [List.sortedLT_iff_pairwise], fun t' => ?_⟩
    rw [List.mem_singleton]
    constructor
    · rintro rfl
      refine ⟨htl, fun s hs t' ht' => ?_⟩
      rcases hle s hs t' ht' with rfl | h
      · exact le_refl _
      · exact h.le
    · rintro ⟨⟨s, hs, e⟩, hmax⟩
      obtain ⟨s', hs', e'⟩ := htl
      rcases hle s hs t' e with h | h
      · exact h
      · exact absurd (hmax s' hs' t e') (by omega)
  obtain ⟨C', b, d1, d2, d3, d4, d5⟩ := C70_outputs var _ a1 hA a2 lv lvP [t] hdeep _ hW _ (2 * k) hleast hbase hcount file metaFile c1 hfit
  obtain rfl := Outcome.ok.inj (c2.symm.trans d1)
  have hb : b = 1 := by
    rw [List.length_singleton] at d3 d4
    match b with
    | 0 => simp at d3
    | 1 => rfl
    | b + 2 => rw [pow_add] at d4; have := Nat.one_le_two_pow (n := b); omega
  subst hb
  refine ⟨_, _, file, metaFile, C, generate_eq hr hk hlen h1, c1, c2, c3, by rw [d2]; omega, fun F _ row hrow col hcol => ?_⟩
  obtain ⟨out, v, hv⟩ := lanczos_values ratio (2 ^ k) coeffs x F
  have hr2 : 2 ^ k * col + row < 2 ^ (2 * k) := by
    rw [← hkk]
    have := Nat.mul_le_mul_left (2 ^ k) (Nat.succ_le_of_lt hcol)
    rw [Nat.mul_succ] at this
    omega
  obtain ⟨w, hw, -⟩ := c4 F out v hv _ hr2
  obtain ⟨f1, f2⟩ := d5 F out v hv _ hr2 w hw
  have g1 := f1 0 (by simp)
  have g2 := f2 1 (by simp) (by simp)
  rw [pow_one, Nat.mul_comm _ 2] at g1 g2
  refine ⟨?_, g2⟩
  rw [Nat.add_zero] at g1
  rw [g1, List.getElem_singleton, lanczos_value h2 (h7 F) hw, a3]
  obtain ⟨p1, p2⟩ := rdlOf_block hv hrow hcol
  unfold Lanczos.scaled
  refine Finset.sum_congr rfl fun i hi => Finset.sum_congr rfl fun j hj => ?_
  rw [Finset.mem_range] at hi hj
  simp only [mul_zero, zero_add]
  have hwt : ∀ i < 4 * ratio, Lanczos.weight ratio (fun i => out (startOf ratio (2 ^ k) + nInputs ratio * (2 ^ k * 2 ^ k) +
      ((2 ^ k * col + row) * nInputs ratio + (16 * ratio ^ 2 + i)))) i = Lanczos.weight ratio (fun i => (readNumber (coeffs.getD i 0) : F)) i := by
    intro i hi
    unfold Lanczos.weight
    rw [Nat.mul_comm (2 ^ k) col]
    split <;> exact p2 _ (by omega)
  rw [hwt i hi, hwt j hj, Nat.mul_comm (2 ^ k) col, p1 i hi j hj]

section
variable {G1 G2 GT : Type} [AddCommGroup G1] [AddCommGroup G2] [AddCommGroup GT]
  [Module (ZMod p) G1] [Module (ZMod p) G2] [Module (ZMod p) GT] [DecidableEq GT]

/-- And the verifier accepts the honest prover of that circuit, whatever the challenges. -/
theorem C72_complete (E : Pairing G1 G2 GT) (var : Compiler.Variant) (ratio k : ℕ) (hr : ratio ≠ 0) (hr' : ratio ≤ 144)
    (hsize : (288 * ratio ^ 2 + 36 * ratio) * 4 ^ k ≤ 2 ^ 30)
    (coeffs : List ℤ) (hlen : coeffs.length = 2 * ratio) (hc : ∀ c ∈ coeffs, -2 ^ 63 ≤ c ∧ c < 2 ^ 63)
    (npix : ℕ) (hn : npix = ratio * (2 ^ k + 3)) (x : ℕ → ℤ) (hx : ∀ i < npix ^ 2, -2 ^ 63 ≤ x i ∧ x i < 2 ^ 63) :
    ∃ P W file metaFile C, generate ratio npix coeffs x = .ok (P, W) ∧ compile var P W = .ok (file, metaFile) ∧
      readZk file metaFile = .ok C ∧
        ∀ coins : Zk.Coins Fp, Zk.CoinsOk C coins → ∀ (junk : Zk.Prover Fp G1 G2) (tables : Zk.VTables Fp) (ch : Zk.Challenges Fp),
          Zk.verify E C (Zk.honest E C coins junk) tables ch = .ok () := by
  subst hn
  have hk : 2 ^ k ≠ 0 := by positivity
  have h4 : (4 : ℕ) ^ k = 2 ^ (2 * k) := by rw [pow_mul]; norm_num
  have hkk : 2 ^ k * 2 ^ k = 2 ^ (2 * k) := by rw [← pow_add]; congr 1; omega
  obtain ⟨hbase, hlenW⟩ := lanczos_sizes hr hsize
  obtain ⟨l, t, h1, h2, h3, -⟩ := lanczos_program hr
  obtain ⟨P', -, -, e1, a1, hA, a3, hPlen, -⟩ := C71_program ratio hr
  obtain rfl := Outcome.ok.inj (h1.symm.trans e1)
  have hcount := rdlOf_count (ratio := ratio) (n := 2 ^ k) (coeffs := coeffs) (x := x)
  have hlenW' := rdlOf_length (ratio := ratio) (n := 2 ^ k) (coeffs := coeffs) (x := x)
  rw [show nInputs ratio = _ from a3.symm, hkk] at hcount
  obtain ⟨file, metaFile, C, c1, c2, c3⟩ := C63_complete E var _ _ a1 (gates_understood h3 var) hA
    (rdlOf_ok (ratio := ratio) (n := 2 ^ k) hx hc) _ (2 * k) rdlOf_complete hbase hcount
    (by
      rw [hPlen]
      have := Nat.pow_le_pow_left hr' 2
      omega)
    (by rw [hlenW']; exact hlenW)
    (by
      rw [hPlen, ← h4]
      refine le_trans (le_of_eq ?_) hsize
      ring)
  exact ⟨_, _, file, metaFile, C, generate_eq hr hk hlen h1, c1, c2, c3⟩

end

/-- the five sizes of the benchmark (`tests/lanczos/build.sh`) are covered: ratio 16, images of width 112, 176, 304, 560 and 1072 -/
example : ∀ k ∈ [2, 3, 4, 5, 6], (288 * 16 ^ 2 + 36 * 16) * 4 ^ k ≤ 2 ^ 30 ∧ 16 * (2 ^ k + 3) ∈ [112, 176, 304, 560, 1072] := by decide

/-- an image of 5 by 5 pixels, scaled with the ratio 1 and the coefficients 1 and -2: the first pixel of the result -/
example (F : Type) [CommRing F] : ∃ P W file metaFile C, generate 1 5 [1, -2] (fun i => i) = .ok (P, W) ∧ compile .root P W = .ok (file, metaFile) ∧
    readZk file metaFile = .ok C ∧ C.bl (C.depth - 1) = 3 ∧ value C (C.depth - 1) 0 =
      Lanczos.scaled 1 (fun i => (readNumber ([1, -2].getD i 0) : F)) (fun i j => (readNumber ((5 * i + j : ℕ) : ℤ) : F)) 0 0 := by
  obtain ⟨P, W, file, metaFile, C, h1, h2, h3, -, h4, h5⟩ := C72_scales .root 1 1 (by decide) (by decide) (by decide) [1, -2] rfl
    (by decide) 5 rfl (fun i => (i : ℤ)) (fun i hi => by omega)
  exact ⟨P, W, file, metaFile, C, h1, h2, h3, h4, (h5 F 0 (by decide) 0 (by decide)).1⟩

/-! ### The coefficients -/

/-- The circuit scales the image with the coefficients and pixels of the wiring file, if they are all in the range of `C64_exact`. -/
theorem C73_partial (var : Compiler.Variant) (ratio k : ℕ) (hr : ratio ≠ 0) (hr' : ratio ≤ 144)
    (hsize : (288 * ratio ^ 2 + 36 * ratio) * 4 ^ k ≤ 2 ^ 30)
    (coeffs : List ℤ) (hlen : coeffs.length = 2 * ratio) (hc : ∀ c ∈ coeffs, 0 ≤ c ∧ c < 2 ^ 31)
    (npix : ℕ) (hn : npix = ratio * (2 ^ k + 3)) (x : ℕ → ℤ) (hx : ∀ i < npix ^ 2, 0 ≤ x i ∧ x i < 2 ^ 31) :
    ∃ P W file metaFile C, generate ratio npix coeffs x = .ok (P, W) ∧ compile var P W = .ok (file, metaFile) ∧
      readZk file metaFile = .ok C ∧ ∀ (F : Type) [CommRing F], ∀ row < 2 ^ k, ∀ col < 2 ^ k,
        value C (C.depth - 1) (2 * (2 ^ k * col + row)) = Lanczos.scaled ratio (fun i => (coeffs.getD i 0 : F))
          (fun i j => (x (npix * i + j) : F)) row col := by
  obtain ⟨P, W, file, metaFile, C, h1, h2, h3, -, -, h6⟩ := C72_scales var ratio k hr hr' hsize coeffs hlen
    (fun c h => by have := hc c h; omega) npix hn x (fun i h => by have := hx i h; omega)
  refine ⟨P, W, file, metaFile, C, h1, h2, h3, fun F _ row hrow col hcol => ?_⟩
  rw [(h6 F row hrow col hcol).1]
  unfold Lanczos.scaled
  refine Finset.sum_congr rfl fun i hi => Finset.sum_congr rfl fun j hj => ?_
  rw [Finset.mem_range] at hi hj
  have hw : ∀ i < 4 * ratio, Lanczos.weight ratio (fun i => (readNumber (coeffs.getD i 0) : F)) i =
      Lanczos.weight ratio (fun i => (coeffs.getD i 0 : F)) i := by
    have hk : ∀ i < 2 * ratio, readNumber (coeffs.getD i 0) = coeffs.getD i 0 := by
      intro i hi
      rw [List.getD_eq_getElem?_getD, List.getElem?_eq_getElem (by omega)]
      obtain ⟨a, b⟩ := hc _ (List.getElem_mem (l := coeffs) (n := i) (by omega))
      exact readNumber_kept a b
    intro i hi
    unfold Lanczos.weight
    split <;> dsimp only <;> rw [hk _ (by omega)]
  have hin : npix * (ratio * row + i) + (ratio * col + j) < npix ^ 2 := by
    have key : ∀ {y a : ℕ}, y < 2 ^ k → a < 4 * ratio → ratio * y + a + 1 ≤ npix := by
      intro y a hy ha
      have : ratio * (y + 4) ≤ ratio * (2 ^ k + 3) := Nat.mul_le_mul_left _ (by omega)
      rw [hn]
      nlinarith
    have h1 := key hrow hi
    have h2 := key hcol hj
    have := Nat.mul_le_mul_left npix h1
    nlinarith
  obtain ⟨a, b⟩ := hx _ hin
  rw [hw i hi, hw j hj]
  dsimp only
  rw [readNumber_kept a b]

/-- what `filter_coeffs(1)` returns (lanczos2.py:14-30, computed apart from the model) -/
def coeffsOfOne : List ℤ := [39387136000, -4376297472]

/-- The numbers that the generator writes are not in that range: for the ratio 1 and an image of ones, the pixel that the circuit computes is
not the one of the filter. -/
theorem C73_false : ∃ P W file metaFile C, generate 1 4 coeffsOfOne (fun _ => 1) = .ok (P, W) ∧ compile .root P W = .ok (file, metaFile) ∧
    readZk file metaFile = .ok C ∧
      value C (C.depth - 1) 0 ≠ Lanczos.scaled 1 (fun i => (coeffsOfOne.getD i 0 : Fp)) (fun _ _ => 1) 0 0 := by
  obtain ⟨P, W, file, metaFile, C, h1, h2, h3, -, -, h6⟩ := C72_scales .root 1 0 (by decide) (by decide) (by decide) coeffsOfOne rfl
    (by decide) 4 rfl (fun _ => 1) (fun i _ => by decide)
  refine ⟨P, W, file, metaFile, C, h1, h2, h3, fun h => ?_⟩
  have := ((h6 Fp 0 (by decide) 0 (by decide)).1).symm.trans h
  have key : ∀ c : ℕ → ℤ, Lanczos.scaled 1 (fun i => (c i : Fp)) (fun _ _ => 1) 0 0 = (((2 * c 0 + 2 * c 1) ^ 2 : ℤ) : Fp) := by
    intro c
    simp [Lanczos.scaled, Lanczos.weight, Finset.sum_range_succ]
    ring
  have e1 : (readNumber 1 : Fp) = 1 := by norm_num [readNumber, int32, inputNumber]
  simp only [e1] at this
  rw [key (fun i => readNumber (coeffsOfOne.getD i 0)), key (fun i => coeffsOfOne.getD i 0)] at this
  exact absurd (Fp.intCast_inj this (by decide)) (by decide)

end Libra.Props
