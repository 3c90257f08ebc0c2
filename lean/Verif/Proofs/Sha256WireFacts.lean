import Verif.Proofs.Sha256Four

/-!
# The wiring of the SHA-256 program for four rounds
-/

namespace Libra.Sha256Gen
open Compiler Spec

/-- the variables `allocWires` returns -/
def theWires (randzero : Bool) : Wires where
  Wbits := [] :: ((vecs 35 15 32).map (· ++ [0, 0]) ++ vecs 515 48 34)
  W := List.range' 2147 64
  K := List.range' 2211 64
  H := List.range' 2275 8
  Hout := List.range' 2283 8
  HoutBits := vecs 2291 8 33
  d := List.range' 2555 17
  h := List.range' 2572 17
  init := vecs 2589 6 32
  a := vecs 2781 64 35
  e := vecs 5021 64 35
  r := List.range' 7261 (if randzero then 1064 else 0)

theorem allocWires_eq (r : Bool) : allocWires r 35 =
    .ok (theWires r, 7261 + (if r then 1064 else 0), { inVals := List.range' 35 (7226 + (if r then 1064 else 0)) }) := by
  unfold allocWires
  simp only [bind_def, pure_def, Gen.bind, Outcome.bind, repeatG_alloc, repeatG_allocN, allocN, Gen.pure, Log.append,
    List.append_nil, Nat.reduceAdd, Nat.reduceMul]
  have e : ∀ l l' : List ℕ, l = l' → ({ inVals := l } : Log) = { inVals := l' } := fun _ _ h => by rw [h]
  refine congrArg Outcome.ok (Prod.ext rfl (Prod.ext rfl (e _ _ ?_)))
  cases r <;> simp only [range'_join, Nat.reduceAdd, if_true, Bool.false_eq_true, if_false]

/-- the variables of block `b` without random numbers -/
def bo (b : ℕ) : List ℕ := blockOut (theWires false) b

/-- the variables of input `a` to `a + n - 1` of block `b` -/
def boSlice (b a n : ℕ) : List ℕ := ((bo b).drop a).take n

/-- the variables of the bits of word `i` -/
def wordVars (i : ℕ) : List ℕ := if i < 16 then List.range' (35 + 32 * (i - 1)) 32 else List.range' (515 + 34 * (i - 16)) 34

/-- the bits of word `i`, padded; `0` for word 0 -/
def padVars (i : ℕ) : List ℕ :=
  if i = 0 then List.replicate 34 0 else if i < 16 then wordVars i ++ [0, 0] else wordVars i

/-- bits of earlier words, `0` in the first four blocks -/
def oldVars (b i : ℕ) : List ℕ := if b < 4 then List.replicate 32 0 else (wordVars i).take 32

/-- the variables of block `b` in pieces -/
def segs (b : ℕ) : List (List ℕ) :=
  [[0], List.range' 2 33, [if b = 0 then 1 else 0], [if b < 4 then 0 else 1], [if b = 15 then 1 else 0],
   if b < 4 then [0, 0, 0, 0] else List.range' (2147 + (4 * b - 16)) 4,
   if b < 4 then [0, 0, 0, 0] else List.range' (2147 + (4 * b - 7)) 4,
   List.range' (2147 + 4 * b) 4,
   oldVars b (4 * b + 0 - 15), oldVars b (4 * b + 1 - 15), oldVars b (4 * b + 2 - 15), oldVars b (4 * b + 3 - 15),
   oldVars b (4 * b + 0 - 2), oldVars b (4 * b + 1 - 2),
   padVars (4 * b + 0), padVars (4 * b + 1), padVars (4 * b + 2), padVars (4 * b + 3),
   List.range' (2211 + 4 * b) 4, List.range' 2275 8, List.range' 2283 8,
   List.range' (2291 + 33 * 0) 33, List.range' (2291 + 33 * 1) 33, List.range' (2291 + 33 * 2) 33, List.range' (2291 + 33 * 3) 33,
   List.range' (2291 + 33 * 4) 33, List.range' (2291 + 33 * 5) 33, List.range' (2291 + 33 * 6) 33, List.range' (2291 + 33 * 7) 33,
   [2555 + b], [2572 + b],
   if b = 0 then List.range' 2589 32 else (List.range' (2781 + 35 * (4 * b - 1)) 35).take 32,
   if b = 0 then List.range' 2621 32 else (List.range' (2781 + 35 * (4 * b - 2)) 35).take 32,
   if b = 0 then List.range' 2653 32 else (List.range' (2781 + 35 * (4 * b - 3)) 35).take 32,
   if b = 0 then List.range' 2685 32 else (List.range' (5021 + 35 * (4 * b - 1)) 35).take 32,
   if b = 0 then List.range' 2717 32 else (List.range' (5021 + 35 * (4 * b - 2)) 35).take 32,
   if b = 0 then List.range' 2749 32 else (List.range' (5021 + 35 * (4 * b - 3)) 35).take 32,
   [2555 + (b + 1)], [2572 + (b + 1)],
   List.range' (2781 + 35 * (4 * b + 0)) 35, List.range' (2781 + 35 * (4 * b + 1)) 35, List.range' (2781 + 35 * (4 * b + 2)) 35,
   List.range' (2781 + 35 * (4 * b + 3)) 35,
   List.range' (5021 + 35 * (4 * b + 0)) 35, List.range' (5021 + 35 * (4 * b + 1)) 35, List.range' (5021 + 35 * (4 * b + 2)) 35,
   List.range' (5021 + 35 * (4 * b + 3)) 35]

/-- the lengths of the pieces -/
def lens : List ℕ :=
  [1, 33, 1, 1, 1, 4, 4, 4, 32, 32, 32, 32, 32, 32, 34, 34, 34, 34, 4, 8, 8, 33, 33, 33, 33, 33, 33, 33, 33, 1, 1, 32, 32, 32, 32, 32, 32,
   1, 1, 35, 35, 35, 35, 35, 35, 35, 35]

/-- the pieces are those of `blockOut` -/
def segsOk (b : ℕ) : Bool := bo b == (segs b).flatten && (segs b).map List.length == lens

theorem segsOk_true : ∀ b < 16, segsOk b = true := by decide +kernel

theorem bo_eq {b : ℕ} (hb : b < 16) : bo b = (segs b).flatten ∧ (segs b).map List.length = lens := by
  have := segsOk_true b hb
  rw [segsOk, Bool.and_eq_true, beq_iff_eq, beq_iff_eq] at this
  exact this

theorem bo_length (b : ℕ) (hb : b < 16) : (bo b).length = 1137 := by
  rw [(bo_eq hb).1, List.length_flatten, (bo_eq hb).2]; rfl

theorem seg {b : ℕ} (hb : b < 16) (k : ℕ) {s : List ℕ} {a n : ℕ} (hs : (segs b)[k]? = some s) (ha : (lens.take k).sum = a)
    (hn : lens[k]? = some n) : boSlice b a n = s := by
  have hl : s.length = n := by
    have : ((segs b).map List.length)[k]? = some s.length := by rw [List.getElem?_map, hs]; rfl
    rw [(bo_eq hb).2, hn] at this
    exact (Option.some.inj this).symm
  have hd : (segs b).drop k = s :: (segs b).drop (k + 1) := by
    obtain ⟨hk, e⟩ := List.getElem?_eq_some_iff.1 hs
    rw [List.drop_eq_getElem_cons hk, e]
  rw [boSlice, (bo_eq hb).1, ← ha, ← (bo_eq hb).2, List.drop_sum_flatten, hd, List.flatten_cons, List.take_left' hl]

theorem seg_getD {b : ℕ} (hb : b < 16) (k : ℕ) {s : List ℕ} {a n i : ℕ} (hs : (segs b)[k]? = some s) (ha : (lens.take k).sum = a)
    (hn : lens[k]? = some n) (hi : i < n) (h : a + n ≤ 1137) : (bo b).getD (a + i) 0 = s.getD i 0 := by
  rw [← seg hb k hs ha hn, boSlice, List.getD_eq_getElem?_getD, List.getD_eq_getElem?_getD, List.getElem?_take_of_lt hi, List.getElem?_drop]

theorem bo_zero (b : ℕ) (hb : b < 16) : (bo b).getD 0 0 = 0 := seg_getD hb 0 (a := 0) (i := 0) rfl rfl rfl (by decide) (by decide)
theorem bo_first (b : ℕ) (hb : b < 16) : (bo b).getD 34 0 = if b = 0 then 1 else 0 :=
  seg_getD hb 2 (a := 34) (i := 0) rfl rfl rfl (by decide) (by decide)
theorem bo_early (b : ℕ) (hb : b < 16) : (bo b).getD 35 0 = if b < 4 then 0 else 1 :=
  seg_getD hb 3 (a := 35) (i := 0) rfl rfl rfl (by decide) (by decide)
theorem bo_final (b : ℕ) (hb : b < 16) : (bo b).getD 36 0 = if b = 15 then 1 else 0 :=
  seg_getD hb 4 (a := 36) (i := 0) rfl rfl rfl (by decide) (by decide)
theorem bo_Wm16 (b : ℕ) (hb : b < 16) (h4 : 4 ≤ b) (i : ℕ) (hi : i < 4) : (bo b).getD (37 + i) 0 = 2147 + (4 * b + i - 16) := by
  rw [seg_getD hb 5 (a := 37) rfl rfl rfl hi (by decide), if_neg (by omega), getD_range' hi]
  omega
theorem bo_Wm7 (b : ℕ) (hb : b < 16) (h4 : 4 ≤ b) (i : ℕ) (hi : i < 4) : (bo b).getD (41 + i) 0 = 2147 + (4 * b + i - 7) := by
  rw [seg_getD hb 6 (a := 41) rfl rfl rfl hi (by decide), if_neg (by omega), getD_range' hi]
  omega
theorem bo_W (b : ℕ) (hb : b < 16) (i : ℕ) (hi : i < 4) : (bo b).getD (45 + i) 0 = 2147 + (4 * b + i) := by
  rw [seg_getD hb 7 (a := 45) rfl rfl rfl hi (by decide), getD_range' hi, Nat.add_assoc]
theorem bo_K (b : ℕ) (hb : b < 16) (i : ℕ) (hi : i < 4) : (bo b).getD (377 + i) 0 = 2211 + (4 * b + i) := by
  rw [seg_getD hb 18 (a := 377) rfl rfl rfl hi (by decide), getD_range' hi, Nat.add_assoc]
theorem bo_H (b : ℕ) (hb : b < 16) (i : ℕ) (hi : i < 8) : (bo b).getD (381 + i) 0 = 2275 + i := by
  rw [seg_getD hb 19 (a := 381) rfl rfl rfl hi (by decide), getD_range' hi]
theorem bo_Hout (b : ℕ) (hb : b < 16) (i : ℕ) (hi : i < 8) : (bo b).getD (389 + i) 0 = 2283 + i := by
  rw [seg_getD hb 20 (a := 389) rfl rfl rfl hi (by decide), getD_range' hi]
theorem bo_d (b : ℕ) (hb : b < 16) : (bo b).getD 661 0 = 2555 + b :=
  seg_getD hb 29 (a := 661) (i := 0) rfl rfl rfl (by decide) (by decide)
theorem bo_h (b : ℕ) (hb : b < 16) : (bo b).getD 662 0 = 2572 + b :=
  seg_getD hb 30 (a := 662) (i := 0) rfl rfl rfl (by decide) (by decide)
theorem bo_dOut (b : ℕ) (hb : b < 16) : (bo b).getD 855 0 = 2555 + (b + 1) :=
  seg_getD hb 37 (a := 855) (i := 0) rfl rfl rfl (by decide) (by decide)
theorem bo_hOut (b : ℕ) (hb : b < 16) : (bo b).getD 856 0 = 2572 + (b + 1) :=
  seg_getD hb 38 (a := 856) (i := 0) rfl rfl rfl (by decide) (by decide)

theorem bo_B15 (b : ℕ) (hb : b < 16) (i : ℕ) (hi : i < 4) : boSlice b (49 + 32 * i) 32 = oldVars b (4 * b + i - 15) := by
  interval_cases i
  exacts [seg hb 8 rfl rfl rfl, seg hb 9 rfl rfl rfl, seg hb 10 rfl rfl rfl, seg hb 11 rfl rfl rfl]
theorem bo_B2 (b : ℕ) (hb : b < 16) (i : ℕ) (hi : i < 2) : boSlice b (177 + 32 * i) 32 = oldVars b (4 * b + i - 2) := by
  interval_cases i
  exacts [seg hb 12 rfl rfl rfl, seg hb 13 rfl rfl rfl]
theorem bo_B (b : ℕ) (hb : b < 16) (i : ℕ) (hi : i < 4) : boSlice b (241 + 34 * i) 34 = padVars (4 * b + i) := by
  interval_cases i
  exacts [seg hb 14 rfl rfl rfl, seg hb 15 rfl rfl rfl, seg hb 16 rfl rfl rfl, seg hb 17 rfl rfl rfl]
theorem bo_Ho (b : ℕ) (hb : b < 16) (i : ℕ) (hi : i < 8) : boSlice b (397 + 33 * i) 33 = List.range' (2291 + 33 * i) 33 := by
  interval_cases i
  exacts [seg hb 21 rfl rfl rfl, seg hb 22 rfl rfl rfl, seg hb 23 rfl rfl rfl, seg hb 24 rfl rfl rfl, seg hb 25 rfl rfl rfl,
    seg hb 26 rfl rfl rfl, seg hb 27 rfl rfl rfl, seg hb 28 rfl rfl rfl]
theorem bo_a (b : ℕ) (hb : b < 16) : boSlice b 663 32 =
    if b = 0 then List.range' 2589 32 else (List.range' (2781 + 35 * (4 * b - 1)) 35).take 32 := seg hb 31 rfl rfl rfl
theorem bo_b (b : ℕ) (hb : b < 16) : boSlice b 695 32 =
    if b = 0 then List.range' 2621 32 else (List.range' (2781 + 35 * (4 * b - 2)) 35).take 32 := seg hb 32 rfl rfl rfl
theorem bo_c (b : ℕ) (hb : b < 16) : boSlice b 727 32 =
    if b = 0 then List.range' 2653 32 else (List.range' (2781 + 35 * (4 * b - 3)) 35).take 32 := seg hb 33 rfl rfl rfl
theorem bo_e (b : ℕ) (hb : b < 16) : boSlice b 759 32 =
    if b = 0 then List.range' 2685 32 else (List.range' (5021 + 35 * (4 * b - 1)) 35).take 32 := seg hb 34 rfl rfl rfl
theorem bo_f (b : ℕ) (hb : b < 16) : boSlice b 791 32 =
    if b = 0 then List.range' 2717 32 else (List.range' (5021 + 35 * (4 * b - 2)) 35).take 32 := seg hb 35 rfl rfl rfl
theorem bo_g (b : ℕ) (hb : b < 16) : boSlice b 823 32 =
    if b = 0 then List.range' 2749 32 else (List.range' (5021 + 35 * (4 * b - 3)) 35).take 32 := seg hb 36 rfl rfl rfl
theorem bo_A (b : ℕ) (hb : b < 16) (i : ℕ) (hi : i < 4) : boSlice b (857 + 35 * i) 35 = List.range' (2781 + 35 * (4 * b + i)) 35 := by
  interval_cases i
  exacts [seg hb 39 rfl rfl rfl, seg hb 40 rfl rfl rfl, seg hb 41 rfl rfl rfl, seg hb 42 rfl rfl rfl]
theorem bo_E (b : ℕ) (hb : b < 16) (i : ℕ) (hi : i < 4) : boSlice b (997 + 35 * i) 35 = List.range' (5021 + 35 * (4 * b + i)) 35 := by
  interval_cases i
  exacts [seg hb 43 rfl rfl rfl, seg hb 44 rfl rfl rfl, seg hb 45 rfl rfl rfl, seg hb 46 rfl rfl rfl]

end Libra.Sha256Gen
