import Verif.Model.Gen
import Verif.Proofs.AddMultFile

/-!
# The files written by `bin/gen.cpp`
-/

namespace Libra.Gen
open Libra Spec Reader Matmul

/-! ## counting characters -/

theorem digits_pos (x : ℕ) : 1 ≤ digits x := by
  rw [digits]; split_ifs <;> omega

theorem digits_le {k : ℕ} : ∀ x : ℕ, x < 10 ^ (k + 1) → digits x ≤ k + 1 := by
  induction k with
  | zero => intro x hx; rw [digits, dif_pos (by simpa using hx)]
  | succ k ih =>
    intro x hx
    rw [digits]
    split_ifs with h
    · omega
    · have := ih (x / 10) (by rw [pow_succ] at hx; omega)
      omega

theorem dec_pos (x : ℤ) : 1 ≤ dec x := by
  have := digits_pos x.natAbs
  rw [dec]; split_ifs <;> omega

theorem dec_nat {k : ℕ} {x : ℕ} (h : x < 10 ^ (k + 1)) : dec (x : ℤ) ≤ k + 1 := by
  rw [dec, if_neg (by omega), Int.natAbs_natCast]
  exact digits_le x h

theorem dec_int {k : ℕ} {x : ℤ} (h0 : 0 ≤ x) (h : x < 10 ^ (k + 1)) : dec x ≤ k + 1 := by
  obtain ⟨y, rfl⟩ := Int.eq_ofNat_of_zero_le h0
  exact dec_nat (by exact_mod_cast h)

/-! ## loops that print -/

/-- `s` prints the numbers `l` and between `lo` and `hi` characters -/
def Prints (s : Out → Out) (l : List ℤ) (lo hi : ℕ) : Prop :=
  ∀ o, ∃ n, s o = ⟨o.file ++ l, n⟩ ∧ o.len + lo ≤ n ∧ n ≤ o.len + hi

theorem prints_loop {body : ℕ → Out → Out} {f : ℕ → List ℤ} {lo hi : ℕ} (n : ℕ)
    (h : ∀ i < n, Prints (body i) (f i) lo hi) :
    Prints (loop n body) ((List.range n).flatMap f) (n * lo) (n * hi) := by
  induction n with
  | zero => intro o; exact ⟨o.len, by simp [loop], by simp⟩
  | succ n ih =>
    intro o
    obtain ⟨l1, e1, a1, b1⟩ := ih (fun i hi => h i (by omega)) o
    obtain ⟨l2, e2, a2, b2⟩ := h n (by omega) ⟨o.file ++ (List.range n).flatMap f, l1⟩
    refine ⟨l2, ?_, ?_, ?_⟩
    · rw [loop, e1, e2, List.range_succ]; simp
    · dsimp only at a2; rw [Nat.succ_mul]; omega
    · dsimp only at b2; rw [Nat.succ_mul]; omega

theorem prints_put {ty : ℕ} (hty : ty < 10) {g u v : ℤ} {k : ℕ} (hg : dec g ≤ k) (hu : dec u ≤ k)
    (hv : dec v ≤ k) : Prints (put ty g u v) [(ty : ℤ), g, u, v] 8 (3 * k + 5) := by
  intro o
  have h1 : dec (ty : ℤ) ≤ 1 := dec_nat (k := 0) (by simpa using hty)
  have := dec_pos ty
  have := dec_pos g
  have := dec_pos u
  have := dec_pos v
  refine ⟨_, rfl, ?_, ?_⟩ <;> omega

theorem prints_putWide {ty : ℕ} (hty : ty < 10) {g u : ℤ} {k : ℕ} (hg : dec g ≤ k) (hu : dec u ≤ 10) :
    Prints (putWide ty g u 0) [(ty : ℤ), g, u, 0] 17 (k + 16) := by
  intro o
  have h1 : dec (ty : ℤ) ≤ 1 := dec_nat (k := 0) (by simpa using hty)
  have h2 : dec (0 : ℤ) ≤ 1 := dec_nat (k := 0) (x := 0) (by norm_num)
  have := dec_pos ty
  have := dec_pos g
  have := dec_pos 0
  have h3 : dec10 u = 10 := by rw [dec10]; omega
  refine ⟨_, rfl, ?_, ?_⟩ <;> rw [h3] <;> omega

theorem prints_comp {s t : Out → Out} {l m : List ℤ} {a b c d : ℕ} (hs : Prints s l a b)
    (ht : Prints t m c d) : Prints (fun o => t (s o)) (l ++ m) (a + c) (b + d) := by
  intro o
  obtain ⟨n1, e1, a1, b1⟩ := hs o
  obtain ⟨n2, e2, a2, b2⟩ := ht ⟨o.file ++ l, n1⟩
  refine ⟨n2, ?_, ?_, ?_⟩
  · dsimp only; rw [e1, e2]; simp
  · dsimp only at a2; omega
  · dsimp only at b2; omega

theorem prints_count {n k : ℕ} (h : dec n ≤ k) : Prints (putCount n) [(n : ℤ)] 2 (k + 1) := by
  intro o
  have := dec_pos n
  refine ⟨_, rfl, ?_, ?_⟩ <;> omega

theorem prints_layer {n k : ℕ} {body : Out → Out} {L : List Line} {lo hi : ℕ} (hn : n = L.length)
    (h : dec n ≤ k) (hb : Prints body (L.flatMap Line.tokens) lo hi) :
    Prints (fun o => body (putCount n o)) (layerTokens L) (2 + lo) (k + 1 + hi) := by
  have := prints_comp (prints_count h) hb
  rw [hn] at this ⊢
  exact this

theorem newline_ok {o : Out} (h : o.len + 1 < 2 ^ 31) : newline o = .ok ⟨o.file, o.len + 1⟩ := by
  rw [newline, if_pos h]

/-! ## three nested loops over one index -/

theorem flatMap_mul3 (a b c : ℕ) (f : ℕ → List ℤ) :
    (List.range a).flatMap (fun i => (List.range b).flatMap (fun j => (List.range c).flatMap
      (fun k => f (i * b * c + j * c + k)))) = (List.range (a * b * c)).flatMap f := by
  rw [flatMap_mul (a * b) c, flatMap_mul a b]
  refine List.flatMap_congr (fun i _ => List.flatMap_congr (fun j _ => List.flatMap_congr (fun k _ => ?_)))
  congr 1
  ring

theorem index3_lt {a b c i j k : ℕ} (hi : i < a) (hj : j < b) (hk : k < c) :
    i * b * c + j * c + k < a * b * c := by
  calc i * b * c + j * c + k < i * b * c + j * c + c := by omega
    _ = (i * b + (j + 1)) * c := by ring
    _ ≤ (i * b + b) * c := Nat.mul_le_mul_right _ (by omega)
    _ = (i + 1) * (b * c) := by ring
    _ ≤ a * (b * c) := Nat.mul_le_mul_right _ hi
    _ = a * b * c := by ring

theorem prints_loop3 {body : ℕ → ℕ → ℕ → Out → Out} {f : ℕ → List ℤ} {lo hi : ℕ} (a b c : ℕ)
    (h : ∀ i < a, ∀ j < b, ∀ k < c, Prints (body i j k) (f (i * b * c + j * c + k)) lo hi) :
    Prints (loop a (fun i => loop b (fun j => loop c (body i j)))) ((List.range (a * b * c)).flatMap f)
      (a * (b * (c * lo))) (a * (b * (c * hi))) := by
  rw [← flatMap_mul3]
  exact prints_loop a (fun i hi => prints_loop b (fun j hj => prints_loop c (fun k hk => h i hi j hj k hk)))

/-! ## the lines -/

/-- a gate on the two neighbours `2 g` and `2 g + 1` -/
def pairLine (ty : ℤ) (g : ℕ) : Line := ⟨ty, g, (g * 2 : ℕ), (g * 2 + 1 : ℕ)⟩

/-- the inputs of mode 2 -/
def entryLine (n : ℕ) (A B : ℕ → ℕ → ℤ) (g : ℕ) : Line :=
  if g % 2 = 0 then ⟨3, g, A (g / 2 / (n * n)) (g / 2 % n), 0⟩
  else ⟨3, g, B (g / 2 % n) (g / 2 / n % n), 0⟩

/-- layer `t` of the addition tree of mode 2 -/
def treeLayer (n t : ℕ) : List Line := (List.range (n * n * (n / 2 ^ (t + 1)))).map (pairLine 0)

/-- the file of mode 2 for `n = 2^lg` -/
def file2 (n lg : ℕ) (A B : ℕ → ℕ → ℤ) : File :=
  (List.range (n * n * n * 2)).map (entryLine n A B) :: (List.range (n * n * n)).map (pairLine 1) ::
    (List.range lg).map (treeLayer n)

/-- the file of mode 0 -/
def file0 (d w : ℕ) (rand : ℕ → ℤ) : File :=
  (List.range (2 ^ w)).map (fun j : ℕ => ⟨3, j, rand j, 0⟩) ::
    (List.replicate (d - 2) ((List.range (2 ^ w)).map (fun j : ℕ => ⟨8, j, j, 0⟩)) ++
      [(List.range (2 ^ (w - 1))).map (fun j : ℕ => ⟨10, j, (j * 2 : ℕ), 0⟩)])

/-- the file of mode 1 -/
def file1 (d w : ℕ) (rand : ℕ → ℤ) : File :=
  (List.range (2 ^ w)).map (fun j : ℕ => ⟨3, j, rand j, 0⟩) ::
    (List.replicate (d - 2) ((List.range (2 ^ w)).map (fun j : ℕ => ⟨0, j, j, j⟩)) ++
      [(List.range (2 ^ (w - 1))).map (pairLine 1)])

theorem triple_div {n i j k : ℕ} (hj : j < n) (hk : k < n) :
    (i * n * n + j * n + k) / (n * n) = i ∧ (i * n * n + j * n + k) % n = k ∧
      (i * n * n + j * n + k) / n % n = j := by
  have hlt : j * n + k < n * n := by
    calc j * n + k < j * n + n := by omega
      _ = (j + 1) * n := by ring
      _ ≤ n * n := Nat.mul_le_mul_right _ hj
  refine ⟨?_, ?_, ?_⟩
  · rw [show i * n * n + j * n + k = n * n * i + (j * n + k) by ring, Nat.mul_add_div (by omega),
      Nat.div_eq_of_lt hlt, Nat.add_zero]
  · rw [show i * n * n + j * n + k = n * (i * n + j) + k by ring, Nat.mul_add_mod,
      Nat.mod_eq_of_lt hk]
  · rw [show i * n * n + j * n + k = n * (n * i + j) + k by ring, Nat.mul_add_div (by omega),
      Nat.div_eq_of_lt hk, Nat.add_zero, Nat.mul_add_mod, Nat.mod_eq_of_lt hj]

/-! ## mode 2 -/

/-- the sizes for which `str_length` does not overflow -/
theorem cube_le {n : ℕ} (h : n ≤ 2 ^ 8) : n * n ≤ 2 ^ 16 ∧ n * n * n ≤ 2 ^ 24 := by
  have h2 : n * n ≤ 2 ^ 16 := le_trans (Nat.mul_le_mul h h) (by norm_num)
  exact ⟨h2, le_trans (Nat.mul_le_mul h2 h) (by norm_num)⟩

theorem prints_entries {n c : ℕ} (hn : n * n * n * 2 ≤ 10 ^ (c + 1)) {A B : ℕ → ℕ → ℤ}
    (hA : ∀ i < n, ∀ j < n, dec (A i j) ≤ 10) (hB : ∀ i < n, ∀ j < n, dec (B i j) ≤ 10) :
    Prints (loop n (fun i => loop n (fun j => loop n (fun k o =>
      putWide 3 (2 * (i * n * n + j * n + k) + 1 : ℕ) (B k j) 0
        (putWide 3 (2 * (i * n * n + j * n + k) + 0 : ℕ) (A i k) 0 o)))))
      (((List.range (n * n * n * 2)).map (entryLine n A B)).flatMap Line.tokens)
      (n * (n * (n * 34))) (n * (n * (n * (c + 1 + 16 + (c + 1 + 16))))) := by
  rw [List.flatMap_map, flatMap_mul (n * n * n) 2]
  refine prints_loop3 (f := fun x => (List.range 2).flatMap
    (fun a => (entryLine n A B (x * 2 + a)).tokens)) n n n (fun i hi j hj k hk => ?_)
  obtain ⟨e1, e2, e3⟩ := triple_div (i := i) hj hk
  have hlt := index3_lt hi hj hk
  have hl : (List.range 2).flatMap (fun a => (entryLine n A B ((i * n * n + j * n + k) * 2 + a)).tokens) =
      [((3 : ℕ) : ℤ), ((2 * (i * n * n + j * n + k) + 0 : ℕ) : ℤ), A i k, 0] ++
      [((3 : ℕ) : ℤ), ((2 * (i * n * n + j * n + k) + 1 : ℕ) : ℤ), B k j, 0] := by
    rw [show List.range 2 = [0, 1] from rfl]
    simp only [List.flatMap_cons, List.flatMap_nil, List.append_nil]
    rw [entryLine, if_pos (by omega), entryLine, if_neg (by omega),
      show ((i * n * n + j * n + k) * 2 + 0) / 2 = i * n * n + j * n + k by omega,
      show ((i * n * n + j * n + k) * 2 + 1) / 2 = i * n * n + j * n + k by omega, e1, e2, e3,
      Nat.mul_comm _ 2]
    rfl
  rw [hl]
  have p1 := prints_putWide (ty := 3) (g := ((2 * (i * n * n + j * n + k) + 0 : ℕ) : ℤ)) (by norm_num)
    (dec_nat (k := c) (by omega)) (hA i hi k hk)
  have p2 := prints_putWide (ty := 3) (g := ((2 * (i * n * n + j * n + k) + 1 : ℕ) : ℤ)) (by norm_num)
    (dec_nat (k := c) (by omega)) (hB k hk j hj)
  exact prints_comp p1 p2

theorem prints_pairs {ty : ℕ} (hty : ty < 10) {a b c : ℕ} (h : a * b * c ≤ 2 ^ 25) :
    Prints (loop a (fun i => loop b (fun j => loop c (fun k =>
      let id := i * b * c + j * c + k
      put ty id (id * 2 : ℕ) (id * 2 + 1 : ℕ)))))
      (((List.range (a * b * c)).map (pairLine ty)).flatMap Line.tokens)
      (a * (b * (c * 8))) (a * (b * (c * 29))) := by
  rw [List.flatMap_map]
  refine prints_loop3 (f := fun x => (pairLine ty x).tokens) a b c (fun i hi j hj k hk => ?_)
  have hlt := index3_lt hi hj hk
  exact prints_put hty (dec_nat (k := 7) (by omega)) (dec_nat (k := 7) (by omega))
    (dec_nat (k := 7) (by omega))

theorem treeStep_eq {n lg dep x : ℕ} (hn : n * n * (x / 2) ≤ 2 ^ 24) (o : Out) (m : List ℤ) :
    ∃ len m', treeStep n lg dep (o, m, x) = .ok (⟨o.file ++ layerTokens
      ((List.range (n * n * (x / 2))).map (pairLine 0)), len⟩, m ++ m', x / 2) := by
  have hc : x / 2 * n * n = n * n * (x / 2) := by ring
  have h := prints_layer (n := x / 2 * n * n) (k := 8) (L := (List.range (n * n * (x / 2))).map (pairLine 0))
    (by simp [hc]) (dec_nat (k := 7) (by rw [hc]; omega))
    (prints_pairs (ty := 0) (a := n) (b := n) (c := x / 2) (by norm_num) (by omega))
  obtain ⟨len, e, -, hle⟩ := h (reset o)
  rw [show n * (n * (x / 2 * 29)) = n * n * (x / 2) * 29 by ring] at hle
  simp only [reset] at hle e
  refine ⟨len + 1, metaLine (x / 2) (n * n) (lg - dep - 1) (2 * lg) ⟨o.file ++ layerTokens
      ((List.range (n * n * (x / 2))).map (pairLine 0)), len + 1⟩, ?_⟩
  unfold treeStep
  dsimp only at e ⊢
  rw [show reset o = ⟨o.file, 0⟩ from rfl]
  push_cast at e ⊢
  erw [e, newline_ok (by dsimp only; omega)]
  rfl

theorem tree_eq {n lg : ℕ} (hk : n = 2 ^ lg) (hlg : lg ≤ 8) (o : Out) (m : List ℤ) (t : ℕ) (ht : t ≤ lg) :
    ∃ len m', loopM t (treeStep n lg) (o, m, n) = .ok (⟨o.file ++ (List.range t).flatMap
      (fun t => layerTokens (treeLayer n t)), len⟩, m ++ m', n / 2 ^ t) := by
  induction t with
  | zero => exact ⟨o.len, [], by simp [loopM]⟩
  | succ t ih =>
    have hn : n ≤ 2 ^ 8 := by rw [hk]; exact Nat.pow_le_pow_right (by norm_num) hlg
    obtain ⟨h2, h3⟩ := cube_le hn
    have hd : n / 2 ^ t / 2 = n / 2 ^ (t + 1) := by rw [Nat.div_div_eq_div_mul, pow_succ]
    obtain ⟨l1, m1, e1⟩ := ih (by omega)
    have hb : n * n * (n / 2 ^ t / 2) ≤ 2 ^ 24 := by
      rw [hd]
      exact le_trans (Nat.mul_le_mul_left _ (Nat.div_le_self _ _)) h3
    obtain ⟨l2, m2, e2⟩ := treeStep_eq (lg := lg) (dep := t) hb
      ⟨o.file ++ (List.range t).flatMap (fun t => layerTokens (treeLayer n t)), l1⟩ (m ++ m1)
    refine ⟨l2, m1 ++ m2, ?_⟩
    rw [loopM, e1]
    refine Eq.trans e2 ?_
    rw [hd, List.range_succ]
    simp [treeLayer]

theorem mode2_eq {n lg : ℕ} (hk : n = 2 ^ lg) (hlg : lg ≤ 8) {A B : ℕ → ℕ → ℤ}
    (hA : ∀ i < n, ∀ j < n, dec (A i j) ≤ 10) (hB : ∀ i < n, ∀ j < n, dec (B i j) ≤ 10) :
    ∃ (len : ℕ) (rest : List ℤ), 31 ≤ len ∧ len < 2 ^ 31 ∧ mode2 n A B = .ok (tokens (file2 n lg A B),
      [((n * 2 : ℕ) : ℤ), ((n * n : ℕ) : ℤ), ((lg + 1 : ℕ) : ℤ), ((2 * lg : ℕ) : ℤ), (len : ℤ)] ++ rest) := by
  have hn : n ≤ 2 ^ 8 := by rw [hk]; exact Nat.pow_le_pow_right (by norm_num) hlg
  have hpos : 1 ≤ n := by rw [hk]; exact Nat.one_le_two_pow
  obtain ⟨h2, h3⟩ := cube_le hn
  have h2' : 1 ≤ n * n := Nat.mul_pos hpos hpos
  have h3' : 1 ≤ n * n * n := Nat.mul_pos h2' hpos
  have hlog : logOf n = lg := by rw [logOf, hk, Nat.log_pow (by norm_num)]
  have p1 := prints_layer (n := n * n * n * 2) (k := 8) (L := (List.range (n * n * n * 2)).map (entryLine n A B))
    (by simp) (dec_nat (k := 7) (by omega)) (prints_entries (c := 7) (by omega) hA hB)
  have p2 := prints_layer (n := n * n * n) (k := 8) (L := (List.range (n * n * n)).map (pairLine 1))
    (by simp) (dec_nat (k := 7) (by omega))
    (prints_pairs (ty := 1) (a := n) (b := n) (c := n) (by norm_num) (by omega))
  obtain ⟨l1, e1, a1, b1⟩ := p1 ⟨[((1 + 1 + lg : ℕ) : ℤ)], 0⟩
  rw [show n * (n * (n * 34)) = n * n * n * 34 by ring] at a1
  rw [show n * (n * (n * (7 + 1 + 16 + (7 + 1 + 16)))) = n * n * n * 48 by ring] at b1
  dsimp only at a1 b1 e1
  obtain ⟨l2, e2, a2, b2⟩ := p2 ⟨[((1 + 1 + lg : ℕ) : ℤ)] ++ layerTokens
    ((List.range (n * n * n * 2)).map (entryLine n A B)), 0⟩
  rw [show n * (n * (n * 29)) = n * n * n * 29 by ring] at b2
  dsimp only at a2 b2 e2
  obtain ⟨l3, m3, e3⟩ := tree_eq hk hlg ⟨[((1 + 1 + lg : ℕ) : ℤ)] ++ layerTokens
    ((List.range (n * n * n * 2)).map (entryLine n A B)) ++ layerTokens
    ((List.range (n * n * n)).map (pairLine 1)), l2 + 1⟩
    (metaLine (n * 2) (n * n) (lg + 1) (2 * lg) ⟨[((1 + 1 + lg : ℕ) : ℤ)] ++ layerTokens
    ((List.range (n * n * n * 2)).map (entryLine n A B)), l1 + 1⟩ ++
    metaLine n (n * n) lg (2 * lg) ⟨[((1 + 1 + lg : ℕ) : ℤ)] ++ layerTokens
    ((List.range (n * n * n * 2)).map (entryLine n A B)) ++ layerTokens
    ((List.range (n * n * n)).map (pairLine 1)), l2 + 1⟩) lg le_rfl
  refine ⟨l1 + 1, metaLine n (n * n) lg (2 * lg) ⟨[((1 + 1 + lg : ℕ) : ℤ)] ++ layerTokens
    ((List.range (n * n * n * 2)).map (entryLine n A B)) ++ layerTokens
    ((List.range (n * n * n)).map (pairLine 1)), l2 + 1⟩ ++ m3, by omega, by omega, ?_⟩
  rw [mode2, hlog, show popcount n = 1 by rw [hk, popcount_pow]]
  change (if 2 ^ 31 ≤ n * n * n * 2 then Outcome.undefined else _) = _
  rw [if_neg (by omega), e1, newline_ok (by dsimp only; omega)]
  dsimp only [bind, Outcome.bind]
  erw [e2, newline_ok (by dsimp only; omega)]
  dsimp only
  erw [e3]
  dsimp only [pure]
  have ht : tokens (file2 n lg A B) = [((1 + 1 + lg : ℕ) : ℤ)] ++ layerTokens
      ((List.range (n * n * n * 2)).map (entryLine n A B)) ++ layerTokens
      ((List.range (n * n * n)).map (pairLine 1)) ++
      (List.range lg).flatMap (fun t => layerTokens (treeLayer n t)) := by
    rw [tokens, file2]
    simp only [List.flatMap_cons, List.flatMap_map, List.length_cons, List.length_map, List.length_range,
      List.append_assoc]
    rw [show lg + 1 + 1 = 1 + 1 + lg by omega]
    rfl
  rw [ht, List.append_assoc]
  rfl

/-! ## modes 0 and 1 -/

/-- `s` prints the numbers `l` -/
def Writes (s : Out → Out) (l : List ℤ) : Prop := ∀ o, (s o).file = o.file ++ l

theorem writes_loop {body : ℕ → Out → Out} {f : ℕ → List ℤ} (n : ℕ)
    (h : ∀ i < n, Writes (body i) (f i)) : Writes (loop n body) ((List.range n).flatMap f) := by
  induction n with
  | zero => intro o; simp [loop]
  | succ n ih =>
    intro o
    rw [loop, h n (by omega), ih (fun i hi => h i (by omega)), List.range_succ]
    simp

theorem writes_layer {n : ℕ} {body : ℕ → Out → Out} (f : ℕ → Line)
    (h : ∀ i < n, Writes (body i) (f i).tokens) :
    Writes (fun o => loop n body (putCount n o)) (layerTokens ((List.range n).map f)) := by
  intro o
  have := writes_loop n h (putCount n o)
  dsimp only
  rw [this, layerTokens, List.flatMap_map, List.length_map, List.length_range]
  simp [putCount]

theorem flatMap_replicate {α β : Type} (n : ℕ) (x : α) (f : α → List β) :
    (List.replicate n x).flatMap f = (List.range n).flatMap (fun _ => f x) := by
  induction n with
  | zero => rfl
  | succ n ih => rw [List.range_succ, List.replicate_succ', List.flatMap_append, ih]; simp

theorem mode0_eq {d w : ℕ} (hd : 2 ≤ d) (hw : 1 ≤ w) (hw' : w ≤ 30) (rand : ℕ → ℤ) :
    mode0 d w rand = .ok (tokens (file0 d w rand)) := by
  rw [mode0, if_neg (by omega)]
  have h1 := writes_layer (n := 2 ^ w) (body := fun j => put 3 j (rand j) 0)
    (fun j : ℕ => ⟨3, j, rand j, 0⟩) (fun i _ o => rfl)
  have h2 := writes_layer (n := 2 ^ w) (body := fun j => put 8 j j 0)
    (fun j : ℕ => ⟨8, j, j, 0⟩) (fun i _ o => rfl)
  have h3 := writes_layer (n := 2 ^ (w - 1)) (body := fun j => put 10 j (j <<< 1 : ℕ) 0)
    (fun j : ℕ => ⟨10, j, (j * 2 : ℕ), 0⟩) (fun i _ o => by
      rw [show i <<< 1 = i * 2 from Nat.shiftLeft_eq _ _]; rfl)
  have h2' := writes_loop (d - 2) (fun i _ => h2)
  dsimp only
  have e1 := h1 ⟨[(d : ℤ)], 0⟩
  have e2 := h2' (loop (2 ^ w) (fun j => put 3 j (rand j) 0) (putCount (2 ^ w) ⟨[(d : ℤ)], 0⟩))
  have e3 := h3 (loop (d - 2) (fun _ o => loop (2 ^ w) (fun j => put 8 j j 0) (putCount (2 ^ w) o))
    (loop (2 ^ w) (fun j => put 3 j (rand j) 0) (putCount (2 ^ w) ⟨[(d : ℤ)], 0⟩)))
  dsimp only at e1 e2 e3
  rw [e3, e2, e1, tokens, file0]
  simp only [List.flatMap_cons, List.flatMap_append, flatMap_replicate, List.flatMap_nil, List.append_nil,
    List.length_cons, List.length_append, List.length_replicate, List.length_nil]
  rw [show d - 2 + (0 + 1) + 1 = d by omega]
  simp

theorem mode1_eq {d w : ℕ} (hd : 2 ≤ d) (hw : 6 ≤ w) (hw' : w ≤ 26) {rand : ℕ → ℤ}
    (hr : ∀ j < 2 ^ w, dec (rand j) ≤ 10) :
    ∃ (len : ℕ) (rest : List ℤ), 31 ≤ len ∧ len < 2 ^ 31 ∧ mode1 d w rand = .ok (tokens (file1 d w rand),
      [32, ((2 ^ (w - 5) : ℕ) : ℤ), 5, ((w - 5 : ℕ) : ℤ), (len : ℤ)] ++ rest) := by
  have hN : 2 ^ w ≤ 2 ^ 26 := Nat.pow_le_pow_right (by norm_num) hw'
  have hN' : 2 ^ 6 ≤ 2 ^ w := Nat.pow_le_pow_right (by norm_num) hw
  have hB : 2 ^ w = 2 ^ (w - 5) * 32 := by rw [show (32 : ℕ) = 2 ^ 5 by rfl, ← pow_add]; congr 1; omega
  have hM : 2 ^ (w - 1) = 2 ^ (w - 5) * 16 := by
    rw [show (16 : ℕ) = 2 ^ 4 by rfl, ← pow_add]; congr 1; omega
  have hd1 : 2 ^ w / 2 ^ (w - 5) = 32 := by rw [hB, Nat.mul_div_cancel_left _ (by positivity)]
  have hd2 : 2 ^ (w - 1) / 2 ^ (w - 5) = 16 := by rw [hM, Nat.mul_div_cancel_left _ (by positivity)]
  have p1 := prints_layer (n := 2 ^ w) (k := 8) (L := (List.range (2 ^ w)).map (fun j : ℕ => ⟨3, j, rand j, 0⟩))
    (by simp) (dec_nat (k := 7) (by omega)) (by
      rw [List.flatMap_map]
      exact prints_loop (body := fun j => putWide 3 j (rand j) 0) (2 ^ w) (fun j hj =>
        prints_putWide (ty := 3) (by norm_num) (dec_nat (k := 7) (by omega)) (hr j hj)))
  have p2 := prints_layer (n := 2 ^ w) (k := 8) (L := (List.range (2 ^ w)).map (fun j : ℕ => ⟨0, j, j, j⟩))
    (by simp) (dec_nat (k := 7) (by omega)) (by
      rw [List.flatMap_map]
      exact prints_loop (body := fun j => put 0 j j j) (2 ^ w) (fun j hj =>
        prints_put (ty := 0) (by norm_num) (dec_nat (k := 7) (by omega)) (dec_nat (k := 7) (by omega))
          (dec_nat (k := 7) (by omega))))
  have p3 := prints_layer (n := 2 ^ (w - 1)) (k := 8) (L := (List.range (2 ^ (w - 1))).map (pairLine 1))
    (by simp) (dec_nat (k := 7) (by omega)) (by
      rw [List.flatMap_map, hM, flatMap_mul]
      exact prints_loop (body := fun i => loop 16 (fun j =>
          put 1 (i * 16 + j : ℕ) (i * 16 * 2 + j * 2 : ℕ) (i * 16 * 2 + j * 2 + 1 : ℕ))) (2 ^ (w - 5))
        (fun i hi => prints_loop 16 (fun j hj => by
          have h1 : i * 16 + j < 2 ^ (w - 5) * 16 := by omega
          have := prints_put (ty := 1) (g := (i * 16 + j : ℕ)) (u := (i * 16 * 2 + j * 2 : ℕ))
            (v := (i * 16 * 2 + j * 2 + 1 : ℕ)) (by norm_num) (dec_nat (k := 7) (by omega))
            (dec_nat (k := 7) (by omega)) (dec_nat (k := 7) (by omega))
          rw [show (pairLine 1 (i * 16 + j)).tokens = [((1 : ℕ) : ℤ), ((i * 16 + j : ℕ) : ℤ),
            ((i * 16 * 2 + j * 2 : ℕ) : ℤ), ((i * 16 * 2 + j * 2 + 1 : ℕ) : ℤ)] by
              rw [show i * 16 * 2 + j * 2 = (i * 16 + j) * 2 by ring]; rfl]
          exact this)))
  obtain ⟨l1, e1, a1, b1⟩ := p1 ⟨[(d : ℤ)], 0⟩
  dsimp only at a1 b1 e1
  have mid : ∀ (o : Out) (m : List ℤ) (t : ℕ), ∃ len m', loopM t (doubleStep w) (o, m) =
      .ok (⟨o.file ++ (List.range t).flatMap (fun _ => layerTokens
        ((List.range (2 ^ w)).map (fun j : ℕ => ⟨0, j, j, j⟩))), len⟩, m ++ m') := by
    intro o m t
    induction t with
    | zero => exact ⟨o.len, [], by simp [loopM]⟩
    | succ t ih =>
      obtain ⟨len, m', e⟩ := ih
      obtain ⟨l2, e2, a2, b2⟩ := p2 ⟨o.file ++ (List.range t).flatMap (fun _ => layerTokens
        ((List.range (2 ^ w)).map (fun j : ℕ => ⟨0, j, j, j⟩))), 0⟩
      dsimp only at e2 b2
      refine ⟨l2 + 1, m' ++ metaLine (2 ^ w / 2 ^ (w - 5)) (2 ^ (w - 5)) 5 (w - 5) ⟨o.file ++
        (List.range t).flatMap (fun _ => layerTokens ((List.range (2 ^ w)).map
        (fun j : ℕ => ⟨0, j, j, j⟩))) ++ layerTokens ((List.range (2 ^ w)).map
        (fun j : ℕ => ⟨0, j, j, j⟩)), l2 + 1⟩, ?_⟩
      rw [loopM, e]
      dsimp only [bind, Outcome.bind, doubleStep]
      erw [e2, newline_ok (by dsimp only; omega)]
      rw [List.range_succ]
      simp [pure]
  obtain ⟨l2, m2, e2⟩ := mid ⟨[(d : ℤ)] ++ layerTokens ((List.range (2 ^ w)).map
    (fun j : ℕ => ⟨3, j, rand j, 0⟩)), l1 + 1⟩ (metaLine 32 (2 ^ (w - 5)) 5 (w - 5)
    ⟨[(d : ℤ)] ++ layerTokens ((List.range (2 ^ w)).map
    (fun j : ℕ => ⟨3, j, rand j, 0⟩)), l1 + 1⟩) (d - 2)
  obtain ⟨l3, e3, a3, b3⟩ := p3 ⟨[(d : ℤ)] ++ layerTokens ((List.range (2 ^ w)).map
    (fun j : ℕ => ⟨3, j, rand j, 0⟩)) ++ (List.range (d - 2)).flatMap (fun _ => layerTokens
        ((List.range (2 ^ w)).map (fun j : ℕ => ⟨0, j, j, j⟩))), 0⟩
  dsimp only at e3 b3
  refine ⟨l1 + 1, m2 ++ metaLine 16 (2 ^ (w - 5)) 4 (w - 5) ⟨[(d : ℤ)] ++ layerTokens
    ((List.range (2 ^ w)).map (fun j : ℕ => ⟨3, j, rand j, 0⟩)) ++ (List.range (d - 2)).flatMap
    (fun _ => layerTokens ((List.range (2 ^ w)).map (fun j : ℕ => ⟨0, j, j, j⟩))) ++ layerTokens
    ((List.range (2 ^ (w - 1))).map (pairLine 1)), l3 + 1⟩, by omega, by omega, ?_⟩
  rw [mode1, Outcome.assert, if_pos (by simpa using (by omega : 5 < w))]
  change (if 31 ≤ w then Outcome.undefined else _) = _
  rw [if_neg (by omega)]
  dsimp only [bind, Outcome.bind]
  rw [hd1, hd2]
  erw [e1, newline_ok (by dsimp only; omega)]
  dsimp only
  erw [e2]
  dsimp only [reset]
  erw [e3, newline_ok (by dsimp only; omega)]
  dsimp only [pure]
  have ht : tokens (file1 d w rand) = [(d : ℤ)] ++ layerTokens ((List.range (2 ^ w)).map
    (fun j : ℕ => ⟨3, j, rand j, 0⟩)) ++ (List.range (d - 2)).flatMap (fun _ => layerTokens
        ((List.range (2 ^ w)).map (fun j : ℕ => ⟨0, j, j, j⟩))) ++ layerTokens
        ((List.range (2 ^ (w - 1))).map (pairLine 1)) := by
    rw [tokens, file1]
    simp only [List.flatMap_cons, List.flatMap_append, flatMap_replicate, List.flatMap_nil, List.append_nil,
      List.length_cons, List.length_append, List.length_replicate, List.length_nil]
    rw [show d - 2 + (0 + 1) + 1 = d by omega]
    simp
  rw [ht, List.append_assoc]
  rfl

/-- From `n = 512` on, the program computes with an overflown `int`. -/
theorem mode2_large {n lg : ℕ} (hk : n = 2 ^ lg) (hlg : 9 ≤ lg) {A B : ℕ → ℕ → ℤ}
    (hA : ∀ i < n, ∀ j < n, dec (A i j) ≤ 10) (hB : ∀ i < n, ∀ j < n, dec (B i j) ≤ 10) :
    mode2 n A B = .undefined := by
  have hn : 2 ^ 9 ≤ n := by rw [hk]; exact Nat.pow_le_pow_right (by norm_num) hlg
  rw [mode2, show popcount n = 1 by rw [hk, popcount_pow]]
  change (if 2 ^ 31 ≤ n * n * n * 2 then Outcome.undefined else _) = _
  split_ifs with h
  · rfl
  · have h3 : 2 ^ 9 * 2 ^ 9 * 2 ^ 9 ≤ n * n * n := Nat.mul_le_mul (Nat.mul_le_mul hn hn) hn
    have p1 := prints_layer (n := n * n * n * 2) (k := 10)
      (L := (List.range (n * n * n * 2)).map (entryLine n A B))
      (by simp) (dec_nat (k := 9) (by omega)) (prints_entries (c := 9) (by omega) hA hB)
    obtain ⟨l1, e1, a1, -⟩ := p1 ⟨[((1 + 1 + logOf n : ℕ) : ℤ)], 0⟩
    rw [show n * (n * (n * 34)) = n * n * n * 34 by ring] at a1
    dsimp only at a1 e1
    rw [e1, newline, if_neg (by dsimp only; omega)]
    rfl

/-! ## the files as grids -/

open TradReader

/-- the sizes of the layers of mode 2 -/
def size2 (n : ℕ) : ℕ → ℕ
  | 0 => n * n * n * 2
  | 1 => n * n * n
  | t + 2 => n * n * (n / 2 ^ (t + 1))

/-- the lines of mode 2 -/
def line2 (n : ℕ) (A B : ℕ → ℕ → ℤ) : ℕ → ℕ → Line
  | 0 => entryLine n A B
  | 1 => pairLine 1
  | _ + 2 => pairLine 0

theorem file2_grid (n lg : ℕ) (A B : ℕ → ℕ → ℤ) :
    file2 n lg A B = grid (lg + 2) (size2 n) (line2 n A B) := by
  rw [file2, grid, List.range_succ_eq_map, List.map_cons, List.range_succ_eq_map, List.map_cons]
  simp only [List.map_cons, List.map_map]
  rfl

theorem size2_pow {n lg : ℕ} (hk : n = 2 ^ lg) (i : ℕ) (hi : i < lg + 2) : size2 n i = 2 ^ (3 * lg + 1 - i) := by
  obtain _ | _ | t := i
  · rw [size2, hk, ← pow_add, ← pow_add, ← pow_succ]; congr 1; omega
  · rw [size2, hk, ← pow_add, ← pow_add]; congr 1; omega
  · rw [size2, hk, Nat.pow_div (by omega) (by norm_num), ← pow_add, ← pow_add]; congr 1; omega

theorem size2_succ {n lg : ℕ} (hk : n = 2 ^ lg) (i : ℕ) (hi : i + 1 < lg + 2) :
    size2 n i = size2 n (i + 1) * 2 := by
  rw [size2_pow hk i (by omega), size2_pow hk (i + 1) hi, ← pow_succ]
  congr 1
  omega

theorem entryLine_eq {n : ℕ} (hpos : 0 < n) {A B : ℕ → ℕ → ℤ} {P : ℤ → Prop}
    (hA : ∀ i < n, ∀ j < n, P (A i j)) (hB : ∀ i < n, ∀ j < n, P (B i j)) (g : ℕ) (hg : g < n * n * n * 2) :
    ∃ x : ℤ, entryLine n A B g = ⟨3, g, x, 0⟩ ∧ P x := by
  have h1 : g / 2 / (n * n) < n := by
    rw [Nat.div_lt_iff_lt_mul (by positivity), Nat.div_lt_iff_lt_mul (by norm_num)]
    calc g < n * n * n * 2 := hg
      _ = n * (n * n) * 2 := by ring
  rw [entryLine]
  split_ifs
  · exact ⟨_, rfl, hA _ h1 _ (Nat.mod_lt _ hpos)⟩
  · exact ⟨_, rfl, hB _ (Nat.mod_lt _ hpos) _ (Nat.mod_lt _ hpos)⟩

theorem file2_good {n lg : ℕ} (hk : n = 2 ^ lg) (hlg : lg ≤ 8) {A B : ℕ → ℕ → ℤ}
    (hA : ∀ i < n, ∀ j < n, 0 ≤ A i j ∧ A i j < 10) (hB : ∀ i < n, ∀ j < n, 0 ≤ B i j ∧ B i j < 10) :
    AddMultFile (file2 n lg A B) ∧ DummyWires (file2 n lg A B) := by
  have hpos : 0 < n := by rw [hk]; positivity
  rw [file2_grid]
  have hgt : ∀ i, i + 1 < lg + 2 → ∀ g < size2 n (i + 1), ∃ ty : ℤ, ∃ u < size2 n i, ∃ v < size2 n i,
      line2 n A B (i + 1) g = ⟨ty, g, (u : ℕ), (v : ℕ)⟩ ∧ (ty = 0 ∨ ty = 1) := by
    intro i hi g hg
    have hs := size2_succ hk i hi
    refine ⟨if i = 0 then 1 else 0, g * 2, by omega, g * 2 + 1, by omega, ?_, ?_⟩
    · cases i with
      | zero => rfl
      | succ i => rfl
    · split_ifs <;> simp
  refine ⟨grid_addMult (e := fun i => 3 * lg + 1 - i) (by omega) (by omega) (size2_pow hk)
    (fun i _ => by omega) (fun g hg => ?_) hgt, grid_dummyWires (fun i hi g hg => ?_)⟩
  · obtain ⟨x, e, h0, h1⟩ := entryLine_eq (P := fun x => 0 ≤ x ∧ x < 10) hpos hA hB g hg
    exact ⟨x, e, h0, by omega⟩
  · obtain ⟨ty, u, -, v, -, e, h⟩ := hgt i hi g hg
    rw [e]
    rcases h with rfl | rfl <;> simp

variable {F : Type} [CommRing F]
open Finset

/-- the product computed by gate `x` of layer 1 -/
def entryProduct (n : ℕ) (A B : ℕ → ℕ → ℤ) (x : ℕ) : F :=
  (A (x / (n * n)) (x % n) : F) * (B (x % n) (x / n % n) : F)

theorem file2_products {n lg : ℕ} (hk : n = 2 ^ lg) {A B : ℕ → ℕ → ℤ}
    (hA : ∀ i < n, ∀ j < n, 0 ≤ A i j) (hB : ∀ i < n, ∀ j < n, 0 ≤ B i j) (x : ℕ) (hx : x < n * n * n) :
    (value (tradCircuitOf (file2 n lg A B)) 1 x : F) = entryProduct n A B x := by
  have hpos : 0 < n := by rw [hk]; positivity
  have h1 : x / (n * n) < n := by
    rw [Nat.div_lt_iff_lt_mul (by positivity)]
    calc x < n * n * n := hx
      _ = n * (n * n) := by ring
  rw [file2_grid, grid_mul (u := x * 2) (v := x * 2 + 1) (g' := x) (by omega) hx rfl]
  rw [grid_input (x := A (x / (n * n)) (x % n)) (by omega) (by change _ < n * n * n * 2; omega) ?_
      (hA _ h1 _ (Nat.mod_lt _ hpos)),
    grid_input (x := B (x % n) (x / n % n)) (by omega) (by change _ < n * n * n * 2; omega) ?_
      (hB _ (Nat.mod_lt _ hpos) _ (Nat.mod_lt _ hpos))]
  · rfl
  · change entryLine n A B (x * 2 + 1) = _
    rw [entryLine, if_neg (by omega), show (x * 2 + 1) / 2 = x by omega]
  · change entryLine n A B (x * 2) = _
    rw [entryLine, if_pos (by omega), show (x * 2) / 2 = x by omega]

/-- gate `g` of layer `t + 1` is the sum of `2^t` products -/
theorem file2_tree {n lg : ℕ} (hk : n = 2 ^ lg) {A B : ℕ → ℕ → ℤ}
    (hA : ∀ i < n, ∀ j < n, 0 ≤ A i j) (hB : ∀ i < n, ∀ j < n, 0 ≤ B i j) (t : ℕ) (ht : t ≤ lg) :
    ∀ g < size2 n (t + 1), (value (tradCircuitOf (file2 n lg A B)) (t + 1) g : F) =
      ∑ x ∈ range (2 ^ t), entryProduct n A B (g * 2 ^ t + x) := by
  induction t with
  | zero =>
    intro g hg
    rw [file2_products hk hA hB g hg]
    simp
  | succ t ih =>
    intro g hg
    have hs := size2_succ hk (t + 1) (by omega)
    have e : (value (tradCircuitOf (file2 n lg A B)) (t + 1 + 1) g : F) =
        value (tradCircuitOf (file2 n lg A B)) (t + 1) (g * 2) +
        value (tradCircuitOf (file2 n lg A B)) (t + 1) (g * 2 + 1) := by
      rw [file2_grid]
      exact grid_add (g' := g) (by omega) hg rfl
    rw [e, ih (by omega) _ (by omega), ih (by omega) _ (by omega), pow_succ,
      show 2 ^ t * 2 = 2 ^ t + 2 ^ t by ring, sum_range_add]
    congr 1
    · refine sum_congr rfl (fun x _ => ?_)
      congr 1; ring
    · refine sum_congr rfl (fun x _ => ?_)
      congr 1; ring

/-- the outputs are the entries of the product -/
theorem file2_output {n lg : ℕ} (hk : n = 2 ^ lg) {A B : ℕ → ℕ → ℤ}
    (hA : ∀ i < n, ∀ j < n, 0 ≤ A i j) (hB : ∀ i < n, ∀ j < n, 0 ≤ B i j) (i j : ℕ) (hi : i < n) (hj : j < n) :
    (value (tradCircuitOf (file2 n lg A B)) (lg + 1) (i * n + j) : F) =
      ∑ k ∈ range n, (A i k : F) * (B k j : F) := by
  have hij : i * n + j < n * n := by
    calc i * n + j < i * n + n := by omega
      _ = (i + 1) * n := by ring
      _ ≤ n * n := Nat.mul_le_mul_right _ hi
  rw [file2_tree hk hA hB lg le_rfl _ (by
    rw [size2_pow hk _ (by omega), show 3 * lg + 1 - (lg + 1) = lg + lg by omega, pow_add, ← hk]
    exact hij), ← hk]
  refine sum_congr rfl (fun k hk' => ?_)
  rw [entryProduct, show (i * n + j) * n + k = i * n * n + j * n + k by ring]
  obtain ⟨e1, e2, e3⟩ := triple_div (i := i) hj (mem_range.1 hk')
  rw [e1, e2, e3]

/-! ### mode 1 -/

/-- the lines of mode 1 -/
def line1 (d : ℕ) (rand : ℕ → ℤ) (i : ℕ) : ℕ → Line :=
  if i = 0 then fun j => ⟨3, j, rand j, 0⟩ else if i + 1 < d then fun j => ⟨0, j, j, j⟩ else pairLine 1

/-- the lines of mode 0 -/
def line0 (d : ℕ) (rand : ℕ → ℤ) (i : ℕ) : ℕ → Line :=
  if i = 0 then fun j => ⟨3, j, rand j, 0⟩ else if i + 1 < d then fun j => ⟨8, j, j, 0⟩
  else fun j => ⟨10, j, (j * 2 : ℕ), 0⟩

/-- the sizes of the layers of modes 0 and 1 -/
def size01 (d w i : ℕ) : ℕ := if i + 1 < d then 2 ^ w else 2 ^ (w - 1)

theorem range_map_ends {α : Type} {d : ℕ} (hd : 2 ≤ d) (f : ℕ → α) {a b c : α} (h0 : f 0 = a)
    (hm : ∀ i, 1 ≤ i → i + 1 < d → f i = b) (hl : f (d - 1) = c) :
    (List.range d).map f = a :: (List.replicate (d - 2) b ++ [c]) := by
  obtain ⟨d, rfl⟩ : ∃ e, d = e + 2 := ⟨d - 2, by omega⟩
  rw [List.range_succ, List.range_succ_eq_map]
  simp only [List.map_append, List.map_cons, List.map_map, List.map_nil, List.cons_append]
  rw [h0, show f (d + 1) = c from hl]
  congr 2
  rw [List.eq_replicate_iff]
  refine ⟨by simp, fun x hx => ?_⟩
  simp only [List.mem_map, List.mem_range, Function.comp] at hx
  obtain ⟨i, hi, rfl⟩ := hx
  exact hm _ (by omega) (by omega)

theorem file1_grid {d : ℕ} (hd : 2 ≤ d) (w : ℕ) (rand : ℕ → ℤ) :
    file1 d w rand = grid d (size01 d w) (line1 d rand) := by
  rw [file1, grid]
  refine (range_map_ends hd _ ?_ (fun i h1 h2 => ?_) ?_).symm
  · rw [size01, if_pos (by omega)]; rfl
  · rw [size01, if_pos h2, line1, if_neg (by omega), if_pos h2]
  · rw [size01, if_neg (by omega), line1, if_neg (by omega), if_neg (by omega)]

theorem file0_grid {d : ℕ} (hd : 2 ≤ d) (w : ℕ) (rand : ℕ → ℤ) :
    file0 d w rand = grid d (size01 d w) (line0 d rand) := by
  rw [file0, grid]
  refine (range_map_ends hd _ ?_ (fun i h1 h2 => ?_) ?_).symm
  · rw [size01, if_pos (by omega)]; rfl
  · rw [size01, if_pos h2, line0, if_neg (by omega), if_pos h2]
  · rw [size01, if_neg (by omega), line0, if_neg (by omega), if_neg (by omega)]

theorem size01_pow (d w i : ℕ) : size01 d w i = 2 ^ (if i + 1 < d then w else w - 1) := by
  rw [size01]; split_ifs <;> rfl

theorem file1_good {d w : ℕ} (hd : 2 ≤ d) (hd' : d < 1000000) (hw : 1 ≤ w) (hw' : w ≤ 30) {rand : ℕ → ℤ}
    (hr : ∀ j < 2 ^ w, 0 ≤ rand j ∧ rand j < 2 ^ 31) :
    AddMultFile (file1 d w rand) ∧ DummyWires (file1 d w rand) := by
  have hpow : 2 ^ (w - 1) * 2 = 2 ^ w := by rw [← pow_succ]; congr 1; omega
  rw [file1_grid hd]
  have hgt : ∀ i, i + 1 < d → ∀ g < size01 d w (i + 1), ∃ ty : ℤ, ∃ u < size01 d w i, ∃ v < size01 d w i,
      line1 d rand (i + 1) g = ⟨ty, g, (u : ℕ), (v : ℕ)⟩ ∧ (ty = 0 ∨ ty = 1) := by
    intro i hi g hg
    have h1 : size01 d w i = 2 ^ w := if_pos hi
    by_cases hl : i + 1 + 1 < d
    · rw [size01, if_pos hl] at hg
      refine ⟨0, g, by omega, g, by omega, ?_, .inl rfl⟩
      rw [line1, if_neg (by omega), if_pos hl]
    · rw [size01, if_neg hl] at hg
      refine ⟨1, g * 2, by omega, g * 2 + 1, by omega, ?_, .inr rfl⟩
      rw [line1, if_neg (by omega), if_neg hl]
      rfl
  refine ⟨grid_addMult (by omega) hd' (fun i _ => size01_pow d w i)
    (fun i _ => by split_ifs <;> omega) (fun g hg => ?_) hgt, grid_dummyWires (fun i hi g hg => ?_)⟩
  · rw [size01, if_pos (by omega)] at hg
    exact ⟨rand g, rfl, hr g hg⟩
  · obtain ⟨ty, u, -, v, -, e, h⟩ := hgt i hi g hg
    rw [e]
    rcases h with rfl | rfl <;> simp

/-- every middle layer doubles -/
theorem file1_double {d w : ℕ} (hd : 2 ≤ d) {rand : ℕ → ℤ} (hr : ∀ j < 2 ^ w, 0 ≤ rand j) (i : ℕ) (hi : i + 1 < d) :
    ∀ g < 2 ^ w, (value (tradCircuitOf (file1 d w rand)) i g : F) = 2 ^ i * (rand g : F) := by
  induction i with
  | zero =>
    intro g hg
    rw [file1_grid hd, grid_input (x := rand g) (by omega) (by rw [size01, if_pos hi]; exact hg) rfl (hr g hg)]
    simp
  | succ i ih =>
    intro g hg
    have e := ih (by omega) g hg
    rw [file1_grid hd] at e ⊢
    rw [grid_add (u := g) (v := g) (g' := g) (by omega) (by rw [size01, if_pos hi]; exact hg)
      (by rw [line1, if_neg (by omega), if_pos hi]), e]
    ring

theorem file1_output {d w : ℕ} (hd : 2 ≤ d) (hw : 1 ≤ w) {rand : ℕ → ℤ} (hr : ∀ j < 2 ^ w, 0 ≤ rand j) (j : ℕ)
    (hj : j < 2 ^ (w - 1)) : (value (tradCircuitOf (file1 d w rand)) (d - 1) j : F) =
      2 ^ (d - 2) * (rand (j * 2) : F) * (2 ^ (d - 2) * (rand (j * 2 + 1) : F)) := by
  have hpow : 2 ^ (w - 1) * 2 = 2 ^ w := by rw [← pow_succ]; congr 1; omega
  obtain ⟨e, rfl⟩ : ∃ e, d = e + 2 := ⟨d - 2, by omega⟩
  have e1 := file1_double (F := F) hd hr e (by omega) (j * 2) (by omega)
  have e2 := file1_double (F := F) hd hr e (by omega) (j * 2 + 1) (by omega)
  rw [show e + 2 - 1 = e + 1 by omega, show e + 2 - 2 = e by omega]
  rw [file1_grid hd] at e1 e2 ⊢
  rw [grid_mul (u := j * 2) (v := j * 2 + 1) (g' := j) (by omega) (by rw [size01, if_neg (by omega)]; exact hj)
    (by rw [line1, if_neg (by omega), if_neg (by omega)]; rfl), e1, e2]

/-! ### mode 0 -/

theorem file0_good {d w : ℕ} (hd : 2 ≤ d) (hd' : d + 1 < 1000000) (hw : 1 ≤ w) (hw' : w ≤ 30) {rand : ℕ → ℤ}
    (hr : ∀ j < 2 ^ w, 0 ≤ rand j ∧ rand j < 2 ^ 31) : GoodFile false (file0 d w rand) := by
  have hpow : 2 ^ (w - 1) * 2 = 2 ^ w := by rw [← pow_succ]; congr 1; omega
  have h30 : 2 ^ w ≤ 2 ^ 30 := Nat.pow_le_pow_right (by norm_num) hw'
  have hp : 1 ≤ 2 ^ (w - 1) := Nat.one_le_two_pow
  rw [file0_grid hd]
  have hsz : ∀ i, 1 ≤ size01 d w i ∧ size01 d w i ≤ 2 ^ w := by
    intro i; rw [size01]; split_ifs <;> omega
  have hu : ∀ i, i + 1 < d → ∀ g < size01 d w (i + 1), ∃ u < 2 ^ w, ∃ ty : ℤ, (ty = 8 ∨ ty = 10) ∧
      line0 d rand (i + 1) g = ⟨ty, g, (u : ℕ), 0⟩ := by
    intro i hi g hg
    by_cases hl : i + 1 + 1 < d
    · rw [size01, if_pos hl] at hg
      refine ⟨g, by omega, 8, .inl rfl, ?_⟩
      rw [line0, if_neg (by omega), if_pos hl]
    · rw [size01, if_neg hl] at hg
      refine ⟨g * 2, by omega, 10, .inr rfl, ?_⟩
      rw [line0, if_neg (by omega), if_neg hl]
  have h0 : ∀ g < size01 d w 0, line0 d rand 0 g = ⟨3, g, rand g, 0⟩ ∧ g < 2 ^ w := by
    intro g hg
    rw [size01, if_pos (by omega)] at hg
    exact ⟨rfl, hg⟩
  constructor
  · refine ⟨?_, by rw [grid_length]; omega, ?_⟩
    · intro h
      have := congrArg List.length h
      rw [grid_length] at this
      simp at this
      omega
    · intro L hL
      obtain ⟨i, hi, rfl⟩ := grid_mem hL
      obtain ⟨h1, h2⟩ := hsz i
      refine ⟨by simp; omega, by simp; omega, fun l hl => ?_⟩
      simp only [List.mem_map, List.mem_range] at hl
      obtain ⟨g, hlt, rfl⟩ := hl
      cases i with
      | zero =>
        obtain ⟨e, hg⟩ := h0 g hlt
        obtain ⟨x0, x1⟩ := hr g hg
        rw [e]
        refine ⟨?_, ?_, ?_, ?_⟩ <;> dsimp only <;> omega
      | succ i =>
        obtain ⟨u, hu, ty, hty, e⟩ := hu i hi g hlt
        rw [e]
        refine ⟨?_, ?_, ?_, ?_⟩ <;> dsimp only <;> omega
  · intro L hL
    obtain ⟨i, hi, rfl⟩ := grid_mem hL
    intro j hj
    simp only [List.length_map, List.length_range] at hj
    simp only [List.getElem_map, List.getElem_range]
    cases i with
    | zero => rw [(h0 j hj).1]
    | succ i => obtain ⟨u, -, ty, -, e⟩ := hu i hi j hj; rw [e]
  · intro L hL
    obtain ⟨i, hi, rfl⟩ := grid_mem hL
    exact ⟨_, by rw [List.length_map, List.length_range]; exact size01_pow d w i⟩
  · intro l hl
    have hh : (grid d (size01 d w) (line0 d rand)).headD [] =
        (List.range (size01 d w 0)).map (line0 d rand 0) := by
      rw [grid, show d = (d - 1) + 1 by omega, List.range_succ_eq_map]
      rfl
    rw [hh] at hl
    simp only [List.mem_map, List.mem_range] at hl
    obtain ⟨g, hlt, rfl⟩ := hl
    exact .inl rfl
  · rw [grid_length]; exact hd'
  · intro i h l hl
    rw [grid_get] at hl
    simp only [List.mem_map, List.mem_range] at hl
    obtain ⟨g, hlt, rfl⟩ := hl
    rw [grid_length] at h
    obtain ⟨u, hu, ty, hty, e⟩ := hu i h g hlt
    rw [e, grid_get, List.length_map, List.length_range]
    have h1 : size01 d w i = 2 ^ w := if_pos h
    have hg : gateOf false ⟨ty, g, (u : ℕ), 0⟩ = ⟨ty, (u : ℕ), 0⟩ := by
      rw [gateOf]
      dsimp only
      rw [int32_id (by omega)]
      simp [int32]
    rw [hg, h1]
    rcases hty with rfl | rfl
    · refine ⟨.inl ⟨by simp, wire_width hu, ?_⟩, by simp [GateProvable]⟩
      exact wire_width (x := 0) (by positivity)
    · exact ⟨.inr (.inr (.inr (.inl ⟨by simp, wire_width hu⟩))), by simp [GateProvable]⟩

end Libra.Gen
