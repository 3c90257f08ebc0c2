import Verif.Model.LanczosDirect
import Verif.Proofs.Matmul
import Verif.Proofs.LanczosWiring

/-!
# The file written by `bin/gen_lanczos.py`
-/

namespace Libra.LanczosDirect
open Libra Spec Reader Matmul MerkleGen

variable {ratio n : ℕ}

theorem lt_bitLength (m : ℕ) : m < 2 ^ bitLength m := by
  unfold bitLength
  split
  · next h => rw [h]; exact Nat.one_pos
  · exact Nat.lt_log2_self

theorem padded_eq (m : ℕ) : m + paddingNum m = 2 ^ bitLength m := by
  have := lt_bitLength m
  unfold paddingNum; omega

theorem bitLength_le {m k : ℕ} (h : m < 2 ^ k) : bitLength m ≤ k := by
  unfold bitLength
  split
  · omega
  · next h0 => exact (Nat.log2_lt h0).2 h

/-- a gate of a layer that has been filled up -/
def padLine (m : ℕ) (f : ℕ → Line) (g : ℕ) : Line := if g < m then f g else ⟨2, g, 0, 0⟩

/-- a layer that has been filled up -/
def padLayer (m : ℕ) (f : ℕ → Line) : List Line := (List.range (2 ^ bitLength m)).map (padLine m f)

theorem padLayer_tokens (m : ℕ) (f : ℕ → Line) (out : List ℤ) :
    padding m (out ++ [((m + paddingNum m : ℕ) : ℤ)] ++ (List.range m).flatMap (fun g => (f g).tokens)) =
      out ++ layerTokens (padLayer m f) := by
  unfold padding emit
  rw [loop_append, layerTokens, padLayer, List.length_map, List.length_range, ← padded_eq m, List.range_add, List.map_append,
    List.flatMap_append, List.flatMap_map, List.map_map, List.flatMap_map]
  simp only [List.append_assoc, List.cons_append, List.nil_append]
  congr 3
  · refine List.flatMap_congr (fun g hg => ?_)
    rw [padLine, if_pos (List.mem_range.1 hg)]
  · refine List.flatMap_congr (fun g hg => ?_)
    simp only [Function.comp, padLine]
    rw [if_neg (by omega)]; rfl

/-- the operand of the `k`-th product of a row that is meant to be the coefficient -/
def kernelAt (ratio total k : ℕ) : ℕ := if k < 2 * ratio then total + k else total + (4 * ratio - 2) - k

/-- the lines of the input layer -/
def inputLine (total : ℕ) (coeffs : List ℤ) (x : ℕ → ℤ) (g : ℕ) : Line :=
  if g < total then ⟨3, g, x g, 0⟩ else ⟨3, g, coeffs.getD (g - total) 0, 0⟩

/-- the lines of the layer of products -/
def productLine (ratio n : ℕ) (g : ℕ) : Line :=
  let b := g / ((4 * ratio) * (4 * ratio))
  let q := g % ((4 * ratio) * (4 * ratio))
  ⟨1, g, ((ratio * (n + 3) * (ratio * (b % n) + q / (4 * ratio)) + ratio * (b / n) + q % (4 * ratio) : ℕ) : ℤ),
    (kernelAt ratio ((ratio * (n + 3)) ^ 2) (q % (4 * ratio)) : ℕ)⟩

/-- the lines of the layers of sums -/
def sumLine (w g : ℕ) : Line := ⟨5, g, (g * w : ℕ), (g * w + w : ℕ)⟩

/-- the circuit file -/
def file (ratio n : ℕ) (coeffs : List ℤ) (x : ℕ → ℤ) : File :=
  [padLayer ((ratio * (n + 3)) ^ 2 + 2 * ratio) (inputLine ((ratio * (n + 3)) ^ 2) coeffs x),
   padLayer (n * n * (4 * ratio) ^ 2) (productLine ratio n),
   padLayer (n * n * 4 * ratio) (sumLine (4 * ratio)),
   (List.range (n * n)).map (sumLine (4 * ratio))]

theorem inputLayer_eq {total : ℕ} {coeffs : List ℤ} (hc : coeffs.length = 2 * ratio) (x : ℕ → ℤ) (out : List ℤ) :
    inputLayer ratio total coeffs x out =
      .ok (out ++ layerTokens (padLayer (total + 2 * ratio) (inputLine total coeffs x))) := by
  unfold inputLayer
  dsimp only
  rw [if_neg (by simpa using hc), ← padLayer_tokens, hc]
  unfold emit
  rw [loop_append, loop_append, List.range_add, List.flatMap_append, List.flatMap_map]
  simp only [List.append_assoc]
  congr 4
  congr 1
  · refine List.flatMap_congr (fun g hg => ?_)
    rw [inputLine, if_pos (List.mem_range.1 hg)]; rfl
  · refine List.flatMap_congr (fun g hg => ?_)
    rw [inputLine, if_neg (by omega), Nat.add_sub_cancel_left, Nat.add_comm total g]; rfl

theorem pix_loop (hr : ratio ≠ 0) {total : ℕ} (ht : 1 ≤ total) (b p gid : ℕ) (out : List ℤ) (j : ℕ) (hj : j ≤ 4 * ratio) :
    loop j (fun k t => pixStep ratio total b (p + k) t) ⟨out, gid, 0, 1⟩ =
      ⟨out ++ (List.range j).flatMap (fun k => [1, ((b * (16 * ratio * ratio) + (gid + k) : ℕ) : ℤ), ((p + k : ℕ) : ℤ),
          (kernelAt ratio total k : ℕ)]), gid + j,
        if j < 2 * ratio then (j : ℤ) else 4 * ratio - 2 - j, if j < 2 * ratio then 1 else -1⟩ := by
  induction j with
  | zero => simp [loop, hr]
  | succ j ih =>
    rw [loop, ih (by omega), pixStep]
    dsimp only
    have e : ((if j < 2 * ratio then (j : ℤ) else 4 * ratio - 2 - j) + total : ℤ) = (kernelAt ratio total j : ℕ) := by
      unfold kernelAt; split_ifs <;> omega
    rw [e, emit, List.range_succ, List.flatMap_append, ← List.append_assoc]
    simp only [List.flatMap_cons, List.flatMap_nil, List.append_nil]
    rw [Row.mk.injEq]
    refine ⟨rfl, rfl, ?_, ?_⟩ <;> split_ifs <;> push_cast <;> omega

theorem row_loop (hr : ratio ≠ 0) {total : ℕ} (ht : 1 ≤ total) (npixels xrep yrep : ℕ) (out : List ℤ) (j : ℕ) :
    loop j (rowStep ratio npixels n total xrep yrep) (out, 0) =
      (out ++ (List.range j).flatMap (fun y => (List.range (4 * ratio)).flatMap (fun k =>
        [1, (((xrep * n + yrep) * (16 * ratio * ratio) + (y * (4 * ratio) + k) : ℕ) : ℤ),
          ((npixels * (ratio * yrep + y) + ratio * xrep + k : ℕ) : ℤ), (kernelAt ratio total k : ℕ)])), j * (4 * ratio)) := by
  induction j with
  | zero => simp [loop]
  | succ j ih =>
    rw [loop, ih, rowStep]
    dsimp only
    rw [pix_loop hr ht _ _ _ _ _ le_rfl, List.range_succ, List.flatMap_append, ← List.append_assoc]
    simp only [List.flatMap_cons, List.flatMap_nil, List.append_nil]
    rw [Nat.add_one_mul j]

theorem grid_div {b i j : ℕ} (hj : j < b) : (i * b + j) / b = i ∧ (i * b + j) % b = j := by
  constructor
  · rw [Nat.mul_comm, Nat.mul_add_div (by omega), Nat.div_eq_of_lt hj, Nat.add_zero]
  · rw [Nat.mul_comm, Nat.mul_add_mod, Nat.mod_eq_of_lt hj]

theorem productLine_at (ratio : ℕ) {n xrep yrep y k : ℕ} (hy : yrep < n) (hw : y < 4 * ratio) (hk : k < 4 * ratio) :
    productLine ratio n ((xrep * n + yrep) * ((4 * ratio) * (4 * ratio)) + (y * (4 * ratio) + k)) =
      ⟨1, (((xrep * n + yrep) * ((4 * ratio) * (4 * ratio)) + (y * (4 * ratio) + k) : ℕ) : ℤ),
        ((ratio * (n + 3) * (ratio * yrep + y) + ratio * xrep + k : ℕ) : ℤ), (kernelAt ratio ((ratio * (n + 3)) ^ 2) k : ℕ)⟩ := by
  have hlt : y * (4 * ratio) + k < 4 * ratio * (4 * ratio) := by
    calc y * (4 * ratio) + k < y * (4 * ratio) + 4 * ratio := by omega
      _ = (y + 1) * (4 * ratio) := by ring
      _ ≤ _ := Nat.mul_le_mul_right _ hw
  unfold productLine
  dsimp only
  rw [(grid_div hlt).1, (grid_div hlt).2, (grid_div hk).1, (grid_div hk).2,
    (grid_div hy).1, (grid_div hy).2]

theorem productLayer_eq (hr : ratio ≠ 0) (out : List ℤ) :
    productLayer ratio (ratio * (n + 3)) n ((ratio * (n + 3)) ^ 2) out =
      out ++ layerTokens (padLayer (n * n * (4 * ratio) ^ 2) (productLine ratio n)) := by
  have ht : 1 ≤ (ratio * (n + 3)) ^ 2 := Nat.one_le_pow _ _ (Nat.mul_pos (Nat.pos_of_ne_zero hr) (by omega))
  unfold productLayer
  dsimp only
  rw [← padLayer_tokens]
  simp only [row_loop hr ht, loop_append]
  refine congrArg _ (congrArg _ ?_)
  rw [Nat.pow_two (4 * ratio), flatMap_mul (n * n), flatMap_mul n n]
  refine List.flatMap_congr (fun xrep hx => List.flatMap_congr (fun yrep hy => ?_))
  rw [flatMap_mul (4 * ratio) (4 * ratio)]
  refine List.flatMap_congr (fun y hw => List.flatMap_congr (fun k hk => ?_))
  rw [productLine_at ratio (List.mem_range.1 hy) (List.mem_range.1 hw) (List.mem_range.1 hk), Line.tokens,
    show 16 * ratio * ratio = 4 * ratio * (4 * ratio) by ring]

theorem sum_loop (b : ℕ) (out : List ℤ) (j : ℕ) :
    loop j (fun y (s : List ℤ × ℕ) => (emit s.1 5 (b * 4 * ratio + y : ℕ) (b * (16 * ratio * ratio) + s.2 : ℕ)
        (b * (16 * ratio * ratio) + s.2 + 4 * ratio : ℕ), s.2 + 4 * ratio)) (out, 0) =
      (out ++ (List.range j).flatMap (fun y => (sumLine (4 * ratio) (b * (4 * ratio) + y)).tokens), j * (4 * ratio)) := by
  induction j with
  | zero => simp [loop]
  | succ j ih =>
    rw [loop, ih, List.range_succ, List.flatMap_append, ← List.append_assoc]
    simp only [List.flatMap_cons, List.flatMap_nil, List.append_nil]
    rw [emit, sumLine, Line.tokens, Nat.add_one_mul j, show b * (16 * ratio * ratio) + j * (4 * ratio) =
      (b * (4 * ratio) + j) * (4 * ratio) by ring, Nat.mul_assoc b]

theorem rowLayer_eq (out : List ℤ) : rowLayer ratio n out =
    out ++ layerTokens (padLayer (n * n * 4 * ratio) (sumLine (4 * ratio))) := by
  unfold rowLayer
  dsimp only
  rw [← padLayer_tokens]
  simp only [sum_loop, loop_append]
  refine congrArg _ (congrArg _ ?_)
  rw [Nat.mul_assoc (n * n), flatMap_mul (n * n), flatMap_mul n n]

theorem outputLayer_eq (out : List ℤ) : outputLayer ratio n out =
    out ++ layerTokens ((List.range (n * n)).map (sumLine (4 * ratio))) := by
  unfold outputLayer emit
  dsimp only
  simp only [loop_append]
  rw [layerTokens, List.length_map, List.length_range, List.flatMap_map, flatMap_mul, List.append_assoc, List.singleton_append]
  congr 2
  refine List.flatMap_congr (fun i hi => List.flatMap_congr (fun j hj => ?_))
  rw [sumLine, Line.tokens, Nat.mul_assoc, Nat.mul_assoc, Nat.add_one_mul (i * n + j)]

theorem generate_eq (hr : ratio ≠ 0) (hn : n ≠ 0) {coeffs : List ℤ} (hc : coeffs.length = 2 * ratio) (x : ℕ → ℤ) :
    generate ratio (ratio * (n + 3)) coeffs x = .ok (tokens (file ratio n coeffs x)) := by
  have hreps : 1 + (ratio * (n + 3) - 4 * ratio) / ratio = n := by
    have : ratio * (n + 3) - 4 * ratio = ratio * (n - 1) := by
      obtain ⟨m, rfl⟩ := Nat.exists_eq_succ_of_ne_zero hn
      rw [Nat.succ_eq_add_one, Nat.add_sub_cancel, show ratio * (m + 1 + 3) = ratio * m + 4 * ratio by ring, Nat.add_sub_cancel]
    rw [this, Nat.mul_div_cancel_left _ (Nat.pos_of_ne_zero hr)]
    omega
  have hge : ¬ ratio * (n + 3) < 4 * ratio := by
    rw [Nat.mul_comm 4, not_lt]; exact Nat.mul_le_mul_left _ (by omega)
  unfold generate printCircuit
  dsimp only
  rw [if_neg hge, if_neg hr, if_neg (by simp), hreps, if_neg (by simp), if_neg, inputLayer_eq hc]
  · change Outcome.ok (outputLayer _ _ (rowLayer _ _ (productLayer _ _ _ _ _))) = _
    rw [productLayer_eq hr, rowLayer_eq, outputLayer_eq]
    refine congrArg Outcome.ok ?_
    rw [tokens, file]
    simp
  · rw [not_not]
    have h1 := lt_bitLength (LanczosGen.nInputs ratio - 1)
    have h2 := LanczosGen.nInputs_ne_pow hr (bitLength (LanczosGen.nInputs ratio - 1))
    rw [LanczosGen.nInputs] at h1 h2
    have h3 : 16 * ratio ^ 2 + 2 * ratio < 2 ^ bitLength (16 * ratio ^ 2 + 2 * ratio - 1) := by omega
    have : ((16 * ratio ^ 2 + 2 * ratio : ℕ) : ℤ) < ((2 ^ bitLength (16 * ratio ^ 2 + 2 * ratio - 1) : ℕ) : ℤ) := by exact_mod_cast h3
    push_cast at this ⊢
    omega

end Libra.LanczosDirect
