import Verif.Spec.Blocked
import Verif.Proofs.CmtComplete

/-!
# The blocked protocol: tables and rounds
-/

namespace Libra.Blocked
open Libra Spec Finset FastTrack Cmt
variable {F : Type} [CommRing F]

/-! ## nested loops on a table with blocks -/

theorem block_index {n u : ℕ} (b : ℕ) (hu : u < 2 ^ n) : b <<< n ||| u = b * 2 ^ n + u := by
  rw [Nat.shiftLeft_eq, Nat.mul_comm, ← Nat.two_pow_add_eq_or_of_lt hu]

theorem write_row {α : Type} (a : ℕ) (f : ℕ → α) (T : ℕ → α) : ∀ m k,
    loop m (fun j T => Function.update T (a + j) (f j)) T k =
      if a ≤ k ∧ k < a + m then f (k - a) else T k := by
  intro m
  induction m with
  | zero => intro k; rw [loop_zero, if_neg (by omega)]
  | succ m ih =>
    intro k
    rw [loop_succ]
    by_cases hk : k = a + m
    · subst hk; rw [Function.update_self, if_pos (by omega), Nat.add_sub_cancel_left]
    · rw [Function.update_of_ne hk, ih]
      by_cases h : a ≤ k ∧ k < a + m
      · rw [if_pos h, if_pos (by omega)]
      · rw [if_neg h, if_neg (by omega)]

theorem write_blocks {α : Type} (M : ℕ) (f : ℕ → ℕ → α) (T : ℕ → α) : ∀ N, ∀ b < N, ∀ j < M,
    loop N (fun i T => loop M (fun j T => Function.update T (i * M + j) (f i j)) T) T (b * M + j) =
      f b j := by
  intro N
  induction N with
  | zero => intro b hb; omega
  | succ N ih =>
    intro b hb j hj
    rw [loop_succ, write_row]
    by_cases h : b = N
    · subst h
      rw [if_pos (by omega), Nat.add_sub_cancel_left]
    · have : b * M + M ≤ N * M := by
        have := Nat.mul_le_mul_right M (show b + 1 ≤ N by omega)
        rw [Nat.add_mul, Nat.one_mul] at this
        exact this
      rw [if_neg (by omega), ih b (by omega) j hj]

/-! ## halving of the output table -/

theorem fold_stage (omr r : ℕ → F) (raw : ℕ → F) (N n : ℕ) (h : ∀ j < n, omr j = 1 - r j)
    (hn : n ≤ N) (T : ℕ → F) (hT : ∀ i < 2 ^ N, T i = raw i) :
    ∀ s, s = loop n (fun i (s : (ℕ → F) × ℕ) =>
      (loop (s.2 >>> 1) (fun j out =>
        Function.update out j (out (j <<< 1) * omr i + out (j <<< 1 ||| 1) * r i)) s.1, s.2 >>> 1))
      (T, 2 ^ N) → s.2 = 2 ^ (N - n) ∧ ∀ i < 2 ^ (N - n), s.1 i = foldK r n raw i := by
  induction n with
  | zero => rintro s rfl; exact ⟨rfl, fun i hi => hT i hi⟩
  | succ k ih =>
    rintro s rfl
    obtain ⟨h1, h2⟩ := ih (fun j hj => h j (by omega)) (by omega) _ rfl
    rw [loop_succ]
    generalize loop k _ (T, 2 ^ N) = s at h1 h2 ⊢
    have e : s.2 >>> 1 = 2 ^ (N - (k + 1)) := by
      rw [h1, show N - k = N - (k + 1) + 1 by omega, pow_succ, Nat.shiftRight_eq_div_pow]
      simp
    refine ⟨e, fun i hi => ?_⟩
    dsimp only
    simp only [shl_one, two_mul_or_one]
    rw [e, loop_halve (fun x y => x * omr k + y * r k), if_pos hi]
    have : 2 ^ (N - k) = 2 * 2 ^ (N - (k + 1)) := by
      rw [← pow_succ']; congr 1; omega
    rw [h2 _ (by omega), h2 _ (by omega), h k (by omega)]
    rfl

theorem foldBlocked_spec (omr r omrb rb raw : ℕ → F) (n k : ℕ) (h : ∀ j < n, omr j = 1 - r j)
    (hb : ∀ j < k, omrb j = 1 - rb j) :
    foldBlocked omr r omrb rb raw n k (2 ^ (n + k)) =
      blockMle k n (fun b g => raw (b * 2 ^ n + g)) rb r := by
  obtain ⟨h1, h2⟩ := fold_stage omr r raw (n + k) n h (by omega) raw (fun _ _ => rfl) _ rfl
  rw [Nat.add_sub_cancel_left] at h1 h2
  rw [foldBlocked]
  dsimp only
  generalize loop n _ (raw, 2 ^ (n + k)) = s at h1 h2 ⊢
  obtain ⟨T, m⟩ := s
  dsimp only at h1 h2
  subst h1
  obtain ⟨-, h4⟩ := fold_stage omrb rb (foldK r n raw) k k hb le_rfl T h2 _ rfl
  rw [h4 0 (by positivity), foldK_mle, blockMle]
  refine mle_congr (fun b _ => ?_) (fun _ _ => rfl)
  rw [foldK_eq, mle]
  exact sum_congr rfl (fun x _ => by rw [Nat.add_comm, Nat.mul_comm b])

theorem blockMle_congr {k n : ℕ} {V W : ℕ → ℕ → F} (rb r : ℕ → F)
    (h : ∀ b < 2 ^ k, ∀ g < 2 ^ n, V b g = W b g) : blockMle k n V rb r = blockMle k n W rb r :=
  mle_congr (fun b hb => mle_congr (h b hb) (fun _ _ => rfl)) (fun _ _ => rfl)

/-- the two sums can be exchanged -/
theorem blockMle_swap (k n : ℕ) (V : ℕ → ℕ → F) (rb r : ℕ → F) :
    blockMle k n V rb r = mle n (fun g => mle k (fun b => V b g) rb) r := by
  simp only [blockMle, mle, mul_sum]
  rw [sum_comm]
  exact sum_congr rfl (fun g _ => sum_congr rfl (fun b _ => by ring))

/-! ## halving of the block tables -/

theorem bind_row (lu : ℕ) (prev : F) (blk : ℕ) (W : ℕ → F) : ∀ m ≤ 2 ^ lu, ∀ k,
    loop m (fun u (W : ℕ → F) =>
      Function.update W (blk <<< lu ||| u)
        ((W ((blk <<< 1 ||| 1) <<< lu ||| u) - W ((blk <<< 1) <<< lu ||| u)) * prev +
          W ((blk <<< 1) <<< lu ||| u))) W k =
      if blk * 2 ^ lu ≤ k ∧ k < blk * 2 ^ lu + m then
        W (2 * blk * 2 ^ lu + (k - blk * 2 ^ lu)) * (1 - prev) +
          W ((2 * blk + 1) * 2 ^ lu + (k - blk * 2 ^ lu)) * prev
      else W k := by
  intro m
  induction m with
  | zero => intro _ k; rw [loop_zero, if_neg (by omega)]
  | succ m ih =>
    intro hm k
    have ih := ih (by omega)
    rw [loop_succ]
    generalize loop m _ W = W' at ih ⊢
    rw [block_index _ (show m < 2 ^ lu by omega), block_index _ (show m < 2 ^ lu by omega),
      block_index _ (show m < 2 ^ lu by omega), shl_one_or, shl_one]
    have e1 : W' ((2 * blk + 1) * 2 ^ lu + m) = W ((2 * blk + 1) * 2 ^ lu + m) := by
      rw [ih, if_neg]
      have : (2 * blk + 1) * 2 ^ lu = blk * 2 ^ lu + blk * 2 ^ lu + 2 ^ lu := by ring
      omega
    have e0 : W' (2 * blk * 2 ^ lu + m) = W (2 * blk * 2 ^ lu + m) := by
      rw [ih, if_neg]
      have : 2 * blk * 2 ^ lu = blk * 2 ^ lu + blk * 2 ^ lu := by ring
      omega
    by_cases hk : k = blk * 2 ^ lu + m
    · subst hk
      rw [Function.update_self, if_pos (by omega), e0, e1, Nat.add_sub_cancel_left]
      ring
    · rw [Function.update_of_ne hk, ih]
      by_cases h : blk * 2 ^ lu ≤ k ∧ k < blk * 2 ^ lu + m
      · rw [if_pos h, if_pos (by omega)]
      · rw [if_neg h, if_neg (by omega)]

/-- The tables after halving. -/
theorem bindBlocks_eq (lu : ℕ) (prev : F) (β W : ℕ → F) : ∀ m,
    (∀ k, (bindBlocks lu prev m (β, W)).1 k = if k < m then foldT prev β k else β k) ∧
    (∀ b, ∀ u < 2 ^ lu, (bindBlocks lu prev m (β, W)).2 (b * 2 ^ lu + u) =
      if b < m then foldT prev (fun b => W (b * 2 ^ lu + u)) b else W (b * 2 ^ lu + u)) := by
  intro m
  induction m with
  | zero => exact ⟨fun k => by simp [bindBlocks], fun b u _ => by simp [bindBlocks]⟩
  | succ m ih =>
    obtain ⟨ih1, ih2⟩ := ih
    rw [bindBlocks] at ih1 ih2 ⊢
    rw [loop_succ]
    generalize loop m _ (β, W) = s at ih1 ih2 ⊢
    dsimp only
    refine ⟨fun k => ?_, fun b u hu => ?_⟩
    · by_cases hk : k = m
      · subst hk
        rw [Function.update_self, if_pos (by omega), shl_one_or, shl_one, ih1, ih1,
          if_neg (by omega), if_neg (by omega), foldT]
        ring
      · rw [Function.update_of_ne hk, ih1]
        by_cases h : k < m
        · rw [if_pos h, if_pos (by omega)]
        · rw [if_neg h, if_neg (by omega)]
    · rw [bind_row _ _ _ _ _ le_rfl]
      by_cases hb : b = m
      · subst hb
        rw [if_pos (by omega), if_pos (by omega), Nat.add_sub_cancel_left, ih2 _ u hu, ih2 _ u hu,
          if_neg (by omega), if_neg (by omega), foldT]
      · rw [if_neg, ih2 b u hu]
        · by_cases h : b < m
          · rw [if_pos h, if_pos (by omega)]
          · rw [if_neg h, if_neg (by omega)]
        · rcases Nat.lt_or_gt_of_ne hb with h | h
          · have := Nat.mul_le_mul_right (2 ^ lu) (show b + 1 ≤ m by omega)
            rw [Nat.add_mul, Nat.one_mul] at this
            omega
          · have := Nat.mul_le_mul_right (2 ^ lu) (show m + 1 ≤ b by omega)
            rw [Nat.add_mul, Nat.one_mul] at this
            omega

/-! ## the sum over the gates -/

/-- The sum over the gates of layer `i` with the operand values taken from `X`. -/
def gsum (C : Circuit) (i : ℕ) (c X : ℕ → F) : F :=
  ∑ g ∈ range (2 ^ C.bl i), c g * opOf (tyOf C i g) (X (uOf C i g)) (X (vOf C i g))

theorem blockLine_eval {lu : ℕ} (W : ℕ → F) (blk : ℕ) {u : ℕ} (hu : u < 2 ^ lu) (x : F) :
    (blockLine lu W blk u).eval x = foldT x (fun b => W (b * 2 ^ lu + u)) blk := by
  rw [blockLine, LinearPoly.eval, shl_one_or, shl_one, block_index _ hu, block_index _ hu, foldT]
  ring

theorem gatePart_ok {lu : ℕ} {g : Gate} (hu : Wire lu g.u) (hv : Wire lu g.v) (β : F) (W : ℕ → F)
    (blk : ℕ) (v : QuadraticPoly F) :
    ∃ v', gatePart lu g β W blk v = .ok v' ∧ ∀ x, v'.eval x = v.eval x +
      β * opOf g.ty (foldT x (fun b => W (b * 2 ^ lu + g.u.toNat)) blk)
        (foldT x (fun b => W (b * 2 ^ lu + g.v.toNat)) blk) := by
  rw [gatePart, if_pos ⟨hu.1, hu.lt, hv.1, hv.lt⟩]
  simp only [← blockLine_eval W blk hu.lt, ← blockLine_eval W blk hv.lt]
  generalize blockLine lu W blk g.u.toNat = p
  generalize blockLine lu W blk g.v.toNat = q
  unfold opOf
  by_cases h0 : g.ty = 0
  · refine ⟨_, by simp [h0]; rfl, fun x => ?_⟩
    simp only [h0, if_true, QuadraticPoly.add, QuadraticPoly.eval, LinearPoly.add, LinearPoly.eval]
    ring
  · by_cases h1 : g.ty = 1
    · refine ⟨_, by simp [h1]; rfl, fun x => ?_⟩
      simp only [h1, one_ne_zero, if_false, if_true, QuadraticPoly.add, QuadraticPoly.eval,
        LinearPoly.mul, LinearPoly.eval]
      ring
    · refine ⟨v, by simp [h0, h1], fun x => ?_⟩
      simp [h0, h1]

/-- the polynomial of round `k` of phase 0 -/
def blockPoly (C : Circuit) (i K : ℕ) (c rb β : ℕ → F) (V : ℕ → ℕ → F) (k : ℕ) (x : F) : F :=
  ∑ b ∈ range (2 ^ (K - (k + 1))), foldT x (foldK rb k β) b *
    gsum C i c (fun u => foldT x (foldK rb k (fun b => V b u)) b)

/-- the claim before round `k` of phase 0 -/
def blockClaim (C : Circuit) (i K : ℕ) (c rb β : ℕ → F) (V : ℕ → ℕ → F) (k : ℕ) : F :=
  ∑ b ∈ range (2 ^ (K - k)), foldK rb k β b * gsum C i c (fun u => foldK rb k (fun b => V b u) b)

theorem blockPoly_sum (C : Circuit) (i : ℕ) {K k : ℕ} (hk : k < K) (c rb β : ℕ → F) (V : ℕ → ℕ → F) :
    blockPoly C i K c rb β V k 0 + blockPoly C i K c rb β V k 1 = blockClaim C i K c rb β V k := by
  rw [blockPoly, blockPoly, blockClaim, pow_sub_succ hk, sum_range_two_mul, ← sum_add_distrib]
  refine sum_congr rfl (fun b _ => ?_)
  simp only [foldT, sub_zero, mul_one, mul_zero, add_zero, sub_self, zero_add]

theorem blockPoly_next (C : Circuit) (i K k : ℕ) (c rb β : ℕ → F) (V : ℕ → ℕ → F) :
    blockPoly C i K c rb β V k (rb k) = blockClaim C i K c rb β V (k + 1) := rfl

theorem blockClaim_last (C : Circuit) (i K : ℕ) (c rb β : ℕ → F) (V : ℕ → ℕ → F) :
    blockClaim C i K c rb β V K =
      mle K β rb * gsum C i c (fun u => mle K (fun b => V b u) rb) := by
  rw [blockClaim, Nat.sub_self, pow_zero, sum_range_one, foldK_mle]
  simp only [foldK_mle]

/-- The tables of phase 0 with `k` variables bound. -/
structure BlocksAt (K n : ℕ) (β rb : ℕ → F) (V : ℕ → ℕ → F) (k : ℕ) (T W : ℕ → F) : Prop where
  beta : ∀ b < 2 ^ (K - k), T b = foldK rb k β b
  val : ∀ b < 2 ^ (K - k), ∀ u < 2 ^ n, W (b * 2 ^ n + u) = foldK rb k (fun b => V b u) b

/-- what phase 0 needs of the gates -/
def GatesOk (B : BlockedCircuit) (i : ℕ) : Prop :=
  ∀ b < 2 ^ B.log, ∀ g < 2 ^ (B.blocks 0).bl i, (B.blocks b).gate i g = (B.blocks 0).gate i g ∧
    Wire ((B.blocks 0).bl (i - 1)) ((B.blocks 0).gate i g).u ∧
    Wire ((B.blocks 0).bl (i - 1)) ((B.blocks 0).gate i g).v

theorem gsum_congr {C : Circuit} {i n : ℕ} {c c' X X' : ℕ → F}
    (hw : ∀ g < 2 ^ C.bl i, Wire n (C.gate i g).u ∧ Wire n (C.gate i g).v)
    (hc : ∀ g < 2 ^ C.bl i, c g = c' g) (hX : ∀ u < 2 ^ n, X u = X' u) :
    gsum C i c X = gsum C i c' X' := by
  refine sum_congr rfl (fun g hg => ?_)
  have hg := mem_range.1 hg
  rw [hc g hg, hX (uOf C i g) (hw g hg).1.lt, hX (vOf C i g) (hw g hg).2.lt]

/-- the sum over the gates in `sumcheck_phase0_update` -/
theorem gates_ok {B : BlockedCircuit} {i : ℕ} (hg : GatesOk B i) {b : ℕ} (hb : b < 2 ^ B.log)
    (c W : ℕ → F) : ∃ v : QuadraticPoly F,
    loopM (2 ^ (B.blocks 0).bl i) (fun g v =>
      gatePart ((B.blocks 0).bl (i - 1)) ((B.blocks b).gate i g) (c g) W b v) ⟨0, 0, 0⟩ = .ok v ∧
    ∀ x, v.eval x = gsum (B.blocks 0) i c
      (fun u => foldT x (fun b => W (b * 2 ^ (B.blocks 0).bl (i - 1) + u)) b) := by
  set n := (B.blocks 0).bl (i - 1) with hn
  obtain ⟨v, e, h⟩ := loopM_ok (n := 2 ^ (B.blocks 0).bl i) (s := (⟨0, 0, 0⟩ : QuadraticPoly F))
    (b := fun g v => gatePart n ((B.blocks b).gate i g) (c g) W b v)
    (fun m v => ∀ x, v.eval x = ∑ g ∈ range m, c g * opOf (tyOf (B.blocks 0) i g)
      (foldT x (fun b => W (b * 2 ^ n + uOf (B.blocks 0) i g)) b)
      (foldT x (fun b => W (b * 2 ^ n + vOf (B.blocks 0) i g)) b))
    (fun x => by simp [QuadraticPoly.eval])
    (fun g hg' v hv => by
      obtain ⟨e, hu, hw⟩ := hg b hb g hg'
      rw [e]
      obtain ⟨v', e', h'⟩ := gatePart_ok hu hw (c g) W b v
      exact ⟨v', e', fun x => by rw [h', hv, sum_range_succ]; rfl⟩)
  exact ⟨v, e, h⟩

/-- round `k` of phase 0 -/
theorem phase0_update {B : BlockedCircuit} {i : ℕ} (hg : GatesOk B i) {P : Prover F}
    {c β rb : ℕ → F} {V : ℕ → ℕ → F} (hid : P.layerId = i) (hlg : P.lengthG = (B.blocks 0).bl i)
    (hlu : P.lengthU = (B.blocks 0).bl (i - 1)) (hlen : P.blkLen = B.log)
    (hc : ∀ g < 2 ^ (B.blocks 0).bl i, P.core.bgs g = c g) {k : ℕ} (hk : k < B.log)
    (hP : BlocksAt B.log ((B.blocks 0).bl (i - 1)) β rb V (k - 1) P.blkBeta P.blkV) :
    ∃ T W msg, P.phase0Update B (prevOf rb k) k = .ok ({ P with blkBeta := T, blkV := W }, msg) ∧
      BlocksAt B.log ((B.blocks 0).bl (i - 1)) β rb V k T W ∧
      ∀ x, msg.eval x = blockPoly (B.blocks 0) i B.log c rb β V k x := by
  set C := B.blocks 0 with hC
  set n := C.bl (i - 1) with hn
  set K := B.log with hK
  set s := (if k = 0 then (P.blkBeta, P.blkV)
    else bindBlocks P.lengthU (prevOf rb k) (2 ^ (P.blkLen - k)) (P.blkBeta, P.blkV)) with hs
  have hold : BlocksAt K n β rb V k s.1 s.2 := by
    rcases k with _ | k
    · rw [if_pos rfl] at hs
      rw [hs]; exact hP
    · rw [if_neg (Nat.succ_ne_zero k)] at hs
      have hp : prevOf rb (k + 1) = rb k := by simp [prevOf]
      have hpow := pow_sub_succ (show k < K by omega)
      rw [Nat.add_sub_cancel] at hP
      obtain ⟨h1, h2⟩ := bindBlocks_eq n (rb k) P.blkBeta P.blkV (2 ^ (K - (k + 1)))
      rw [hs, hlu, hlen, hp]
      refine ⟨fun b hb => ?_, fun b hb u hu => ?_⟩
      · rw [h1, if_pos hb, foldK, foldT, foldT, hP.beta _ (by omega), hP.beta _ (by omega)]
      · rw [h2 b u hu, if_pos hb, foldK, foldT, foldT, hP.val _ (by omega) u hu,
          hP.val _ (by omega) u hu]
  have hlt : 2 ^ (K - k - 1) ≤ 2 ^ K := Nat.pow_le_pow_right (by norm_num) (by omega)
  have hpow := pow_sub_succ hk
  rw [show K - (k + 1) = K - k - 1 by omega] at hpow
  obtain ⟨ret, e, h⟩ := loopM_ok (n := 2 ^ (K - k - 1)) (s := (⟨0, 0, 0, 0⟩ : CubicPoly F))
    (b := fun blk (ret : CubicPoly F) => do
      let zero := s.1 (blk <<< 1)
      let one := s.1 (blk <<< 1 ||| 1)
      let v ← loopM (2 ^ P.lengthG) (fun g v =>
        gatePart P.lengthU ((B.blocks blk).gate P.layerId g) (P.core.bgs g) s.2 blk v) ⟨0, 0, 0⟩
      return ret.add (v.mul ⟨one - zero, zero⟩))
    (fun m ret => ∀ x, ret.eval x = ∑ b ∈ range m, foldT x (foldK rb k β) b *
      gsum C i c (fun u => foldT x (foldK rb k (fun b => V b u)) b))
    (fun x => by simp [CubicPoly.eval])
    (fun b hb ret hret => by
      obtain ⟨v, e, hv⟩ := gates_ok hg (lt_of_lt_of_le hb hlt) P.core.bgs s.2
      refine ⟨_, by rw [hlg, hlu, hid, e]; rfl, fun x => ?_⟩
      have e1 : (ret.add (v.mul ⟨s.1 (b <<< 1 ||| 1) - s.1 (b <<< 1), s.1 (b <<< 1)⟩)).eval x =
          ret.eval x + foldT x s.1 b * v.eval x := by
        rw [shl_one_or, shl_one, foldT]
        simp only [CubicPoly.add, CubicPoly.eval, QuadraticPoly.mul, QuadraticPoly.eval]
        ring
      rw [e1, hret, sum_range_succ, hv]
      congr 2
      · rw [foldT, foldT, hold.beta _ (by omega), hold.beta _ (by omega)]
      · refine gsum_congr (n := n) (fun g hg' => (hg 0 (by positivity) g hg').2) hc (fun u hu => ?_)
        rw [foldT, foldT, hold.val _ (by omega) u hu, hold.val _ (by omega) u hu])
  refine ⟨s.1, s.2, ret, ?_, hold, fun x => ?_⟩
  · have e2 : P.phase0Update B (prevOf rb k) k = (loopM (2 ^ (P.blkLen - k - 1))
        (fun blk (ret : CubicPoly F) => do
          let zero := s.1 (blk <<< 1)
          let one := s.1 (blk <<< 1 ||| 1)
          let v ← loopM (2 ^ P.lengthG) (fun g v =>
            gatePart P.lengthU ((B.blocks blk).gate P.layerId g) (P.core.bgs g) s.2 blk v) ⟨0, 0, 0⟩
          return ret.add (v.mul ⟨one - zero, zero⟩)) ⟨0, 0, 0, 0⟩ >>= fun ret =>
        .ok ({ P with blkBeta := s.1, blkV := s.2 }, ret)) := rfl
    rw [e2, hlen, e]
    rfl
  · rw [h, blockPoly, show K - (k + 1) = K - k - 1 by omega]

variable [DecidableEq F]

/-- `j` rounds of phase 0 -/
theorem rounds0 {B : BlockedCircuit} {i : ℕ} (hg : GatesOk B i) {P : Prover F}
    {c β rb : ℕ → F} {V : ℕ → ℕ → F} (hid : P.layerId = i) (hlg : P.lengthG = (B.blocks 0).bl i)
    (hlu : P.lengthU = (B.blocks 0).bl (i - 1)) (hlen : P.blkLen = B.log)
    (hc : ∀ g < 2 ^ (B.blocks 0).bl i, P.core.bgs g = c g)
    (hP : BlocksAt B.log ((B.blocks 0).bl (i - 1)) β rb V 0 P.blkBeta P.blkV) : ∀ j ≤ B.log,
    ∃ T W, loopM j (round0 (Prover.phase0Update B) rb)
        (P, blockClaim (B.blocks 0) i B.log c rb β V 0, 0) =
      .ok ({ P with blkBeta := T, blkV := W }, blockClaim (B.blocks 0) i B.log c rb β V j,
        prevOf rb j) ∧
      BlocksAt B.log ((B.blocks 0).bl (i - 1)) β rb V (j - 1) T W := by
  intro j
  induction j with
  | zero => intro _; exact ⟨P.blkBeta, P.blkV, rfl, hP⟩
  | succ j ih =>
    intro hj
    obtain ⟨T, W, e, hTW⟩ := ih (by omega)
    obtain ⟨T', W', msg, e', h', hm⟩ := phase0_update hg
      (P := { P with blkBeta := T, blkV := W }) hid hlg hlu hlen hc (show j < B.log by omega) hTW
    refine ⟨T', W', ?_, by simpa using h'⟩
    rw [loopM_succ, e, Outcome.bind_ok, round0]
    dsimp only
    rw [e', Outcome.ok_bind]
    dsimp only
    rw [hm, hm, hm, blockPoly_sum _ _ (by omega), beq_self_eq_true, Outcome.check_true,
      Outcome.ok_bind, blockPoly_next]
    simp [prevOf]

/-! ## phases 1 and 2 -/

omit [DecidableEq F] in
theorem scale_eval (b : F) (q : QuadraticPoly F) (x : F) : (scale b q).eval x = b * q.eval x := by
  simp only [scale, QuadraticPoly.eval]; ring

omit [DecidableEq F] in
theorem update_prev (ty : ℕ → ℤ) (w : ℕ → ℕ) (o : ℕ → F) (N t : ℕ) (K : Core F) (prev prev' : F) :
    K.update ty w o N t prev 0 = K.update ty w o N t prev' 0 := by
  simp only [Core.update, if_true]

/-- `j` rounds of a prover whose messages are those of the CMT prover, scaled; the initial value of
`previous_random` does not matter. -/
theorem rounds_scaled {σ : Type} (h2 : (2 : F) * inv2 = 1) {ty : ℕ → ℤ} {w : ℕ → ℕ}
    {c o V r : ℕ → F} {N n : ℕ} (hty : ∀ g < N, ty g = 0 ∨ ty g = 1 ∨ ty g = 2)
    (hw : ∀ g < N, ty g ≠ 2 → w g < 2 ^ n) (q b : F) (emb : Core F → σ)
    (upd : σ → F → ℕ → Outcome (σ × QuadraticPoly F))
    (hupd : ∀ K prev bit, upd (emb K) prev bit =
      (K.update ty w o N (2 ^ n) prev bit >>= fun s => .ok (emb s.1, scale b s.2)))
    {K : Core F} (hP : HoldsAt n N w c V r 0 K) : ∀ j ≤ n,
    ∃ K', loopM j (Cmt.round upd r)
        (emb K, b * claimAt n r (tabA N ty c w o) V (tabB N ty c w o) 0, q) =
      .ok (emb K', b * claimAt n r (tabA N ty c w o) V (tabB N ty c w o) j,
        if j = 0 then q else r (j - 1)) ∧ HoldsAt n N w c V r (j - 1) K' := by
  intro j
  induction j with
  | zero => intro _; exact ⟨K, rfl, hP⟩
  | succ j ih =>
    intro hj
    obtain ⟨K1, e, hK⟩ := ih (by omega)
    obtain ⟨K', msg, e', hK', hm⟩ := holds_update h2 (o := o) hty hw (show j < n by omega) hK
    refine ⟨K', ?_, by simpa using hK'⟩
    have e'' : K1.update ty w o N (2 ^ n) (if j = 0 then q else r (j - 1)) j = .ok (K', msg) := by
      rw [← e']
      rcases j with _ | j
      · exact update_prev _ _ _ _ _ _ _ _
      · simp [prevOf]
    rw [loopM_succ, e, Outcome.bind_ok, Cmt.round]
    dsimp only
    rw [hupd, e'', Outcome.ok_bind, Outcome.ok_bind]
    dsimp only
    rw [scale_eval, scale_eval, scale_eval, ← mul_add, hm, hm, hm, polyAt_sum (by omega),
      beq_self_eq_true, Outcome.check_true, Outcome.ok_bind, polyAt_next]
    simp

end Libra.Blocked
