import Verif.Proofs.Sumcheck
import Verif.Proofs.Outcome
import Verif.Spec.Gkr
import Mathlib.Tactic.LinearCombination

/-!
# What the gate loops of the two phases contribute

`phi N c d T = Σ_x c_x add_mult_sum[x] + d_x addV_array[x]` is linear in the tables; each gate adds a
fixed amount to it.
-/

namespace Libra
open Spec Finset
variable {F : Type} [CommRing F]

/-- linear functional of the two accumulated tables -/
def phi (N : ℕ) (c d : ℕ → F) (T : Tabs F) : F := dot N c T.addMultSum + dot N d T.addVArray

/-- `gatePoly` with the second operand summed over the hypercube -/
def gateHalf (g : Gate) (ex : ℕ → F) (a : F) (V : ℕ → F) : F :=
  let u := g.u.toNat
  let b := V g.v.toNat
  if g.ty = 0 then ex u * (a + b)
  else if g.ty = 1 then ex u * (a * b)
  else if g.ty = 5 then (∑ j ∈ Ico u g.v.toNat, ex j) * a
  else if g.ty = 6 then ex u * (1 - a)
  else if g.ty = 7 then ex u * (a - b)
  else if g.ty = 8 then ex u * (a + b - 2 * a * b)
  else if g.ty = 9 then ex u * (b - a * b)
  else if g.ty = 10 then ex u * a
  else if g.ty = 12 then (∑ j ∈ Ico u (g.v + 1).toNat, 2 ^ (j - u) * ex j) * a
  else if g.ty = 13 then ex u * (a * (1 - b))
  else 0

theorem dot_expLoop (N : ℕ) (c : ℕ → F) (u w : ℕ) (t : F) (hw : w ≤ N) (A : ℕ → LinearPoly F) :
    dot N c (loopFrom u w (fun j (s : (ℕ → LinearPoly F) × F) =>
      (addB s.1 j s.2, s.2 + s.2)) (A, t)).1 =
      dot N c A + ∑ j ∈ Ico u w, c j * (2 ^ (j - u) * t) := by
  rw [loopFrom, sum_Ico_eq_sum_range]
  have key : ∀ m ≤ w - u, ∀ s, s = loop m (fun k (s : (ℕ → LinearPoly F) × F) =>
      (addB s.1 (u + k) s.2, s.2 + s.2)) (A, t) →
      s.2 = 2 ^ m * t ∧ dot N c s.1 =
        dot N c A + ∑ k ∈ range m, c (u + k) * (2 ^ (u + k - u) * t) := by
    intro m
    induction m with
    | zero => rintro hm s rfl; simp
    | succ m ih =>
      rintro hm s rfl
      obtain ⟨h1, h2⟩ := ih (by omega) _ rfl
      rw [loop_succ]
      refine ⟨?_, ?_⟩
      · simp only [h1]; ring
      · simp only
        rw [dot_addB _ _ _ _ _ (by omega), h2, h1, sum_range_succ, Nat.add_sub_cancel_left]
        ring
  exact (key _ le_rfl _ rfl).2

theorem dot_expLoop_at (N : ℕ) (c : ℕ → F) (k0 u w : ℕ) (t : F) (f : ℕ → F) (hk : k0 < N)
    (A : ℕ → LinearPoly F) :
    dot N c (loopFrom u w (fun j (s : (ℕ → LinearPoly F) × F) =>
      (addB s.1 k0 (s.2 * f j), s.2 + s.2)) (A, t)).1 =
      dot N c A + ∑ j ∈ Ico u w, c k0 * (2 ^ (j - u) * t * f j) := by
  rw [loopFrom, sum_Ico_eq_sum_range]
  have key : ∀ m ≤ w - u, ∀ s, s = loop m (fun k (s : (ℕ → LinearPoly F) × F) =>
      (addB s.1 k0 (s.2 * f (u + k)), s.2 + s.2)) (A, t) →
      s.2 = 2 ^ m * t ∧ dot N c s.1 =
        dot N c A + ∑ k ∈ range m, c k0 * (2 ^ (u + k - u) * t * f (u + k)) := by
    intro m
    induction m with
    | zero => rintro hm s rfl; simp
    | succ m ih =>
      rintro hm s rfl
      obtain ⟨h1, h2⟩ := ih (by omega) _ rfl
      rw [loop_succ]
      refine ⟨?_, ?_⟩
      · simp only [h1]; ring
      · simp only
        rw [dot_addB _ _ _ _ _ hk, h2, h1, sum_range_succ, Nat.add_sub_cancel_left]
        ring
  exact (key _ le_rfl _ rfl).2

theorem Spec.Wire.lt {n : ℕ} {w : ℤ} (h : Wire n w) : w.toNat < 2 ^ n := by
  have h1 := h.1; have h2 := h.2
  have : ((w.toNat : ℤ)) < ((2 ^ n : ℕ) : ℤ) := by
    push_cast; rw [Int.toNat_of_nonneg h1]; exact h2
  exact_mod_cast this

theorem toNat_le {n : ℕ} {w : ℤ} (h : w ≤ 2 ^ n) : w.toNat ≤ 2 ^ n := by
  have : w ≤ ((2 ^ n : ℕ) : ℤ) := by push_cast; exact h
  exact Int.toNat_le.2 this

/-- contribution of one gate to `phi` in phase 1 -/
def contrib1 (c d V : ℕ → F) (tmp tmpu : F) (g : Gate) : F :=
  let u := g.u.toNat
  let b := V g.v.toNat
  if g.ty = 0 then c u * tmp + d u * (b * tmp)
  else if g.ty = 1 then c u * (b * tmp)
  else if g.ty = 4 then c u * tmpu
  else if g.ty = 5 then ∑ j ∈ Ico u g.v.toNat, c j * tmp
  else if g.ty = 6 then c u * -tmp + d u * tmp
  else if g.ty = 7 then c u * tmp + d u * -(b * tmp)
  else if g.ty = 8 then c u * (tmp - 2 * b * tmp) + d u * (tmp * b)
  else if g.ty = 9 then c u * -(b * tmp) + d u * (tmp * b)
  else if g.ty = 10 then c u * tmp
  else if g.ty = 12 then ∑ j ∈ Ico u (g.v + 1).toNat, c j * (2 ^ (j - u) * tmp)
  else if g.ty = 13 then c u * (-(tmp * b) + tmp)
  else 0

theorem phi_phase1Gate {var : Variant} {n : ℕ} {g : Gate} (hg : GateOk (var = .zk) n g)
    (c d V tmpG : ℕ → F) (i : ℕ) (T : Tabs F) :
    phi (2 ^ n) c d (phase1Gate var tmpG V g i T) =
      phi (2 ^ n) c d T + contrib1 c d V (tmpG i) (tmpG g.u.toNat) g := by
  unfold phase1Gate contrib1 phi
  rcases hg with ⟨ht, hu, hv⟩ | ht | ⟨ht, _⟩ | ⟨ht, hu⟩ | ⟨ht, hu, hv⟩ | ⟨hz, ht, hu, hv, _⟩ |
    ⟨hz, ht, hu, hv⟩
  · have hu := hu.lt
    rcases ht with ht | ht | ht | ht | ht <;>
      simp [ht, dot_addB _ _ _ _ _ hu] <;> ring
  · simp [ht]
  · simp [ht]
  · have hu := hu.lt
    rcases ht with ht | ht | ht <;>
      simp [ht, dot_addB _ _ _ _ _ hu] <;> ring
  · simp [ht, dot_loop_addB _ _ _ _ _ (toNat_le hv)]; ring
  · have hz : var = .zk := by simpa using hz
    simp [ht, hz, dot_expLoop _ _ _ _ _ (toNat_le (n := n) (w := g.v + 1) (by omega))]; ring
  · have hz : var = .zk := by simpa using hz
    simp [ht, hz, dot_addB _ _ _ _ _ hu.lt]; ring

/-- contribution of one gate to `phi` in phase 2 -/
def contrib2 (c d tmpU : ℕ → F) (tmpG vU : F) (g : Gate) : F :=
  let u := g.u.toNat
  let v := g.v.toNat
  let tmp := tmpG * tmpU u
  if g.ty = 0 then c v * tmp + d v * (tmp * vU)
  else if g.ty = 1 then c v * (tmp * vU)
  else if g.ty = 5 then ∑ j ∈ Ico u v, d 0 * (tmpG * vU * tmpU j)
  else if g.ty = 6 then d v * (tmp - tmp * vU)
  else if g.ty = 7 then c v * -tmp + d v * (tmp * vU)
  else if g.ty = 8 then c v * (tmp - 2 * vU * tmp) + d v * (tmp * vU)
  else if g.ty = 9 then c v * (tmp - vU * tmp)
  else if g.ty = 10 then d v * (tmp * vU)
  else if g.ty = 12 then ∑ j ∈ Ico u (g.v + 1).toNat, d 0 * (2 ^ (j - u) * (tmpG * vU) * tmpU j)
  else if g.ty = 13 then c v * -(tmp * vU) + d v * (tmp * vU)
  else 0

theorem phase2Gate_ok {var : Variant} {n : ℕ} {g : Gate} (hg : GateOk (var = .zk) n g)
    (hp : g.ty = 6 ∨ g.ty = 10 → g.v = 0) (tmpG tmpU : ℕ → F) (vU : F) (i : ℕ) (T : Tabs F) :
    ∃ T', phase2Gate var tmpG tmpU vU g i T = .ok T' ∧ T'.vMultAdd = T.vMultAdd ∧
      ∀ c d, phi (2 ^ n) c d T' = phi (2 ^ n) c d T + contrib2 c d tmpU (tmpG i) vU g := by
  have h0 : (0 : ℕ) < 2 ^ n := by positivity
  unfold phase2Gate contrib2 phi
  rcases hg with ⟨ht, hu, hv⟩ | ht | ⟨ht, _⟩ | ⟨ht, hu⟩ | ⟨ht, hu, hv⟩ | ⟨hz, ht, hu, hv, _⟩ |
    ⟨hz, ht, hu, hv⟩
  · have hv := hv.lt
    rcases ht with ht | ht | ht | ht | ht <;>
      (apply Exists.intro; refine ⟨?_, ?_, fun c d => ?_⟩
       · simp [ht]; rfl
       · rfl
       · simp [ht, dot_addB _ _ _ _ _ hv]; ring)
  · exact ⟨T, by simp [ht], rfl, fun c d => by simp [ht]⟩
  · exact ⟨T, by simp [ht], rfl, fun c d => by simp [ht]⟩
  · rcases ht with ht | ht | ht
    · exact ⟨T, by simp [ht], rfl, fun c d => by simp [ht]⟩
    · have hv : g.v.toNat < 2 ^ n := by rw [hp (.inl ht)]; simp
      apply Exists.intro; refine ⟨?_, ?_, fun c d => ?_⟩
      · simp [ht]; rfl
      · rfl
      · simp [ht, dot_addB _ _ _ _ _ hv]; ring
    · have hv : g.v.toNat < 2 ^ n := by rw [hp (.inr ht)]; simp
      apply Exists.intro; refine ⟨?_, ?_, fun c d => ?_⟩
      · simp [ht, hp (.inr ht)]; rfl
      · rfl
      · simp [ht, hp (.inr ht), dot_addB _ _ _ _ _ h0]; ring
  · apply Exists.intro; refine ⟨?_, ?_, fun c d => ?_⟩
    · simp [ht]; rfl
    · rfl
    · simp [ht, dot_loop_addB_at _ _ _ _ _ _ h0]; ring
  · have hz : var = .zk := by simpa using hz
    apply Exists.intro; refine ⟨?_, ?_, fun c d => ?_⟩
    · simp [ht, hz]; rfl
    · rfl
    · simp [ht, dot_expLoop_at _ _ _ _ _ _ _ h0]; ring
  · have hz : var = .zk := by simpa using hz
    have hv : g.v.toNat < 2 ^ n := by rw [hv]; exact hu.lt
    apply Exists.intro; refine ⟨?_, ?_, fun c d => ?_⟩
    · simp [ht, hz]; rfl
    · rfl
    · simp [ht, dot_addB _ _ _ _ _ hv]; ring

/-! ## the four instances -/

theorem sum_Ico_int (u v : ℤ) (hu : 0 ≤ u) (f : ℕ → F) :
    ∑ k ∈ range (v - u).toNat, f (u + k).toNat = ∑ j ∈ Ico u.toNat v.toNat, f j := by
  rw [sum_Ico_eq_sum_range]
  have : v.toNat - u.toNat = (v - u).toNat := by omega
  rw [this]
  exact sum_congr rfl (fun k _ => by congr 1; omega)

/-- summing the tables against the previous layer's values gives the gate's value -/
theorem contrib1_value {zk : Bool} {n : ℕ} {g : Gate} (hg : GateOk zk n g) (h3 : g.ty ≠ 3)
    (V : ℕ → F) (tmp tmpu : F) (h4 : g.ty = 4 → tmpu = tmp) :
    contrib1 V (fun _ => 1) V tmp tmpu g = tmp * gateValue g (fun k => V k.toNat) := by
  unfold contrib1 gateValue
  rcases hg with ⟨ht, hu, hv⟩ | ht | ⟨ht, _⟩ | ⟨ht, hu⟩ | ⟨ht, hu, hv⟩ | ⟨hz, ht, hu, hv, _⟩ |
    ⟨hz, ht, hu, hv⟩
  · rcases ht with ht | ht | ht | ht | ht <;> simp [ht] <;> ring
  · simp [ht]
  · exact absurd ht h3
  · rcases ht with ht | ht | ht
    · simp [ht, h4 ht]; ring
    · simp [ht]; ring
    · simp [ht]; ring
  · simp only [ht]; norm_num
    rw [sum_Ico_int _ _ hu, mul_sum]; exact sum_congr rfl (fun j _ => by ring)
  · simp only [ht]; norm_num
    rw [show g.v - g.u + 1 = g.v + 1 - g.u by ring, sum_Ico_eq_sum_range, mul_sum,
      show (g.v + 1).toNat - g.u.toNat = (g.v + 1 - g.u).toNat by omega]
    refine sum_congr rfl (fun k _ => ?_)
    rw [show (g.u + k).toNat = g.u.toNat + k by omega, Nat.add_sub_cancel_left]; ring
  · simp [ht, hv]; ring

/-- evaluating the phase 1 tables at a point -/
theorem contrib1_half {zk : Bool} {n : ℕ} {g : Gate} (hg : GateOk zk n g) (h4 : g.ty ≠ 4)
    (ex V : ℕ → F) (a tmp tmpu : F) :
    contrib1 (fun x => a * ex x) ex V tmp tmpu g = tmp * gateHalf g ex a V := by
  unfold contrib1 gateHalf
  rcases hg with ⟨ht, hu, hv⟩ | ht | ⟨ht, _⟩ | ⟨ht, hu⟩ | ⟨ht, hu, hv⟩ | ⟨hz, ht, hu, hv, _⟩ |
    ⟨hz, ht, hu, hv⟩
  · rcases ht with ht | ht | ht | ht | ht <;> simp [ht] <;> ring
  · simp [ht]
  · simp [ht]
  · rcases ht with ht | ht | ht
    · exact absurd ht h4
    · simp [ht]; ring
    · simp [ht]; ring
  · simp only [ht]; norm_num
    rw [sum_mul, mul_sum]; exact sum_congr rfl (fun j _ => by ring)
  · simp only [ht]; norm_num
    rw [sum_mul, mul_sum]; exact sum_congr rfl (fun j _ => by ring)
  · simp [ht]; ring

theorem contrib2_half {zk : Bool} {n : ℕ} {g : Gate} (hg : GateOk zk n g)
    (ex V : ℕ → F) (a tmp : F) :
    contrib2 V (fun _ => 1) ex tmp a g = tmp * gateHalf g ex a V := by
  unfold contrib2 gateHalf
  rcases hg with ⟨ht, hu, hv⟩ | ht | ⟨ht, _⟩ | ⟨ht, hu⟩ | ⟨ht, hu, hv⟩ | ⟨hz, ht, hu, hv, _⟩ |
    ⟨hz, ht, hu, hv⟩
  · rcases ht with ht | ht | ht | ht | ht <;> simp [ht] <;> ring
  · simp [ht]
  · simp [ht]
  · rcases ht with ht | ht | ht <;> simp [ht] <;> ring
  · simp only [ht]; norm_num
    rw [sum_mul, mul_sum]; exact sum_congr rfl (fun j _ => by ring)
  · simp only [ht]; norm_num
    rw [sum_mul, mul_sum]; exact sum_congr rfl (fun j _ => by ring)
  · simp [ht]; ring

theorem contrib2_poly {zk : Bool} {n : ℕ} {g : Gate} (hg : GateOk zk n g)
    (ex ey : ℕ → F) (a b tmp : F) :
    contrib2 (fun y => b * ey y) ey ex tmp a g = tmp * gatePoly g ex ey a b := by
  unfold contrib2 gatePoly
  rcases hg with ⟨ht, hu, hv⟩ | ht | ⟨ht, _⟩ | ⟨ht, hu⟩ | ⟨ht, hu, hv⟩ | ⟨hz, ht, hu, hv, _⟩ |
    ⟨hz, ht, hu, hv⟩
  · rcases ht with ht | ht | ht | ht | ht <;> simp [ht] <;> ring
  · simp [ht]
  · simp [ht]
  · rcases ht with ht | ht | ht <;> simp [ht] <;> ring
  · simp only [ht]; norm_num
    rw [sum_mul, sum_mul, mul_sum]; exact sum_congr rfl (fun j _ => by ring)
  · simp only [ht]; norm_num
    rw [sum_mul, sum_mul, mul_sum]; exact sum_congr rfl (fun j _ => by ring)
  · simp [ht]; ring

/-! ## the loops -/

theorem phase1Gate_vMultAdd (var : Variant) (tmpG V : ℕ → F) (g : Gate) (i : ℕ) (T : Tabs F) :
    (phase1Gate var tmpG V g i T).vMultAdd = T.vMultAdd := by
  unfold phase1Gate
  simp only [apply_ite Tabs.vMultAdd, ite_self]

theorem init_vMultAdd (tot : ℕ) (V : ℕ → F) (T : Tabs F) (k : ℕ) :
    (T.init tot V).vMultAdd k = if k < tot then LinearPoly.ofConst (V k) else T.vMultAdd k := by
  rw [← loop_write (fun i => LinearPoly.ofConst (V i)) T.vMultAdd tot k]
  exact congrFun (loop_map Tabs.vMultAdd (fun i _ s => rfl)) k

theorem init_addVArray (tot : ℕ) (V : ℕ → F) (T : Tabs F) (k : ℕ) :
    (T.init tot V).addVArray k = if k < tot then ⟨0, 0⟩ else T.addVArray k := by
  rw [← loop_write (fun _ => (⟨0, 0⟩ : LinearPoly F)) T.addVArray tot k]
  exact congrFun (loop_map Tabs.addVArray (fun i _ s => rfl)) k

theorem init_addMultSum (tot : ℕ) (V : ℕ → F) (T : Tabs F) (k : ℕ) :
    (T.init tot V).addMultSum k = if k < tot then ⟨0, 0⟩ else T.addMultSum k := by
  rw [← loop_write (fun _ => (⟨0, 0⟩ : LinearPoly F)) T.addMultSum tot k]
  exact congrFun (loop_map Tabs.addMultSum (fun i _ s => rfl)) k

theorem phi_init (tot : ℕ) (V c d : ℕ → F) (T : Tabs F) : phi tot c d (T.init tot V) = 0 := by
  rw [phi, dot_zero, dot_zero, add_zero]
  · intro i hi; rw [init_addVArray, if_pos hi]
  · intro i hi; rw [init_addMultSum, if_pos hi]

/-- the phase 1 gate loop of a layer -/
theorem phase1Loop {var : Variant} {n N : ℕ} {gates : ℕ → Gate}
    (hg : ∀ i < N, GateOk (var = .zk) n (gates i)) (tmpG V : ℕ → F) (T : Tabs F) :
    let T' := loop N (fun i T => phase1Gate var tmpG V (gates i) i T) (T.init (2 ^ n) V)
    (∀ k < 2 ^ n, (T'.vMultAdd k).b = V k) ∧
    ∀ c d, phi (2 ^ n) c d T' =
      ∑ i ∈ range N, contrib1 c d V (tmpG i) (tmpG (gates i).u.toNat) (gates i) := by
  intro T'
  refine ⟨fun k hk => ?_, fun c d => ?_⟩
  · have : T'.vMultAdd = (T.init (2 ^ n) V).vMultAdd := by
      refine loop_inv (P := fun _ (s : Tabs F) => s.vMultAdd = (T.init (2 ^ n) V).vMultAdd) rfl ?_
      intro i _ s hs; rw [phase1Gate_vMultAdd, hs]
    rw [this, init_vMultAdd, if_pos hk]; rfl
  · have := loop_sum (phi (2 ^ n) c d) (n := N)
      (b := fun i T => phase1Gate var tmpG V (gates i) i T) (s := T.init (2 ^ n) V)
      (fun i => contrib1 c d V (tmpG i) (tmpG (gates i).u.toNat) (gates i))
      (fun i hi s => phi_phase1Gate (hg i hi) c d V tmpG i s)
    rw [this, phi_init, zero_add]

/-- the phase 2 gate loop of a layer -/
theorem phase2Loop {var : Variant} {n N : ℕ} {gates : ℕ → Gate}
    (hg : ∀ i < N, GateOk (var = .zk) n (gates i))
    (hp : ∀ i < N, (gates i).ty = 6 ∨ (gates i).ty = 10 → (gates i).v = 0)
    (tmpG tmpU V : ℕ → F) (vU : F) (T : Tabs F) :
    ∃ T', loopM N (fun i T => phase2Gate var tmpG tmpU vU (gates i) i T) (T.init (2 ^ n) V) = .ok T' ∧
    (∀ k < 2 ^ n, (T'.vMultAdd k).b = V k) ∧
    ∀ c d, phi (2 ^ n) c d T' = ∑ i ∈ range N, contrib2 c d tmpU (tmpG i) vU (gates i) := by
  obtain ⟨T', e, h1, h2⟩ := loopM_ok (n := N)
    (b := fun i T => phase2Gate var tmpG tmpU vU (gates i) i T) (s := T.init (2 ^ n) V)
    (P := fun m (s : Tabs F) => s.vMultAdd = (T.init (2 ^ n) V).vMultAdd ∧
      ∀ c d, phi (2 ^ n) c d s = ∑ i ∈ range m, contrib2 c d tmpU (tmpG i) vU (gates i))
    ⟨rfl, fun c d => by rw [phi_init]; simp⟩
    (fun i hi s ⟨hs1, hs2⟩ => by
      obtain ⟨s', e, hv, hc⟩ := phase2Gate_ok (hg i hi) (hp i hi) tmpG tmpU vU i s
      exact ⟨s', e, hv.trans hs1, fun c d => by rw [hc, hs2, sum_range_succ]⟩)
  refine ⟨T', e, fun k hk => ?_, h2⟩
  rw [h1, init_vMultAdd, if_pos hk]; rfl

/-! ## rounds -/

theorem Tabs.round_eq (first : Bool) (r : F) (m : ℕ) (T : Tabs F) :
    (T.round first r m).1 = ⟨loop m (bindStep first r) T.vMultAdd,
      loop m (bindStep first r) T.addVArray, loop m (bindStep first r) T.addMultSum⟩ ∧
    ∀ x, (T.round first r m).2.eval x = ∑ i ∈ range m,
      ((loop m (bindStep first r) T.addMultSum i).eval x *
        (loop m (bindStep first r) T.vMultAdd i).eval x +
        (loop m (bindStep first r) T.addVArray i).eval x) := by
  have key : ∀ k, ∀ s, s = loop k (fun i (s : Tabs F × QuadraticPoly F) =>
      let V := bindStep first r i s.1.vMultAdd
      let B := bindStep first r i s.1.addVArray
      let A := bindStep first r i s.1.addMultSum
      ((⟨V, B, A⟩ : Tabs F), accumulate (A i) (V i) (B i) s.2)) (T, ⟨0, 0, 0⟩) →
      s.1 = ⟨loop k (bindStep first r) T.vMultAdd,
        loop k (bindStep first r) T.addVArray, loop k (bindStep first r) T.addMultSum⟩ ∧
      ∀ x, s.2.eval x = ∑ i ∈ range k,
        ((loop (i + 1) (bindStep first r) T.addMultSum i).eval x *
        (loop (i + 1) (bindStep first r) T.vMultAdd i).eval x +
        (loop (i + 1) (bindStep first r) T.addVArray i).eval x) := by
    intro k
    induction k with
    | zero =>
      rintro s rfl
      exact ⟨rfl, fun x => by simp [QuadraticPoly.eval]⟩
    | succ k ih =>
      rintro s rfl
      obtain ⟨h1, h2⟩ := ih _ rfl
      rw [loop_succ]
      dsimp only
      refine ⟨by rw [h1]; rfl, fun x => ?_⟩
      rw [accumulate_eval, h2, sum_range_succ, h1]; rfl
  obtain ⟨h1, h2⟩ := key m _ rfl
  refine ⟨h1, fun x => ?_⟩
  have h3 := h2 x
  refine Eq.trans h3 (sum_congr rfl (fun i hi => ?_))
  have hi := mem_range.1 hi
  simp only [bindLoop, if_pos hi, if_pos (Nat.lt_succ_self i)]

/-- one round: the tables advance and the message is the honest round polynomial -/
theorem Tabs.round_spec {n k : ℕ} {r A V B : ℕ → F} {T : Tabs F} (hk : k < n)
    (hA : Holds n r k A T.addMultSum) (hV : Holds n r k V T.vMultAdd)
    (hB : Holds n r k B T.addVArray) (prev : F) (hp : ∀ j, k = j + 1 → prev = r j) :
    let s := T.round (k == 0) prev (2 ^ (n - k) >>> 1)
    Holds n r (k + 1) A s.1.addMultSum ∧ Holds n r (k + 1) V s.1.vMultAdd ∧
    Holds n r (k + 1) B s.1.addVArray ∧ ∀ x, s.2.eval x = polyAt n r A V B k x := by
  intro s
  have hpow : 2 ^ (n - k) >>> 1 = 2 ^ (n - (k + 1)) := by
    rw [Nat.shiftRight_eq_div_pow, pow_sub_succ hk]; simp
  obtain ⟨h1, h2⟩ := Tabs.round_eq (k == 0) prev (2 ^ (n - (k + 1))) T
  have hs : s = T.round (k == 0) prev (2 ^ (n - (k + 1))) := by rw [← hpow]
  have a1 := holds_bind hk hA prev hp
  have a2 := holds_bind hk hV prev hp
  have a3 := holds_bind hk hB prev hp
  rw [hs, h1]
  refine ⟨a1, a2, a3, fun x => ?_⟩
  rw [h2, polyAt, roundValue, tableSum]
  refine sum_congr rfl (fun i hi => ?_)
  have hi := mem_range.1 hi
  rw [a1 i hi, a2 i hi, a3 i hi, lineOf_eval, lineOf_eval, lineOf_eval]

theorem pow_half {n k : ℕ} (hk : k < n) : 2 ^ (n - k) >>> 1 = 2 ^ (n - (k + 1)) := by
  rw [Nat.shiftRight_eq_div_pow, pow_sub_succ hk]; simp

/-- value of a fully bound table -/
theorem holds_final {n : ℕ} {r T : ℕ → F} {X : ℕ → LinearPoly F} (h : Holds n r n T X) (prev : F)
    (hp : ∀ j, n = j + 1 → prev = r j) (h0 : n = 0 → prev = 0) :
    (X 0).eval prev = mle n T r := by
  rw [← foldK_mle]
  cases n with
  | zero =>
    rw [h0 rfl, LinearPoly.eval, h 0 (by norm_num)]; simp [foldK]
  | succ n =>
    rw [hp n rfl, h 0 (by simp), lineOf_eval]; rfl

end Libra
