import Verif.Model.ZkVerifier
import Verif.Proofs.FastTrack
import Verif.Spec.Parallel

/-!
# The predicates of the zero-knowledge verifier
-/

namespace Libra.Zk
open Libra Spec Finset
variable {F : Type} [CommRing F]

theorem fillHalves_spec (old : Halves F) (c : F) (n : ℕ) (r omr : ℕ → F)
    (h : ∀ j < n, omr j = 1 - r j) (i : ℕ) (hi : i < 2 ^ n) :
    (fillHalves old c n r omr).get n i = c * eqPoly n r i := by
  have := halves_spec (r := r) (c := c) (d := 1) (n := n) (first := n / 2)
    (f := (fillHalves old c n r omr).first) (s := (fillHalves old c n r omr).second) (by omega)
    (fun k hk => by
      simp only [fillHalves]
      rw [doubling2_spec _ _ _ _ _ (fun j hj => h _ (by omega)) k hk]; simp [setZero])
    (fun k hk => by
      simp only [fillHalves]
      rw [doubling2_spec _ _ _ _ _ (fun j hj => h _ (by omega)) k hk]; simp [setZero]) i hi
  rw [Halves.get, this, mul_one]

/-- the wiring factor of a gate -/
def gateCoef (g : Gate) (ex ey : ℕ → F) : F :=
  let u := g.u.toNat
  let v := g.v.toNat
  if g.ty = 0 ∨ g.ty = 1 ∨ g.ty = 6 ∨ g.ty = 7 ∨ g.ty = 8 ∨ g.ty = 9 ∨ g.ty = 10 ∨ g.ty = 13 then
    ex u * ey v
  else if g.ty = 5 then (∑ j ∈ Ico u v, ex j) * ey 0
  else if g.ty = 12 then (∑ j ∈ Ico u (g.v + 1).toNat, 2 ^ (j - u) * ex j) * ey 0
  else 0

theorem addTo_apply (ret : ℕ → F) (t : ℕ) (x : F) (s : ℕ) :
    addTo ret t x s = ret s + if s = t then x else 0 := by
  unfold addTo
  by_cases h : s = t
  · subst h; simp
  · simp [Function.update_of_ne h, h]

theorem sumLoop_eq (tu : ℕ → F) (bg bv : F) (u v : ℕ) (s : F) :
    sumLoop tu bg bv u v s = s + bg * ((∑ j ∈ Ico u v, tu j) * bv) := by
  rw [sumLoop, loopFrom_add_sum, sum_mul, mul_sum]
  congr 1
  exact sum_congr rfl (fun _ _ => by ring)

theorem expLoop_eq (tu : ℕ → F) (bg bv : F) (u v : ℕ) (s : F) :
    expLoop tu bg bv u v s = s + bg * ((∑ j ∈ Ico u v, 2 ^ (j - u) * tu j) * bv) := by
  have key : ∀ n, loop n (fun k (st : F × F) => (st.1 + bg * st.2 * tu (u + k), st.2 + st.2)) (s, bv)
      = (s + bg * ((∑ k ∈ range n, 2 ^ k * tu (u + k)) * bv), 2 ^ n * bv) := by
    intro n
    induction n with
    | zero => simp
    | succ n ih =>
      rw [loop_succ, ih, sum_range_succ]
      ext
      · dsimp only; ring
      · dsimp only; ring
  rw [expLoop, loopFrom, key, sum_Ico_eq_sum_range]
  dsimp only
  congr 4
  funext k
  rw [Nat.add_sub_cancel_left]

theorem update_add (ret : ℕ → F) (t : ℕ) (x : F) (s : ℕ) :
    Function.update ret t (ret t + x) s = ret s + if s = t then x else 0 := addTo_apply ret t x s

theorem ty_toNat {ty : ℤ} {t : ℕ} (h0 : 0 ≤ ty) : t = ty.toNat ↔ ty = (t : ℤ) := by
  omega

theorem gateCoef_two {g : Gate} (h : g.ty = 0 ∨ g.ty = 1 ∨ g.ty = 6 ∨ g.ty = 7 ∨ g.ty = 8 ∨
    g.ty = 9 ∨ g.ty = 10 ∨ g.ty = 13) (ex ey : ℕ → F) :
    gateCoef g ex ey = ex g.u.toNat * ey g.v.toNat := if_pos h

theorem gateCoef_sum {g : Gate} (h : g.ty = 5) (ex ey : ℕ → F) :
    gateCoef g ex ey = (∑ j ∈ Ico g.u.toNat g.v.toNat, ex j) * ey 0 := by
  rw [gateCoef]; simp [h]

theorem gateCoef_exp {g : Gate} (h : g.ty = 12) (ex ey : ℕ → F) :
    gateCoef g ex ey = (∑ j ∈ Ico g.u.toNat (g.v + 1).toNat, 2 ^ (j - g.u.toNat) * ex j) * ey 0 := by
  rw [gateCoef]; simp [h]

theorem gateCoef_other {g : Gate} (h : ¬ (g.ty = 0 ∨ g.ty = 1 ∨ g.ty = 6 ∨ g.ty = 7 ∨ g.ty = 8 ∨
    g.ty = 9 ∨ g.ty = 10 ∨ g.ty = 13)) (h5 : g.ty ≠ 5) (h12 : g.ty ≠ 12) (ex ey : ℕ → F) :
    gateCoef g ex ey = 0 := by
  rw [gateCoef]; simp only [if_neg h, if_neg h5, if_neg h12]

/-- one gate of a layer that is not parallel -/
theorem plainCase_apply {g : Gate} (h : g.ty = 10 → g.v = 0) (bg : F) (tu tv ret : ℕ → F) (t : ℕ) :
    plainCase g bg tu tv ret t = ret t + if g.ty = (t : ℤ) then bg * gateCoef g tu tv else 0 := by
  unfold plainCase
  by_cases h1 : g.ty = 0 ∨ g.ty = 1 ∨ g.ty = 6 ∨ g.ty = 7 ∨ g.ty = 8 ∨ g.ty = 9 ∨ g.ty = 13
  · rw [if_pos h1, addTo_apply, if_congr (ty_toNat (by omega)) rfl rfl, gateCoef_two (by omega), mul_assoc]
  rw [if_neg h1]
  by_cases h2 : g.ty = 10
  · rw [if_pos h2, addTo_apply, gateCoef_two (by omega), h h2, Int.toNat_zero, h2]
    congr 1
    exact if_congr (by omega) rfl rfl
  rw [if_neg h2]
  by_cases h3 : g.ty = 5
  · rw [if_pos h3, sumLoop_eq, update_add, gateCoef_sum h3, h3]
    congr 1
    exact if_congr (by omega) rfl rfl
  rw [if_neg h3]
  by_cases h4 : g.ty = 12
  · rw [if_pos h4, expLoop_eq, update_add, gateCoef_exp h4, h4]
    congr 1
    exact if_congr (by omega) rfl rfl
  rw [if_neg h4, gateCoef_other (by omega) h3 h4, mul_zero, ite_self, add_zero]

theorem mask_eq {n : ℕ} {w : ℤ} (h : Wire n w) : w.toNat &&& (2 ^ n - 1) = w.toNat := by
  rw [Nat.and_two_pow_sub_one_eq_mod, Nat.mod_eq_of_lt h.lt]

/-- one gate of the first block of a parallel layer -/
theorem blockCase_apply {nb : ℕ} {s : ℤ} {g g' : Gate} (h : CopyOf nb s g g') (bg : F)
    (tu tv ret : ℕ → F) (t : ℕ) :
    blockCase g nb bg tu tv ret t = ret t + if g.ty = (t : ℤ) then bg * gateCoef g tu tv else 0 := by
  unfold blockCase
  have h0 : Wire nb 0 := ⟨le_rfl, by positivity⟩
  by_cases h1 : g.ty = 0 ∨ g.ty = 1 ∨ g.ty = 6 ∨ g.ty = 7 ∨ g.ty = 8 ∨ g.ty = 9 ∨ g.ty = 10 ∨
      g.ty = 13
  · have hw : Wire nb g.u ∧ Wire nb g.v := by
      rcases h.2 with h2 | ⟨_, a, b, _⟩ | ⟨_, a, b, _⟩
      · omega
      · exact ⟨a, by rw [b]; exact h0⟩
      · exact ⟨a, b⟩
    rw [if_pos h1, addTo_apply, if_congr (ty_toNat (by omega)) rfl rfl, gateCoef_two h1,
      mask_eq hw.1, mask_eq hw.2]
  rw [if_neg h1]
  have hw : g.ty ≠ 2 → Wire nb g.u ∧ Wire nb g.v := by
    intro h3
    rcases h.2 with h2 | ⟨_, a, b, _⟩ | ⟨_, a, b, _⟩
    · omega
    · exact ⟨a, by rw [b]; exact h0⟩
    · exact ⟨a, b⟩
  by_cases h3 : g.ty = 5
  · obtain ⟨a, b⟩ := hw (by omega)
    rw [if_pos h3, sumLoop_eq, update_add, gateCoef_sum h3, h3, mask_eq a, mask_eq b]
    congr 1
    exact if_congr (by omega) rfl rfl
  rw [if_neg h3]
  by_cases h4 : g.ty = 12
  · obtain ⟨a, b⟩ := hw (by omega)
    rw [if_pos h4, expLoop_eq, update_add, gateCoef_exp h4, h4, mask_eq a, mask_eq b,
      Int.toNat_add b.1 (by norm_num)]
    congr 1
    exact if_congr (by omega) rfl rfl
  rw [if_neg h4, gateCoef_other (by omega) h3 h4, mul_zero, ite_self, add_zero]

/-- the value of the predicate of type `t` of layer `i` -/
def predSum (C : Circuit) (i : ℕ) (w ex ey : ℕ → F) (t : ℕ) : F :=
  ∑ g ∈ range (2 ^ C.bl i),
    if (C.gate i g).ty = (t : ℤ) then w g * gateCoef (C.gate i g) ex ey else 0

/-- the combination of the predicates is the sum over the gates -/
theorem general_eq {zk : Bool} {C : Circuit} {i : ℕ} (h : LayerOk zk C i) (w ex ey : ℕ → F)
    (a b : F) : general (predSum C i w ex ey) a b = polySum C i w ex ey a b := by
  have hps : polySum C i w ex ey a b = ∑ g ∈ range (2 ^ C.bl i),
      ((if (C.gate i g).ty = ((0 : ℕ) : ℤ) then w g * gateCoef (C.gate i g) ex ey else 0) * (a + b)
      + (if (C.gate i g).ty = ((1 : ℕ) : ℤ) then w g * gateCoef (C.gate i g) ex ey else 0) * a * b
      + (if (C.gate i g).ty = ((6 : ℕ) : ℤ) then w g * gateCoef (C.gate i g) ex ey else 0) * (1 - a)
      + (if (C.gate i g).ty = ((7 : ℕ) : ℤ) then w g * gateCoef (C.gate i g) ex ey else 0) * (a - b)
      + (if (C.gate i g).ty = ((8 : ℕ) : ℤ) then w g * gateCoef (C.gate i g) ex ey else 0) *
          (a + b - 2 * a * b)
      + (if (C.gate i g).ty = ((9 : ℕ) : ℤ) then w g * gateCoef (C.gate i g) ex ey else 0) *
          (b - a * b)
      + (if (C.gate i g).ty = ((5 : ℕ) : ℤ) then w g * gateCoef (C.gate i g) ex ey else 0) * a
      + (if (C.gate i g).ty = ((10 : ℕ) : ℤ) then w g * gateCoef (C.gate i g) ex ey else 0) * a
      + (if (C.gate i g).ty = ((12 : ℕ) : ℤ) then w g * gateCoef (C.gate i g) ex ey else 0) * a
      + (if (C.gate i g).ty = ((13 : ℕ) : ℤ) then w g * gateCoef (C.gate i g) ex ey else 0) *
          (a * (1 - b))) := by
    refine sum_congr rfl (fun g hg => ?_)
    have := h.gates g (mem_range.1 hg)
    generalize C.gate i g = G at this ⊢
    unfold gatePoly gateCoef
    rcases this with ⟨ht, _⟩ | ht | ⟨ht, _⟩ | ⟨ht, _⟩ | ⟨ht, _⟩ | ⟨_, ht, _⟩ | ⟨_, ht, _⟩
    · rcases ht with ht | ht | ht | ht | ht <;> simp [ht] <;> ring
    · simp [ht]
    · simp [ht]
    · rcases ht with ht | ht | ht <;> simp [ht] <;> ring
    · simp [ht]; ring
    · simp [ht]; ring
    · simp [ht]; ring
  rw [hps]
  simp only [sum_add_distrib, ← sum_mul, general, predSum]

theorem predSum_congr {zk : Bool} {C : Circuit} {i : ℕ} (h : LayerOk zk C i)
    {w w' ex ex' ey ey' : ℕ → F}
    (hw : ∀ g < 2 ^ C.bl i, w g = w' g) (hx : ∀ k < 2 ^ C.bl (i - 1), ex k = ex' k)
    (hy : ∀ k < 2 ^ C.bl (i - 1), ey k = ey' k) (h1 : i ≠ 1) (t : ℕ) :
    predSum C i w ex ey t = predSum C i w' ex' ey' t := by
  refine sum_congr rfl (fun g hg => ?_)
  have hg := mem_range.1 hg
  have hG := h.gates g hg
  have hv := h.v0 g hg
  have h4 := h.no4 h1 g hg
  rw [hw g hg]
  generalize C.gate i g = G at hG hv h4 ⊢
  congr 2
  have h0 := hy 0 (by positivity)
  rcases hG with ⟨ht, hu, hv'⟩ | ht | ⟨ht, _⟩ | ⟨ht, hu⟩ | ⟨ht, hu, hv'⟩ | ⟨hz, ht, hu, hv', _⟩ |
    ⟨hz, ht, hu, hv'⟩
  · rw [gateCoef_two (by omega), gateCoef_two (by omega), hx _ hu.lt, hy _ hv'.lt]
  · rw [gateCoef_other (by omega) (by omega) (by omega), gateCoef_other (by omega) (by omega) (by omega)]
  · rw [gateCoef_other (by omega) (by omega) (by omega), gateCoef_other (by omega) (by omega) (by omega)]
  · rw [gateCoef_two (by omega), gateCoef_two (by omega), hx _ hu.lt, hv (by omega)]
    simp [h0]
  · rw [gateCoef_sum ht, gateCoef_sum ht, h0]
    congr 1
    refine sum_congr rfl (fun k hk => hx _ ?_)
    have := (mem_Ico.1 hk).2; have := toNat_le hv'; omega
  · rw [gateCoef_exp ht, gateCoef_exp ht, h0]
    congr 1
    refine sum_congr rfl (fun k hk => ?_)
    have := (mem_Ico.1 hk).2
    have := toNat_le (n := C.bl (i - 1)) (w := G.v + 1) (by omega)
    rw [hx _ (by omega)]
  · rw [gateCoef_two (by omega), gateCoef_two (by omega), hx _ hu.lt, hv', hy _ hu.lt]

theorem eqPoly_split (b k : ℕ) (r : ℕ → F) (c g : ℕ) (hg : g < 2 ^ b) :
    eqPoly (b + k) r (c * 2 ^ b + g) = eqPoly b r g * eqPoly k (fun j => r (j + b)) c := by
  rw [eqPoly, prod_range_add]
  congr 1
  · refine prod_congr rfl (fun j hj => ?_)
    rw [mul_comm c, Nat.testBit_two_pow_mul_add _ hg, if_pos (mem_range.1 hj)]
  · refine prod_congr rfl (fun j _ => ?_)
    rw [mul_comm c, Nat.testBit_two_pow_mul_add _ hg, if_neg (show ¬ b + j < b by omega),
      Nat.add_sub_cancel_left, add_comm b j]

theorem sum_blocks (B m : ℕ) (f : ℕ → F) :
    ∑ x ∈ range (m * B), f x = ∑ c ∈ range m, ∑ g ∈ range B, f (c * B + g) := by
  induction m with
  | zero => simp
  | succ m ih => rw [Nat.succ_mul, sum_range_add, ih, sum_range_succ]

theorem copyPrefix_eq (m : ℕ) (rg ru rv : ℕ → F) (c : ℕ) :
    copyPrefix m rg ru rv c = eqPoly m rg c * (eqPoly m ru c * eqPoly m rv c) := by
  rw [copyPrefix, eqPoly, eqPoly, eqPoly, ← prod_mul_distrib, ← prod_mul_distrib, ← one_mul (∏ _ ∈ _, _),
    ← loop_mul_prod]
  refine loop_congr (fun j _ s => ?_)
  split_ifs <;> ring

theorem copyPrefix0_eq (m : ℕ) (rg ru rv : ℕ → F) (c : ℕ) :
    copyPrefix0 m rg ru rv c = eqPoly m rg c * (eqPoly m ru c * eqPoly m rv 0) := by
  rw [copyPrefix0, eqPoly, eqPoly, eqPoly, ← prod_mul_distrib, ← prod_mul_distrib,
    ← one_mul (∏ _ ∈ _, _), ← loop_mul_prod]
  refine loop_congr (fun j _ s => ?_)
  simp only [Nat.zero_testBit]
  split_ifs <;> first | contradiction | ring

/-- a type whose second operand is at position 0 -/
def Left (t : ℤ) : Prop := t = 6 ∨ t = 10 ∨ t = 5 ∨ t = 12

instance (t : ℤ) : Decidable (Left t) := by unfold Left; infer_instance

theorem gateCoef_copy {nb k c : ℕ} {g g' : Gate}
    (h : CopyOf nb ((c * 2 ^ nb : ℕ) : ℤ) g g') (ru rv : ℕ → F) :
    gateCoef g' (eqPoly (nb + k) ru) (eqPoly (nb + k) rv) =
      gateCoef g (eqPoly nb ru) (eqPoly nb rv) * (eqPoly k (fun j => ru (j + nb)) c *
        (if Left g.ty then eqPoly k (fun j => rv (j + nb)) 0 else eqPoly k (fun j => rv (j + nb)) c)) := by
  obtain ⟨hty, h⟩ := h
  have e0 : eqPoly (nb + k) rv 0 = eqPoly nb rv 0 * eqPoly k (fun j => rv (j + nb)) 0 := by
    have := eqPoly_split nb k rv 0 0 (by positivity)
    simpa using this
  have hs : ∀ w : ℤ, 0 ≤ w → (w + ((c * 2 ^ nb : ℕ) : ℤ)).toNat = c * 2 ^ nb + w.toNat := by
    intro w hw; omega
  rcases h with h | ⟨ht, hu, hv, hu', hv'⟩ | ⟨ht, hu, hv, hu', hv'⟩
  · rw [gateCoef_other (by omega) (by omega) (by omega),
      gateCoef_other (by omega) (by omega) (by omega), zero_mul]
  · have hL : Left g.ty := by unfold Left; omega
    rw [gateCoef_two (by omega), gateCoef_two (by omega), hu', hv', hv, hs _ hu.1, if_pos hL,
      eqPoly_split _ _ _ _ _ hu.lt, Int.toNat_zero, e0]
    ring
  · have sh : ∀ f : ℕ → F, ∀ m, (∀ j ∈ Ico g.u.toNat m, j < 2 ^ nb) → ∀ e,
        ∑ j ∈ Ico (c * 2 ^ nb + g.u.toNat) (c * 2 ^ nb + m),
          f (j - (c * 2 ^ nb + g.u.toNat)) * eqPoly (nb + k) e j =
        (∑ j ∈ Ico g.u.toNat m, f (j - g.u.toNat) * eqPoly nb e j) *
          eqPoly k (fun j => e (j + nb)) c := by
      intro f m hm e
      rw [sum_mul, add_comm _ g.u.toNat, add_comm _ m, ← sum_Ico_add']
      refine sum_congr rfl (fun j hj => ?_)
      rw [add_comm j, add_comm g.u.toNat, eqPoly_split _ _ _ _ _ (hm j hj), Nat.add_sub_add_left]
      ring
    by_cases h5 : g.ty = 5
    · have hL : Left g.ty := by unfold Left; omega
      have := sh (fun _ => 1) g.v.toNat (fun j hj => by
        have := (mem_Ico.1 hj).2; have := hv.lt; omega) ru
      simp only [one_mul] at this
      rw [gateCoef_sum (by omega), gateCoef_sum h5, hu', hv', hs _ hu.1, hs _ hv.1, if_pos hL, e0,
        this]
      ring
    by_cases h12 : g.ty = 12
    · have hL : Left g.ty := by unfold Left; omega
      have hv1 : (g.v + ((c * 2 ^ nb : ℕ) : ℤ) + 1).toNat = c * 2 ^ nb + (g.v + 1).toNat := by
        have := hv.1; omega
      have := sh (fun k => 2 ^ k) (g.v + 1).toNat (fun j hj => by
        have := (mem_Ico.1 hj).2; have := hv.lt; have := hv.1; omega) ru
      rw [gateCoef_exp (by omega), gateCoef_exp h12, hu', hv', hs _ hu.1, hv1, if_pos hL, e0, this]
      ring
    · have hL : ¬ Left g.ty := by unfold Left; omega
      rw [gateCoef_two (by omega), gateCoef_two (by omega), hu', hv', hs _ hu.1, hs _ hv.1,
        if_neg hL, eqPoly_split _ _ _ _ _ hu.lt, eqPoly_split _ _ _ _ _ hv.lt]
      ring

/-- the predicates of a layer made of copies, computed from one block -/
theorem predSum_blocks {C : Circuit} {i : ℕ} (h : Repeated C i) (α β : F) (r0 r1 ru rv : ℕ → F)
    (t : ℕ) :
    let b := (C.layer i).logBlockSize
    let nb := (C.layer (i - 1)).logBlockSize
    let k := (C.layer i).logRepeatNum
    let sh := fun (m : ℕ) (r : ℕ → F) j => r (j + m)
    let blk := fun (a : F) (r : ℕ → F) => ∑ g ∈ range (2 ^ b), if (C.gate i g).ty = (t : ℤ) then
      a * eqPoly b r g * gateCoef (C.gate i g) (eqPoly nb ru) (eqPoly nb rv) else 0
    let pre := fun (r : ℕ → F) c => eqPoly k (sh b r) c * (eqPoly k (sh nb ru) c *
      (if Left t then eqPoly k (sh nb rv) 0 else eqPoly k (sh nb rv) c))
    predSum C i (comb (C.bl i) α β r0 r1) (eqPoly (C.bl (i - 1)) ru) (eqPoly (C.bl (i - 1)) rv) t =
      ∑ c ∈ range (2 ^ k), (pre r0 c * blk α r0 + pre r1 c * blk β r1) := by
  intro b nb k sh blk pre
  have hb : C.bl i = b + k := h.length
  have hnb : C.bl (i - 1) = nb + k := h.lengthBelow
  rw [predSum, hb, hnb, show (2 : ℕ) ^ (b + k) = 2 ^ k * 2 ^ b by rw [pow_add, mul_comm], sum_blocks]
  refine sum_congr rfl (fun c hc => ?_)
  simp only [blk, mul_sum, ← sum_add_distrib]
  refine sum_congr rfl (fun g hg => ?_)
  have hg := mem_range.1 hg
  have hcp := h.gates c (mem_range.1 hc) g hg
  rw [hcp.1]
  by_cases ht : (C.gate i g).ty = (t : ℤ)
  · rw [if_pos ht, if_pos ht, if_pos ht, gateCoef_copy hcp, comb, eqPoly_split _ _ _ _ _ hg,
      eqPoly_split _ _ _ _ _ hg, ht]
    simp only [pre, sh]
    ring
  · rw [if_neg ht, if_neg ht, if_neg ht]; ring

theorem loop_pred1 {n : ℕ} {body : ℕ → (ℕ → F) → ℕ → F} {t : ℕ} {c : ℕ → F}
    (h : ∀ g < n, ∀ ret, body g ret t = ret t + c g) :
    loop n body (fun _ => 0) t = ∑ g ∈ range n, c g := by
  induction n with
  | zero => simp
  | succ n ih =>
    rw [loop_succ, h n (by omega), sum_range_succ, ih (fun g hg => h g (by omega))]

theorem loop_pred {n : ℕ} {body : ℕ → (ℕ → F) → ℕ → F} {c : ℕ → ℕ → F}
    (h : ∀ g < n, ∀ ret t, body g ret t = ret t + c g t) (t : ℕ) :
    loop n body (fun _ => 0) t = ∑ g ∈ range n, c g t := by
  induction n with
  | zero => simp
  | succ n ih =>
    rw [loop_succ, h n (by omega), sum_range_succ, ih (fun g hg => h g (by omega))]

theorem gateCoef_congr {nb : ℕ} {s : ℤ} {g g' : Gate} (h : CopyOf nb s g g') {ex ex' ey ey' : ℕ → F}
    (hx : ∀ k < 2 ^ nb, ex k = ex' k) (hy : ∀ k < 2 ^ nb, ey k = ey' k) :
    gateCoef g ex ey = gateCoef g ex' ey' := by
  have h0 := hy 0 (by positivity)
  rcases h.2 with h | ⟨ht, hu, hv, hu', hv'⟩ | ⟨ht, hu, hv, hu', hv'⟩
  · rw [gateCoef_other (by omega) (by omega) (by omega),
      gateCoef_other (by omega) (by omega) (by omega)]
  · rw [gateCoef_two (by omega), gateCoef_two (by omega), hv, hx _ hu.lt, Int.toNat_zero, h0]
  · by_cases h5 : g.ty = 5
    · rw [gateCoef_sum h5, gateCoef_sum h5, h0]
      congr 1
      refine sum_congr rfl (fun j hj => hx _ ?_)
      have := (mem_Ico.1 hj).2; have := hv.lt; omega
    by_cases h12 : g.ty = 12
    · rw [gateCoef_exp h12, gateCoef_exp h12, h0]
      congr 1
      refine sum_congr rfl (fun j hj => ?_)
      rw [hx j (by have := (mem_Ico.1 hj).2; have := hv.lt; have := hv.1; omega)]
    · rw [gateCoef_two (by omega), gateCoef_two (by omega), hx _ hu.lt, hy _ hv.lt]

theorem loop_pair {α β : Type _} (n : ℕ) (f : ℕ → α → α) (g : ℕ → β → β) (a : α) (b : β) :
    loop n (fun i (s : α × β) => (f i s.1, g i s.2)) (a, b) = (loop n f a, loop n g b) := by
  induction n with
  | zero => rfl
  | succ n ih => rw [loop_succ, ih, loop_succ, loop_succ]

theorem block_sum {C : Circuit} {i : ℕ} (h : Repeated C i) {c : F} {r ru rv : ℕ → F}
    {tg tu tv : ℕ → F}
    (hg : ∀ g < 2 ^ (C.layer i).logBlockSize, tg g = c * eqPoly (C.layer i).logBlockSize r g)
    (hu : ∀ k < 2 ^ (C.layer (i - 1)).logBlockSize,
      tu k = eqPoly (C.layer (i - 1)).logBlockSize ru k)
    (hv : ∀ k < 2 ^ (C.layer (i - 1)).logBlockSize,
      tv k = eqPoly (C.layer (i - 1)).logBlockSize rv k) (t : ℕ) :
    loop (2 ^ (C.layer i).logBlockSize) (fun j s =>
      blockCase (C.gate i j) (C.layer (i - 1)).logBlockSize (tg j) tu tv s) (fun _ => 0) t =
    ∑ g ∈ range (2 ^ (C.layer i).logBlockSize), if (C.gate i g).ty = (t : ℤ) then
      c * eqPoly (C.layer i).logBlockSize r g * gateCoef (C.gate i g)
        (eqPoly (C.layer (i - 1)).logBlockSize ru) (eqPoly (C.layer (i - 1)).logBlockSize rv)
      else 0 := by
  refine loop_pred (F := F) (c := fun g t => if (C.gate i g).ty = (t : ℤ) then
      c * eqPoly (C.layer i).logBlockSize r g * gateCoef (C.gate i g)
        (eqPoly (C.layer (i - 1)).logBlockSize ru) (eqPoly (C.layer (i - 1)).logBlockSize rv)
      else 0) (fun g hg' ret t => ?_) t
  have hc := h.gates 0 (by positivity) g hg'
  rw [blockCase_apply hc, hg g hg', gateCoef_congr hc hu hv]

/-- `predicates` computes the predicates of the layer -/
theorem predicates_ok {zk : Bool} {C : Circuit} {i : ℕ} (hl : LayerOk zk C i) (h1 : i ≠ 1)
    (hp : (C.layer i).isParallel = true → Repeated C i) (old : VTables F) (α β : F)
    (r0 r1 ru rv omr0 omr1 omru omrv : ℕ → F)
    (e0 : ∀ j < C.bl i, omr0 j = 1 - r0 j) (e1 : ∀ j < C.bl i, omr1 j = 1 - r1 j)
    (eu : ∀ j < C.bl (i - 1), omru j = 1 - ru j) (ev : ∀ j < C.bl (i - 1), omrv j = 1 - rv j) :
    ∃ pv, predicates C (betaInit C old i α β r0 r1 ru rv omr0 omr1 omru omrv) i r0 r1 ru rv = .ok pv ∧
      ∀ t, pv t = predSum C i (comb (C.bl i) α β r0 r1) (eqPoly (C.bl (i - 1)) ru)
        (eqPoly (C.bl (i - 1)) rv) t := by
  unfold predicates
  rw [if_neg h1]
  by_cases hpar : (C.layer i).isParallel = true
  · have hR := hp hpar
    have hb := hR.length
    have hnb := hR.lengthBelow
    simp only [hpar, if_true, hR.blockSize, beq_self_eq_true, Outcome.assert, loop_pair]
    refine ⟨_, rfl, fun t => ?_⟩
    have b0 := fun t => block_sum hR (c := α) (r := r0) (ru := ru) (rv := rv)
      (tg := (fillHalves old.block.g0 α (C.layer i).logBlockSize r0 omr0).get _)
      (tu := (fillHalves old.block.u 1 (C.layer (i - 1)).logBlockSize ru omru).get _)
      (tv := (fillHalves old.block.v 1 (C.layer (i - 1)).logBlockSize rv omrv).get _)
      (fun g hg => fillHalves_spec _ _ _ _ _ (fun j hj => e0 j (by omega)) g hg)
      (fun g hg => by
        rw [fillHalves_spec _ _ _ _ _ (fun j hj => eu j (by omega)) g hg, one_mul])
      (fun g hg => by
        rw [fillHalves_spec _ _ _ _ _ (fun j hj => ev j (by omega)) g hg, one_mul]) t
    have b1 := fun t => block_sum hR (c := β) (r := r1) (ru := ru) (rv := rv)
      (tg := (fillHalves old.block.g1 β (C.layer i).logBlockSize r1 omr1).get _)
      (tu := (fillHalves old.block.u 1 (C.layer (i - 1)).logBlockSize ru omru).get _)
      (tv := (fillHalves old.block.v 1 (C.layer (i - 1)).logBlockSize rv omrv).get _)
      (fun g hg => fillHalves_spec _ _ _ _ _ (fun j hj => e1 j (by omega)) g hg)
      (fun g hg => by
        rw [fillHalves_spec _ _ _ _ _ (fun j hj => eu j (by omega)) g hg, one_mul])
      (fun g hg => by
        rw [fillHalves_spec _ _ _ _ _ (fun j hj => ev j (by omega)) g hg, one_mul]) t
    have hT : (betaInit C old i α β r0 r1 ru rv omr0 omr1 omru omrv).block =
        fillBeta old.block (C.layer i).logBlockSize (C.layer (i - 1)).logBlockSize
          α β r0 r1 ru rv omr0 omr1 omru omrv := by simp only [betaInit, hpar, if_true]
    rw [hT, hR.repeatNum]
    rw [predSum_blocks hR]
    refine loop_pred1 (fun c hc ret => ?_)
    simp only [fillBeta]
    rw [b0, b1]
    by_cases hL : t = 6 ∨ t = 10 ∨ t = 5 ∨ t = 12
    · have : Left (t : ℤ) := by unfold Left; omega
      rw [if_pos hL, if_pos this, copyPrefix0_eq, copyPrefix0_eq, add_assoc]
    · have : ¬ Left (t : ℤ) := by unfold Left; omega
      rw [if_neg hL, if_neg this, copyPrefix_eq, copyPrefix_eq, add_assoc]
  · simp only [hpar]
    refine ⟨_, rfl, fun t => ?_⟩
    have hT : (betaInit C old i α β r0 r1 ru rv omr0 omr1 omru omrv).full =
        fillBeta old.full (C.bl i) (C.bl (i - 1)) α β r0 r1 ru rv omr0 omr1 omru omrv := by
      simp only [betaInit]; rw [if_neg hpar]
    rw [hT, ← predSum_congr hl (w := fun g =>
      (fillHalves old.full.g0 α (C.bl i) r0 omr0).get (C.bl i) g +
      (fillHalves old.full.g1 β (C.bl i) r1 omr1).get (C.bl i) g)
      (ex := (fillHalves old.full.u 1 (C.bl (i - 1)) ru omru).get (C.bl (i - 1)))
      (ey := (fillHalves old.full.v 1 (C.bl (i - 1)) rv omrv).get (C.bl (i - 1)))
      (fun g hg => by
        rw [fillHalves_spec _ _ _ _ _ e0 g hg, fillHalves_spec _ _ _ _ _ e1 g hg, comb])
      (fun k hk => by rw [fillHalves_spec _ _ _ _ _ eu k hk, one_mul])
      (fun k hk => by rw [fillHalves_spec _ _ _ _ _ ev k hk, one_mul]) h1 t]
    refine loop_pred (F := F) (c := fun g t => if (C.gate i g).ty = (t : ℤ) then
      ((fillHalves old.full.g0 α (C.bl i) r0 omr0).get (C.bl i) g +
      (fillHalves old.full.g1 β (C.bl i) r1 omr1).get (C.bl i) g) * gateCoef (C.gate i g)
        ((fillHalves old.full.u 1 (C.bl (i - 1)) ru omru).get (C.bl (i - 1)))
        ((fillHalves old.full.v 1 (C.bl (i - 1)) rv omrv).get (C.bl (i - 1))) else 0)
      (fun g hg ret t => ?_) t
    exact plainCase_apply (fun h => hl.v0 g hg (.inr h)) _ _ _ _ _

/-- the value the verifier compares with, for every layer -/
theorem predicates_general {zk : Bool} {C : Circuit} {i : ℕ} (hl : LayerOk zk C i)
    (hp : i ≠ 1 → (C.layer i).isParallel = true → Repeated C i) (old : VTables F) (α β : F)
    (r0 r1 ru rv omr0 omr1 omru omrv : ℕ → F)
    (e0 : ∀ j < C.bl i, omr0 j = 1 - r0 j) (e1 : ∀ j < C.bl i, omr1 j = 1 - r1 j)
    (eu : ∀ j < C.bl (i - 1), omru j = 1 - ru j)
    (ev : i ≠ 1 → ∀ j < C.bl (i - 1), omrv j = 1 - rv j) :
    ∃ pv, predicates C (betaInit C old i α β r0 r1 ru rv omr0 omr1 omru omrv) i r0 r1 ru rv = .ok pv ∧
      ∀ a b, general pv a b = polySum C i (comb (C.bl i) α β r0 r1) (eqPoly (C.bl (i - 1)) ru)
        (eqPoly (C.bl (i - 1)) rv) a b := by
  by_cases h1 : i = 1
  · refine ⟨fun _ => 0, by rw [predicates, if_pos h1]; rfl, fun a b => ?_⟩
    rw [FastTrack.polySum_one hl h1]
    simp [general]
  · obtain ⟨pv, e, h⟩ := predicates_ok hl h1 (hp h1) old α β r0 r1 ru rv omr0 omr1 omru omrv e0 e1
      eu (ev h1)
    refine ⟨pv, e, fun a b => ?_⟩
    rw [← general_eq hl, funext h]

end Libra.Zk
