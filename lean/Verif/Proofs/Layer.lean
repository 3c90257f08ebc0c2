import Verif.Proofs.Gates
import Verif.Proofs.Evaluate

/-!
# The claims about one layer

Connects the linear functionals of `Proofs/Gates` with the extensions of two neighbouring layers.
-/

namespace Libra
open Spec Finset
variable {F : Type} [CommRing F]

/-- what the protocol needs to know about layer `i` -/
structure LayerOk (zk : Bool) (C : Circuit) (i : ℕ) : Prop where
  gates : ∀ g < 2 ^ C.bl i, GateOk zk (C.bl (i - 1)) (C.gate i g)
  v0 : ∀ g < 2 ^ C.bl i, (C.gate i g).ty = 6 ∨ (C.gate i g).ty = 10 → (C.gate i g).v = 0
  no3 : ∀ g < 2 ^ C.bl i, (C.gate i g).ty ≠ 3
  relay : i = 1 → C.bl 1 = C.bl 0 ∧ ∀ g < 2 ^ C.bl 1, C.gate 1 g = ⟨4, g, 0⟩
  no4 : i ≠ 1 → ∀ g < 2 ^ C.bl i, (C.gate i g).ty ≠ 4

theorem layerOk {zk : Bool} {C : Circuit} (h : WellFormed zk C) {i : ℕ} (h1 : 1 ≤ i)
    (hd : i < C.depth) : LayerOk zk C i := by
  obtain ⟨i, rfl⟩ : ∃ k, i = k + 1 := ⟨i - 1, by omega⟩
  have hg := h.gates i hd
  rcases i with _ | i
  · refine ⟨hg, ?_, ?_, fun _ => ⟨h.relayLength, h.relay⟩, fun h => absurd rfl h⟩
    · intro g hg; rw [h.relay g hg]; simp
    · intro g hg; rw [h.relay g hg]; simp
  · have hp := h.provable i hd
    exact ⟨hg, fun g hg => (hp g hg).2.2, fun g hg => (hp g hg).1, fun h => by omega,
      fun _ g hg => (hp g hg).2.1⟩

theorem gateValue_congr {zk : Bool} {n : ℕ} {g : Gate} (hg : GateOk zk n g) {x y : ℕ → F}
    (h : ∀ k < 2 ^ n, x k = y k) :
    gateValue g (fun k => x k.toNat) = gateValue g (fun k => y k.toNat) := by
  have hw : ∀ w : ℤ, 0 ≤ w → w < 2 ^ n → x w.toNat = y w.toNat := fun w h1 h2 => h _ (Wire.lt ⟨h1, h2⟩)
  unfold gateValue
  rcases hg with ⟨ht, hu, hv⟩ | ht | ⟨ht, _⟩ | ⟨ht, hu⟩ | ⟨ht, hu, hv⟩ | ⟨hz, ht, hu, hv, _⟩ |
    ⟨hz, ht, hu, hv⟩
  · rcases ht with ht | ht | ht | ht | ht <;> simp [ht, hw _ hu.1 hu.2, hw _ hv.1 hv.2]
  · simp [ht]
  · simp [ht]
  · rcases ht with ht | ht | ht <;> simp [ht, hw _ hu.1 hu.2]
  · simp only [ht]; norm_num
    refine sum_congr rfl (fun k hk => hw _ (by omega) ?_)
    have := mem_range.1 hk
    omega
  · simp only [ht]; norm_num
    refine sum_congr rfl (fun k hk => ?_)
    have := mem_range.1 hk
    rw [hw _ (by omega) (by omega)]
  · simp [ht, hw _ hu.1 hu.2]

/-- the claim about layer `i` as a sum over its gates -/
theorem sum_comb_value (C : Circuit) (i : ℕ) (α β : F) (r0 r1 : ℕ → F) (W : ℕ → F) :
    ∑ g ∈ range (2 ^ C.bl i), comb (C.bl i) α β r0 r1 g * W g =
      α * mle (C.bl i) W r0 + β * mle (C.bl i) W r1 := by
  simp only [mle, mul_sum, ← sum_add_distrib, comb]
  exact sum_congr rfl (fun g _ => by ring)

/-- `Σ_g comb_g · gateHalf` -/
def halfSum (C : Circuit) (i : ℕ) (w : ℕ → F) (ex : ℕ → F) (a : F) (V : ℕ → F) : F :=
  ∑ g ∈ range (2 ^ C.bl i), w g * gateHalf (C.gate i g) ex a V

/-- `Σ_g comb_g · gatePoly` -/
def polySum (C : Circuit) (i : ℕ) (w : ℕ → F) (ex ey : ℕ → F) (a b : F) : F :=
  ∑ g ∈ range (2 ^ C.bl i), w g * gatePoly (C.gate i g) ex ey a b

/-- `Σ_g comb_g · eq(x, g)` in layer 1, else 0 -/
def relayCoef (C : Circuit) (i : ℕ) (w : ℕ → F) (ex : ℕ → F) : F :=
  if i = 1 then ∑ g ∈ range (2 ^ C.bl 1), w g * ex g else 0

theorem sum_contrib1_value {zk : Bool} {C : Circuit} {i : ℕ} (h : LayerOk zk C i) (h1 : 1 ≤ i)
    {V w tmpG : ℕ → F}
    (hV : ∀ k < 2 ^ C.bl (i - 1), V k = value C (i - 1) k) (hw : ∀ g < 2 ^ C.bl i, tmpG g = w g) :
    ∑ g ∈ range (2 ^ C.bl i), contrib1 V (fun _ => 1) V (tmpG g) (tmpG (C.gate i g).u.toNat)
      (C.gate i g) = ∑ g ∈ range (2 ^ C.bl i), w g * value C i g := by
  refine sum_congr rfl (fun g hg => ?_)
  have hg := mem_range.1 hg
  rw [contrib1_value (h.gates g hg) (h.no3 g hg), gateValue_congr (h.gates g hg) hV, hw g hg]
  · obtain ⟨i, rfl⟩ : ∃ k, i = k + 1 := ⟨i - 1, by omega⟩
    rfl
  · intro h4
    by_cases hi : i = 1
    · subst hi
      rw [(h.relay rfl).2 g hg]; rfl
    · exact absurd h4 (h.no4 hi g hg)

theorem sum_contrib1_half {zk : Bool} {C : Circuit} {i : ℕ} (h : LayerOk zk C i)
    {V w tmpG : ℕ → F} (hw : ∀ g < 2 ^ C.bl i, tmpG g = w g) (ex : ℕ → F) (a : F) :
    ∑ g ∈ range (2 ^ C.bl i), contrib1 (fun x => a * ex x) ex V (tmpG g)
      (tmpG (C.gate i g).u.toNat) (C.gate i g) =
      halfSum C i w ex a V + relayCoef C i w ex * a := by
  rw [halfSum, relayCoef]
  by_cases hi : i = 1
  · subst hi
    rw [if_pos rfl, sum_mul, ← sum_add_distrib]
    refine sum_congr rfl (fun g hg => ?_)
    have hg := mem_range.1 hg
    rw [(h.relay rfl).2 g hg]
    simp [contrib1, gateHalf, hw g hg]; ring
  · rw [if_neg hi, zero_mul, add_zero]
    refine sum_congr rfl (fun g hg => ?_)
    have hg := mem_range.1 hg
    rw [contrib1_half (h.gates g hg) (h.no4 hi g hg), hw g hg]

theorem sum_contrib2_half {zk : Bool} {C : Circuit} {i : ℕ} (h : LayerOk zk C i)
    {w tmpG : ℕ → F} (hw : ∀ g < 2 ^ C.bl i, tmpG g = w g) (ex V : ℕ → F) (a : F) :
    ∑ g ∈ range (2 ^ C.bl i), contrib2 V (fun _ => 1) ex (tmpG g) a (C.gate i g) =
      halfSum C i w ex a V := by
  refine sum_congr rfl (fun g hg => ?_)
  have hg := mem_range.1 hg
  rw [contrib2_half (h.gates g hg), hw g hg]

theorem sum_contrib2_poly {zk : Bool} {C : Circuit} {i : ℕ} (h : LayerOk zk C i)
    {w tmpG : ℕ → F} (hw : ∀ g < 2 ^ C.bl i, tmpG g = w g) (ex ey : ℕ → F) (a b : F) :
    ∑ g ∈ range (2 ^ C.bl i), contrib2 (fun y => b * ey y) ey ex (tmpG g) a (C.gate i g) =
      polySum C i w ex ey a b := by
  refine sum_congr rfl (fun g hg => ?_)
  have hg := mem_range.1 hg
  rw [contrib2_poly (h.gates g hg), hw g hg]

/-! ## changing the tables outside their range -/

theorem gateHalf_congr {zk : Bool} {n : ℕ} {g : Gate} (hg : GateOk zk n g) {ex ex' V V' : ℕ → F}
    (h : ∀ k < 2 ^ n, ex k = ex' k) (hV : ∀ k < 2 ^ n, V k = V' k) (a : F) :
    gateHalf g ex a V = gateHalf g ex' a V' := by
  unfold gateHalf
  rcases hg with ⟨ht, hu, hv⟩ | ht | ⟨ht, _⟩ | ⟨ht, hu⟩ | ⟨ht, hu, hv⟩ | ⟨hz, ht, hu, hv, _⟩ |
    ⟨hz, ht, hu, hv⟩
  · rcases ht with ht | ht | ht | ht | ht <;> simp [ht, h _ hu.lt, hV _ hv.lt]
  · simp [ht]
  · simp [ht]
  · rcases ht with ht | ht | ht <;> simp [ht, h _ hu.lt]
  · simp only [ht]; norm_num
    congr 1
    refine sum_congr rfl (fun k hk => h _ ?_)
    have := (mem_Ico.1 hk).2; have := toNat_le hv; omega
  · simp only [ht]; norm_num
    congr 1
    refine sum_congr rfl (fun k hk => ?_)
    have := (mem_Ico.1 hk).2
    have := toNat_le (n := n) (w := g.v + 1) (by omega)
    rw [h _ (by omega)]
  · simp [ht, hv, h _ hu.lt, hV _ hu.lt]

theorem gatePoly_congr {zk : Bool} {n : ℕ} {g : Gate} (hg : GateOk zk n g)
    (hp : g.ty = 6 ∨ g.ty = 10 → g.v = 0) {ex ex' ey ey' : ℕ → F}
    (h : ∀ k < 2 ^ n, ex k = ex' k) (hy : ∀ k < 2 ^ n, ey k = ey' k) (a b : F) :
    gatePoly g ex ey a b = gatePoly g ex' ey' a b := by
  have h0 := hy 0 (by positivity)
  unfold gatePoly
  rcases hg with ⟨ht, hu, hv⟩ | ht | ⟨ht, _⟩ | ⟨ht, hu⟩ | ⟨ht, hu, hv⟩ | ⟨hz, ht, hu, hv, _⟩ |
    ⟨hz, ht, hu, hv⟩
  · rcases ht with ht | ht | ht | ht | ht <;> simp [ht, h _ hu.lt, hy _ hv.lt]
  · simp [ht]
  · simp [ht]
  · rcases ht with ht | ht | ht
    · simp [ht]
    · simp [ht, h _ hu.lt, hp (.inl ht), h0]
    · simp [ht, h _ hu.lt, hp (.inr ht), h0]
  · simp only [ht]; norm_num
    rw [h0]; congr 2
    refine sum_congr rfl (fun k hk => h _ ?_)
    have := (mem_Ico.1 hk).2; have := toNat_le hv; omega
  · simp only [ht]; norm_num
    rw [h0]; congr 2
    refine sum_congr rfl (fun k hk => ?_)
    have := (mem_Ico.1 hk).2
    have := toNat_le (n := n) (w := g.v + 1) (by omega)
    rw [h _ (by omega)]
  · simp [ht, hv, h _ hu.lt, hy _ hu.lt]

/-- `gateHalf` is `gatePoly` summed over the boolean values of the second operand -/
theorem gateHalf_eq_sum {zk : Bool} {n : ℕ} {g : Gate} (hg : GateOk zk n g)
    (hp : g.ty = 6 ∨ g.ty = 10 → g.v = 0) (ex V : ℕ → F) (a : F) :
    gateHalf g ex a V = ∑ y ∈ range (2 ^ n), gatePoly g ex (eqPoly n (corner y)) a (V y) := by
  have key : ∀ v < 2 ^ n, ∀ f : ℕ → F, f v = ∑ y ∈ range (2 ^ n), eqPoly n (corner y) v * f y := by
    intro v hv f
    rw [sum_eq_single v]
    · rw [eqPoly_corner n v v hv hv]; simp
    · intro y hy hne
      rw [eqPoly_corner n v y hv (mem_range.1 hy), if_neg (Ne.symm hne), zero_mul]
    · intro h; exact absurd (mem_range.2 hv) h
  have h0 : (0 : ℕ) < 2 ^ n := by positivity
  unfold gateHalf gatePoly
  rcases hg with ⟨ht, hu, hv⟩ | ht | ⟨ht, _⟩ | ⟨ht, hu⟩ | ⟨ht, hu, hv⟩ | ⟨hz, ht, hu, hv, _⟩ |
    ⟨hz, ht, hu, hv⟩
  · rcases ht with ht | ht | ht | ht | ht <;> simp [ht]
    · rw [key _ hv.lt (fun y => ex g.u.toNat * (a + V y))]; exact sum_congr rfl (fun _ _ => by ring)
    · rw [key _ hv.lt (fun y => ex g.u.toNat * (a * V y))]; exact sum_congr rfl (fun _ _ => by ring)
    · rw [key _ hv.lt (fun y => ex g.u.toNat * (a - V y))]; exact sum_congr rfl (fun _ _ => by ring)
    · rw [key _ hv.lt (fun y => ex g.u.toNat * (a + V y - 2 * a * V y))]
      exact sum_congr rfl (fun _ _ => by ring)
    · rw [key _ hv.lt (fun y => ex g.u.toNat * (V y - a * V y))]
      exact sum_congr rfl (fun _ _ => by ring)
  · simp [ht]
  · simp [ht]
  · rcases ht with ht | ht | ht
    · simp [ht]
    · simp [ht, hp (.inl ht)]
      rw [key _ h0 (fun y => ex g.u.toNat * (1 - a))]; exact sum_congr rfl (fun _ _ => by ring)
    · simp [ht, hp (.inr ht)]
      rw [key _ h0 (fun y => ex g.u.toNat * a)]; exact sum_congr rfl (fun _ _ => by ring)
  · simp only [ht]; norm_num
    rw [key _ h0 (fun y => (∑ j ∈ Ico g.u.toNat g.v.toNat, ex j) * a)]
    exact sum_congr rfl (fun _ _ => by ring)
  · simp only [ht]; norm_num
    rw [key _ h0 (fun y => (∑ j ∈ Ico g.u.toNat (g.v + 1).toNat, 2 ^ (j - g.u.toNat) * ex j) * a)]
    exact sum_congr rfl (fun _ _ => by ring)
  · simp [ht]
    have hv' : g.v.toNat < 2 ^ n := by rw [hv]; exact hu.lt
    rw [key _ hv' (fun y => ex g.u.toNat * (a * (1 - V y)))]
    exact sum_congr rfl (fun _ _ => by ring)

/-! ## phi in terms of tables -/

theorem phi_claim (n : ℕ) (V : ℕ → F) (T : Tabs F) :
    phi (2 ^ n) V (fun _ => 1) T =
      ∑ x ∈ range (2 ^ n), ((T.addMultSum x).b * V x + (T.addVArray x).b) := by
  rw [phi, dot, dot, ← sum_add_distrib]
  exact sum_congr rfl (fun x _ => by ring)

theorem phi_point (n : ℕ) (r : ℕ → F) (a : F) (T : Tabs F) :
    phi (2 ^ n) (fun x => a * eqPoly n r x) (eqPoly n r) T =
      mle n (fun x => (T.addMultSum x).b) r * a + mle n (fun x => (T.addVArray x).b) r := by
  rw [phi, dot, dot, mle, mle, sum_mul]
  congr 1
  exact sum_congr rfl (fun x _ => by ring)

theorem relayCoef_eq (C : Circuit) (i : ℕ) (hl : i = 1 → C.bl 1 = C.bl 0) (α β : F)
    (r0 r1 x : ℕ → F) :
    relayCoef C i (comb (C.bl i) α β r0 r1) (eqPoly (C.bl (i - 1)) x) =
      α * FastTrack.directRelay C i r0 x + β * FastTrack.directRelay C i r1 x := by
  unfold relayCoef FastTrack.directRelay
  by_cases hi : i = 1
  · subst hi
    simp only [if_true, ne_eq, not_true_eq_false, if_false]
    rw [loop_mul_prod, loop_mul_prod, one_mul, one_mul, ← sum_eqPoly_mul, ← sum_eqPoly_mul, mul_sum,
      mul_sum, ← sum_add_distrib, Nat.sub_self, ← hl rfl]
    exact sum_congr rfl (fun g _ => by rw [comb]; ring)
  · simp [hi]

end Libra
