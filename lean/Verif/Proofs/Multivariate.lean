import Verif.Model.Multivariate
import Verif.Proofs.Mm
import Verif.Proofs.Vpd

namespace Libra.Multivariate
open Libra.Spec Libra.Mm Finset

section
variable {G : Type} [AddCommGroup G]

theorem doublings_eq (g : G) (i : ℕ) (hi : i < P) : doublings g i = 2 ^ i • g := by
  have h : ∀ m, m ≤ P - 1 → ∀ i ≤ m, loop m (fun k (pre : ℕ → G) =>
      Function.update pre (1 + k) (pre (1 + k - 1) + pre (1 + k - 1)))
      (Function.update (fun _ => 0) 0 g) i = 2 ^ i • g := by
    intro m
    induction m with
    | zero => intro _ i hi; obtain rfl : i = 0 := by omega
              simp
    | succ m ih =>
      intro hm i hi
      rw [loop_succ]
      rcases Nat.lt_or_ge m i with h | h
      · obtain rfl : i = m + 1 := by omega
        rw [Nat.add_comm 1 m, Function.update_self, Nat.add_sub_cancel, ih (by omega) m le_rfl,
          ← two_nsmul, ← mul_nsmul, pow_succ]
      · rw [Function.update_of_ne (by omega), ih (by omega) i h]
  exact h (P - 1) le_rfl i (by omega)

theorem preExp_nat (g : G) (n : ℕ) (hn : n < 2 ^ P) : preExp (doublings g) (n : ℤ) = .ok (n • g) := by
  have hs : Vpd.sizeInBase2 n ≤ P := Vpd.sizeInBase2_le (by decide) hn
  unfold preExp
  rw [Int.natAbs_natCast, loopM_pure (b' := fun i temp => temp + (if n.testBit i then 2 ^ i else 0) • g)]
  · rw [loop_add_sum, zero_add, ← Finset.sum_smul, ← Vpd.mod_two_pow_eq_sum,
      Nat.mod_eq_of_lt (Vpd.lt_sizeInBase2 n)]
  · intro i hi s
    change (if n.testBit i then _ else _) = _
    split_ifs with h
    · rw [doublings_eq g i (by omega)]
    · omega
    · simp

theorem preExp_eq (g : G) (n : ℤ) (h0 : 0 ≤ n) (hn : n < 2 ^ P) :
    preExp (doublings g) n = .ok (n.toNat • g) := by
  obtain ⟨k, rfl⟩ := Int.eq_ofNat_of_zero_le h0
  exact preExp_nat g k (by exact_mod_cast hn)

theorem sum_pairs (m : ℕ) (f : ℕ → G) :
    ∑ i ∈ range (2 * m), f i = ∑ i ∈ range m, (f (2 * i) + f (2 * i + 1)) := by
  induction m with
  | zero => simp
  | succ m ih => rw [Nat.mul_succ, sum_range_succ, sum_range_succ, sum_range_succ, ih, add_assoc]

theorem multiScalar_nat (pub pre : ℕ → G) (len : ℕ) (e : ℕ → ℕ)
    (he : ∀ j < 2 * (len / 2), e j < 2 ^ P)
    (hpre : ∀ j < len / 2, pre j = pub (j * 2) + pub (j * 2 + 1)) :
    multiScalar pub pre len (fun j => (e j : ℤ)) = ∑ j ∈ range (2 * (len / 2)), e j • pub j := by
  have key : ∀ i, ∀ temp : G, loop (len / 2) (fun j temp =>
      let selector := ((e (j * 2 + 1) : ℤ).testBit i).toNat * 2 + ((e (j * 2) : ℤ).testBit i).toNat
      if selector = 3 then temp + pre j
      else if selector = 1 then temp + pub (j * 2)
      else if selector = 2 then temp + pub (j * 2 + 1)
      else temp) temp = temp + ∑ j ∈ range (2 * (len / 2)), ((e j).testBit i).toNat • pub j := by
    intro i temp
    rw [sum_pairs, ← loop_add_sum]
    refine loop_congr (fun j hj temp => ?_)
    change (if ((e (j * 2 + 1)).testBit i).toNat * 2 + ((e (j * 2)).testBit i).toNat = 3 then _ else
      if ((e (j * 2 + 1)).testBit i).toNat * 2 + ((e (j * 2)).testBit i).toNat = 1 then _ else
      if ((e (j * 2 + 1)).testBit i).toNat * 2 + ((e (j * 2)).testBit i).toNat = 2 then _ else _) = _
    rw [mul_comm 2 j]
    cases (e (j * 2 + 1)).testBit i <;> cases (e (j * 2)).testBit i <;> simp [hpre j hj]
  have hbit : ∀ n i : ℕ, 2 * (n / 2 ^ (i + 1)) + (n.testBit i).toNat = n / 2 ^ i := by
    intro n i
    rw [Nat.testBit_eq_decide_div_mod_eq, pow_succ, ← Nat.div_div_eq_div_mul]
    rcases Nat.mod_two_eq_zero_or_one (n / 2 ^ i) with h | h <;> simp [h] <;> omega
  unfold multiScalar
  have h := loop_inv (n := P) (b := fun t temp =>
    let i := P - 1 - t
    let temp := loop (len / 2) (fun j temp =>
      let selector := ((e (j * 2 + 1) : ℤ).testBit i).toNat * 2 + ((e (j * 2) : ℤ).testBit i).toNat
      if selector = 3 then temp + pre j
      else if selector = 1 then temp + pub (j * 2)
      else if selector = 2 then temp + pub (j * 2 + 1)
      else temp) temp
    if i ≠ 0 then 2 • temp else temp) (s := (0 : G))
    (fun t temp => temp = if t = P then ∑ j ∈ range (2 * (len / 2)), e j • pub j else
      2 • ∑ j ∈ range (2 * (len / 2)), (e j / 2 ^ (P - t)) • pub j)
    (by
      rw [if_neg (by decide), sum_eq_zero, smul_zero]
      intro j hj
      rw [Nat.sub_zero, Nat.div_eq_of_lt (he j (mem_range.1 hj)), zero_smul])
    (by
      intro t ht temp h
      rw [if_neg (by omega)] at h
      dsimp only
      rw [key, h, smul_sum, ← sum_add_distrib]
      have hs : ∑ j ∈ range (2 * (len / 2)), (2 • (e j / 2 ^ (P - t)) • pub j +
          ((e j).testBit (P - 1 - t)).toNat • pub j) =
          ∑ j ∈ range (2 * (len / 2)), (e j / 2 ^ (P - 1 - t)) • pub j := by
        refine sum_congr rfl (fun j _ => ?_)
        rw [← hbit (e j) (P - 1 - t), add_smul, mul_smul, show P - 1 - t + 1 = P - t by omega]
      rw [hs]
      by_cases hP : t + 1 = P
      · rw [if_pos hP, if_neg (by omega), show P - 1 - t = 0 by omega]
        simp
      · rw [if_neg hP, if_pos (by omega), show P - (t + 1) = P - 1 - t by omega])
  rw [if_pos rfl] at h
  exact h

theorem multiScalar_eq (pub pre : ℕ → G) (len : ℕ) (e : ℕ → ℤ) (h0 : ∀ j, 0 ≤ e j)
    (he : ∀ j, e j < 2 ^ P)
    (hpre : ∀ j < len / 2, pre j = pub (j * 2) + pub (j * 2 + 1)) :
    multiScalar pub pre len e = ∑ j ∈ range (2 * (len / 2)), (e j).toNat • pub j := by
  rw [← multiScalar_nat pub pre len (fun j => (e j).toNat) (fun j _ => by
    have := he j; have := h0 j; have h2 : ((2 ^ P : ℕ) : ℤ) = 2 ^ P := by push_cast; rfl
    omega) hpre]
  congr 1
  funext j
  exact (Int.toNat_of_nonneg (h0 j)).symm

end

/-! ## tables of integers -/

theorem modp_bound (x : ℤ) : -p < modp x ∧ modp x < p := ⟨lt_modp x, modp_lt x⟩

theorem set2_self {α : Type} (a : ℕ → ℕ → α) (i j : ℕ) (x : α) : set2 a i j x i j = x := by
  simp [set2]

theorem set2_ne {α : Type} (a : ℕ → ℕ → α) {i j i' j' : ℕ} (x : α) (h : i' ≠ i ∨ j' ≠ j) :
    set2 a i j x i' j' = a i' j' := by
  unfold set2
  by_cases hi : i' = i
  · subst hi
    rw [Function.update_self, Function.update_of_ne (by tauto)]
  · rw [Function.update_of_ne hi]

/-- what the secrets make of index `j` of level `i` -/
noncomputable def key (D : ℕ) (s : ℕ → ℤ) (i j : ℕ) : ZMod p :=
  eqPoly i (fun t => ((s (D - i + t) : ℤ) : ZMod p)) j

theorem key_odd (D : ℕ) (s : ℕ → ℤ) (i : ℕ) (hi : i + 1 ≤ D) (j : ℕ) :
    key D s (i + 1) (2 * j + 1) = key D s i j * ((s (D - (i + 1)) : ℤ) : ZMod p) := by
  rw [key, eqPoly_odd, key, Nat.add_zero, mul_comm]
  congr 1
  exact eqPoly_congr_r _ (fun t _ => by rw [show D - (i + 1) + (t + 1) = D - i + t by omega])

theorem key_even (D : ℕ) (s : ℕ → ℤ) (i : ℕ) (hi : i + 1 ≤ D) (j : ℕ) :
    key D s (i + 1) (2 * j) = key D s i j * (1 - ((s (D - (i + 1)) : ℤ) : ZMod p)) := by
  rw [key, eqPoly_even, key, Nat.add_zero, mul_comm]
  congr 1
  exact eqPoly_congr_r _ (fun t _ => by rw [show D - (i + 1) + (t + 1) = D - i + t by omega])

theorem keygenVars_eq (D : ℕ) (s : ℕ → ℤ) (i : ℕ) (hi : i ≤ D) (j : ℕ) (hj : j < 2 ^ i) :
    ((keygenVars D s i j : ℤ) : ZMod p) = key D s i j ∧ -p < keygenVars D s i j ∧ keygenVars D s i j < p := by
  have pp : (1 : ℤ) < p := by rw [Spec.p]; norm_num
  unfold keygenVars
  rw [loopFrom, Nat.add_sub_cancel]
  refine loop_inv (n := D) (b := fun k vars => loop (2 ^ (1 + k - 1)) (fun j (vars : ℕ → ℕ → ℤ) =>
      let vars := set2 vars (1 + k) (2 * j + 1) (modp (vars (1 + k - 1) j * s (D - (1 + k))))
      set2 vars (1 + k) (2 * j) (modp (vars (1 + k - 1) j * (1 - s (D - (1 + k)))))) vars)
    (fun n vars => ∀ i ≤ n, ∀ j < 2 ^ i, ((vars i j : ℤ) : ZMod p) = key D s i j ∧ -p < vars i j ∧ vars i j < p)
    ?_ ?_ i hi j hj
  · intro i hi j hj
    obtain rfl : i = 0 := by omega
    obtain rfl : j = 0 := by simpa using hj
    rw [set2_self]
    exact ⟨by simp [key, eqPoly_zero], by omega, by omega⟩
  · intro n hn vars h
    have h' := loop_inv (n := 2 ^ (1 + n - 1)) (b := fun j (vars : ℕ → ℕ → ℤ) =>
      let vars := set2 vars (1 + n) (2 * j + 1) (modp (vars (1 + n - 1) j * s (D - (1 + n))))
      set2 vars (1 + n) (2 * j) (modp (vars (1 + n - 1) j * (1 - s (D - (1 + n)))))) (s := vars)
      (fun m v => (∀ i ≤ n, ∀ j < 2 ^ i, ((v i j : ℤ) : ZMod p) = key D s i j ∧ -p < v i j ∧ v i j < p) ∧
        ∀ j < 2 * m, ((v (n + 1) j : ℤ) : ZMod p) = key D s (n + 1) j ∧ -p < v (n + 1) j ∧ v (n + 1) j < p)
      ⟨h, by simp⟩ (by
        rintro m hm v ⟨a, b⟩
        rw [Nat.add_comm 1 n, Nat.add_sub_cancel] at *
        dsimp only
        refine ⟨fun i hi j hj => ?_, fun j hj => ?_⟩
        · rw [set2_ne _ _ (by left; omega), set2_ne _ _ (by left; omega)]
          exact a i hi j hj
        · rw [set2_ne (i := n + 1) (i' := n) _ _ (by left; omega)]
          have c := a n le_rfl m hm
          rcases Nat.lt_or_ge j (2 * m) with hlt | hge
          · rw [set2_ne _ _ (by right; omega), set2_ne _ _ (by right; omega)]
            exact b j hlt
          · rcases Nat.lt_or_ge (2 * m) j with h1 | h1
            · obtain rfl : j = 2 * m + 1 := by omega
              rw [set2_ne _ _ (by right; omega), set2_self]
              refine ⟨?_, modp_bound _⟩
              rw [modp_cast, Int.cast_mul, c.1, key_odd D s n hn]
            · obtain rfl : j = 2 * m := by omega
              rw [set2_self]
              refine ⟨?_, modp_bound _⟩
              rw [modp_cast, Int.cast_mul, c.1, key_even D s n hn]
              push_cast
              rfl)
    intro i hi j hj
    rcases Nat.lt_or_ge n i with hlt | hge
    · obtain rfl : i = n + 1 := by omega
      exact h'.2 j (by rw [Nat.add_comm 1 n, Nat.add_sub_cancel]; rw [pow_succ] at hj; omega)
    · exact h'.1 i hge j hj

/-! ## the keys -/
section
variable {G1 G2 GT : Type} [AddCommGroup G1] [AddCommGroup G2] [AddCommGroup GT]
  [Module (ZMod p) G1] [Module (ZMod p) G2] [Module (ZMod p) GT]

theorem toNat_smul {G : Type} [AddCommGroup G] [Module (ZMod p) G] {n : ℤ} (h : 0 ≤ n) (x : G) :
    n.toNat • x = (n : ZMod p) • x := by
  rw [Vpd.nsmul_eq]
  congr 1
  conv_rhs => rw [← Int.toNat_of_nonneg h]
  rw [Int.cast_natCast]

theorem lt_two_pow {x : ℤ} (h : x < p) : x < 2 ^ P := by
  have : ((p : ℕ) : ℤ) < 2 ^ P := by rw [P, Spec.p]; norm_num
  omega

structure Good (E : Pairing G1 G2 GT) (D : ℕ) (a : ℤ) (s : ℕ → ℤ) (K : Key G1 G2) : Prop where
  D_eq : K.D = D
  g1Pre : K.g1Pre = doublings E.g1
  g2Pre : K.g2Pre = doublings E.g2
  ga : K.ga = (a : ZMod p) • E.g2
  pubs : ∀ i ≤ D, ∀ j < 2 ^ i, K.pubs i j = key D s i j • E.g1
  pubsa : ∀ i ≤ D, ∀ j < 2 ^ i, K.pubsa i j = ((a : ZMod p) * key D s i j) • E.g1
  pre0 : K.pre0 = doublings E.g1
  pre0a : K.pre0a = doublings ((a : ZMod p) • E.g1)
  pre2 : ∀ i j, K.pre2 i j = K.pubs i (j * 2) + K.pubs i (j * 2 + 1)
  pre2a : ∀ i j, K.pre2a i j = K.pubsa i (j * 2) + K.pubsa i (j * 2 + 1)
  pubsG2 : ∀ i < D, K.pubsG2 i = (s i : ZMod p) • E.g2

theorem keygen_good (E : Pairing G1 G2 GT) (D : ℕ) (hD : D ≤ 30) (a : ℤ) (ha : 0 ≤ a) (ha' : a < p)
    (s : ℕ → ℤ) (hs : ∀ i < D, 0 ≤ s i) :
    ∃ K, keygen E D a s = .ok K ∧ Good E D a s K := by
  have hP : ∀ x : ℤ, x < p → x < 2 ^ P := fun x h => lt_two_pow h
  set I : ℕ → (ℕ → ℕ → G1) × (ℕ → ℕ → G1) → Prop := fun n q => ∀ i ≤ n, ∀ j < 2 ^ i,
    q.1 i j = key D s i j • E.g1 ∧ q.2 i j = ((a : ZMod p) * key D s i j) • E.g1 with hI
  obtain ⟨q, e, h⟩ : ∃ q, keygenPubs (doublings E.g1) D a (keygenVars D s)
      (set2 (fun _ _ => 0) 0 0 E.g1, set2 (fun _ _ => 0) 0 0 (a.toNat • E.g1)) = .ok q ∧ I D q := by
    unfold keygenPubs
    refine loopM_ok I ?_ ?_
    · intro i hi j hj
      obtain rfl : i = 0 := by omega
      obtain rfl : j = 0 := by simpa using hj
      dsimp only
      rw [set2_self, set2_self, key, eqPoly_zero, one_smul, mul_one, toNat_smul ha]
      exact ⟨rfl, rfl⟩
    · intro t ht q hq
      obtain ⟨q', e, h⟩ := loopM_ok (n := 2 ^ t) (b := fun j (pubs : (ℕ → ℕ → G1) × (ℕ → ℕ → G1)) => do
        let i := t + 1
        let v := keygenVars D s i (2 * j + 1)
        let v := if v < 0 then v + p else v
        let x ← preExp (doublings E.g1) v
        let pub := set2 pubs.1 i (2 * j + 1) x
        let pub := set2 pub i (2 * j) (pub (i - 1) j - pub i (2 * j + 1))
        let y ← preExp (doublings E.g1) (modp (v * a))
        let puba := set2 pubs.2 i (2 * j + 1) y
        let puba := set2 puba i (2 * j) (puba (i - 1) j - puba i (2 * j + 1))
        return (pub, puba)) (s := q)
        (fun m q => I t q ∧ ∀ j < 2 * m, q.1 (t + 1) j = key D s (t + 1) j • E.g1 ∧
          q.2 (t + 1) j = ((a : ZMod p) * key D s (t + 1) j) • E.g1) ⟨hq, by simp⟩ (by
        rintro m hm q ⟨A, B⟩
        dsimp only
        obtain ⟨k1, k2, k3⟩ := keygenVars_eq D s (t + 1) (by omega) (2 * m + 1) (by rw [pow_succ]; omega)
        generalize keygenVars D s (t + 1) (2 * m + 1) = v0 at *
        obtain ⟨v, hv⟩ : ∃ v, (if v0 < 0 then v0 + (p : ℤ) else v0) = v := ⟨_, rfl⟩
        have v1 : (v : ZMod p) = key D s (t + 1) (2 * m + 1) := by
          rw [← hv]; split_ifs
          · push_cast; rw [k1]; simp
          · exact k1
        have v2 : 0 ≤ v := by rw [← hv]; split_ifs <;> omega
        have v3 : v < p := by rw [← hv]; split_ifs <;> omega
        rw [hv, preExp_eq E.g1 v v2 (hP v v3), Outcome.ok_bind, preExp_eq E.g1 (modp (v * a))
          (by unfold modp; exact Int.tmod_nonneg _ (mul_nonneg v2 ha)) (hP _ (modp_lt _)), Outcome.ok_bind]
        refine ⟨_, rfl, fun i hi j hj => ?_, fun j hj => ?_⟩
        · dsimp only
          rw [set2_ne _ _ (by left; omega), set2_ne _ _ (by left; omega), set2_ne _ _ (by left; omega),
            set2_ne _ _ (by left; omega)]
          exact A i hi j hj
        · dsimp only
          rw [Nat.add_sub_cancel]
          have c := A t le_rfl m hm
          have kk : key D s (t + 1) (2 * m) = key D s t m - key D s (t + 1) (2 * m + 1) := by
            rw [key_even D s t ht, key_odd D s t ht]; ring
          have w : (modp (v * a) : ZMod p) = (a : ZMod p) * key D s (t + 1) (2 * m + 1) := by
            rw [modp_cast]; push_cast; rw [v1, mul_comm]
          have w0 : 0 ≤ modp (v * a) := by unfold modp; exact Int.tmod_nonneg _ (mul_nonneg v2 ha)
          rw [set2_self, set2_self, set2_ne (i := t + 1) (i' := t) _ _ (by left; omega),
            set2_ne (i := t + 1) (i' := t) _ _ (by left; omega), c.1, c.2, toNat_smul v2, toNat_smul w0, v1, w]
          rcases Nat.lt_or_ge j (2 * m) with hlt | hge
          · rw [set2_ne _ _ (by right; omega), set2_ne _ _ (by right; omega), set2_ne _ _ (by right; omega),
              set2_ne _ _ (by right; omega)]
            exact B j hlt
          · rcases Nat.lt_or_ge (2 * m) j with h1 | h1
            · obtain rfl : j = 2 * m + 1 := by omega
              rw [set2_ne _ _ (by right; omega), set2_self, set2_ne _ _ (by right; omega), set2_self]
              exact ⟨rfl, rfl⟩
            · obtain rfl : j = 2 * m := by omega
              rw [set2_self, set2_self, ← sub_smul, ← sub_smul, kk, mul_sub]
              exact ⟨rfl, rfl⟩)
      refine ⟨q', e, fun i hi j hj => ?_⟩
      rcases Nat.lt_or_ge t i with hlt | hge
      · obtain rfl : i = t + 1 := by omega
        exact h.2 j (by rw [pow_succ] at hj; omega)
      · exact h.1 i hge j hj
  unfold keygen
  rw [if_neg (by omega)]
  dsimp only
  rw [e, Outcome.ok_bind]
  have h00 := h 0 (Nat.zero_le _) 0 (by simp)
  rw [key, eqPoly_zero, one_smul, mul_one] at h00
  exact ⟨_, rfl, {
    D_eq := rfl
    g1Pre := rfl
    g2Pre := rfl
    ga := toNat_smul ha _
    pubs := fun i hi j hj => (h i hi j hj).1
    pubsa := fun i hi j hj => (h i hi j hj).2
    pre0 := by dsimp only; rw [h00.1]
    pre0a := by dsimp only; rw [h00.2]
    pre2 := fun _ _ => rfl
    pre2a := fun _ _ => rfl
    pubsG2 := fun i hi => toNat_smul (hs i hi) _ }⟩

/-- committing, on the exponents that are not dropped -/
theorem multiScalar_good {E : Pairing G1 G2 GT} {D : ℕ} {a : ℤ} {s : ℕ → ℤ} {K : Key G1 G2}
    (h : Good E D a s K) (l : ℕ) (hl : l ≤ D) (len : ℕ) (hlen : len ≤ 2 ^ l) (e : ℕ → ℤ) (h0 : ∀ j, 0 ≤ e j)
    (he : ∀ j, e j < 2 ^ P) :
    multiScalar (K.pubs l) (K.pre2 l) len e =
      (∑ j ∈ range (2 * (len / 2)), (e j : ZMod p) * key D s l j) • E.g1 ∧
    multiScalar (K.pubsa l) (K.pre2a l) len e =
      ((a : ZMod p) * ∑ j ∈ range (2 * (len / 2)), (e j : ZMod p) * key D s l j) • E.g1 := by
  rw [multiScalar_eq _ _ _ _ h0 he (fun j _ => h.pre2 l j), multiScalar_eq _ _ _ _ h0 he (fun j _ => h.pre2a l j),
    sum_smul, mul_sum, sum_smul]
  constructor
  · refine sum_congr rfl (fun j hj => ?_)
    have := mem_range.1 hj
    rw [h.pubs l hl j (by omega), toNat_smul (h0 j), smul_smul]
  · refine sum_congr rfl (fun j hj => ?_)
    have := mem_range.1 hj
    rw [h.pubsa l hl j (by omega), toNat_smul (h0 j), smul_smul]
    congr 1
    ring

end

/-! ## the answer -/

theorem products_eq (n : ℕ) (r : ℕ → ℤ) (i : ℕ) (hi : i < 2 ^ n) :
    (((products n r).1 i : ℤ) : ZMod p) = eqPoly n (fun t => ((r t : ℤ) : ZMod p)) i := by
  unfold products
  refine (loop_inv (n := n) (b := fun i (st : (ℕ → ℤ) × ℕ) =>
    let T := loop (2 ^ i) (fun j (T : ℕ → ℤ) =>
      let T := Function.update T (st.2 + j) (modp (T j * r i))
      Function.update T j (modp (T j * (1 - r i)))) st.1
    (T, st.2 + 2 ^ i)) (s := (Function.update (fun _ => 0) 0 1, 1))
    (fun m st => st.2 = 2 ^ m ∧ ∀ i < 2 ^ m, ((st.1 i : ℤ) : ZMod p) =
      eqPoly m (fun t => ((r t : ℤ) : ZMod p)) i) ⟨rfl, ?_⟩ ?_).2 i hi
  · intro i hi
    obtain rfl : i = 0 := by simpa using hi
    simp [eqPoly_zero]
  · rintro m hm ⟨T, ix⟩ ⟨h1, h2⟩
    dsimp only at h1 h2 ⊢
    subst h1
    refine ⟨by rw [pow_succ]; ring, ?_⟩
    have h := loop_inv (n := 2 ^ m) (b := fun j (T : ℕ → ℤ) =>
      let T := Function.update T (2 ^ m + j) (modp (T j * r m))
      Function.update T j (modp (T j * (1 - r m)))) (s := T)
      (fun k T => (∀ j < k, ((T j : ℤ) : ZMod p) = eqPoly (m + 1) (fun t => ((r t : ℤ) : ZMod p)) j ∧
          ((T (2 ^ m + j) : ℤ) : ZMod p) = eqPoly (m + 1) (fun t => ((r t : ℤ) : ZMod p)) (j + 2 ^ m)) ∧
        ∀ j < 2 ^ m, k ≤ j → ((T j : ℤ) : ZMod p) = eqPoly m (fun t => ((r t : ℤ) : ZMod p)) j)
      ⟨by simp, fun j hj _ => h2 j hj⟩ (by
        rintro k hk T ⟨a, b⟩
        dsimp only
        have c := b k hk le_rfl
        have e1 : Function.update T (2 ^ m + k) (modp (T k * r m)) k = T k :=
          Function.update_of_ne (by omega) _ _
        rw [e1]
        refine ⟨fun j hj => ?_, fun j hj hkj => ?_⟩
        · rcases Nat.lt_or_ge j k with hlt | hge
          · rw [Function.update_of_ne (by omega), Function.update_of_ne (by omega),
              Function.update_of_ne (by omega), Function.update_of_ne (by omega)]
            exact a j hlt
          · obtain rfl : j = k := by omega
            rw [Function.update_self, Function.update_of_ne (by omega), Function.update_self, modp_cast,
              modp_cast, eqPoly_lt _ _ _ hk, eqPoly_ge _ _ _ hk, ← c]
            push_cast
            exact ⟨rfl, rfl⟩
        · rw [Function.update_of_ne (by omega), Function.update_of_ne (by omega)]
          exact b j hj (by omega))
    intro i hi
    rcases Nat.lt_or_ge i (2 ^ m) with hlt | hge
    · exact (h.1 i hlt).1
    · have := (h.1 (i - 2 ^ m) (by rw [pow_succ] at hi; omega)).2
      rwa [show 2 ^ m + (i - 2 ^ m) = i by omega, show i - 2 ^ m + 2 ^ m = i by omega] at this

/-- the table of an input, filled up with zeros -/
def tableOf (input : List ℤ) : ℕ → ZMod p := fun i => ((input.getD i 0 : ℤ) : ZMod p)

theorem answer_eq (n : ℕ) (r : ℕ → ℤ) (input : List ℤ) (h : input.length ≤ 2 ^ n) :
    ((answer n r input : ℤ) : ZMod p) = mle n (tableOf input) (fun t => ((r t : ℤ) : ZMod p)) ∧
      0 ≤ answer n r input ∧ answer n r input < p := by
  have pp := p_pos
  have b := modp_bound (loop input.length (fun i ans => ans + (products n r).1 i * input.getD i 0) 0)
  have c : ((modp (loop input.length (fun i ans => ans + (products n r).1 i * input.getD i 0) 0) : ℤ) : ZMod p) =
      mle n (tableOf input) (fun t => ((r t : ℤ) : ZMod p)) := by
    rw [modp_cast, loop_add_sum, zero_add, Int.cast_sum, mle, ← sum_subset (range_subset_range.2 h)]
    · refine sum_congr rfl (fun i hi => ?_)
      have := mem_range.1 hi
      rw [Int.cast_mul, products_eq n r i (by omega)]
      rfl
    · intro i _ hi
      have : ¬ i < input.length := fun h => hi (mem_range.2 h)
      rw [tableOf, List.getD_eq_default _ _ (by omega)]
      simp
  unfold answer
  dsimp only
  generalize modp (loop input.length (fun i ans => ans + (products n r).1 i * input.getD i 0) 0) = x at *
  split_ifs with hx
  · refine ⟨?_, by omega, by omega⟩
    push_cast
    rw [c]; simp
  · exact ⟨c, by omega, b.2⟩

/-! ## the division -/

/-- coefficient `j` of the witness of coordinate `i` -/
def diff (r : ℕ → ZMod p) (c : ℕ → ZMod p) (i : ℕ) : ℕ → ZMod p := fun j =>
  foldK r i c (2 * j + 1) - foldK r i c (2 * j)

theorem divide_eq (n : ℕ) (r : ℕ → ℤ) (c : ℕ → ℤ) :
    (∀ k < n, ∀ j < 2 ^ (n - k - 1), (((divide n r c).wc (2 ^ n - 2 ^ (n - k) + j) : ℤ) : ZMod p) =
      diff (fun t => ((r t : ℤ) : ZMod p)) (fun t => ((c t : ℤ) : ZMod p)) k j) ∧
    ∀ j, -p < (divide n r c).wc j ∧ (divide n r c).wc j < p := by
  have pp := p_pos
  set R : ℕ → ZMod p := fun t => ((r t : ℤ) : ZMod p) with hR
  set C : ℕ → ZMod p := fun t => ((c t : ℤ) : ZMod p) with hC
  unfold divide
  have main := loop_inv (n := n) (b := fun i (D : Division) =>
    let D := loop (2 ^ (n - i - 1)) (fun j (D : Division) =>
      { D with
        wc := Function.update D.wc (D.start + j) (modp (-(D.temp (2 * j)) + D.temp (2 * j + 1)))
        temp := Function.update D.temp j
          (modp (-(D.temp (2 * j)) * (r i - 1) + D.temp (2 * j + 1) * r i)) }) D
    { D with start := D.start + 2 ^ (n - i - 1) }) (s := ⟨fun _ => 0, c, 0⟩)
    (fun i D => D.start = 2 ^ n - 2 ^ (n - i) ∧
      (∀ j < 2 ^ (n - i), ((D.temp j : ℤ) : ZMod p) = foldK R i C j) ∧
      (∀ k < i, ∀ j < 2 ^ (n - k - 1), ((D.wc (2 ^ n - 2 ^ (n - k) + j) : ℤ) : ZMod p) = diff R C k j) ∧
      ∀ j, -p < D.wc j ∧ D.wc j < p)
    ⟨by simp, fun j _ => rfl, by simp, fun j => ⟨by simpa using pp, by simpa using pp⟩⟩ (by
      rintro i hi ⟨wc, temp, start⟩ ⟨a1, a2, a3, a4⟩
      dsimp only at a1 a2 a3 a4
      subst a1
      obtain ⟨m, hm⟩ : ∃ m, n - i = m + 1 := ⟨n - i - 1, by omega⟩
      rw [hm, Nat.add_sub_cancel]
      have hp2 : 2 ^ (m + 1) = 2 * 2 ^ m := by rw [pow_succ]; ring
      have hle : 2 ^ (m + 1) ≤ 2 ^ n := Nat.pow_le_pow_right (by norm_num) (by omega)
      rw [hm] at a2
      have inner := loop_inv (n := 2 ^ m) (b := fun j (D : Division) =>
        { D with
          wc := Function.update D.wc (D.start + j) (modp (-(D.temp (2 * j)) + D.temp (2 * j + 1)))
          temp := Function.update D.temp j
            (modp (-(D.temp (2 * j)) * (r i - 1) + D.temp (2 * j + 1) * r i)) })
        (s := ⟨wc, temp, 2 ^ n - 2 ^ (m + 1)⟩)
        (fun q D => D.start = 2 ^ n - 2 ^ (m + 1) ∧
          (∀ j < q, ((D.temp j : ℤ) : ZMod p) = foldK R (i + 1) C j) ∧
          (∀ j < 2 ^ (m + 1), q ≤ j → ((D.temp j : ℤ) : ZMod p) = foldK R i C j) ∧
          (∀ j < q, ((D.wc (2 ^ n - 2 ^ (m + 1) + j) : ℤ) : ZMod p) = diff R C i j) ∧
          (∀ x < 2 ^ n - 2 ^ (m + 1), D.wc x = wc x) ∧
          ∀ j, -p < D.wc j ∧ D.wc j < p)
        ⟨rfl, by simp, fun j hj _ => a2 j hj, by simp, fun _ _ => rfl, a4⟩ (by
          rintro q hq ⟨wc', temp', start'⟩ ⟨b1, b2, b3, b4, b5, b6⟩
          dsimp only at b1 b2 b3 b4 b5 b6 ⊢
          subst b1
          have c0 := b3 (2 * q) (by omega) (by omega)
          have c1 := b3 (2 * q + 1) (by omega) (by omega)
          refine ⟨rfl, fun j hj => ?_, fun j hj hqj => ?_, fun j hj => ?_, fun x hx => ?_, fun j => ?_⟩
          · rcases Nat.lt_or_ge j q with hlt | hge
            · rw [Function.update_of_ne (by omega)]; exact b2 j hlt
            · obtain rfl : j = q := by omega
              rw [Function.update_self, modp_cast, foldK, foldT, ← c0, ← c1]
              push_cast
              ring
          · rw [Function.update_of_ne (by omega)]; exact b3 j hj (by omega)
          · rcases Nat.lt_or_ge j q with hlt | hge
            · rw [Function.update_of_ne (by omega)]; exact b4 j hlt
            · obtain rfl : j = q := by omega
              rw [Function.update_self, modp_cast, diff, ← c0, ← c1]
              push_cast
              ring
          · rw [Function.update_of_ne (by omega)]; exact b5 x hx
          · by_cases hj : j = 2 ^ n - 2 ^ (m + 1) + q
            · rw [hj, Function.update_self]; exact modp_bound _
            · rw [Function.update_of_ne hj]; exact b6 j)
      obtain ⟨b1, b2, b3, b4, b5, b6⟩ := inner
      dsimp only
      refine ⟨?_, fun j hj => b2 j ?_, fun k hk j hj => ?_, b6⟩
      · rw [b1, show n - (i + 1) = m by omega]; omega
      · rwa [show n - (i + 1) = m by omega] at hj
      · rcases Nat.lt_or_ge k i with hlt | hge
        · rw [b5]
          · exact a3 k hlt j hj
          · have h1 : 2 ^ (n - k) = 2 * 2 ^ (n - k - 1) := by
              rw [← pow_succ']; congr 1; omega
            have h2 : 2 ^ (m + 1) ≤ 2 ^ (n - k - 1) := Nat.pow_le_pow_right (by norm_num) (by omega)
            have h3 : 2 ^ (n - k) ≤ 2 ^ n := Nat.pow_le_pow_right (by norm_num) (by omega)
            omega
        · obtain rfl : k = i := by omega
          rw [hm] at hj ⊢
          exact b4 j (by simpa using hj))
  exact ⟨main.2.2.1, main.2.2.2⟩

/-- the identity behind the witnesses -/
theorem division_identity (n : ℕ) (c r s : ℕ → ZMod p) :
    mle n c s - mle n c r =
      ∑ i ∈ range n, (s i - r i) * mle (n - i - 1) (diff r c i) (fun t => s (i + 1 + t)) := by
  have tele := Finset.sum_range_sub' (fun i => mle (n - i) (foldK r i c) (fun t => s (i + t))) n
  have h0 : mle (n - 0) (foldK r 0 c) (fun t => s (0 + t)) = mle n c s := by
    simp [foldK]
  have hn : mle (n - n) (foldK r n c) (fun t => s (n + t)) = mle n c r := by
    rw [Nat.sub_self, ← foldK_mle r]
    simp [mle, eqPoly_zero]
  rw [h0, hn] at tele
  rw [← tele]
  refine sum_congr rfl (fun i hi => ?_)
  have hi := mem_range.1 hi
  obtain ⟨m, hm⟩ : ∃ m, n - i = m + 1 := ⟨n - i - 1, by omega⟩
  rw [hm, show n - (i + 1) = m by omega, Nat.add_sub_cancel, mle_succ, mle, mle, mle, mul_sum, ← sum_sub_distrib]
  refine sum_congr rfl (fun j _ => ?_)
  have e : eqPoly m (fun j => s (i + (j + 1))) j = eqPoly m (fun t => s (i + 1 + t)) j :=
    eqPoly_congr_r _ (fun t _ => by rw [show i + (t + 1) = i + 1 + t by omega])
  rw [e, foldK, foldT, foldT, diff, Nat.add_zero]
  ring_nf

/-! ## opening and verifying -/
section
variable {G1 G2 GT : Type} [AddCommGroup G1] [AddCommGroup G2] [AddCommGroup GT]
  [Module (ZMod p) G1] [Module (ZMod p) G2] [Module (ZMod p) GT]

theorem lastWitness_eq (g : G1) (c : ℤ) (h0 : 0 ≤ c) (hc : c < p) :
    lastWitness (doublings g) c = .ok ((c : ZMod p) • g) := by
  unfold lastWitness
  by_cases h : c = 0
  · rw [if_neg (by simpa using h), h]; simp
  · rw [if_pos h]
    dsimp only
    split_ifs
    · rw [preExp_eq g c h0 (lt_two_pow hc), Outcome.ok_bind, toNat_smul h0, zero_add]; rfl
    · rw [preExp_eq g _ (by omega) (lt_two_pow (by omega)), Outcome.ok_bind, toNat_smul (by omega), zero_sub]
      push_cast
      rw [← neg_smul]
      simp only [CharP.cast_eq_zero, sub_zero, neg_neg]
      rfl

/-- what `prove` computes -/
theorem prove_ok {E : Pairing G1 G2 GT} {D : ℕ} {a : ℤ} {s : ℕ → ℤ} {K : Key G1 G2} (h : Good E D a s K)
    (r input : List ℤ) (hn : r.length ≠ 0) (hD : r.length ≤ D) (hD' : D ≤ 30) (hi : input.length ≤ 2 ^ r.length) :
    ∃ O, prove K r input = .ok O ∧ O.ans = answer r.length (fun i => r.getD i 0) input ∧
      (∀ i < r.length, O.witness i = (mle (r.length - i - 1) (diff (tableOf r) (tableOf input) i)
        (fun t => ((s (D - r.length + (i + 1 + t)) : ℤ) : ZMod p))) • E.g1) ∧
      ∀ i < r.length, i ≠ 0 → O.witnessa i = (a : ZMod p) • O.witness i := by
  obtain ⟨d1, d2⟩ := divide_eq r.length (fun i => r.getD i 0) (fun i => input.getD i 0)
  unfold prove
  dsimp only
  rw [if_neg (by rw [h.D_eq]; omega)]
  generalize divide r.length (fun i => r.getD i 0) (fun i => input.getD i 0) = Q at *
  set n := r.length with hnn
  set wc : ℕ → ℤ := fun i => if Q.wc i < 0 then Q.wc i + p else Q.wc i with hwc
  have w0 : ∀ j, 0 ≤ wc j := by
    intro j; have := d2 j; rw [hwc]; dsimp only; split_ifs <;> omega
  have w1 : ∀ j, wc j < p := by
    intro j; have := d2 j; rw [hwc]; dsimp only; split_ifs <;> omega
  have w2 : ∀ k < n, ∀ j < 2 ^ (n - k - 1), ((wc (2 ^ n - 2 ^ (n - k) + j) : ℤ) : ZMod p) =
      diff (tableOf r) (tableOf input) k j := by
    intro k hk j hj
    rw [← show _ = diff (tableOf r) (tableOf input) k j from d1 k hk j hj, hwc]
    dsimp only
    split_ifs
    · push_cast; simp
    · rfl
  have hkey : ∀ i < n, ∀ j, key D s (n - i - 1) j =
      eqPoly (n - i - 1) (fun t => ((s (D - n + (i + 1 + t)) : ℤ) : ZMod p)) j := by
    intro i hi j
    exact eqPoly_congr_r _ (fun t _ => by rw [show D - (n - i - 1) + t = D - n + (i + 1 + t) by omega])
  have main := loop_inv (n := n - 1) (b := fun i (st : (ℕ → G1) × (ℕ → G1) × ℕ) =>
      let l := n - i - 1
      let e : ℕ → ℤ := fun j => wc (st.2.2 + j)
      let w := Function.update st.1 i (multiScalar (K.pubs l) (K.pre2 l) (2 ^ l) e)
      let wa := if i ≠ 0 then Function.update st.2.1 i (multiScalar (K.pubsa l) (K.pre2a l) (2 ^ l) e)
        else st.2.1
      (w, wa, st.2.2 + 2 ^ l)) (s := (fun _ => 0, fun _ => 0, 0))
    (fun m st => st.2.2 = 2 ^ n - 2 ^ (n - m) ∧
      (∀ i < m, st.1 i = (mle (n - i - 1) (diff (tableOf r) (tableOf input) i)
        (fun t => ((s (D - n + (i + 1 + t)) : ℤ) : ZMod p))) • E.g1) ∧
      ∀ i < m, i ≠ 0 → st.2.1 i = (a : ZMod p) • st.1 i)
    ⟨by simp, by simp, by simp⟩ (by
      rintro i hi ⟨w, wa, st⟩ ⟨c1, c2, c3⟩
      dsimp only at c1 c2 c3 ⊢
      subst c1
      obtain ⟨l, hl⟩ : ∃ l, n - i - 1 = l + 1 := ⟨n - i - 2, by omega⟩
      have hni : n - i = l + 2 := by omega
      obtain ⟨m1, m2⟩ := multiScalar_good h (n - i - 1) (by omega) (2 ^ (n - i - 1)) le_rfl
        (fun j => wc (2 ^ n - 2 ^ (n - i) + j)) (fun j => w0 _) (fun j => lt_two_pow (w1 _))
      have hev : 2 * (2 ^ (n - i - 1) / 2) = 2 ^ (n - i - 1) := by
        rw [hl, pow_succ]; omega
      have hsum : ∑ j ∈ range (2 * (2 ^ (n - i - 1) / 2)), ((wc (2 ^ n - 2 ^ (n - i) + j) : ℤ) : ZMod p) *
          key D s (n - i - 1) j = mle (n - i - 1) (diff (tableOf r) (tableOf input) i)
            (fun t => ((s (D - n + (i + 1 + t)) : ℤ) : ZMod p)) := by
        rw [hev, mle]
        refine sum_congr rfl (fun j hj => ?_)
        rw [w2 i (by omega) j (mem_range.1 hj), hkey i (by omega), mul_comm]
      rw [hsum] at m1 m2
      rw [m1, m2]
      refine ⟨?_, fun k hk => ?_, fun k hk hk0 => ?_⟩
      · have h1 : 2 ^ (n - i) = 2 * 2 ^ (n - i - 1) := by rw [← pow_succ']; congr 1; omega
        have h3 : 2 ^ (n - i) ≤ 2 ^ n := Nat.pow_le_pow_right (by norm_num) (by omega)
        rw [show n - (i + 1) = n - i - 1 by omega]; omega
      · rcases Nat.lt_or_ge k i with hlt | hge
        · rw [Function.update_of_ne (by omega)]; exact c2 k hlt
        · obtain rfl : k = i := by omega
          rw [Function.update_self]
      · rcases Nat.lt_or_ge k i with hlt | hge
        · rw [if_pos (by omega), Function.update_of_ne (by omega), Function.update_of_ne (by omega)]
          exact c3 k hlt hk0
        · obtain rfl : k = i := by omega
          rw [if_pos hk0, Function.update_self, Function.update_self, smul_smul])
  generalize loop (n - 1) _ _ = st at main ⊢
  obtain ⟨c1, c2, c3⟩ := main
  have hx := w2 (n - 1) (by omega) 0 (by positivity)
  rw [show n - (n - 1) = 1 by omega] at c1 hx
  rw [Nat.add_zero] at hx
  rw [c1, h.pre0, h.pre0a, lastWitness_eq _ _ (w0 _) (w1 _), Outcome.ok_bind,
    lastWitness_eq _ _ (w0 _) (w1 _), Outcome.ok_bind]
  refine ⟨_, rfl, rfl, fun i hi => ?_, fun i hi hi0 => ?_⟩
  · dsimp only
    rcases Nat.lt_or_ge i (n - 1) with hlt | hge
    · rw [Function.update_of_ne (by omega)]; exact c2 i hlt
    · obtain rfl : i = n - 1 := by omega
      rw [Function.update_self, hx, show n - (n - 1) - 1 = 0 by omega]
      congr 1
      simp [mle, eqPoly_zero]
  · dsimp only
    rcases Nat.lt_or_ge i (n - 1) with hlt | hge
    · rw [Function.update_of_ne (by omega), Function.update_of_ne (by omega)]; exact c3 i hlt hi0
    · obtain rfl : i = n - 1 := by omega
      rw [Function.update_self, Function.update_self, smul_smul, smul_smul, mul_comm]

/-- what `verify` checks -/
theorem verify_iff [DecidableEq GT] {E : Pairing G1 G2 GT} {D : ℕ} {a : ℤ} {s : ℕ → ℤ} {K : Key G1 G2}
    (h : Good E D a s K) (r : List ℤ) (hD : r.length ≤ D) (hr : ∀ i < r.length, 0 ≤ r.getD i 0 ∧ r.getD i 0 < p)
    (digest : G1) (ans : ℤ) (h0 : 0 ≤ ans) (ha : ans < 2 ^ P) (w wa : ℕ → G1) :
    ∃ b, verify E K r digest ans w wa = .ok b ∧ (b = true ↔
      (∀ i < r.length, i ≠ 0 → E.e E.g2 (wa i) = E.e ((a : ZMod p) • E.g2) (w i)) ∧
      E.e E.g2 (digest - (ans : ZMod p) • E.g1) = ∑ i ∈ range r.length,
        (((s (D - r.length + i) : ℤ) : ZMod p) - tableOf r i) • E.e E.g2 (w i)) := by
  unfold verify
  dsimp only
  have hflag : ∀ n, (loop n (fun i flag =>
      if i ≠ 0 then flag && (E.e E.g2 (wa i) == E.e K.ga (w i)) else flag) true = true ↔
      ∀ i < n, i ≠ 0 → E.e E.g2 (wa i) = E.e ((a : ZMod p) • E.g2) (w i)) := by
    intro n
    induction n with
    | zero => simp [loop]
    | succ n ih =>
      rw [loop_succ]
      by_cases hn : n = 0
      · subst hn
        simp only [ne_eq, not_true_eq_false, if_false, ih]
        constructor
        · intro _ i hi hi0; omega
        · intro _ i hi; omega
      · rw [if_pos hn, Bool.and_eq_true, ih, beq_iff_eq, h.ga]
        constructor
        · rintro ⟨x, y⟩ i hi hi0
          rcases Nat.lt_succ_iff_lt_or_eq.1 hi with hlt | rfl
          · exact x i hlt hi0
          · exact y
        · intro x
          exact ⟨fun i hi => x i (by omega), x n (by omega) hn⟩
  rw [h.g1Pre, preExp_eq _ _ h0 ha, Outcome.ok_bind, loopM_pure (b' := fun i e3 => e3 +
    (((s (D - r.length + i) : ℤ) : ZMod p) - tableOf r i) • E.e E.g2 (w i))]
  · rw [Outcome.ok_bind]
    refine ⟨_, rfl, ?_⟩
    rw [Bool.and_eq_true, hflag, beq_iff_eq, loop_add_sum, zero_add, toNat_smul h0]
  · intro i hi e3
    rw [h.D_eq, if_neg (by omega), h.g2Pre, preExp_eq _ _ (hr i hi).1 (lt_two_pow (hr i hi).2), Outcome.ok_bind,
      h.pubsG2 _ (by omega), toNat_smul (hr i hi).1, ← sub_smul, map_smul, LinearMap.smul_apply]
    rfl

/-- an honest opening is accepted exactly if the digest is a commitment to the table -/
theorem honest_iff [DecidableEq GT] {E : Pairing G1 G2 GT} {D : ℕ} {a : ℤ} {s : ℕ → ℤ} {K : Key G1 G2}
    (h : Good E D a s K) (r input : List ℤ) (hn : r.length ≠ 0) (hD : r.length ≤ D) (hD' : D ≤ 30)
    (hi : input.length ≤ 2 ^ r.length) (hr : ∀ i < r.length, 0 ≤ r.getD i 0 ∧ r.getD i 0 < p) (x : ZMod p) :
    ∃ O b, prove K r input = .ok O ∧ verify E K r (x • E.g1) O.ans O.witness O.witnessa = .ok b ∧
      O.ans = answer r.length (fun i => r.getD i 0) input ∧
      (b = true ↔ (x - mle r.length (tableOf input)
        (fun t => ((s (D - r.length + t) : ℤ) : ZMod p))) • E.e E.g2 E.g1 = 0) := by
  obtain ⟨O, e, o1, o2, o3⟩ := prove_ok h r input hn hD hD' hi
  obtain ⟨a1, a2, a3⟩ := answer_eq r.length (fun i => r.getD i 0) input hi
  rw [← o1] at a1 a2 a3
  obtain ⟨b, e', hb⟩ := verify_iff h r hD hr (x • E.g1) O.ans a2 (lt_two_pow a3) O.witness O.witnessa
  refine ⟨O, b, e, e', o1, hb.trans ?_⟩
  have hk : ∀ i < r.length, i ≠ 0 → E.e E.g2 (O.witnessa i) = E.e ((a : ZMod p) • E.g2) (O.witness i) := by
    intro i hi hi0
    rw [o3 i hi hi0, map_smul, map_smul, LinearMap.smul_apply]
  have hid := division_identity r.length (tableOf input) (tableOf r)
    (fun t => ((s (D - r.length + t) : ℤ) : ZMod p))
  have hsum : ∑ i ∈ range r.length, (((s (D - r.length + i) : ℤ) : ZMod p) - tableOf r i) • E.e E.g2 (O.witness i) =
      (mle r.length (tableOf input) (fun t => ((s (D - r.length + t) : ℤ) : ZMod p)) -
        mle r.length (tableOf input) (tableOf r)) • E.e E.g2 E.g1 := by
    rw [hid, sum_smul]
    refine sum_congr rfl (fun i hi => ?_)
    rw [o2 i (mem_range.1 hi), map_smul, smul_smul]
  rw [and_iff_right hk, hsum, ← sub_smul, map_smul, ← sub_eq_zero, ← sub_smul, a1]
  have : x - mle r.length (tableOf input) (fun t => ((r.getD t 0 : ℤ) : ZMod p)) -
      (mle r.length (tableOf input) (fun t => ((s (D - r.length + t) : ℤ) : ZMod p)) -
        mle r.length (tableOf input) (tableOf r)) =
      x - mle r.length (tableOf input) (fun t => ((s (D - r.length + t) : ℤ) : ZMod p)) := by
    rw [show tableOf r = (fun t => ((r.getD t 0 : ℤ) : ZMod p)) from rfl]; ring
  rw [this]

/-- what `commit` computes -/
theorem commit_ok {E : Pairing G1 G2 GT} {D : ℕ} {a : ℤ} {s : ℕ → ℤ} {K : Key G1 G2} (h : Good E D a s K)
    (input : List ℤ) (hn : input.length ≠ 0) (hD : input.length ≤ 2 ^ D)
    (hin : ∀ x ∈ input, -p ≤ x ∧ x < 2 ^ P) :
    commit K input = .ok
      ((∑ j ∈ range (2 * (input.length / 2)), tableOf input j * key D s (Nat.clog 2 input.length) j) • E.g1,
       ((a : ZMod p) * ∑ j ∈ range (2 * (input.length / 2)),
          tableOf input j * key D s (Nat.clog 2 input.length) j) • E.g1) := by
  have hc : Nat.clog 2 input.length ≤ D := Nat.clog_le_of_le_pow hD
  unfold commit
  dsimp only
  rw [if_neg (by rw [h.D_eq]; omega)]
  have hb : ∀ i, -p ≤ input.getD i 0 ∧ input.getD i 0 < 2 ^ P := by
    intro i
    by_cases hi : i < input.length
    · rw [List.getD_eq_getElem _ _ hi]; exact hin _ (List.getElem_mem hi)
    · rw [List.getD_eq_default _ _ (by omega)]
      exact ⟨by have := p_pos; omega, by positivity⟩
  have hp2 : ((p : ℕ) : ℤ) < 2 ^ P := by rw [P, Spec.p]; norm_num
  obtain ⟨m1, m2⟩ := multiScalar_good h (Nat.clog 2 input.length) hc input.length
    (Nat.le_pow_clog (by norm_num) _) (fun i => if input.getD i 0 < 0 then input.getD i 0 + p else input.getD i 0)
    (fun j => by have := hb j; split_ifs <;> omega)
    (fun j => by have := hb j; split_ifs <;> omega)
  have hs : ∀ j, (((if input.getD j 0 < 0 then input.getD j 0 + (p : ℤ) else input.getD j 0) : ℤ) : ZMod p) =
      tableOf input j := by
    intro j
    split_ifs
    · push_cast; simp [tableOf]
    · rfl
  rw [m1, m2]
  simp only [hs]

end
end Libra.Multivariate
