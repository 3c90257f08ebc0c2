import Verif.Proofs.U512
import Mathlib.FieldTheory.Finite.Basic
import Mathlib.Tactic.NormNum.Prime
import Mathlib.Tactic.NormNum.PowMod

/-!
The modulus of `prime_field` is prime (Pocklington certificate; the factored part of `p - 1`
exceeds the cube root of `p`).
-/

namespace Libra.PrimeField

/-- modular exponentiation by squaring, for kernel evaluation -/
def powm (n : ℕ) : ℕ → ℕ → ℕ → ℕ
  | 0, _, _ => 1 % n
  | k + 1, x, e =>
    if e % 2 = 1 then x * powm n k (x * x % n) (e / 2) % n else powm n k (x * x % n) (e / 2)

theorem powm_eq (n k : ℕ) : ∀ x e, e < 2 ^ k → powm n k x e = x ^ e % n := by
  induction k with
  | zero => intro x e h; have : e = 0 := by simpa using h
            subst this; simp [powm]
  | succ k ih =>
    intro x e h
    have h2 : e / 2 < 2 ^ k := by rw [pow_succ] at h; omega
    have e0 : (x * x % n) ^ (e / 2) % n = x ^ (2 * (e / 2)) % n := by
      rw [← Nat.pow_mod, ← sq, ← pow_mul]
    rw [powm, ih _ _ h2, e0]
    split_ifs with c
    · rw [Nat.mul_mod_mod, ← pow_succ']
      congr 2; omega
    · congr 2; omega

/-- If `x` has order exactly `q` modulo every prime factor of `n`, each such factor is `1` mod `q`. -/
theorem dvd_pred_of_cert (n l q x y : ℕ) (hl : l.Prime) (hq : q.Prime) (hln : l ∣ n) (hn : 1 < n)
    (hq' : q < 2 ^ 32) (hx : powm n 32 x q = 1) (hy : (x + (n - 1)) * y % n = 1) : q ∣ l - 1 := by
  haveI := Fact.mk hl
  haveI := Fact.mk hq
  rw [powm_eq _ _ _ _ hq'] at hx
  have red : ∀ k : ℕ, k % n = 1 → (k : ZMod l) = 1 := by
    intro k hk
    have h1 : k ≡ 1 [MOD n] := by
      rw [Nat.ModEq, hk, Nat.mod_eq_of_lt hn]
    have := (ZMod.natCast_eq_natCast_iff k 1 l).2 (h1.of_dvd hln)
    simpa using this
  have e1 : (x : ZMod l) ^ q = 1 := by simpa using red _ hx
  have n0 : ((n - 1 : ℕ) : ZMod l) = -1 := by
    have : ((n : ℕ) : ZMod l) = 0 := (ZMod.natCast_eq_zero_iff n l).2 hln
    rw [Nat.cast_sub hn.le, this]; simp
  have e2 : ((x : ZMod l) - 1) * y = 1 := by
    have := red _ hy
    push_cast [n0] at this
    rw [sub_eq_add_neg]; exact this
  have hne : (x : ZMod l) ≠ 1 := by
    intro h; rw [h] at e2; simp at e2
  have ho : orderOf (x : ZMod l) = q := orderOf_eq_prime e1 hne
  have hx0 : (x : ZMod l) ≠ 0 := by
    intro h; rw [h, zero_pow hq.ne_zero] at e1; exact zero_ne_one e1
  rw [← ho]
  exact ZMod.orderOf_dvd_card_sub_one hx0

/-- the factored part of `p - 1` -/
def pF : ℕ := 66215312856964371608176016418

theorem pF_dvd (l : ℕ) (hl : l.Prime) (h : l ∣ p) : pF ∣ l - 1 := by
  have h1 : 1 < p := by decide +kernel
  have c0 : 2 ∣ l - 1 := dvd_pred_of_cert p l 2 16798108731015832284940804142231733909759579603404752749028378864165570215948 8399054365507916142470402071115866954879789801702376374514189432082785107974 hl (by norm_num) h h1
    (by norm_num) (by decide +kernel) (by decide +kernel)
  have c1 : 3 ∣ l - 1 := dvd_pred_of_cert p l 3 16798108731015832281326531451663778977744202844572560870104532697422948728822 1204757563522651644005125586277397292974615388914207162375 hl (by norm_num) h h1
    (by norm_num) (by decide +kernel) (by decide +kernel)
  have c2 : 7 ∣ l - 1 := dvd_pred_of_cert p l 7 3439778596503892040579556685709710858145194269075914047770531991520241470643 2496760678312316984786749642203136830265153429861539182689199689696894393974 hl (by norm_num) h h1
    (by norm_num) (by decide +kernel) (by decide +kernel)
  have c3 : 641 ∣ l - 1 := dvd_pred_of_cert p l 641 295724641805128627214766943282233591798659393788673723258562182675898274099 16259043313939164402785889483722839083681235927285555808298293153089388745819 hl (by norm_num) h h1
    (by norm_num) (by decide +kernel) (by decide +kernel)
  have c4 : 15698303 ∣ l - 1 := dvd_pred_of_cert p l 15698303 2492720395614565686860236692103504333975106074196428862671107559263501981 11247619210893991387587885573434485309858836027973808775408817931249767217363 hl (by norm_num) h h1
    (by norm_num) (by decide +kernel) (by decide +kernel)
  have c5 : 65982793 ∣ l - 1 := dvd_pred_of_cert p l 65982793 935557152822859449313905752196478488374519148284285410941681945789931344355 4066508227361805533135041575652836805025505675094474565153805394405279627928 hl (by norm_num) h h1
    (by norm_num) (by decide +kernel) (by decide +kernel)
  have c6 : 16843 ∣ l - 1 := dvd_pred_of_cert p l 16843 14731936015726988208430005971467466452182997990369233986787498664863932927835 5051768615062574144561015160478443490253642724478253918193867872387668532574 hl (by norm_num) h h1
    (by norm_num) (by decide +kernel) (by decide +kernel)
  have c7 : 140977 ∣ l - 1 := dvd_pred_of_cert p l 140977 14704976932064931060767428464593526290158813001397864983589805530841288176613 11801408589311593769285912909369746990709639439281780133815896491751857455681 hl (by norm_num) h h1
    (by norm_num) (by decide +kernel) (by decide +kernel)
  have a0 := c0
  have a1 : 2 * 3 ∣ l - 1 := Nat.Coprime.mul_dvd_of_dvd_of_dvd (by norm_num) a0 c1
  norm_num at a1
  have a2 : 6 * 7 ∣ l - 1 := Nat.Coprime.mul_dvd_of_dvd_of_dvd (by norm_num) a1 c2
  norm_num at a2
  have a3 : 42 * 641 ∣ l - 1 := Nat.Coprime.mul_dvd_of_dvd_of_dvd (by norm_num) a2 c3
  norm_num at a3
  have a4 : 26922 * 15698303 ∣ l - 1 := Nat.Coprime.mul_dvd_of_dvd_of_dvd (by norm_num) a3 c4
  norm_num at a4
  have a5 : 422629713366 * 65982793 ∣ l - 1 := Nat.Coprime.mul_dvd_of_dvd_of_dvd (by norm_num) a4 c5
  norm_num at a5
  have a6 : 27886288892678111238 * 16843 ∣ l - 1 := Nat.Coprime.mul_dvd_of_dvd_of_dvd (by norm_num) a5 c6
  norm_num at a6
  have a7 : 469688763819377427581634 * 140977 ∣ l - 1 := Nat.Coprime.mul_dvd_of_dvd_of_dvd (by norm_num) a6 c7
  norm_num at a7
  exact a7

theorem not_square (k : ℕ) : k * k ≠ 1516283461740203674410077362313128360905729483732289601772 := by
  intro h
  have h1 : k < 38939484610613475278219675060 := by
    by_contra hc
    have : 38939484610613475278219675060 ≤ k := by omega
    have := Nat.mul_le_mul this this
    omega
  have h2 : 38939484610613475278219675059 < k := by
    by_contra hc
    have : k ≤ 38939484610613475278219675059 := by omega
    have := Nat.mul_le_mul this this
    omega
  omega

/-- **The modulus is prime.** -/
theorem p_prime : Nat.Prime p := by
  by_contra hnp
  have h1 : 1 < p := by decide +kernel
  obtain ⟨m, hm⟩ := Nat.minFac_dvd p
  have hl : (Nat.minFac p).Prime := Nat.minFac_prime (by omega)
  have hlp := Nat.minFac_dvd p
  have hlt : Nat.minFac p < p := (Nat.not_prime_iff_minFac_lt h1).1 hnp
  generalize Nat.minFac p = l at *
  obtain ⟨a, ha⟩ := pF_dvd l hl hlp
  have hl2 := hl.two_le
  have hla : l = pF * a + 1 := by omega
  have hm1 : 1 < m := by
    rcases Nat.lt_or_ge 1 m with h | h
    · exact h
    · exfalso
      have : m = 0 ∨ m = 1 := by omega
      rcases this with rfl | rfl <;> omega
  obtain ⟨q, hq⟩ := Nat.exists_prime_and_dvd (n := m) (by omega)
  -- m is 1 modulo pF
  have hp1 : p = pF * 253689184664919189156396449557611436988532978086 + 1 := by decide +kernel
  have hmm : m % pF = 1 := by
    have h2 : p % pF = 1 := by decide +kernel
    rw [hm, hla, Nat.add_mul, Nat.mul_assoc, Nat.one_mul, Nat.mul_add_mod] at h2
    exact h2
  obtain ⟨b, hb⟩ : ∃ b, m = pF * b + 1 := ⟨m / pF, by
    have := Nat.div_add_mod m pF; omega⟩
  have ha0 : 0 < a := by rcases Nat.eq_zero_or_pos a with h | h; · subst h; omega
                         · exact h
  have hb0 : 0 < b := by rcases Nat.eq_zero_or_pos b with h | h; · subst h; omega
                         · exact h
  have hF0 : 0 < pF := by decide +kernel
  have hR : 253689184664919189156396449557611436988532978086 = pF * (a * b) + (a + b) := by
    have : pF * 253689184664919189156396449557611436988532978086 = pF * (pF * (a * b) + (a + b)) := by
      have : pF * 253689184664919189156396449557611436988532978086 + 1 = (pF * a + 1) * (pF * b + 1) := by rw [← hp1, ← hla, ← hb, ← hm]
      have h3 : (pF * a + 1) * (pF * b + 1) = pF * (pF * (a * b) + (a + b)) + 1 := by ring
      exact Nat.add_right_cancel (this.trans h3)
    exact Nat.eq_of_mul_eq_mul_left hF0 this
  have hab : a * b < 3831276689924100458 := by
    by_contra hc
    have hc : 3831276689924100458 ≤ a * b := by omega
    have := Nat.mul_le_mul_left pF hc
    have h4 : 253689184664919189156396449557611436988532978086 < pF * 3831276689924100458 := by decide +kernel
    omega
  have hsum : a + b ≤ a * b + 1 := by
    obtain ⟨a', rfl⟩ : ∃ a', a = a' + 1 := ⟨a - 1, by omega⟩
    obtain ⟨b', rfl⟩ : ∃ b', b = b' + 1 := ⟨b - 1, by omega⟩
    ring_nf; omega
  have hF : pF = 66215312856964371608176016418 := rfl
  rw [hF] at hR
  have hs : a * b = 3831276689924100457 := by omega
  have hr : a + b = 38939484610613475278219675060 := by omega
  rcases Nat.le_total a b with h | h
  · obtain ⟨c, rfl⟩ := Nat.exists_eq_add_of_le h
    apply not_square c
    have : (a + (a + c)) * (a + (a + c)) = 4 * (a * (a + c)) + c * c := by ring
    rw [hr, hs] at this
    omega
  · obtain ⟨c, rfl⟩ := Nat.exists_eq_add_of_le h
    apply not_square c
    have : (b + c + b) * (b + c + b) = 4 * ((b + c) * b) + c * c := by ring
    rw [hr, hs] at this
    omega

instance : Fact (Nat.Prime p) := ⟨p_prime⟩

end Libra.PrimeField
