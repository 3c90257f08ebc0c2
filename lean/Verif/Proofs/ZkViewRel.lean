import Verif.Proofs.ZkViewShift

/-!
# Pairs of runs with the same record

For two circuits that differ in the input: which randomness of the second run makes up for the difference.
-/

namespace Libra.Zk
open Libra Spec Finset FastTrack Props

section defs
variable {F : Type} [Field F] {G1 G2 GT : Type} [AddCommGroup G1] [AddCommGroup G2] [AddCommGroup GT]
  [Module (ZMod p) G1] [Module (ZMod p) G2] [Module (ZMod p) GT] [Gmp F]

/-- the challenges of phase 2 and of the last round of layer `l` -/
def rvOf (ch : Challenges F) (l : ℕ) : ℕ → F := fun j => if l = 1 then 0 else ch.rv l j
@[inherit_doc rvOf]
def rcOf (ch : Challenges F) (l : ℕ) : F := if l = 1 then 0 else ch.rc l

/-- what is known about the claim about a layer -/
structure Pub (F : Type) where
  alpha : F
  beta : F
  r0 : ℕ → F
  r1 : ℕ → F
  x0 : F
  Z0 : F
  x1 : F
  Z1 : F

/-- the claim about layer `l` -/
def pub (X : Circuit) (ch : Challenges F) (l : ℕ) : Pub F :=
  if l + 1 = X.depth then ⟨1, 0, ch.r0, ch.r1, 0, 0, 0, 0⟩
  else ⟨ch.alpha (l + 1), ch.beta (l + 1), ch.ru (l + 1), rvOf ch (l + 1), ch.ru (l + 1) (X.bl l - 1),
    ZAt (ch.ru (l + 1)) (X.bl l), rvOf ch (l + 1) (X.bl l - 1), ZAt (rvOf ch (l + 1)) (X.bl l)⟩

/-- the mask of the values of layer `l` -/
def Rand.Rs {X : Circuit} (w : Rand F X) (l : ℕ) : ℕ → F :=
  if h : l < X.depth - 1 then pad (w.layer ⟨l, h⟩).R else fun _ => 0

/-- coins in which only the mask of the layer below is set -/
def bare (K : Secrets) (Rn : ℕ → F) : Coins F where
  maskr _ := 0
  a := 0
  s _ := 0
  rf := 0
  rf2 := 0
  t _ := 0
  layer l := ⟨Rn, fun _ => 0, K.aR l, K.sR l, 0, fun _ _ => 0, K.aM l, K.sM l, 0, fun _ => 0⟩

/-- a prover about to begin with layer `l` -/
def canon (A X : Circuit) (ch : Challenges F) (junk : Prover F G1 G2) (l : ℕ) (Rm r : ℕ → F) : Prover F G1 G2 :=
  { junk with
    base := { junk.base with circuitValue := valueFn (allValues A A.depth) }
    maskR := Rm, maskr := r, preu1 := (pub X ch l).x0, prev1 := (pub X ch l).x1
    Zu := (pub X ch l).Z0, Zv := (pub X ch l).Z1 }

/-- the round messages of layer `l` -/
def msgs (E : Pairing G1 G2 GT) (A X : Circuit) (K : Secrets) (ch : Challenges F) (junk : Prover F G1 G2) (l n : ℕ)
    (Rm Rn r : ℕ → F) (g : Fin (2 * (2 * n + 1) + 7) → F) : Outcome (F × (Fin (2 * n + 1) → QuintuplePoly F)) :=
  roundMessages E A (withMask (bare K Rn) l g) (canon A X ch junk l Rm r) l (pub X ch l).alpha (pub X ch l).beta
    (pub X ch l).r0 (pub X ch l).r1 (ch.rho l) (ch.ru l) (rvOf ch l) n

/-- the integers of a sequence of field elements -/
def mpz (R : ℕ → F) : ℕ → ℕ := fun j => Gmp.toMpz (R j)

/-- the points at which the mask of the values is opened -/
def ptR (X : Circuit) (ch : Challenges F) (l : ℕ) (c : Fin 2) : ℕ → ℕ := fun k =>
  if k = 0 then Gmp.toMpz (if c = 0 then (pub X ch l).x0 else (pub X ch l).x1) else Gmp.toMpz (rcOf ch l)

/-- the point at which the mask of the sum-check is opened -/
def ptM (ch : Challenges F) (l n : ℕ) : ℕ → ℕ := fun k =>
  if k < n then Gmp.toMpz (ch.ru l k) else if k < n + n then Gmp.toMpz (rvOf ch l (k - n)) else Gmp.toMpz (rcOf ch l)

/-- the values of the masks at the secret points -/
def fR (K : Secrets) (l : ℕ) (R : ℕ → F) : ZMod p :=
  maskRPoly (fun j => (mpz R j : ZMod p)) (K.sR l 0) (K.sR l 1)
@[inherit_doc fR]
def fM (K : Secrets) (l n : ℕ) (g : ℕ → F) : ZMod p :=
  sumMaskPoly (2 * n + 1) (fun j => (mpz g j : ZMod p)) (fun j => (K.sM l j : ZMod p))

/-- the table of the inputs -/
def inTab (A X : Circuit) (junk : Prover F G1 G2) : ℕ → ℕ := fun g =>
  if g < 2 ^ X.bl 0 then Gmp.toMpz (value A 0 g : F) else junk.inputMpz g

/-- keys and the quotients of the openings -/
structure Tools (F : Type) [Field F] [Gmp F] (E : Pairing G1 G2 GT) (X : Circuit) (K : Secrets) where
  keyR : ℕ → VpdKey G1 G2
  keyM : ℕ → VpdKey G1 G2
  keyI : InputVpd.Key G1 G2
  qR : ℕ → (ℕ → ℕ) → (ℕ → ℕ) → ℕ → ZMod p
  qM : ℕ → (ℕ → ℕ) → (ℕ → ℕ) → ℕ → ZMod p
  qI : (ℕ → ℕ) → (ℕ → ℕ) → ℕ → (ℕ → ℕ) → ℕ → ZMod p
  genR : ∀ l, 1 ≤ l → l < X.depth → VpdR.keyGen E (K.aR l) (K.sR l) = .ok (keyR l) ∧
    VpdR.Good E (K.aR l) (K.sR l) (keyR l)
  genM : ∀ l, 1 ≤ l → l < X.depth → VpdTest.keyGen E (2 * X.bl (l - 1) + 1) (K.aM l) (K.sM l) = .ok (keyM l) ∧
    VpdTest.Good E (2 * X.bl (l - 1) + 1) (K.aM l) (fun j => (K.sM l j : ZMod p)) (keyM l)
  genI : InputVpd.keyGen E (X.bl 0) K.a K.s = .ok keyI ∧ InputVpd.Good E (X.bl 0) K.a (fun j => (K.s j : ZMod p)) keyI
  formR : ∀ l, 1 ≤ l → l < X.depth → ∀ input r, ∃ ans, ans < p ∧
    (ans : F) = maskRPoly (fun i => (input i : F)) (r 0) (r 1) ∧
    Form E.g1 (K.aR l) 2 (fun i => (K.sR l i : ZMod p)) r (maskRPoly (fun i => (input i : ZMod p)) (K.sR l 0) (K.sR l 1))
      (fun rf : ℕ => (rf : ZMod p)) (fun _ => True) (fun rf t => VpdR.prove (keyR l) r input rf t) ans (qR l input r)
  formM : ∀ l, 1 ≤ l → l < X.depth → ∀ input, (∀ i < 2 * (2 * X.bl (l - 1) + 1), input i < p) → ∀ r, ∃ ans, ans < p ∧
    (ans : F) = sumMaskPoly (2 * X.bl (l - 1) + 1) (fun i => (input i : F)) (fun i => (r i : F)) ∧
    Form E.g1 (K.aM l) (2 * X.bl (l - 1) + 1) (fun i => (K.sM l i : ZMod p)) r
      (sumMaskPoly (2 * X.bl (l - 1) + 1) (fun i => (input i : ZMod p)) (fun i => (K.sM l i : ZMod p)))
      (fun rf : ℕ => (rf : ZMod p)) (fun rf => rf < p) (fun rf t => VpdTest.prove (keyM l) r input rf t) ans
      (qM l input r)
  formI : ∀ input, (∀ i < 2 ^ X.bl 0, input i < p) → ∀ input2 Z r, ∃ ans, ans < p ∧
    (ans : F) = InputVpd.maskedValue (X.bl 0) input input2 Z (fun i => (r i : F)) ∧
    Form E.g1 K.a (X.bl 0) (fun i => (K.s i : ZMod p)) r
      (InputVpd.maskedValue (X.bl 0) input input2 Z (fun i => (K.s i : ZMod p)))
      (fun x : ℕ × ℕ => (x.1 : ZMod p) + Z * x.2) (fun _ => True)
      (fun x t => InputVpd.prove keyI r (InputVpd.commit keyI input input2 x.1 x.2).coeffs input2 x.1 x.2 Z t) ans
      (qI input input2 Z r)

/-- what two circuits have in common -/
structure Setup (full : Bool) (F : Type) [Field F] (X A B : Circuit) (K : Secrets) (ch : Challenges F) : Prop where
  oA : OtherInputs X A
  oB : OtherInputs X B
  wfA : WellFormed true A
  wfB : WellFormed true B
  parA : ParallelOk A
  parB : ParallelOk B
  len : ∀ i, i + 1 < X.depth → 1 ≤ X.bl i ∧ 2 * X.bl i + 1 < 2 ^ 250
  sec : K.Ok X
  gen : Generic X ch
  out : ∀ j < 2 ^ X.bl (X.depth - 1), (value A (X.depth - 1) j : F) = value B (X.depth - 1) j
  first : full = true → (value A 0 0 : F) = value B 0 0

theorem Setup.symm {full : Bool} {X A B : Circuit} {K : Secrets} {ch : Challenges F} (h : Setup full F X A B K ch) :
    Setup full F X B A K ch :=
  ⟨h.oB, h.oA, h.wfB, h.wfA, h.parB, h.parA, h.len, h.sec, h.gen, fun j hj => (h.out j hj).symm,
    fun e => (h.first e).symm⟩

/-- the change of the mask of the values of layer `k` -/
def dR (A B X : Circuit) (ch : Challenges F) (k : ℕ) : Fin 6 → F :=
  if k = 0 then fun _ => 0 else
  dvec (rcOf ch k) (ch.ru (k + 1) (X.bl k - 1)) (ch.rv (k + 1) (X.bl k - 1)) (ZAt (ch.ru (k + 1)) (X.bl k))
    (ZAt (ch.rv (k + 1)) (X.bl k))
    (mle (X.bl k) (value A k) (ch.ru (k + 1)) - mle (X.bl k) (value B k) (ch.ru (k + 1)))
    (mle (X.bl k) (value A k) (ch.rv (k + 1)) - mle (X.bl k) (value B k) (ch.rv (k + 1)))

/-- the change of the mask of the inputs -/
def dr (A B X : Circuit) (ch : Challenges F) (k : Fin 2) : F :=
  if k = 0 then (mle (X.bl 0) (value A 0) (ch.ru 1) - mle (X.bl 0) (value B 0) (ch.ru 1)) / ZAt (ch.ru 1) (X.bl 0)
  else 0

theorem dR_swap (A B X : Circuit) (ch : Challenges F) (k : ℕ) (j : Fin 6) : dR B A X ch k j = -dR A B X ch k j := by
  unfold dR
  split_ifs
  · simp
  · rw [← dvec_neg, neg_sub, neg_sub]

theorem dr_swap (A B X : Circuit) (ch : Challenges F) (k : Fin 2) : dr B A X ch k = -dr A B X ch k := by
  unfold dr
  split_ifs
  · rw [← neg_div, neg_sub]
  · simp

/-- the masks of the values and of the inputs make up for the difference -/
structure Shift (A B X : Circuit) (ch : Challenges F) (w w' : Rand F X) : Prop where
  R : ∀ i k, (w'.layer i).R k = (w.layer i).R k + dR A B X ch i k
  r : ∀ k, w'.r k = w.r k + dr A B X ch k

/-- the round messages, commitments and openings of a layer are the same -/
structure LRel {E : Pairing G1 G2 GT} {X : Circuit} {K : Secrets} (T : Tools F E X K) (A B : Circuit) (ch : Challenges F)
    (junk : Prover F G1 G2) (l : ℕ) (Rm Rn r Rm' Rn' r' : ℕ → F) {n : ℕ} (w w' : LayerRand F n) : Prop where
  msgs : msgs E B X K ch junk l n Rm' Rn' r' w'.g = msgs E A X K ch junk l n Rm Rn r w.g
  rfR : fR K l Rm' + w'.rfR * K.sR l 2 = fR K l Rm + w.rfR * K.sR l 2
  tR : ∀ c j : Fin 2, T.qR l (mpz Rm') (ptR X ch l c) j + w'.tR c j * K.sR l 2 =
    T.qR l (mpz Rm) (ptR X ch l c) j + w.tR c j * K.sR l 2
  rfM : fM K l n (pad w'.g) + w'.rfM * K.sM l (2 * n + 1) = fM K l n (pad w.g) + w.rfM * K.sM l (2 * n + 1)
  tM : ∀ j : Fin (2 * n + 1), T.qM l (mpz (pad w'.g)) (ptM ch l n) j + w'.tM j * K.sM l (2 * n + 1) =
    T.qM l (mpz (pad w.g)) (ptM ch l n) j + w.tM j * K.sM l (2 * n + 1)

/-- the opening of the inputs as a function of the mask -/
def qIn {E : Pairing G1 G2 GT} {X : Circuit} {K : Secrets} (T : Tools F E X K) (A : Circuit) (ch : Challenges F)
    (junk : Prover F G1 G2) (r : ℕ → F) : ℕ → ZMod p :=
  T.qI (inTab A X junk) (mpz r) (Gmp.toMpz (ZAt (ch.ru 1) (X.bl 0))) (mpz (ch.ru 1))

/-- two runs with the same record -/
structure Rel {E : Pairing G1 G2 GT} {X : Circuit} {K : Secrets} (T : Tools F E X K) (A B : Circuit) (ch : Challenges F)
    (junk : Prover F G1 G2) (w w' : Rand F X) : Prop extends Shift A B X ch w w' where
  layers : ∀ i : Fin (X.depth - 1), LRel T A B ch junk (i + 1) (w.Rs (i + 1)) (w.Rs i) (pad w.r) (w'.Rs (i + 1)) (w'.Rs i)
    (pad w'.r) (w.layer i) (w'.layer i)
  rf : mle (X.bl 0) (fun j => (inTab B X junk j : ZMod p)) (fun j => (K.s j : ZMod p)) + w'.rf * K.s (X.bl 0) =
    mle (X.bl 0) (fun j => (inTab A X junk j : ZMod p)) (fun j => (K.s j : ZMod p)) + w.rf * K.s (X.bl 0)
  rf2 : mpz (pad w'.r) 0 + mpz (pad w'.r) 1 * K.s (X.bl 0 - 1) + w'.rf2 * K.s (X.bl 0) =
    mpz (pad w.r) 0 + mpz (pad w.r) 1 * K.s (X.bl 0 - 1) + w.rf2 * K.s (X.bl 0)
  t : ∀ j : Fin (X.bl 0), qIn T B ch junk (pad w'.r) j + w'.t j * K.s (X.bl 0) =
    qIn T A ch junk (pad w.r) j + w.t j * K.s (X.bl 0)

theorem Shift.symm {A B X : Circuit} {ch : Challenges F} {w w' : Rand F X} (h : Shift A B X ch w w') :
    Shift B A X ch w' w :=
  ⟨fun i k => by rw [h.R, dR_swap]; ring, fun k => by rw [h.r, dr_swap]; ring⟩

theorem Rel.symm {E : Pairing G1 G2 GT} {X : Circuit} {K : Secrets} {T : Tools F E X K} {A B : Circuit}
    {ch : Challenges F} {junk : Prover F G1 G2} {w w' : Rand F X} (h : Rel T A B ch junk w w') :
    Rel T B A ch junk w' w :=
  ⟨h.toShift.symm, fun i => ⟨(h.layers i).msgs.symm, (h.layers i).rfR.symm, fun c j => ((h.layers i).tR c j).symm,
    (h.layers i).rfM.symm, fun j => ((h.layers i).tM j).symm⟩, h.rf.symm, h.rf2.symm, fun j => (h.t j).symm⟩

end defs

section proofs
variable {F : Type} [Field F] {G1 G2 GT : Type} [AddCommGroup G1] [AddCommGroup G2] [AddCommGroup GT]
  [Module (ZMod p) G1] [Module (ZMod p) G2] [Module (ZMod p) GT] [Gmp F]

theorem _root_.Libra.Spec.OtherInputs.bl_eq {X A : Circuit} (h : OtherInputs X A) (i : ℕ) : A.bl i = X.bl i := by
  rcases Nat.eq_zero_or_pos i with rfl | hi
  · obtain ⟨g, hg⟩ := h.input
    simp only [Circuit.bl, hg]
  · simp only [Circuit.bl, h.layer i (by omega)]

variable [LawfulGmp F]

theorem exists_tools (E : Pairing G1 G2 GT) {X : Circuit} {K : Secrets} (hK : K.Ok X) (hd : 2 ≤ X.depth)
    (hlen : ∀ i, i + 1 < X.depth → 1 ≤ X.bl i ∧ 2 * X.bl i + 1 < 2 ^ 250) : Nonempty (Tools F E X K) := by
  classical
  have k1 : ∀ l, ∃ k : VpdKey G1 G2, 1 ≤ l → l < X.depth → VpdR.keyGen E (K.aR l) (K.sR l) = .ok k ∧
      VpdR.Good E (K.aR l) (K.sR l) k := by
    intro l
    by_cases h : 1 ≤ l ∧ l < X.depth
    · obtain ⟨k, h1, h2⟩ := VpdR.keyGen_good E (K.aR l) (K.sR l) (hK.sR l h.1 h.2)
      exact ⟨k, fun _ _ => ⟨h1, h2⟩⟩
    · obtain ⟨k, -⟩ := VpdR.keyGen_good E 0 (fun _ => 0) (fun _ _ => by decide +kernel)
      exact ⟨k, fun h1 h2 => absurd ⟨h1, h2⟩ h⟩
  have k2 : ∀ l, ∃ k : VpdKey G1 G2, 1 ≤ l → l < X.depth →
      VpdTest.keyGen E (2 * X.bl (l - 1) + 1) (K.aM l) (K.sM l) = .ok k ∧
      VpdTest.Good E (2 * X.bl (l - 1) + 1) (K.aM l) (fun j => (K.sM l j : ZMod p)) k := by
    intro l
    by_cases h : 1 ≤ l ∧ l < X.depth
    · have := hlen (l - 1) (by omega)
      obtain ⟨k, h1, h2⟩ := VpdTest.keyGen_good E (2 * X.bl (l - 1) + 1) (by omega) (K.aM l) (K.sM l) (hK.sM l h.1 h.2)
      exact ⟨k, fun _ _ => ⟨h1, h2⟩⟩
    · obtain ⟨k, -⟩ := VpdR.keyGen_good E 0 (fun _ => 0) (fun _ _ => by decide +kernel)
      exact ⟨k, fun h1 h2 => absurd ⟨h1, h2⟩ h⟩
  obtain ⟨keyI, k3, k3'⟩ := InputVpd.keyGen_good E (X.bl 0) K.a hK.a K.s hK.s
  choose keyR k1 using k1
  choose keyM k2 using k2
  have q1 : ∀ l input r, ∃ q : ℕ → ZMod p, 1 ≤ l → l < X.depth → ∃ ans, ans < p ∧
    (ans : F) = maskRPoly (fun i => (input i : F)) (r 0) (r 1) ∧
    Form E.g1 (K.aR l) 2 (fun i => (K.sR l i : ZMod p)) r (maskRPoly (fun i => (input i : ZMod p)) (K.sR l 0) (K.sR l 1))
      (fun rf : ℕ => (rf : ZMod p)) (fun _ => True) (fun rf t => VpdR.prove (keyR l) r input rf t) ans q := by
    intro l input r
    by_cases h : 1 ≤ l ∧ l < X.depth
    · obtain ⟨ans, q, h1, h2, h3⟩ := VpdR.form (k1 l h.1 h.2).2 input r
      exact ⟨q, fun _ _ => ⟨ans, h1, h2 F LawfulGmp.char, h3⟩⟩
    · exact ⟨0, fun h1 h2 => absurd ⟨h1, h2⟩ h⟩
  have q2 : ∀ l input r, ∃ q : ℕ → ZMod p, 1 ≤ l → l < X.depth → (∀ i < 2 * (2 * X.bl (l - 1) + 1), input i < p) →
    ∃ ans, ans < p ∧
    (ans : F) = sumMaskPoly (2 * X.bl (l - 1) + 1) (fun i => (input i : F)) (fun i => (r i : F)) ∧
    Form E.g1 (K.aM l) (2 * X.bl (l - 1) + 1) (fun i => (K.sM l i : ZMod p)) r
      (sumMaskPoly (2 * X.bl (l - 1) + 1) (fun i => (input i : ZMod p)) (fun i => (K.sM l i : ZMod p)))
      (fun rf : ℕ => (rf : ZMod p)) (fun rf => rf < p) (fun rf t => VpdTest.prove (keyM l) r input rf t) ans q := by
    intro l input r
    by_cases h : (1 ≤ l ∧ l < X.depth) ∧ ∀ i < 2 * (2 * X.bl (l - 1) + 1), input i < p
    · have := hlen (l - 1) (by omega)
      obtain ⟨ans, q, h1, h2, h3⟩ := VpdTest.form (by omega) this.2 (k2 l h.1.1 h.1.2).2 input h.2 r
      exact ⟨q, fun _ _ _ => ⟨ans, h1, h2 F LawfulGmp.char, h3⟩⟩
    · exact ⟨0, fun h1 h2 h3 => absurd ⟨⟨h1, h2⟩, h3⟩ h⟩
  have q3 : ∀ input input2 Z r, ∃ q : ℕ → ZMod p, (∀ i < 2 ^ X.bl 0, input i < p) → ∃ ans, ans < p ∧
    (ans : F) = InputVpd.maskedValue (X.bl 0) input input2 Z (fun i => (r i : F)) ∧
    Form E.g1 K.a (X.bl 0) (fun i => (K.s i : ZMod p)) r
      (InputVpd.maskedValue (X.bl 0) input input2 Z (fun i => (K.s i : ZMod p)))
      (fun x : ℕ × ℕ => (x.1 : ZMod p) + Z * x.2) (fun _ => True)
      (fun x t => InputVpd.prove keyI r (InputVpd.commit keyI input input2 x.1 x.2).coeffs input2 x.1 x.2 Z t) ans q := by
    intro input input2 Z r
    by_cases h : ∀ i < 2 ^ X.bl 0, input i < p
    · have := hlen 0 (by omega)
      obtain ⟨ans, q, h1, h2, h3⟩ := InputVpd.form this.1 (by omega) k3' input input2 h Z r
      exact ⟨q, fun _ => ⟨ans, h1, h2 F LawfulGmp.char, h3⟩⟩
    · exact ⟨0, fun h1 => absurd h1 h⟩
  choose qR q1 using q1
  choose qM q2 using q2
  choose qI q3 using q3
  exact ⟨⟨keyR, keyM, keyI, qR, qM, qI, k1, k2, ⟨k3, k3'⟩, fun l h1 h2 input r => q1 l input r h1 h2,
    fun l h1 h2 input h3 r => q2 l input r h1 h2 h3, fun input h input2 Z r => q3 input input2 Z r h⟩⟩

variable {full : Bool} {X A B : Circuit} {K : Secrets} {ch : Challenges F}

omit [Gmp F] [LawfulGmp F] in
/-- the masked values of layer `k` at the two points, and the mask where it is opened, are the same -/
theorem Shift.values (hS : Setup full F X A B K ch) {w w' : Rand F X} (h : Shift A B X ch w w') {k : ℕ} (h1 : 1 ≤ k)
    (hk : k < X.depth - 1) :
    (maskRPoly (w'.Rs k) (ch.ru (k + 1) (X.bl k - 1)) (rcOf ch k) =
      maskRPoly (w.Rs k) (ch.ru (k + 1) (X.bl k - 1)) (rcOf ch k) ∧
    mle (X.bl k) (value B k) (ch.ru (k + 1)) +
        ZAt (ch.ru (k + 1)) (X.bl k) * sr (w'.Rs k) (ch.ru (k + 1) (X.bl k - 1)) =
      mle (X.bl k) (value A k) (ch.ru (k + 1)) +
        ZAt (ch.ru (k + 1)) (X.bl k) * sr (w.Rs k) (ch.ru (k + 1) (X.bl k - 1))) ∧
    (maskRPoly (w'.Rs k) (ch.rv (k + 1) (X.bl k - 1)) (rcOf ch k) =
      maskRPoly (w.Rs k) (ch.rv (k + 1) (X.bl k - 1)) (rcOf ch k) ∧
    mle (X.bl k) (value B k) (ch.rv (k + 1)) +
        ZAt (ch.rv (k + 1)) (X.bl k) * sr (w'.Rs k) (ch.rv (k + 1) (X.bl k - 1)) =
      mle (X.bl k) (value A k) (ch.rv (k + 1)) +
        ZAt (ch.rv (k + 1)) (X.bl k) * sr (w.Rs k) (ch.rv (k + 1) (X.bl k - 1))) := by
  have hR : ∀ j, (w'.layer ⟨k, hk⟩).R j = (w.layer ⟨k, hk⟩).R j + _ := fun j => by
    rw [h.R ⟨k, hk⟩ j, dR, if_neg (by simp only; omega)]
  have hu := hS.gen.ru (k + 1) (by omega) (by omega)
  have hv := hS.gen.rv (k + 1) (by omega) (by omega)
  rw [Nat.add_sub_cancel] at hu hv
  have hl := hS.gen.last (k + 1) (by omega) (by omega)
  rw [Nat.add_sub_cancel] at hl
  have hc : 2 * rcOf ch k ≠ 1 := by
    rcases Nat.lt_or_ge k 2 with h2 | h2
    · obtain rfl : k = 1 := by omega
      simp [rcOf]
    · rw [rcOf, if_neg (by omega)]
      exact hS.gen.rc k h2 (by omega)
  simp only [Rand.Rs, dif_pos hk]
  have a := sr_shift (dvec_u hR) (ZAt_ne_zero hu) hc
  have b := sr_shift (dvec_v hl hR) (ZAt_ne_zero hv) hc
  refine ⟨⟨a.1, ?_⟩, b.1, ?_⟩
  · rw [a.2]; ring
  · rw [b.2]; ring

omit [Gmp F] [LawfulGmp F] in
/-- the masked inputs at the point of the last claim are the same -/
theorem Shift.inputs (hS : Setup full F X A B K ch) {w w' : Rand F X} (h : Shift A B X ch w w') :
    mle (X.bl 0) (value B 0) (ch.ru 1) +
        ZAt (ch.ru 1) (X.bl 0) * (pad w'.r 0 + pad w'.r 1 * ch.ru 1 (X.bl 0 - 1)) =
      mle (X.bl 0) (value A 0) (ch.ru 1) +
        ZAt (ch.ru 1) (X.bl 0) * (pad w.r 0 + pad w.r 1 * ch.ru 1 (X.bl 0 - 1)) := by
  have hd := hS.oA.depth
  have hd' := hS.wfA.deep
  have hZ := ZAt_ne_zero (hS.gen.ru 1 le_rfl (by omega))
  rw [Nat.sub_self] at hZ
  have h0 : pad w'.r 0 = pad w.r 0 + dr A B X ch 0 := h.r 0
  have h1 : pad w'.r 1 = pad w.r 1 + dr A B X ch 1 := h.r 1
  rw [h0, h1, dr, dr, if_pos rfl, if_neg (by decide)]
  field_simp
  ring

end proofs

end Libra.Zk
