import Verif.Proofs.Sha256Levels

/-!
# The SHA-256 program: the number of its lines
-/

namespace Libra.Sha256Gen
open Compiler Spec

/-- What a run gives: it writes `n` lines, counting the tests, each of which becomes a line, and `Q` holds of the result. -/
def Cost {α : Type} (g : Gen α) (n : ℕ) (Q : α → Prop) : Prop :=
  ∀ v a v' L, g v = .ok (a, v', L) → L.lines.length + (L.roundTests ++ L.bitTests).length = n ∧ Q a

variable {α β : Type}

theorem Cost.mono {g : Gen α} {n : ℕ} {Q Q' : α → Prop} (h : Cost g n Q) (hq : ∀ a, Q a → Q' a) : Cost g n Q' :=
  fun v a v' L e => ⟨(h v a v' L e).1, hq _ (h v a v' L e).2⟩

theorem Cost.pure {a : α} {Q : α → Prop} (h : Q a) : Cost (Gen.pure a) 0 Q := by
  rintro v b v' L e
  obtain ⟨rfl, h2⟩ := Prod.mk.inj (Outcome.ok.inj e)
  obtain ⟨rfl, rfl⟩ := Prod.mk.inj h2
  exact ⟨rfl, h⟩

theorem Cost.bind {g : Gen α} {f : α → Gen β} {n m k : ℕ} {Q : β → Prop}
    (h : Cost g n fun a => Cost (f a) m Q) (hk : k = n + m) : Cost (Gen.bind g f) k Q := by
  intro v b v' L e
  unfold Gen.bind at e
  cases hg : g v with
  | ok r =>
    rw [hg] at e
    simp only [Outcome.bind] at e
    cases hf : f r.1 r.2.1 with
    | ok q =>
      rw [hf] at e
      obtain ⟨rfl, h2⟩ := Prod.mk.inj (Outcome.ok.inj e)
      obtain ⟨rfl, rfl⟩ := Prod.mk.inj h2
      obtain ⟨h1, h2⟩ := h v r.1 r.2.1 r.2.2 hg
      obtain ⟨h3, h4⟩ := h2 r.2.1 q.1 q.2.1 q.2.2 hf
      refine ⟨?_, h4⟩
      simp only [Log.append, List.length_append] at h1 h3 ⊢
      omega
    | _ => rw [hf] at e; cases e
  | _ => rw [hg] at e; cases e

theorem Cost.define {s : ℕ → Stmt} : Cost (define s) 1 fun _ => True := by
  rintro v b v' L e
  obtain ⟨rfl, h2⟩ := Prod.mk.inj (Outcome.ok.inj e)
  obtain ⟨rfl, rfl⟩ := Prod.mk.inj h2
  exact ⟨rfl, trivial⟩

theorem Cost.gate {op : Op} {a b : ℕ} : Cost (gate op a b) 1 fun _ => True := Cost.define

theorem Cost.roundTest {t : ℕ} : Cost (roundTest t) 1 fun _ => True := by
  rintro v b v' L e
  obtain ⟨rfl, h2⟩ := Prod.mk.inj (Outcome.ok.inj e)
  obtain ⟨rfl, rfl⟩ := Prod.mk.inj h2
  exact ⟨rfl, trivial⟩

theorem Cost.bitTest {ts : List ℕ} {n : ℕ} (h : ts.length = n) : Cost (bitTest ts) n fun _ => True := by
  rintro v b v' L e
  obtain ⟨rfl, h2⟩ := Prod.mk.inj (Outcome.ok.inj e)
  obtain ⟨rfl, rfl⟩ := Prod.mk.inj h2
  exact ⟨by simpa using h, trivial⟩

theorem Cost.assertThat {c : Bool} : Cost (assertThat c) 0 fun _ => True := by
  rintro v b v' L e
  unfold Sha256Gen.assertThat at e
  split_ifs at e
  obtain ⟨rfl, h2⟩ := Prod.mk.inj (Outcome.ok.inj e)
  obtain ⟨rfl, rfl⟩ := Prod.mk.inj h2
  exact ⟨rfl, trivial⟩

theorem Cost.mapG {f : α → Gen β} {xs : List α} {c : α → ℕ} {Q : β → Prop} (h : ∀ x ∈ xs, Cost (f x) (c x) Q) {n : ℕ}
    (hn : n = (xs.map c).sum) : Cost (mapG f xs) n fun ys => ys.length = xs.length := by
  subst hn
  induction xs with
  | nil => exact Cost.pure rfl
  | cons x xs ih =>
    exact Cost.bind ((h x (by simp)).mono fun y _ => Cost.bind (m := 0) ((ih fun x hx => h x (by simp [hx])).mono fun ys hys =>
      Cost.pure (by simp [hys])) rfl) rfl

/-- runs of the same cost -/
theorem Cost.each {f : α → Gen β} {xs : List α} {c k : ℕ} {Q : β → Prop} (h : ∀ x ∈ xs, Cost (f x) c Q) (hl : xs.length = k) {n : ℕ}
    (hn : n = k * c) : Cost (Sha256Gen.mapG f xs) n fun ys => ys.length = k := by
  have := Cost.mapG (c := fun _ => c) (n := n) h (by rw [hn, List.map_const', List.sum_replicate, smul_eq_mul, hl])
  rwa [hl] at this

theorem Cost.forG {σ : Type} {n c : ℕ} {body : ℕ → σ → Gen σ} {s : σ} {Inv : σ → Prop} (h0 : Inv s)
    (h : ∀ i < n, ∀ s, Inv s → Cost (body i s) c Inv) : Cost (forG n body s) (n * c) Inv := by
  induction n with
  | zero => rw [zero_mul]; exact Cost.pure h0
  | succ n ih => exact Cost.bind ((ih fun i hi => h i (by omega)).mono fun s hs => h n (by omega) s hs) (by ring)

theorem zip_length {x : List α} {y : List β} {n : ℕ} (hx : x.length = n) (hy : y.length = n) : (x.zip y).length = n := by
  rw [List.length_zip, hx, hy, min_self]

theorem rotr_length {k n : ℕ} {x : List ℕ} (h : x.length = n) : (rotr k x).length = n := by
  rw [rotr, List.length_append, List.length_drop, List.length_take]; omega

theorem shr_length {k n : ℕ} {x : List ℕ} (h : x.length = n) (hk : k ≤ n) : (shr k x).length = n := by
  rw [shr, List.length_append, List.length_drop, List.length_replicate]; omega

theorem Cost.gates {op : Op} {x y : List ℕ} {n : ℕ} (hx : x.length = n) (hy : y.length = n) :
    Cost (Sha256Gen.mapG (fun p => Sha256Gen.gate op p.1 p.2) (x.zip y)) n fun l => l.length = n :=
  Cost.each (c := 1) (fun _ _ => Cost.gate) (zip_length hx hy) (mul_one n).symm

theorem writeXORS_cost {x y z : List ℕ} (hx : x.length = 32) (hy : y.length = 32) (hz : z.length = 32) :
    Cost (writeXORS x y z) 64 fun l => l.length = 32 := by
  unfold writeXORS
  simp only [bind_def]
  exact Cost.bind ((Cost.gates hx hy).mono fun l hl => Cost.gates hl hz) rfl

theorem writeCH_cost {x y z : List ℕ} (hx : x.length = 32) (hy : y.length = 32) (hz : z.length = 32) :
    Cost (writeCH x y z) 96 fun l => l.length = 32 := by
  unfold writeCH
  simp only [bind_def]
  exact Cost.bind ((Cost.gates hx hy).mono fun l hl => Cost.bind ((Cost.gates hx hz).mono fun l' hl' => Cost.gates hl hl') rfl) rfl

theorem majBit_cost (p : ℕ × ℕ × ℕ) : Cost (majBit p) 3 fun _ => True := by
  unfold majBit
  simp only [bind_def, pure_def]
  exact Cost.bind (m := 2) (Cost.gate.mono fun _ _ => Cost.bind (m := 1) (Cost.gate.mono fun _ _ => Cost.bind (m := 0)
    (Cost.gate.mono fun _ _ => Cost.pure trivial) rfl) rfl) rfl

theorem writeMAJ_cost {x y z : List ℕ} (hx : x.length = 32) (hy : y.length = 32) (hz : z.length = 32) :
    Cost (writeMAJ x y z) 160 fun l => l.length = 32 := by
  unfold writeMAJ
  simp only [bind_def]
  refine Cost.bind (n := 96) (m := 64) ((Cost.each (c := 3) (fun p _ => majBit_cost p) (zip_length hx (zip_length hy hz)) rfl).mono fun l hl => ?_) rfl
  exact writeXORS_cost (by simpa using hl) (by simpa using hl) (by simpa using hl)

theorem doAddition_cost {x : List ℕ} : Cost (doAddition x) 1 fun _ => True := by
  unfold doAddition
  simp only [bind_def]
  exact Cost.bind (Cost.assertThat.mono fun _ _ => Cost.define) rfl

theorem testBitvecField_cost {x : List ℕ} {t : ℕ} : Cost (testBitvecField x t) 2 fun _ => True := by
  unfold testBitvecField testFieldField
  simp only [bind_def]
  exact Cost.bind (doAddition_cost.mono fun _ _ => Cost.gate) rfl

theorem verifyBits_cost (x : List ℕ) : Cost (verifyBits x) x.length fun l => l.length = x.length := by
  unfold verifyBits
  exact Cost.each (c := 1) (fun i _ => Cost.define) rfl (mul_one _).symm

theorem initialRegs_cost : Cost (initialRegs theInputs) 6 fun R => R.aBits.length = 32 ∧ R.bBits.length = 32 ∧ R.cBits.length = 32 ∧
    R.eBits.length = 32 ∧ R.fBits.length = 32 ∧ R.gBits.length = 32 := by
  unfold initialRegs
  simp only [bind_def, pure_def]
  exact Cost.bind (m := 5) (doAddition_cost.mono fun _ _ => Cost.bind (m := 4) (doAddition_cost.mono fun _ _ =>
    Cost.bind (m := 3) (doAddition_cost.mono fun _ _ => Cost.bind (m := 2) (doAddition_cost.mono fun _ _ =>
    Cost.bind (m := 1) (doAddition_cost.mono fun _ _ => Cost.bind (m := 0) (doAddition_cost.mono fun _ _ =>
      Cost.pure ⟨rfl, rfl, rfl, rfl, rfl, rfl⟩) rfl) rfl) rfl) rfl) rfl) rfl

theorem checkVec_cost {x : List ℕ} {n : ℕ} (h : x.length = n) : Cost (checkVec x) (2 * n) fun _ => True := by
  unfold checkVec
  simp only [bind_def]
  subst h
  exact Cost.bind ((verifyBits_cost x).mono fun _ hl => Cost.bitTest hl) (two_mul _)

theorem checkW_cost (i : ℕ) : Cost (checkW theInputs i) (2 * (theInputs.Wbits.getD i []).length + 3) fun _ => True := by
  unfold checkW
  simp only [bind_def]
  exact Cost.bind ((verifyBits_cost _).mono fun _ hl => Cost.bind ((Cost.bitTest hl).mono fun _ _ =>
    Cost.bind (k := 3) (testBitvecField_cost.mono fun _ _ => Cost.roundTest) rfl) rfl) (by ring)

theorem vecs_length {v n k : ℕ} : ∀ x ∈ vecs v n k, x.length = k := by
  intro x hx
  obtain ⟨i, -, rfl⟩ := List.mem_map.1 hx
  exact List.length_range'

theorem vecs_count {v n k : ℕ} : (vecs v n k).length = n := by rw [vecs, List.length_map, List.length_range]

theorem checkVecs_cost {v n k m : ℕ} (hm : m = n * (2 * k)) : Cost (mapG checkVec (vecs v n k)) m fun _ => True :=
  (Cost.each (fun x hx => checkVec_cost (vecs_length x hx)) vecs_count hm).mono fun _ _ => trivial

theorem checkInputs_cost (R : Regs) : Cost (checkInputs theInputs R) 14321 fun _ => True := by
  unfold checkInputs
  simp only [bind_def, pure_def]
  refine Cost.bind (n := 4413) (m := 9908) ((Cost.mapG (fun i _ => checkW_cost i) (by decide +kernel)).mono fun _ _ => ?_) rfl
  refine Cost.bind (n := 528) (m := 9380) ((checkVecs_cost (v := 2290) (n := 8) (k := 33) rfl).mono fun _ _ => ?_) rfl
  refine Cost.bind (n := 384) (m := 8996) ((Cost.each (k := 6) (c := 64) (fun x hx => checkVec_cost (n := 32) ?_) rfl rfl).mono fun _ _ => ?_) rfl
  · simp only [List.mem_cons, List.not_mem_nil, or_false] at hx
    rcases hx with rfl | rfl | rfl | rfl | rfl | rfl <;> rfl
  refine Cost.bind (n := 4480) (m := 4516) ((checkVecs_cost (n := 64) (k := 35) rfl).mono fun _ _ => ?_) rfl
  refine Cost.bind (n := 4480) (m := 36) ((checkVecs_cost (n := 64) (k := 35) rfl).mono fun _ _ => ?_) rfl
  refine Cost.bind (n := 12) (m := 24) ((Cost.each (k := 6) (c := 2) (fun x _ => Cost.bind (Cost.gate.mono fun _ _ => Cost.roundTest) rfl)
    rfl rfl).mono fun _ _ => ?_) rfl
  exact Cost.bind (n := 24) (m := 0) ((Cost.each (k := 8) (c := 3) (fun x _ => Cost.bind (testBitvecField_cost.mono fun _ _ => Cost.roundTest) rfl)
    rfl rfl).mono fun _ _ => Cost.pure trivial) rfl

theorem Wbits_take {i : ℕ} (h1 : 1 ≤ i) (h2 : i < 64) : ((theInputs.Wbits.getD i []).take 32).length = 32 := by
  rcases Nat.lt_or_ge i 16 with h3 | h3
  · rw [Wbits_early h1 h3, List.length_take, List.length_range']; rfl
  · rw [Wbits_late h3 h2, List.length_take, List.length_range']; rfl

theorem checkSchedule_cost {r : ℕ} (h1 : 16 ≤ r) (h2 : r < 64) : Cost (checkSchedule theInputs r) 136 fun _ => True := by
  have h15 := Wbits_take (i := r - 15) (by omega) (by omega)
  have h14 := Wbits_take (i := r - 2) (by omega) (by omega)
  unfold checkSchedule writeSigma0 writeSigma1
  simp only [bind_def]
  refine Cost.bind (m := 72) ((writeXORS_cost (rotr_length h15) (rotr_length h15) (shr_length h15 (by decide))).mono fun s0 h0 => ?_) rfl
  refine Cost.bind (m := 8) ((writeXORS_cost (rotr_length h14) (rotr_length h14) (shr_length h14 (by decide))).mono fun s1 h1 => ?_) rfl
  refine Cost.bind (m := 7) (doAddition_cost.mono fun _ _ => ?_) rfl
  refine Cost.bind (m := 6) (doAddition_cost.mono fun _ _ => ?_) rfl
  refine Cost.bind (m := 5) (Cost.gate.mono fun _ _ => ?_) rfl
  refine Cost.bind (m := 4) (Cost.gate.mono fun _ _ => ?_) rfl
  refine Cost.bind (m := 3) (Cost.gate.mono fun _ _ => ?_) rfl
  exact Cost.bind (testBitvecField_cost.mono fun _ _ => Cost.roundTest) rfl

/-- the vectors of the working variables are long enough -/
def LongRegs (R : Regs) : Prop := (R.aBits.take 32).length = 32 ∧ (R.bBits.take 32).length = 32 ∧ (R.cBits.take 32).length = 32 ∧
  (R.eBits.take 32).length = 32 ∧ (R.fBits.take 32).length = 32 ∧ (R.gBits.take 32).length = 32

theorem writeRound_cost {r : ℕ} (hr : r < 64) {R : Regs} (hR : LongRegs R) : Cost (writeRound theInputs r R) 405 LongRegs := by
  have hA : ((theInputs.aout.getD r []).take 32).length = 32 := by
    unfold theInputs
    dsimp only
    rw [getD_vecs hr, List.length_take, List.length_range']; rfl
  have hE : ((theInputs.eout.getD r []).take 32).length = 32 := by
    unfold theInputs
    dsimp only
    rw [getD_vecs hr, List.length_take, List.length_range']; rfl
  obtain ⟨ha, hb, hc, he, hf, hg⟩ := hR
  unfold writeRound writeBigSigma0 writeBigSigma1
  simp only [bind_def, pure_def]
  refine Cost.bind (m := 341) ((writeXORS_cost (rotr_length ha) (rotr_length ha) (rotr_length ha)).mono fun s0 h0 => ?_) rfl
  refine Cost.bind (m := 277) ((writeXORS_cost (rotr_length he) (rotr_length he) (rotr_length he)).mono fun s1 h1 => ?_) rfl
  refine Cost.bind (m := 117) ((writeMAJ_cost ha hb hc).mono fun mj h2 => ?_) rfl
  refine Cost.bind (m := 21) ((writeCH_cost he hf hg).mono fun ch h3 => ?_) rfl
  refine Cost.bind (m := 20) (doAddition_cost.mono fun _ _ => ?_) rfl
  refine Cost.bind (m := 19) (doAddition_cost.mono fun _ _ => ?_) rfl
  refine Cost.bind (m := 18) (doAddition_cost.mono fun _ _ => ?_) rfl
  refine Cost.bind (m := 17) (doAddition_cost.mono fun _ _ => ?_) rfl
  refine Cost.bind (m := 16) (Cost.gate.mono fun _ _ => ?_) rfl
  refine Cost.bind (m := 15) (Cost.gate.mono fun _ _ => ?_) rfl
  refine Cost.bind (m := 14) (Cost.gate.mono fun _ _ => ?_) rfl
  refine Cost.bind (m := 13) (Cost.gate.mono fun _ _ => ?_) rfl
  refine Cost.bind (m := 12) (Cost.gate.mono fun _ _ => ?_) rfl
  refine Cost.bind (m := 11) (Cost.gate.mono fun _ _ => ?_) rfl
  refine Cost.bind (m := 10) (Cost.gate.mono fun _ _ => ?_) rfl
  refine Cost.bind (m := 9) (Cost.gate.mono fun _ _ => ?_) rfl
  refine Cost.bind (m := 8) (Cost.gate.mono fun _ _ => ?_) rfl
  refine Cost.bind (m := 6) (testBitvecField_cost.mono fun _ _ => ?_) rfl
  refine Cost.bind (m := 5) (Cost.roundTest.mono fun _ _ => ?_) rfl
  refine Cost.bind (m := 3) (testBitvecField_cost.mono fun _ _ => ?_) rfl
  refine Cost.bind (m := 2) (Cost.roundTest.mono fun _ _ => ?_) rfl
  refine Cost.bind (m := 1) (doAddition_cost.mono fun _ _ => ?_) rfl
  exact Cost.bind (m := 0) (doAddition_cost.mono fun _ _ => Cost.pure ⟨hA, ha, hb, hE, he, hf⟩) rfl

theorem writeBody_cost : Cost (writeBody theInputs) 46807 fun _ => True := by
  unfold writeBody
  simp only [bind_def, pure_def]
  refine Cost.bind (m := 46801) (initialRegs_cost.mono fun R hR => ?_) rfl
  refine Cost.bind (m := 32480) ((checkInputs_cost R).mono fun _ _ => ?_) rfl
  refine Cost.bind (m := 25952) ((Cost.each (k := 48) (c := 136) (Q := fun _ => True) (fun r hr => ?_) (by rw [List.length_range']) rfl).mono fun _ _ => ?_) rfl
  · rw [List.mem_range'_1] at hr
    exact checkSchedule_cost (by omega) (by omega)
  refine Cost.bind (n := 25920) (m := 32) ((Cost.forG (n := 64) (c := 405) (Inv := LongRegs) ?_ fun i hi R hR => writeRound_cost hi hR).mono fun R _ => ?_) rfl
  · obtain ⟨ha, hb, hc, he, hf, hg⟩ := hR
    simp only [LongRegs, List.length_take, ha, hb, hc, he, hf, hg, min_self, and_self]
  refine Cost.bind (m := 0) ((Cost.each (k := 8) (c := 4) (Q := fun _ => True) (fun x _ => ?_) rfl rfl).mono fun _ _ => Cost.pure trivial) rfl
  unfold checkOut
  simp only [bind_def]
  exact Cost.bind (m := 3) (Cost.gate.mono fun _ _ => Cost.bind (testBitvecField_cost.mono fun _ _ => Cost.roundTest) rfl) rfl

/-- the number of lines of the program -/
theorem write64_length {P : List Stmt} (hP : write64 = .ok P) : P.length = 54033 := by
  obtain ⟨L, h1, -, -, h4⟩ := write64_eq
  rw [h4] at hP
  obtain rfl := Outcome.ok.inj hP
  have := (writeBody_cost _ _ _ _ h1).1
  rw [List.length_append, List.length_append, List.length_map, List.length_map, List.length_zipIdx, List.length_range]
  omega

end Libra.Sha256Gen
