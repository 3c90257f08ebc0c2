import Verif.Model.Sha256Gen
import Verif.Spec.Program
import Verif.Spec.Sha256
import Mathlib.Algebra.Field.Basic
import Mathlib.Order.Interval.Finset.Nat
import Mathlib.Algebra.BigOperators.Intervals
import Mathlib.Tactic.Ring
import Mathlib.Tactic.LinearCombination

/-!
# The lines written by the SHA-256 generator: what they compute
-/

namespace Libra.Sha256Gen
open Compiler Spec

section
variable {F : Type} [CommRing F]

/-- `w` satisfies the lines -/
def Sat (w : ℕ → F) (l : List Stmt) : Prop := ∀ s ∈ l, Spec.Holds (fun _ => (0 : F)) w s

theorem Sat.append {w : ℕ → F} {l l' : List Stmt} : Sat w (l ++ l') ↔ Sat w l ∧ Sat w l' := by
  simp only [Sat, List.forall_mem_append]

/-- the tests of a run are zero -/
def Zero (w : ℕ → F) (L : Log) : Prop := (∀ t ∈ L.bitTests, w t = 0) ∧ ∀ t ∈ L.roundTests, w t = 0

theorem Zero.append {w : ℕ → F} {L L' : Log} : Zero w (L.append L') ↔ Zero w L ∧ Zero w L' := by
  simp only [Zero, Log.append, List.forall_mem_append]
  tauto

/-- What a run gives: if `w` satisfies the lines written by `g`, then `Q` holds of the result and the
proposition that the tests of the run are zero. -/
def Run {α : Type} (w : ℕ → F) (g : Gen α) (Q : α → Prop → Prop) : Prop :=
  ∀ v a v' L, g v = .ok (a, v', L) → Sat w L.lines → Q a (Zero w L)

variable {w : ℕ → F} {α β : Type}

theorem Run.mono {g : Gen α} {Q Q' : α → Prop → Prop} (h : Run w g Q) (hq : ∀ a z, Q a z → Q' a z) : Run w g Q' :=
  fun v a v' L e s => hq _ _ (h v a v' L e s)

theorem Run.pure {a : α} {Q : α → Prop → Prop} (h : Q a True) : Run w (Gen.pure a) Q := by
  rintro v b v' L e -
  obtain ⟨rfl, h2⟩ := Prod.mk.inj (Outcome.ok.inj e)
  obtain ⟨rfl, rfl⟩ := Prod.mk.inj h2
  have : Zero w ({} : Log) = True := by simp [Zero]
  rw [this]; exact h

theorem Run.bind {g : Gen α} {f : α → Gen β} {Q : β → Prop → Prop}
    (h : Run w g fun a z => Run w (f a) fun b z' => Q b (z ∧ z')) : Run w (Gen.bind g f) Q := by
  intro v b v' L e s
  unfold Gen.bind at e
  cases hg : g v with
  | ok r =>
    rw [hg] at e
    simp only [Outcome.bind] at e
    cases hf : f r.1 r.2.1 with
    | ok q =>
      rw [hf] at e
      obtain ⟨rfl, h2⟩ := Prod.mk.inj (Outcome.ok.inj e)
      obtain ⟨rfl, rfl⟩ := Prod.mk.inj h2
      have hs := Sat.append.1 s
      have := h v r.1 r.2.1 r.2.2 hg hs.1 r.2.1 q.1 q.2.1 q.2.2 hf hs.2
      have hz : Zero w (r.2.2.append q.2.2) = (Zero w r.2.2 ∧ Zero w q.2.2) := propext Zero.append
      rw [hz]
      exact this
    | _ => rw [hf] at e; cases e
  | _ => rw [hg] at e; cases e

theorem bind_def (g : Gen α) (f : α → Gen β) : (g >>= f) = Gen.bind g f := rfl
theorem pure_def (a : α) : (Pure.pure a : Gen α) = Gen.pure a := rfl

theorem Run.define {s : ℕ → Stmt} {Q : ℕ → Prop → Prop}
    (h : ∀ v, Spec.Holds (fun _ => (0 : F)) w (s v) → Q v True) : Run w (define s) Q := by
  rintro v b v' L e hs
  obtain ⟨rfl, h2⟩ := Prod.mk.inj (Outcome.ok.inj e)
  obtain ⟨rfl, rfl⟩ := Prod.mk.inj h2
  have : Zero w ({ lines := [s v] } : Log) = True := by simp [Zero]
  rw [this]
  exact h v (hs _ (List.mem_singleton.2 rfl))

theorem Run.gate {op : Op} {a b : ℕ} {Q : ℕ → Prop → Prop}
    (h : ∀ v, w v = opValue op (w a) (w b) → Q v True) : Run w (gate op a b) Q :=
  Run.define h

theorem Run.assertThat {c : Bool} {Q : Unit → Prop → Prop} (h : c = true → Q () True) :
    Run w (assertThat c) Q := by
  rintro v b v' L e hs
  unfold Sha256Gen.assertThat at e
  cases c with
  | false => cases e
  | true =>
    obtain ⟨-, h2⟩ := Prod.mk.inj (Outcome.ok.inj e)
    obtain ⟨rfl, rfl⟩ := Prod.mk.inj h2
    have : Zero w ({} : Log) = True := by simp [Zero]
    rw [this]
    exact h rfl

theorem Run.roundTest {t : ℕ} {Q : Unit → Prop → Prop} (h : Q () (w t = 0)) : Run w (roundTest t) Q := by
  rintro v b v' L e hs
  obtain ⟨-, h2⟩ := Prod.mk.inj (Outcome.ok.inj e)
  obtain ⟨rfl, rfl⟩ := Prod.mk.inj h2
  have : Zero w ({ roundTests := [t] } : Log) = (w t = 0) := by simp [Zero]
  rw [this]
  exact h

theorem Run.bitTest {ts : List ℕ} {Q : Unit → Prop → Prop} (h : Q () (∀ t ∈ ts, w t = 0)) :
    Run w (bitTest ts) Q := by
  rintro v b v' L e hs
  obtain ⟨-, h2⟩ := Prod.mk.inj (Outcome.ok.inj e)
  obtain ⟨rfl, rfl⟩ := Prod.mk.inj h2
  have : Zero w ({ bitTests := ts } : Log) = (∀ t ∈ ts, w t = 0) := by simp [Zero]
  rw [this]
  exact h

theorem Run.mapG {f : α → Gen β} {C : α → Prop} {R : α → β → Prop} {xs : List α}
    (h : ∀ x ∈ xs, Run w (f x) fun y z => (z ↔ C x) ∧ R x y) :
    Run w (mapG f xs) fun ys z => (z ↔ ∀ x ∈ xs, C x) ∧ List.Forall₂ R xs ys := by
  induction xs with
  | nil => exact Run.pure ⟨by simp, .nil⟩
  | cons x xs ih =>
    refine Run.bind ((h x List.mem_cons_self).mono fun y z hy => ?_)
    refine Run.bind ((ih fun x' hx' => h x' (List.mem_cons_of_mem _ hx')).mono fun ys z' hys => ?_)
    exact Run.pure ⟨by rw [List.forall_mem_cons, ← hy.1, ← hys.1, and_true], .cons hy.2 hys.2⟩

/-- as `Run.mapG`, in one direction only -/
theorem Run.mapG' {f : α → Gen β} {C : α → Prop} {xs : List α}
    (h : ∀ x ∈ xs, Run w (f x) fun _ z => z → C x) :
    Run w (Sha256Gen.mapG f xs) fun _ z => z → ∀ x ∈ xs, C x := by
  induction xs with
  | nil => exact Run.pure (fun _ => by simp)
  | cons x xs ih =>
    refine Run.bind ((h x List.mem_cons_self).mono fun y z hy => ?_)
    refine Run.bind ((ih fun x' hx' => h x' (List.mem_cons_of_mem _ hx')).mono fun ys z' hys => ?_)
    exact Run.pure fun hz => List.forall_mem_cons.2 ⟨hy hz.1, hys hz.2.1⟩

theorem Run.forG {σ : Type} {n : ℕ} {body : ℕ → σ → Gen σ} {s : σ} {C : ℕ → Prop} {Inv : ℕ → σ → Prop}
    (h0 : Inv 0 s)
    (h : ∀ i < n, ∀ s, Inv i s → Run w (body i s) fun s' z => (z ↔ C i) ∧ Inv (i + 1) s') :
    Run w (forG n body s) fun s' z => (z ↔ ∀ i < n, C i) ∧ Inv n s' := by
  induction n with
  | zero => exact Run.pure ⟨by simp, h0⟩
  | succ n ih =>
    refine Run.bind ((ih fun i hi => h i (hi.trans (Nat.lt_succ_self n))).mono fun s' z hs' => ?_)
    refine (h n (Nat.lt_succ_self n) s' hs'.2).mono fun s'' z' hs'' => ⟨?_, hs''.2⟩
    rw [hs'.1, hs''.1, Nat.forall_lt_succ_right]

theorem Run.and {g : Gen α} {Q Q' : α → Prop → Prop} (h : Run w g Q) (h' : Run w g Q') :
    Run w g fun a z => Q a z ∧ Q' a z := fun v a v' L e s => ⟨h v a v' L e s, h' v a v' L e s⟩

theorem Run.trivial {g : Gen α} : Run w g fun _ _ => True := fun _ _ _ _ _ _ => True.intro

/-! ### Bits -/

/-- the bits of `x`, lowest first -/
def wb (F : Type) [CommRing F] {n : ℕ} (x : BitVec n) : List F :=
  (List.range n).map fun i => ((x.getLsbD i).toNat : F)

theorem length_wb {n : ℕ} (x : BitVec n) : (wb F x).length = n := by simp [wb]

theorem getElem?_wb {n : ℕ} (x : BitVec n) (i : ℕ) :
    (wb F x)[i]? = if i < n then some ((x.getLsbD i).toNat : F) else none := by
  simp only [wb, List.getElem?_map, List.getElem?_range']
  split_ifs with h
  · rw [List.getElem?_range h]; rfl
  · rw [List.getElem?_eq_none (by simpa using h)]; rfl

theorem take_wb {m n : ℕ} (h : m ≤ n) (x : BitVec n) : (wb F x).take m = wb F (x.setWidth m) := by
  rw [wb, ← List.map_take, List.take_range, min_eq_left h, wb]
  refine List.map_congr_left fun i hi => ?_
  rw [BitVec.getLsbD_setWidth]
  simp [List.mem_range.1 hi]

/-- the number with the given binary digits, lowest first -/
def val : List F → F
  | [] => 0
  | x :: l => x + 2 * val l

theorem val_append (l l' : List F) : val (l ++ l') = val l + 2 ^ l.length * val l' := by
  induction l with
  | nil => simp [val]
  | cons x l ih => rw [List.cons_append, val, val, ih, List.length_cons]; ring

theorem val_range (n N : ℕ) :
    val ((List.range n).map fun i => ((N.testBit i).toNat : F)) = ((N % 2 ^ n : ℕ) : F) := by
  induction n with
  | zero => simp [val, Nat.mod_one]
  | succ n ih =>
    rw [List.range_succ, List.map_append, val_append, ih, List.map_singleton, val, val, mul_zero, add_zero,
      List.length_map, List.length_range]
    have h : N % 2 ^ (n + 1) = N % 2 ^ n + 2 ^ n * (N.testBit n).toNat := by
      rw [Nat.pow_succ, Nat.mod_mul, Nat.testBit_eq_decide_div_mod_eq]
      rcases Nat.mod_two_eq_zero_or_one (N / 2 ^ n) with h | h <;> simp [h]
    rw [h]; push_cast; rfl

theorem val_wb {n : ℕ} (x : BitVec n) : val (wb F x) = (x.toNat : F) := by
  have := val_range (F := F) n x.toNat
  rwa [Nat.mod_eq_of_lt x.isLt] at this

/-! ### The bitwise functions -/

theorem map_of_forall₂ {f : α → F} {l : List α} {ys : List ℕ} (h : List.Forall₂ (fun p y => w y = f p) l ys) :
    ys.map w = l.map f := by
  induction h with
  | nil => rfl
  | cons h _ ih => rw [List.map_cons, List.map_cons, h, ih]

theorem mapG_gate {op : Op} {x y : List ℕ} :
    Run w (mapG (fun p => gate op p.1 p.2) (x.zip y)) fun ys z =>
      z ∧ ys.map w = List.zipWith (opValue op) (x.map w) (y.map w) := by
  refine (Run.mapG (C := fun _ => True) (R := fun p y => w y = opValue op (w p.1) (w p.2))
    fun p _ => Run.gate fun v hv => ⟨Iff.rfl, hv⟩).mono fun ys z ⟨h1, h2⟩ => ⟨h1.2 (by simp), ?_⟩
  rw [map_of_forall₂ (f := fun p : ℕ × ℕ => opValue op (w p.1) (w p.2)) h2, List.zip, List.map_zipWith, List.zipWith_map]

theorem zipWith_wb {n : ℕ} {op : Op} {g : Bool → Bool → Bool}
    (h : ∀ a b : Bool, opValue op ((a.toNat : F)) (b.toNat : F) = ((g a b).toNat : F)) (x y z : BitVec n)
    (hz : ∀ i < n, z.getLsbD i = g (x.getLsbD i) (y.getLsbD i)) :
    List.zipWith (opValue op) (wb F x) (wb F y) = wb F z := by
  rw [wb, wb, List.zipWith_map, List.zipWith_self, wb]
  refine List.map_congr_left fun i hi => ?_
  rw [h, hz i (List.mem_range.1 hi)]

theorem and_wb {n : ℕ} (x y : BitVec n) : List.zipWith (opValue .mult) (wb F x) (wb F y) = wb F (x &&& y) :=
  zipWith_wb (g := and) (by intro a b; cases a <;> cases b <;> simp [opValue]) _ _ _ fun i _ => by simp

theorem xor_wb {n : ℕ} (x y : BitVec n) : List.zipWith (opValue .xor) (wb F x) (wb F y) = wb F (x ^^^ y) :=
  zipWith_wb (g := xor) (by intro a b; cases a <;> cases b <;> simp [opValue]; ring) _ _ _ fun i _ => by simp

theorem naab_wb {n : ℕ} (x y : BitVec n) : List.zipWith (opValue .naab) (wb F x) (wb F y) = wb F (~~~x &&& y) :=
  zipWith_wb (g := fun a b => !a && b) (by intro a b; cases a <;> cases b <;> simp [opValue]) _ _ _
    fun i hi => by simp [hi]

theorem writeCH_run {x y z : List ℕ} {X Y Z : Sha256.Word} (hx : x.map w = wb F X) (hy : y.map w = wb F Y)
    (hz : z.map w = wb F Z) :
    Run w (writeCH x y z) fun o t => t ∧ o.map w = wb F (Sha256.Ch X Y Z) := by
  unfold writeCH
  simp only [bind_def, pure_def]
  refine Run.bind (mapG_gate.mono fun u t1 ⟨h1, hu⟩ => ?_)
  refine Run.bind (mapG_gate.mono fun u' t2 ⟨h2, hu'⟩ => ?_)
  refine mapG_gate.mono fun o t3 ⟨h3, ho⟩ => ⟨⟨h1, h2, h3⟩, ?_⟩
  rw [ho, hu, hu', hx, hy, hz, and_wb, naab_wb, xor_wb, Sha256.Ch]

theorem writeXORS_run {x y z : List ℕ} {X Y Z : Sha256.Word} (hx : x.map w = wb F X) (hy : y.map w = wb F Y)
    (hz : z.map w = wb F Z) :
    Run w (writeXORS x y z) fun o t => t ∧ o.map w = wb F (X ^^^ Y ^^^ Z) := by
  unfold writeXORS
  simp only [bind_def, pure_def]
  refine Run.bind (mapG_gate.mono fun u t1 ⟨h1, hu⟩ => ?_)
  refine mapG_gate.mono fun o t3 ⟨h3, ho⟩ => ⟨⟨h1, h3⟩, ?_⟩
  rw [ho, hu, hx, hy, hz, xor_wb, xor_wb]

theorem majBit_run {p : ℕ × ℕ × ℕ} : Run w (majBit p) fun q z => (z ↔ True) ∧
    (w q.1 = w p.1 * w p.2.1 ∧ w q.2.1 = w p.2.1 * w p.2.2 ∧ w q.2.2 = w p.1 * w p.2.2) := by
  unfold majBit
  simp only [bind_def, pure_def]
  refine Run.bind (Run.gate fun u1 h1 => ?_)
  refine Run.bind (Run.gate fun u2 h2 => ?_)
  refine Run.bind (Run.gate fun u3 h3 => ?_)
  exact Run.pure ⟨by simp, h1, h2, h3⟩

theorem map_of_forall₂' {γ : Type} {f : α → F} {g : γ → F} {l : List α} {ys : List γ}
    (h : List.Forall₂ (fun p y => g y = f p) l ys) : ys.map g = l.map f := by
  induction h with
  | nil => rfl
  | cons h _ ih => rw [List.map_cons, List.map_cons, h, ih]

theorem zip3_map {x y z : List ℕ} (h1 : x.length = y.length) (h2 : y.length = z.length) :
    (x.zip (y.zip z)).map (fun p => w p.1 * w p.2.1) = List.zipWith (opValue .mult) (x.map w) (y.map w) ∧
    (x.zip (y.zip z)).map (fun p => w p.2.1 * w p.2.2) = List.zipWith (opValue .mult) (y.map w) (z.map w) ∧
    (x.zip (y.zip z)).map (fun p => w p.1 * w p.2.2) = List.zipWith (opValue .mult) (x.map w) (z.map w) := by
  induction x generalizing y z with
  | nil => cases y with
    | nil => simp
    | cons => simp at h1
  | cons a x ih => cases y with
    | nil => simp at h1
    | cons b y => cases z with
      | nil => simp at h2
      | cons c z =>
        obtain ⟨i1, i2, i3⟩ := ih (y := y) (z := z) (by simpa using h1) (by simpa using h2)
        simp [i1, i2, i3, opValue]

theorem writeMAJ_run {x y z : List ℕ} {X Y Z : Sha256.Word} (hx : x.map w = wb F X) (hy : y.map w = wb F Y)
    (hz : z.map w = wb F Z) :
    Run w (writeMAJ x y z) fun o t => t ∧ o.map w = wb F (Sha256.Maj X Y Z) := by
  unfold writeMAJ
  simp only [bind_def, pure_def]
  refine Run.bind ((Run.mapG (C := fun _ => True) fun p _ => majBit_run).mono fun l t1 ⟨h1, hl⟩ => ?_)
  have hlen : ∀ {u : List ℕ} {U : Sha256.Word}, u.map w = wb F U → u.length = 32 := fun {u} {U} h => by
    have := congrArg List.length h
    rwa [List.length_map, length_wb] at this
  obtain ⟨m1, m2, m3⟩ := zip3_map (w := w) ((hlen hx).trans (hlen hy).symm) ((hlen hy).trans (hlen hz).symm)
  have e1 : (l.map (fun p => p.1)).map w = wb F (X &&& Y) := by
    rw [← and_wb, ← hx, ← hy, ← m1, List.map_map]
    exact map_of_forall₂' (hl.imp fun _ _ h => h.1)
  have e2 : (l.map (fun p => p.2.1)).map w = wb F (Y &&& Z) := by
    rw [← and_wb, ← hy, ← hz, ← m2, List.map_map]
    exact map_of_forall₂' (hl.imp fun _ _ h => h.2.1)
  have e3 : (l.map (fun p => p.2.2)).map w = wb F (X &&& Z) := by
    rw [← and_wb, ← hx, ← hz, ← m3, List.map_map]
    exact map_of_forall₂' (hl.imp fun _ _ h => h.2.2)
  refine (writeXORS_run e1 e2 e3).mono fun o t3 ⟨h3, ho⟩ => ⟨⟨h1.2 (by simp), h3⟩, ?_⟩
  rw [ho, Sha256.Maj, BitVec.xor_assoc, BitVec.xor_comm (Y &&& Z), ← BitVec.xor_assoc]

theorem rotr_wb {k : ℕ} (hk : k < 32) {x : List ℕ} {X : Sha256.Word} (hx : x.map w = wb F X) :
    (rotr k x).map w = wb F (X.rotateRight k) := by
  have hl := length_wb (F := F) X
  rw [rotr, List.map_append, List.map_drop, List.map_take, hx]
  refine List.ext_getElem? fun i => ?_
  rw [getElem?_wb, List.getElem?_append, List.length_drop, hl, BitVec.getLsbD_rotateRight, Nat.mod_eq_of_lt hk]
  split_ifs with h1 h2 h2
  · rw [List.getElem?_drop, getElem?_wb, if_pos (by omega)]; simp [h1]
  · omega
  · rw [List.getElem?_take, if_pos (by omega), getElem?_wb, if_pos (by omega)]; simp [h1, h2]
  · rw [List.getElem?_take]
    split_ifs with h3
    · omega
    · rfl

theorem shr_wb {k : ℕ} (hk : k < 32) (h0 : w 0 = 0) {x : List ℕ} {X : Sha256.Word} (hx : x.map w = wb F X) :
    (shr k x).map w = wb F (X >>> k) := by
  have hl := length_wb (F := F) X
  rw [shr, List.map_append, List.map_drop, List.map_replicate, hx, h0]
  refine List.ext_getElem? fun i => ?_
  rw [getElem?_wb, List.getElem?_append, List.length_drop, hl, BitVec.getLsbD_ushiftRight]
  split_ifs with h1 h2 h2
  · rw [List.getElem?_drop, getElem?_wb, if_pos (by omega)]
  · omega
  · rw [List.getElem?_replicate, if_pos (by omega), BitVec.getLsbD_of_ge _ _ (by omega)]; simp
  · rw [List.getElem?_replicate, if_neg (by omega)]

theorem bigSigma0_run {x : List ℕ} {X : Sha256.Word} (hx : x.map w = wb F X) :
    Run w (writeBigSigma0 x) fun o t => t ∧ o.map w = wb F (Sha256.bigSigma0 X) :=
  writeXORS_run (rotr_wb (by decide) hx) (rotr_wb (by decide) hx) (rotr_wb (by decide) hx)

theorem bigSigma1_run {x : List ℕ} {X : Sha256.Word} (hx : x.map w = wb F X) :
    Run w (writeBigSigma1 x) fun o t => t ∧ o.map w = wb F (Sha256.bigSigma1 X) :=
  writeXORS_run (rotr_wb (by decide) hx) (rotr_wb (by decide) hx) (rotr_wb (by decide) hx)

theorem sigma0_run (h0 : w 0 = 0) {x : List ℕ} {X : Sha256.Word} (hx : x.map w = wb F X) :
    Run w (writeSigma0 x) fun o t => t ∧ o.map w = wb F (Sha256.sigma0 X) :=
  writeXORS_run (rotr_wb (by decide) hx) (rotr_wb (by decide) hx) (shr_wb (by decide) h0 hx)

theorem sigma1_run (h0 : w 0 = 0) {x : List ℕ} {X : Sha256.Word} (hx : x.map w = wb F X) :
    Run w (writeSigma1 x) fun o t => t ∧ o.map w = wb F (Sha256.sigma1 X) :=
  writeXORS_run (rotr_wb (by decide) hx) (rotr_wb (by decide) hx) (shr_wb (by decide) h0 hx)

/-! ### Sums and tests -/

theorem consecutive_eq : ∀ {a : ℕ} {l : List ℕ}, consecutive (a :: l) = true → a :: l = List.range' a (l.length + 1)
  | a, [], _ => rfl
  | a, b :: l, h => by
    rw [consecutive, Bool.and_eq_true, decide_eq_true_iff] at h
    obtain ⟨rfl, h⟩ := h
    rw [consecutive_eq h, List.length_range', List.range'_succ (s := a)]

theorem sum_val (a n : ℕ) : ∑ k ∈ Finset.Icc a (a + n), 2 ^ (k - a) * w k = val ((List.range' a (n + 1)).map w) := by
  induction n with
  | zero => simp [val]
  | succ n ih =>
    rw [← Nat.add_assoc, Finset.sum_Icc_succ_top (by omega), ih, List.range'_concat (n := n + 1),
      List.map_append, val_append, List.map_singleton, val, val, List.length_map, List.length_range']
    have : a + (n + 1) - a = n + 1 := by omega
    rw [show a + n + 1 = a + (n + 1) from rfl, this, mul_zero, add_zero, one_mul]

theorem doAddition_run {x : List ℕ} (hx : x ≠ []) :
    Run w (doAddition x) fun v z => z ∧ w v = val (x.map w) := by
  unfold doAddition
  simp only [bind_def, pure_def]
  refine Run.bind (Run.assertThat fun hc => Run.define fun v hv => ⟨⟨True.intro, True.intro⟩, ?_⟩)
  obtain ⟨a, l, rfl⟩ := List.exists_cons_of_ne_nil hx
  have he := consecutive_eq hc
  have hlast : (a :: l).getLastD 0 = a + l.length := by
    rw [he, List.range'_concat]; simp
  rw [hlast] at hv
  rw [he, ← sum_val]
  exact hv

theorem doAddition_wb {x : List ℕ} {n : ℕ} {X : BitVec n} (hx : x.map w = wb F X) (hn : 0 < n) :
    Run w (doAddition x) fun v z => z ∧ w v = (X.toNat : F) := by
  have hl := congrArg List.length hx
  rw [List.length_map, length_wb] at hl
  refine (doAddition_run (by rintro rfl; simp at hl; omega)).mono fun v z ⟨hz, h⟩ => ⟨hz, ?_⟩
  rw [h, hx, val_wb]

theorem testFieldField_run {f1 f2 : ℕ} :
    Run w (testFieldField f1 f2) fun v z => z ∧ (w v = 0 ↔ w f1 = w f2) :=
  Run.gate fun v hv => ⟨True.intro, by rw [hv, opValue, sub_eq_zero]⟩

theorem testBitvecField_run {x : List ℕ} {n : ℕ} {X : BitVec n} {f : ℕ} (hx : x.map w = wb F X) (hn : 0 < n) :
    Run w (testBitvecField x f) fun v z => z ∧ (w v = 0 ↔ (X.toNat : F) = w f) := by
  unfold testBitvecField
  simp only [bind_def, pure_def]
  refine Run.bind ((doAddition_wb hx hn).mono fun u z1 ⟨h1, hu⟩ => ?_)
  refine testFieldField_run.mono fun v z2 ⟨h2, hv⟩ => ⟨⟨h1, h2⟩, ?_⟩
  rw [hv, hu]

end

section
variable {F : Type} [Field F] {w : ℕ → F}

theorem verifyBits_run {x : List ℕ} :
    Run w (verifyBits x) fun o z => z ∧ ((∀ t ∈ o, w t = 0) ↔ ∀ i ∈ x, w i = 0 ∨ w i = 1) := by
  refine (Run.mapG (f := fun i => define (fun v => .bit v i i)) (C := fun _ => True)
    (R := fun i t => w t = w i * (1 - w i))
    fun p _ => Run.define fun v hv => ⟨Iff.rfl, hv⟩).mono fun ys z ⟨h1, h2⟩ => ⟨h1.2 (by simp), ?_⟩
  clear h1
  have key : ∀ i, w i * (1 - w i) = 0 ↔ w i = 0 ∨ w i = 1 := fun i => by
    rw [mul_eq_zero, sub_eq_zero, eq_comm (a := (1 : F))]
  clear * - h2 key
  induction h2 with
  | nil => simp
  | cons h _ ih =>
    rw [List.forall_mem_cons, List.forall_mem_cons]
    exact and_congr (by rw [h, key]) ih

theorem wb_concat {n : ℕ} (X : BitVec n) (b : Bool) : wb F (X.concat b) = (b.toNat : F) :: wb F X := by
  rw [wb, List.range_succ_eq_map, List.map_cons, List.map_map, wb]
  refine congrArg₂ _ (by simp) (List.map_congr_left fun i _ => by simp)

theorem exists_wb : ∀ {x : List ℕ} (_ : ∀ i ∈ x, w i = 0 ∨ w i = 1), ∃ X : BitVec x.length, x.map w = wb F X
  | [], _ => ⟨0, rfl⟩
  | i :: x, h => by
    obtain ⟨X, hX⟩ := exists_wb (x := x) fun j hj => h j (List.mem_cons_of_mem _ hj)
    rcases h i List.mem_cons_self with hi | hi
    · exact ⟨X.concat false, by rw [wb_concat, List.map_cons, hX, hi]; simp⟩
    · exact ⟨X.concat true, by rw [wb_concat, List.map_cons, hX, hi]; simp⟩

theorem exists_wb' {n : ℕ} {x : List ℕ} (h : ∀ i ∈ x, w i = 0 ∨ w i = 1) (hn : x.length = n) :
    ∃ X : BitVec n, x.map w = wb F X := by
  subst hn
  exact exists_wb h

theorem bits_of_wb {x : List ℕ} {n : ℕ} {X : BitVec n} (hx : x.map w = wb F X) : ∀ i ∈ x, w i = 0 ∨ w i = 1 := by
  intro i hi
  have : w i ∈ wb F X := by rw [← hx]; exact List.mem_map_of_mem hi
  obtain ⟨j, -, hj⟩ := List.mem_map.1 this
  rw [← hj]
  cases X.getLsbD j <;> simp

end
end Libra.Sha256Gen
