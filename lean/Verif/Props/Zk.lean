import Verif.Proofs.ZkComplete
import Verif.Proofs.Gmp
import Verif.Props.Vpd
import Verif.Props.Examples

/-!
# C15, C17, C18, C23: the zero-knowledge verifier
-/

namespace Libra.Props
open Libra Spec Finset Libra.Zk
variable {F : Type} [CommRing F]

/-! ## C15 the half tables of the zero-knowledge verifier -/

/-- The tables of a layer that is not parallel. -/
theorem C15_zk_tables (C : Circuit) (old : VTables F) (depth : ℕ)
    (hp : (C.layer depth).isParallel = false) (α β : F) (r0 r1 ru rv : ℕ → F) :
    let T := (Zk.betaInit C old depth α β r0 r1 ru rv (fun j => 1 - r0 j) (fun j => 1 - r1 j)
      (fun j => 1 - ru j) (fun j => 1 - rv j)).full
    (∀ i < 2 ^ C.bl depth, T.g0.get (C.bl depth) i = α * eqPoly (C.bl depth) r0 i ∧
      T.g1.get (C.bl depth) i = β * eqPoly (C.bl depth) r1 i) ∧
    ∀ i < 2 ^ C.bl (depth - 1), T.u.get (C.bl (depth - 1)) i = eqPoly (C.bl (depth - 1)) ru i ∧
      T.v.get (C.bl (depth - 1)) i = eqPoly (C.bl (depth - 1)) rv i := by
  intro T
  have e : T = fillBeta old.full (C.bl depth) (C.bl (depth - 1)) α β r0 r1 ru rv (fun j => 1 - r0 j)
      (fun j => 1 - r1 j) (fun j => 1 - ru j) (fun j => 1 - rv j) := by
    simp only [T, Zk.betaInit, hp, Bool.false_eq_true, if_false]
  rw [e]
  exact ⟨fun i hi => ⟨fillHalves_spec _ _ _ _ _ (fun _ _ => rfl) i hi,
      fillHalves_spec _ _ _ _ _ (fun _ _ => rfl) i hi⟩,
    fun i hi => ⟨(fillHalves_spec _ _ _ _ _ (fun _ _ => rfl) i hi).trans (one_mul _),
      (fillHalves_spec _ _ _ _ _ (fun _ _ => rfl) i hi).trans (one_mul _)⟩⟩

/-- The tables of one block of a parallel layer. -/
theorem C15_zk_block_tables (C : Circuit) (old : VTables F) (depth : ℕ)
    (hp : (C.layer depth).isParallel = true) (α β : F) (r0 r1 ru rv : ℕ → F) :
    let T := (Zk.betaInit C old depth α β r0 r1 ru rv (fun j => 1 - r0 j) (fun j => 1 - r1 j)
      (fun j => 1 - ru j) (fun j => 1 - rv j)).block
    let m := (C.layer depth).logBlockSize
    let n := (C.layer (depth - 1)).logBlockSize
    (∀ i < 2 ^ m, T.g0.get m i = α * eqPoly m r0 i ∧ T.g1.get m i = β * eqPoly m r1 i) ∧
    ∀ i < 2 ^ n, T.u.get n i = eqPoly n ru i ∧ T.v.get n i = eqPoly n rv i := by
  intro T m n
  have e : T = fillBeta old.block m n α β r0 r1 ru rv (fun j => 1 - r0 j)
      (fun j => 1 - r1 j) (fun j => 1 - ru j) (fun j => 1 - rv j) := by
    simp only [T, Zk.betaInit, hp, if_true, m, n]
  rw [e]
  exact ⟨fun i hi => ⟨fillHalves_spec _ _ _ _ _ (fun _ _ => rfl) i hi,
      fillHalves_spec _ _ _ _ _ (fun _ _ => rfl) i hi⟩,
    fun i hi => ⟨(fillHalves_spec _ _ _ _ _ (fun _ _ => rfl) i hi).trans (one_mul _),
      (fillHalves_spec _ _ _ _ _ (fun _ _ => rfl) i hi).trans (one_mul _)⟩⟩

/-! ## C17 the predicates -/

/-- The tables and predicates of layer `i` as `verify()` computes them. -/
def zkPredicates (C : Circuit) (old : VTables F) (i : ℕ) (α β : F) (r0 r1 ru rv : ℕ → F) :
    Outcome (ℕ → F) :=
  predicates C (Zk.betaInit C old i α β r0 r1 ru rv (fun j => 1 - r0 j) (fun j => 1 - r1 j)
    (fun j => 1 - ru j) (fun j => 1 - rv j)) i r0 r1 ru rv

theorem C17_zk (C : Circuit) (hwf : WellFormed true C) (hpar : ParallelOk C) (old : VTables F) (i : ℕ)
    (hi : 2 ≤ i) (hd : i < C.depth) (α β : F) (r0 r1 ru rv : ℕ → F) :
    let w := comb (C.bl i) α β r0 r1
    let ex := eqPoly (C.bl (i - 1)) ru
    let ey := eqPoly (C.bl (i - 1)) rv
    let G := fun t : ℕ => (range (2 ^ C.bl i)).filter (fun g => (C.gate i g).ty = t)
    ∃ pv, zkPredicates C old i α β r0 r1 ru rv = .ok pv ∧
      (∀ t ∈ [0, 1, 7, 8, 9, 13], pv t =
        ∑ g ∈ G t, w g * ex (C.gate i g).u.toNat * ey (C.gate i g).v.toNat) ∧
      (∀ t ∈ [6, 10], pv t = ∑ g ∈ G t, w g * ex (C.gate i g).u.toNat * ey 0) ∧
      pv 5 = ∑ g ∈ G 5, w g *
        (∑ j ∈ Ico (C.gate i g).u.toNat (C.gate i g).v.toNat, ex j) * ey 0 ∧
      pv 12 = ∑ g ∈ G 12, w g * (∑ j ∈ Ico (C.gate i g).u.toNat ((C.gate i g).v + 1).toNat,
        2 ^ (j - (C.gate i g).u.toNat) * ex j) * ey 0 := by
  intro w ex ey G
  have hl := layerOk hwf (show 1 ≤ i by omega) hd
  obtain ⟨pv, e, h⟩ := predicates_ok hl (by omega) (hpar i hi hd) old α β r0 r1 ru rv
    (fun j => 1 - r0 j) (fun j => 1 - r1 j) (fun j => 1 - ru j) (fun j => 1 - rv j)
    (fun _ _ => rfl) (fun _ _ => rfl) (fun _ _ => rfl) (fun _ _ => rfl)
  refine ⟨pv, e, fun t ht => ?_, fun t ht => ?_, ?_, ?_⟩
  · rw [h, predSum, ← sum_filter]
    refine sum_congr rfl (fun g hg => ?_)
    have hg := (mem_filter.1 hg).2
    rw [gateCoef, if_pos, mul_assoc]
    simp only [List.mem_cons, List.not_mem_nil, or_false] at ht
    omega
  · rw [h, predSum, ← sum_filter]
    refine sum_congr rfl (fun g hg => ?_)
    have hg1 := mem_range.1 (mem_filter.1 hg).1
    have hg := (mem_filter.1 hg).2
    simp only [List.mem_cons, List.not_mem_nil, or_false] at ht
    rw [gateCoef, if_pos (by omega), mul_assoc, hl.v0 g hg1 (by omega)]
    rfl
  · rw [h, predSum, ← sum_filter]
    refine sum_congr rfl (fun g hg => ?_)
    have hg := (mem_filter.1 hg).2
    rw [gateCoef, if_neg (by omega), if_pos (by omega)]
    ring
  · rw [h, predSum, ← sum_filter]
    refine sum_congr rfl (fun g hg => ?_)
    have hg := (mem_filter.1 hg).2
    rw [gateCoef, if_neg (by omega), if_neg (by omega), if_pos (by omega)]
    ring

/-! ## C18 block-wise and gate-by-gate computation agree -/

/-- the circuit with layer `i` declared not parallel -/
def serial (C : Circuit) (i : ℕ) : Circuit :=
  ⟨C.layers.modify i (fun L => { L with isParallel := false })⟩

theorem serial_layer (C : Circuit) (i j : ℕ) :
    (serial C i).layer j = { C.layer j with
      isParallel := if j = i then false else (C.layer j).isParallel } := by
  simp only [serial, Circuit.layer, List.getElem?_modify]
  cases h : C.layers[j]? with
  | none => simp
  | some L =>
    by_cases e : i = j
    · subst e; simp
    · simp [e, Ne.symm e]

theorem C18_parallel (C : Circuit) (hwf : WellFormed true C) (i : ℕ) (hi : 2 ≤ i) (hd : i < C.depth)
    (hp : (C.layer i).isParallel = true) (hR : Repeated C i) (old old' : VTables F) (α β : F)
    (r0 r1 ru rv : ℕ → F) :
    ∃ pv, zkPredicates C old i α β r0 r1 ru rv = .ok pv ∧
      zkPredicates (serial C i) old' i α β r0 r1 ru rv = .ok pv := by
  have hl := layerOk hwf (show 1 ≤ i by omega) hd
  have hg : ∀ j g, (serial C i).gate j g = C.gate j g := fun j g => by
    simp only [Circuit.gate, serial_layer]; rfl
  have hb : ∀ j, (serial C i).bl j = C.bl j := fun j => by simp only [Circuit.bl, serial_layer]
  have hl' : LayerOk true (serial C i) i := by
    obtain ⟨a1, a2, a3, a4, a5⟩ := hl
    constructor <;> simp only [hg, hb] <;> assumption
  obtain ⟨pv, e, h⟩ := predicates_ok hl (by omega) (fun _ => hR) old α β r0 r1 ru rv
    (fun j => 1 - r0 j) (fun j => 1 - r1 j) (fun j => 1 - ru j) (fun j => 1 - rv j)
    (fun _ _ => rfl) (fun _ _ => rfl) (fun _ _ => rfl) (fun _ _ => rfl)
  obtain ⟨pv', e', h'⟩ := predicates_ok hl' (by omega) (fun c => by simp [serial_layer] at c) old' α β
    r0 r1 ru rv (fun j => 1 - r0 j) (fun j => 1 - r1 j) (fun j => 1 - ru j) (fun j => 1 - rv j)
    (fun _ _ => rfl) (fun _ _ => rfl) (fun _ _ => rfl) (fun _ _ => rfl)
  have : pv' = pv := by
    funext t
    rw [h, h', predSum, predSum]
    simp only [hg, hb]
  exact ⟨pv, e, this ▸ e'⟩

/-- Two copies of a block of two gates above two copies of a block of two gates, then a
serial layer. -/
def exampleParallel : Circuit := ⟨[
  { gates := [some ⟨3, 1, 0⟩, some ⟨3, 0, 0⟩, some ⟨3, 1, 0⟩, some ⟨3, 9, 0⟩], bitLength := 2 },
  { gates := [some ⟨4, 0, 0⟩, some ⟨4, 1, 0⟩, some ⟨4, 2, 0⟩, some ⟨4, 3, 0⟩], bitLength := 2,
    isParallel := true, blockSize := 2, logBlockSize := 1, repeatNum := 2, logRepeatNum := 1 },
  { gates := [some ⟨12, 0, 1⟩, some ⟨1, 0, 1⟩, some ⟨12, 2, 3⟩, some ⟨1, 2, 3⟩], bitLength := 2,
    isParallel := true, blockSize := 2, logBlockSize := 1, repeatNum := 2, logRepeatNum := 1 },
  { gates := [some ⟨7, 0, 3⟩, some ⟨1, 2, 0⟩], bitLength := 1 }]⟩

theorem exampleParallel_wf : WellFormed true exampleParallel := by
  apply wellFormed_of_check <;> decide +kernel

instance (n : ℕ) (s : ℤ) (g g' : Gate) : Decidable (CopyOf n s g g') := by
  unfold CopyOf; infer_instance

theorem exampleParallel_repeated : Repeated exampleParallel 2 := by
  constructor <;> decide +kernel

theorem exampleParallel_ok : ParallelOk exampleParallel := by
  intro i h1 h2 h3
  have h2 : i < 4 := h2
  interval_cases i
  · exact exampleParallel_repeated
  · exact absurd h3 (by decide)

example := C18_parallel (F := Fp) exampleParallel exampleParallel_wf 2 (by decide) (by decide)
  (by decide) exampleParallel_repeated

/-- A range sum over a whole block: its exclusive upper end is the first position of the next
block. -/
def rangeToBlockEnd : Circuit := ⟨[
  { gates := [some ⟨3, 1, 0⟩, some ⟨3, 0, 0⟩, some ⟨3, 1, 0⟩, some ⟨3, 9, 0⟩], bitLength := 2 },
  { gates := [some ⟨4, 0, 0⟩, some ⟨4, 1, 0⟩, some ⟨4, 2, 0⟩, some ⟨4, 3, 0⟩], bitLength := 2,
    isParallel := true, blockSize := 2, logBlockSize := 1, repeatNum := 2, logRepeatNum := 1 },
  { gates := [some ⟨5, 0, 2⟩, some ⟨1, 0, 1⟩, some ⟨5, 2, 4⟩, some ⟨1, 2, 3⟩], bitLength := 2,
    isParallel := true, blockSize := 2, logBlockSize := 1, repeatNum := 2, logRepeatNum := 1 },
  { gates := [some ⟨7, 0, 3⟩, some ⟨1, 2, 0⟩], bitLength := 1 }]⟩

/-- The condition on range sums in `CopyOf` is needed: this circuit is well formed, its layer 2 is
two copies of a block, and the two computations differ. -/
theorem C18_range_to_block_end : WellFormed true rangeToBlockEnd ∧
    (∀ g < 2, (rangeToBlockEnd.gate 2 (2 + g)).ty = (rangeToBlockEnd.gate 2 g).ty ∧
      (rangeToBlockEnd.gate 2 (2 + g)).u = (rangeToBlockEnd.gate 2 g).u + 2 ∧
      (rangeToBlockEnd.gate 2 (2 + g)).v = (rangeToBlockEnd.gate 2 g).v + 2) ∧
    ∃ (old : VTables ℤ) (r : ℕ → ℤ) (pv pv' : ℕ → ℤ),
      zkPredicates rangeToBlockEnd old 2 1 0 r r r r = .ok pv ∧
      zkPredicates (serial rangeToBlockEnd 2) old 2 1 0 r r r r = .ok pv' ∧ pv 5 ≠ pv' 5 := by
  refine ⟨by apply wellFormed_of_check <;> decide +kernel, by decide, ?_⟩
  let z : Halves ℤ := ⟨fun _ => 0, fun _ => 0⟩
  refine ⟨⟨⟨z, z, z, z⟩, ⟨z, z, z, z⟩⟩, fun _ => 0, _, _, rfl, rfl, ?_⟩
  decide +kernel

/-! ## C23 completeness of the zero-knowledge protocol -/

variable {G1 G2 GT : Type} [AddCommGroup G1] [AddCommGroup G2] [AddCommGroup GT]
  [Module (ZMod p) G1] [Module (ZMod p) G2] [Module (ZMod p) GT] [DecidableEq GT]

/-- C23: `verify()` accepts the honest prover. The circuit is well formed, layers declared parallel
are, the layers below the top have at least two gates (with one gate the code reads
`maskpoly[-2]`, see `C23_single_gate`), and the secrets are reduced modulo `p`. -/
theorem C23_zk_complete (E : Pairing G1 G2 GT) (C : Circuit) (hwf : WellFormed true C)
    (hpar : ParallelOk C) (hlen : ∀ i, i + 1 < C.depth → 1 ≤ C.bl i ∧ C.bl i < 2 ^ 248)
    (coins : Coins Fp) (hco : CoinsOk C coins) (junk : Prover Fp G1 G2) (tables : VTables Fp)
    (ch : Zk.Challenges Fp) : Zk.verify E C (Zk.honest E C coins junk) tables ch = .ok () :=
  Zk.complete E hwf hpar (fun i hi => ⟨(hlen i hi).1, by have := (hlen i hi).2; omega⟩) hco junk tables ch

/-- coins for the examples -/
def exampleCoins : Coins Fp where
  maskr i := (i : Fp) + 1
  a := 5
  s := toySecrets
  rf := 6
  rf2 := 7
  t i := i
  layer i := ⟨fun j => (i + j : Fp), fun j => (i * j + 1 : Fp), 8, toySecrets, 9, fun k j => k + j, 10,
    toySecrets, 11, fun j => j⟩

theorem exampleCoins_ok : CoinsOk exampleParallel exampleCoins := by
  have hp : 1003 < p := by decide +kernel
  have hb : ∀ i < 4, exampleParallel.bl i ≤ 2 := by decide
  refine ⟨fun i _ _ => toySecrets_lt 2 (by decide), fun i _ hd => toySecrets_lt _ ?_, fun i _ _ => ?_,
    ?_, toySecrets_lt _ (by decide)⟩
  · have := hb (i - 1) (by have : i < 4 := hd; omega)
    omega
  · change 11 < p; omega
  · change 5 < p; omega

example := C23_zk_complete toyPairing exampleParallel exampleParallel_wf exampleParallel_ok
  (fun i hi => by
    have hi : i < 3 := by have : i + 1 < 4 := hi; omega
    interval_cases i <;> exact ⟨by decide, lt_trans (by decide : _ < 3) (by norm_num)⟩)
  exampleCoins exampleCoins_ok

/-- a circuit with one input -/
def oneInput : Circuit := ⟨[
  { gates := [some ⟨3, 5, 0⟩], bitLength := 0 }, { gates := [some ⟨4, 0, 0⟩], bitLength := 0 }]⟩

/-- a prover object, a table and challenges for the examples -/
def blankProver : Prover Fp (ZMod p) (ZMod p) :=
  let z : ℕ → Fp := fun _ => 0
  let n : ℕ → ℕ := fun _ => 0
  let k : VpdKey (ZMod p) (ZMod p) := ⟨0, 0, fun _ => 0, fun _ => 0, 0, fun _ => 0, fun _ => 0⟩
  ⟨⟨fun _ _ => 0, 0, 0, 0, 0, 0, 0, 0, 0, 0, z, z, z, z,
    ⟨fun _ => ⟨0, 0⟩, fun _ => ⟨0, 0⟩, fun _ => ⟨0, 0⟩⟩, z, z, z, z, z, z, z, z⟩,
    z, n, 0, 0, 0, z, z, 0, 0, 0, 0, 0, 0, 0, 0, 0, 0, 0, 0, 0, 0, 0, ⟨0, 0, 0⟩, ⟨0, 0, 0⟩, ⟨0, 0, 0⟩, n, n, z,
    k, k, ⟨k, fun _ _ => 0⟩, 0⟩

@[inherit_doc blankProver]
def blankTables : VTables Fp :=
  let h : Halves Fp := ⟨fun _ => 0, fun _ => 0⟩
  ⟨⟨h, h, h, h⟩, ⟨h, h, h, h⟩⟩

@[inherit_doc blankProver]
def someChallenges : Zk.Challenges Fp :=
  ⟨⟨fun _ => 2, fun _ => 3, fun _ _ => 4, fun _ _ => 5, fun _ => 6, fun _ => 7⟩, fun _ => 8, fun _ => 9⟩

/-- The condition on the lengths is needed: with one gate in the layer below, `sumcheck_phase2_init`
reads `maskpoly[2 * length_u - 2]` with `length_u = 0`. -/
theorem C23_single_gate : WellFormed true oneInput ∧
    Zk.verify toyPairing oneInput (Zk.honest toyPairing oneInput exampleCoins blankProver) blankTables
      someChallenges = .undefined := by
  refine ⟨by apply wellFormed_of_check <;> decide +kernel, by decide +kernel⟩

end Libra.Props
