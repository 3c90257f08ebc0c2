import Verif.Proofs.Evaluate
import Verif.Proofs.FastTrack
import Verif.Props.Examples
import Verif.Model.Fp

/-!
# C12-C17: circuit evaluation, extensions, tables and predicates
-/

namespace Libra.Props
open Libra Spec Finset
variable {F : Type} [CommRing F]

/-! ## C12 circuit evaluation follows the gate types -/

/-- `evaluate()` succeeds on every evaluable circuit and entry `g` of layer `i` is the value the
specification gives to that gate. -/
theorem C12_evaluate (var : Variant) (C : Circuit) (h : Evaluable (var = .zk) C) :
    ∃ vals : List (List F), evaluate var C = .ok vals ∧ vals.length = C.depth ∧
      ∀ i < C.depth, ∃ row, vals[i]? = some row ∧ row.length = 2 ^ C.bl i ∧
        ∀ g < 2 ^ C.bl i, row[g]? = some (value C i g) := by
  refine ⟨_, evaluate_ok h, block_length _ _, fun i hi => ?_⟩
  exact ⟨_, block_getElem? _ _ _ hi, block_length _ _, fun g hg => block_getElem? _ _ _ hg⟩

/-- The specification on one gate of each type. -/
theorem C12_gate_meaning (x : ℤ → F) (u v : ℤ) :
    gateValue ⟨0, u, v⟩ x = x u + x v ∧ gateValue ⟨1, u, v⟩ x = x u * x v ∧
    gateValue ⟨2, u, v⟩ x = 0 ∧ gateValue ⟨4, u, v⟩ x = x u ∧
    gateValue ⟨6, u, v⟩ x = 1 - x u ∧ gateValue ⟨7, u, v⟩ x = x u - x v ∧
    gateValue ⟨8, u, v⟩ x = x u + x v - 2 * x u * x v ∧
    gateValue ⟨9, u, v⟩ x = x v - x u * x v ∧ gateValue ⟨10, u, v⟩ x = x u := by
  simp [gateValue]

/-- On bits XOR, NOT and NAAB are the boolean functions. -/
theorem C12_boolean (a b : Bool) :
    let x : ℤ → F := fun k => if k = 0 then (if a then 1 else 0) else (if b then 1 else 0)
    gateValue ⟨8, 0, 1⟩ x = (if xor a b then 1 else 0) ∧
    gateValue ⟨6, 0, 0⟩ x = (if !a then 1 else 0) ∧
    gateValue ⟨9, 0, 1⟩ x = (if !a && b then 1 else 0) := by
  cases a <;> cases b <;> simp [gateValue] <;> ring

example : Evaluable false exampleCircuit ∧ Evaluable true exampleZkCircuit :=
  ⟨exampleCircuit_wf.toEvaluable, exampleZkCircuit_wf.toEvaluable⟩

/-- the values of the example's output layer, over the integers -/
example : (List.range 4).map (value (F := ℤ) exampleCircuit 3) =
    [5 + 7 - 2147483647, 1 - (5 + 7 + 0 + 2147483647), 7, 2147483647] := by decide +kernel

/-! ## C14 `V_res` and `V_in` are the multilinear extension -/

theorem C14_fold_is_extension (n : ℕ) (table r : ℕ → F) :
    foldOutput (fun j => 1 - r j) r table n (2 ^ n) = mle n table r :=
  foldOutput_spec _ _ _ _ (fun _ _ => rfl)

/-- It is a multilinear function of the point. -/
theorem C14_multilinear (n : ℕ) (table : ℕ → F) :
    Multilinear n (fun r => foldOutput (fun j => 1 - r j) r table n (2 ^ n)) := by
  have : (fun r => foldOutput (fun j => 1 - r j) r table n (2 ^ n)) = mle n table := by
    funext r; exact C14_fold_is_extension n table r
  rw [this]; exact mle_multilinear n table

/-- It agrees with the table on the hypercube. -/
theorem C14_corner (n : ℕ) (table : ℕ → F) (k : ℕ) (hk : k < 2 ^ n) :
    foldOutput (fun j => 1 - (corner k : ℕ → F) j) (corner k) table n (2 ^ n) = table k := by
  rw [C14_fold_is_extension, mle_corner n table k hk]

/-- It is the only such function. -/
theorem C14_unique (n : ℕ) (table : ℕ → F) (f : (ℕ → F) → F) (hf : Multilinear n f)
    (h : ∀ k < 2 ^ n, f (corner k) = table k) (r : ℕ → F) :
    f r = foldOutput (fun j => 1 - r j) r table n (2 ^ n) := by
  rw [C14_fold_is_extension, mle_unique n table f hf h r]

example : foldOutput (F := ℤ) (fun j => 1 - (j + 2 : ℤ)) (fun j => (j + 2 : ℤ))
    (fun i => if i = 0 then 4 else if i = 1 then 6 else if i = 2 then 9 else 1) 2 4 = -37 := by
  decide +kernel

/-! ## C15 beta tables hold the equality polynomial -/

/-- The half tables of the provers (`n >> 1` low variables, the rest high), started with `c` and
`d`: their product at `i` is `c d eq(r, i)`. -/
theorem C15_half_tables (n : ℕ) (r T1 T2 : ℕ → F) (c d : F) (i : ℕ) (hi : i < 2 ^ n) :
    halves (n >>> 1) (doubling r (fun j => 1 - r j) 0 (n >>> 1) (setZero T1 c))
      (doubling r (fun j => 1 - r j) (n >>> 1) (n - n >>> 1) (setZero T2 d)) i =
      c * d * eqPoly n r i :=
  halves_doubling (fun _ _ => rfl) i hi

/-- The tables of both provers after `sumcheck_phase1_init`. -/
theorem C15_prover_tables (var : Variant) (C : Circuit) (P : FastTrack.Prover F) (α β : F) (r0 r1 : ℕ → F)
    (layer g u v : ℕ) (i : ℕ) (hi : i < 2 ^ g) :
    ((P.sumcheckInit layer g u v α β r0 r1 (fun j => 1 - r0 j) (fun j => 1 - r1 j)).phase1Init
      var C).tmpG i = α * eqPoly g r0 i + β * eqPoly g r1 i :=
  FastTrack.phase1Init_tmpG var C _ (fun _ _ => rfl) (fun _ _ => rfl) i hi

/-- The full tables of the plain verifier after `beta_init`. -/
theorem C15_verifier_tables (C : Circuit) (old : FastTrack.BetaTables F) (depth : ℕ) (α β : F)
    (r0 r1 ru rv : ℕ → F) :
    let T := FastTrack.betaInit C old depth α β r0 r1 ru rv (fun j => 1 - r0 j) (fun j => 1 - r1 j)
      (fun j => 1 - ru j) (fun j => 1 - rv j)
    (∀ i < 2 ^ C.bl depth, T.g0 i = α * eqPoly (C.bl depth) r0 i ∧
      T.g1 i = β * eqPoly (C.bl depth) r1 i) ∧
    ∀ i < 2 ^ C.bl (depth - 1), T.u i = eqPoly (C.bl (depth - 1)) ru i ∧
      T.v i = eqPoly (C.bl (depth - 1)) rv i := by
  refine ⟨fun i hi => ⟨?_, ?_⟩, fun i hi => ⟨?_, ?_⟩⟩ <;> simp only [FastTrack.betaInit] <;>
    rw [doubling2_spec _ _ _ _ _ (fun _ _ => rfl) i hi] <;> simp [setZero]

example : (List.range 4).map (doubling (F := ℤ) (fun j => (j + 2 : ℤ)) (fun j => 1 - (j + 2 : ℤ)) 0 2
    (setZero (fun _ => 77) 10)) = [20, -40, -30, 60] := by decide +kernel

/-! ## C16 direct_relay -/

theorem C16_direct_relay (C : Circuit) (rg ru : ℕ → F) :
    FastTrack.directRelay C 1 rg ru =
      ∑ i ∈ range (2 ^ C.bl 1), eqPoly (C.bl 1) rg i * eqPoly (C.bl 1) ru i := by
  rw [sum_eqPoly_mul]
  simp [FastTrack.directRelay, loop_mul_prod]

theorem C16_other_layers (C : Circuit) (depth : ℕ) (h : depth ≠ 1) (rg ru : ℕ → F) :
    FastTrack.directRelay C depth rg ru = 0 := by simp [FastTrack.directRelay, h]

example : FastTrack.directRelay (F := ℤ) exampleCircuit 1 (fun _ => 2) (fun _ => 3) = 64 := by
  decide +kernel

/-! ## C17 gate predicates are the wiring extensions -/

/-- Two-input gates: `add`, `mult`, `minus_gate`, `xor_gate`, `NAAB_gate`. -/
theorem C17_two_input (C : Circuit) (old : FastTrack.BetaTables F) (depth : ℕ) (α β : F)
    (r0 r1 ru rv : ℕ → F) (ty : ℤ)
    (hw : ∀ g < 2 ^ C.bl depth, (C.gate depth g).ty = ty →
      Wire (C.bl (depth - 1)) (C.gate depth g).u ∧ Wire (C.bl (depth - 1)) (C.gate depth g).v) :
    FastTrack.pred2 C (FastTrack.betaInit C old depth α β r0 r1 ru rv (fun j => 1 - r0 j)
        (fun j => 1 - r1 j) (fun j => 1 - ru j) (fun j => 1 - rv j)) depth ty =
      ∑ g ∈ (range (2 ^ C.bl depth)).filter (fun g => (C.gate depth g).ty = ty),
        comb (C.bl depth) α β r0 r1 g * eqPoly (C.bl (depth - 1)) ru (C.gate depth g).u.toNat *
          eqPoly (C.bl (depth - 1)) rv (C.gate depth g).v.toNat := by
  obtain ⟨h1, h2⟩ := C15_verifier_tables C old depth α β r0 r1 ru rv
  rw [FastTrack.pred2_eq, sum_filter]
  refine sum_congr rfl (fun g hg => ?_)
  have hg := mem_range.1 hg
  split_ifs with ht
  · obtain ⟨hu, hv⟩ := hw g hg ht
    rw [(h1 g hg).1, (h1 g hg).2, (h2 _ hu.lt).1, (h2 _ hv.lt).2, comb]
  · rfl

/-- One-input gates: `not_gate`, `relay_gate`. -/
theorem C17_one_input (C : Circuit) (old : FastTrack.BetaTables F) (depth : ℕ) (α β : F)
    (r0 r1 ru rv : ℕ → F) (ty : ℤ)
    (hw : ∀ g < 2 ^ C.bl depth, (C.gate depth g).ty = ty →
      Wire (C.bl (depth - 1)) (C.gate depth g).u ∧ (C.gate depth g).v = 0) :
    FastTrack.pred1 C (FastTrack.betaInit C old depth α β r0 r1 ru rv (fun j => 1 - r0 j)
        (fun j => 1 - r1 j) (fun j => 1 - ru j) (fun j => 1 - rv j)) depth ty =
      .ok (∑ g ∈ (range (2 ^ C.bl depth)).filter (fun g => (C.gate depth g).ty = ty),
        comb (C.bl depth) α β r0 r1 g * eqPoly (C.bl (depth - 1)) ru (C.gate depth g).u.toNat *
          eqPoly (C.bl (depth - 1)) rv 0) := by
  obtain ⟨h1, h2⟩ := C15_verifier_tables C old depth α β r0 r1 ru rv
  rw [FastTrack.pred1_eq _ _ (fun g hg ht => (hw g hg ht).2), sum_filter]
  congr 1
  refine sum_congr rfl (fun g hg => ?_)
  have hg := mem_range.1 hg
  split_ifs with ht
  · obtain ⟨hu, hv⟩ := hw g hg ht
    rw [(h1 g hg).1, (h1 g hg).2, (h2 _ hu.lt).1, hv, Int.toNat_zero, (h2 0 (by positivity)).2, comb]
  · rfl

/-- Range sums. -/
theorem C17_sum_gate (C : Circuit) (old : FastTrack.BetaTables F) (depth : ℕ) (α β : F)
    (r0 r1 ru rv : ℕ → F)
    (hw : ∀ g < 2 ^ C.bl depth, (C.gate depth g).ty = 5 →
      (C.gate depth g).v ≤ 2 ^ C.bl (depth - 1)) :
    FastTrack.sumGate C (FastTrack.betaInit C old depth α β r0 r1 ru rv (fun j => 1 - r0 j)
        (fun j => 1 - r1 j) (fun j => 1 - ru j) (fun j => 1 - rv j)) depth =
      ∑ g ∈ (range (2 ^ C.bl depth)).filter (fun g => (C.gate depth g).ty = 5),
        comb (C.bl depth) α β r0 r1 g *
          (∑ j ∈ Ico (C.gate depth g).u.toNat (C.gate depth g).v.toNat,
            eqPoly (C.bl (depth - 1)) ru j) * eqPoly (C.bl (depth - 1)) rv 0 := by
  obtain ⟨h1, h2⟩ := C15_verifier_tables C old depth α β r0 r1 ru rv
  rw [FastTrack.sumGate_eq, sum_filter]
  refine sum_congr rfl (fun g hg => ?_)
  have hg := mem_range.1 hg
  split_ifs with ht
  · have hv := toNat_le (hw g hg ht)
    rw [(h1 g hg).1, (h1 g hg).2, (h2 0 (by positivity)).2, comb]
    congr 2
    exact sum_congr rfl (fun j hj => (h2 j (by have := (mem_Ico.1 hj).2; omega)).1)
  · rfl

/-- the hypotheses of the three theorems hold for the example circuit -/
example : (∀ ty ∈ [0, 1, 7, 8, 9], ∀ d ∈ [2, 3], ∀ g < 2 ^ exampleCircuit.bl d,
    (exampleCircuit.gate d g).ty = ty → Wire (exampleCircuit.bl (d - 1)) (exampleCircuit.gate d g).u ∧
      Wire (exampleCircuit.bl (d - 1)) (exampleCircuit.gate d g).v) ∧
    (∀ ty ∈ [6, 10], ∀ d ∈ [2, 3], ∀ g < 2 ^ exampleCircuit.bl d, (exampleCircuit.gate d g).ty = ty →
      Wire (exampleCircuit.bl (d - 1)) (exampleCircuit.gate d g).u ∧
      (exampleCircuit.gate d g).v = 0) ∧
    ∀ d ∈ [2, 3], ∀ g < 2 ^ exampleCircuit.bl d, (exampleCircuit.gate d g).ty = 5 →
      (exampleCircuit.gate d g).v ≤ 2 ^ exampleCircuit.bl (d - 1) := by decide +kernel

end Libra.Props
