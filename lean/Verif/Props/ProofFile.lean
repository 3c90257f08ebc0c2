import Verif.Proofs.ProofFile
import Verif.Props.FiatShamir

/-!
# C56, C57: what the proof file of the zk verifier contains
-/

namespace Libra.Props
open Libra Spec Finset FastTrack Zk Transcript
variable {G1 G2 GT : Type} [AddCommGroup G1] [AddCommGroup G2] [AddCommGroup GT]
  [Module (ZMod p) G1] [Module (ZMod p) G2] [Module (ZMod p) GT] [DecidableEq GT] {B : ℕ} {σ : Type}

/-! ## C56 -/

/-- C56: the sequence of messages in the proof file of an accepted proof depends only on the circuit. So a reader
who knows the circuit knows which bytes are points and which are numbers (`C34_read_back`). -/
theorem C56_shape (mix : Mix) (enc : G1 → Fin B → BitVec 8) (E : Pairing G1 G2 GT) (C : Circuit)
    (A : ProverApi σ Fp G1 G2) (tables : VTables Fp) (m : List (Container B))
    (h : verifyFS mix enc E C A tables = .ok m) : (sent m).map Message.kind = proofShape C :=
  verifyFS_kinds h

theorem size_kind (l : List (Message B)) : (l.map Message.size).sum = ((l.map Message.kind).map (Kind.size B)).sum := by
  rw [List.map_map]
  congr 1
  refine List.map_congr_left fun x _ => ?_
  cases x <;> rfl

theorem layersShape_size (C : Circuit) (n : ℕ) : ((layersShape C n).map (Kind.size B)).sum =
    ∑ i ∈ range n, ((20 + 4 * C.bl i) * B + 64 * phaseNumbers (C.bl i)) := by
  induction n with
  | zero => rfl
  | succ n ih =>
    rw [layersShape, List.map_append, List.sum_append, ih, sum_range_succ, layerShape]
    simp only [List.map_append, List.sum_append, List.map_replicate, List.sum_replicate, Kind.size, smul_eq_mul]
    ring

/-- C56: the size of the proof file in bytes. It is linear in the number of address bits of the layers and does not
depend on the prover, the values in the circuit or the challenges. -/
theorem C56_size (mix : Mix) (enc : G1 → Fin B → BitVec 8) (E : Pairing G1 G2 GT) (C : Circuit)
    (A : ProverApi σ Fp G1 G2) (tables : VTables Fp) (m : List (Container B))
    (h : verifyFS mix enc E C A tables = .ok m) :
    (outputToFile m).length = (6 + 2 * C.bl 0) * B +
      ∑ i ∈ range (C.depth - 1), ((20 + 4 * C.bl i) * B + 64 * phaseNumbers (C.bl i)) := by
  rw [(C33_size m).1, (C33_size m).2, size_kind, C56_shape mix enc E C A tables m h, proofShape]
  simp only [List.map_append, List.sum_append, List.map_replicate, List.sum_replicate, Kind.size, smul_eq_mul]
  rw [layersShape_size]
  ring

/-- C56: what a layer adds to the proof. After `pre` (the commitments) there are the coefficients of polynomials
`f 0, ..., f (n - 1)` of the first phase and `g 0, ..., g (n - 1)` of the second, then only points. All polynomials
but the last of each phase are quadratic. They are the polynomials that were checked: at 0 and 1 they sum up to the
value of the previous one at the challenge; in the second phase a multiple of the relay coefficient is added on both
sides. -/
theorem C56_layer (mix : Mix) (enc : G1 → Fin B → BitVec 8) (E : Pairing G1 G2 GT) (C : Circuit)
    (A : ProverApi σ Fp G1 G2) (i : ℕ) (s s' : Zk.VState σ Fp) (S : LayerStart σ G1) (m m' : List (Container B))
    (h : layerRestFS mix enc E C A i s S m = .ok (s', m')) :
    ∃ (f g : ℕ → QuintuplePoly Fp) (v : ℕ → Fp) (points : List (Message B)),
      let n := C.bl (i - 1)
      let relay := s.alpha * directRelay C i s.r0 S.ru + s.beta * directRelay C i s.r1 S.ru
      let rv : ℕ → Fp := fun j => if i = 1 then 0 else S.rv j
      let record (f : ℕ → QuintuplePoly Fp) : List (Message B) := ((List.range n).flatMap fun j =>
        if j + 1 = n then [(f j).a, (f j).b, (f j).c, (f j).d, (f j).e, (f j).f] else [(f j).d, (f j).e, (f j).f]).map
          fun x => .number x.val.toNat
      sent m' = sent m ++ record f ++ record g ++ points ∧
      (∀ x ∈ points, x.kind = .point) ∧
      (∀ j, j + 1 < n → (f j).a = 0 ∧ (f j).b = 0 ∧ (f j).c = 0 ∧ (g j).a = 0 ∧ (g j).b = 0 ∧ (g j).c = 0) ∧
      (∀ j, j + 1 < n → (f (j + 1)).eval 0 + (f (j + 1)).eval 1 = (f j).eval (S.ru j)) ∧
      (0 < n → (g 0).eval 0 + (g 0).eval 1 + relay * v 0 = (f (n - 1)).eval (S.ru (n - 1))) ∧
      ∀ j, j + 1 < n → (g (j + 1)).eval 0 + (g (j + 1)).eval 1 + relay * v (j + 1) =
        (g j).eval (rv j) + relay * v j := by
  obtain ⟨f, g, v, sum1, sum2, m1, m2, hf, hg, pts, e, hp⟩ := layerRest_recorded h
  refine ⟨f, g, v, pts, ?_, fun x hx => ?_, fun j hj => ?_, fun j hj => ?_, fun hn => ?_, fun j hj => ?_⟩
  · rw [e, hg.sent, hf.sent]; rfl
  · have : x.kind ∈ pts.map Message.kind := List.mem_map_of_mem hx
    rw [hp] at this
    exact List.eq_of_mem_replicate this
  · exact ⟨(hf.small j (by omega)).1, (hf.small j (by omega)).2.1, (hf.small j (by omega)).2.2, hg.small j (by omega)⟩
  · have := hf.check (j + 1) hj
    rwa [if_neg (by omega), Nat.add_sub_cancel, add_zero, add_zero] at this
  · have := hg.check 0 hn
    rw [if_pos (rfl : (0 : ℕ) = 0), hf.last, if_neg (show ¬ C.bl (i - 1) = 0 from Nat.pos_iff_ne_zero.1 hn), add_zero] at this
    exact this
  · have := hg.check (j + 1) hj
    rwa [if_neg (by omega), Nat.add_sub_cancel] at this

/-- the proof of the example with points of 4 bytes -/
example : ∃ m : List (Container 4),
    verifyFS (fun k x => x ^^^ k.rotateLeft 3) (fun x j => BitVec.ofNat 8 (x.val + j)) toyPairing exampleParallel
      (Zk.honest toyPairing exampleParallel exampleCoins blankProver) blankTables = .ok m ∧
    (outputToFile m).length = 2104 := by
  obtain ⟨m, h⟩ := C23_fiat_shamir (by decide) (fun k x => x ^^^ k.rotateLeft 3)
      (fun (x : ZMod p) (j : Fin 4) => BitVec.ofNat 8 (x.val + j)) toyPairing exampleParallel exampleParallel_wf
      exampleParallel_ok
      (fun i hi => by
        have hi : i < 3 := by have : i + 1 < 4 := hi; omega
        interval_cases i <;> exact ⟨by decide, lt_trans (by decide : _ < 3) (by norm_num)⟩)
      exampleCoins exampleCoins_ok blankProver blankTables
  exact ⟨m, h, by rw [C56_size _ _ _ _ _ _ _ h]; decide +kernel⟩

/-! ## C57 -/

/-- C57 is false: whenever a prover is accepted, then for every list `w` of output values a prover that claims the
output `w`, and evaluates it correctly at the random point, is accepted as well, and leaves the same transcript and
the same proof file. -/
theorem C57_any_claim (mix : Mix) (enc : G1 → Fin B → BitVec 8) (E : Pairing G1 G2 GT) (C : Circuit)
    (hd : 2 ≤ C.depth) (A : ProverApi σ Fp G1 G2) (tables : VTables Fp) (P : σ) (out : ℕ → Fp)
    (hA : A.evaluate A.start = .ok (P, out)) (m : List (Container B))
    (h : verifyFS mix enc E C A tables = .ok m) (w : ℕ → Fp) :
    ∃ A' : ProverApi (σ × (ℕ → Fp) × Fp) Fp G1 G2,
      (∃ s, A'.evaluate A'.start = .ok (s, w)) ∧
      (∀ s r n, A'.vRes s (oneMinus r) r w n (2 ^ n) = mle n w r) ∧
      verifyFS mix enc E C A' tables = .ok m := by
  refine ⟨reclaim A C w, ⟨(P, out, 0), ?_⟩, fun s r n => foldOutput_spec (oneMinus r) _ _ _ (fun _ _ => rfl),
    by rw [reclaim_verifyFS mix enc E A C hd w tables, h]⟩
  change (A.evaluate A.start >>= _) = _
  rw [hA]; rfl

/-- C57 is false for the honest prover of every circuit: its proof file is also the proof file of an accepted prover
that claims any other output. So the file does not determine the claim it is meant to prove. -/
theorem C57_false (hB : 0 < B) (mix : Mix) (enc : G1 → Fin B → BitVec 8) (E : Pairing G1 G2 GT) (C : Circuit)
    (hwf : WellFormed true C) (hpar : ParallelOk C) (hlen : ∀ i, i + 1 < C.depth → 1 ≤ C.bl i ∧ C.bl i < 2 ^ 248)
    (coins : Coins Fp) (hco : CoinsOk C coins) (junk : Prover Fp G1 G2) (tables : VTables Fp) :
    ∃ m : List (Container B), verifyFS mix enc E C (Zk.honest E C coins junk) tables = .ok m ∧
      ∀ w : ℕ → Fp, ∃ (σ : Type) (A' : ProverApi σ Fp G1 G2) (m' : List (Container B)),
        (∃ s, A'.evaluate A'.start = .ok (s, w)) ∧
        (∀ s r n, A'.vRes s (oneMinus r) r w n (2 ^ n) = mle n w r) ∧
        verifyFS mix enc E C A' tables = .ok m' ∧ outputToFile m' = outputToFile m := by
  obtain ⟨m, h⟩ := C23_fiat_shamir hB mix enc E C hwf hpar hlen coins hco junk tables
  have hev := evaluate_ok (F := Fp) (var := .zk) (C := C) (by simpa using hwf.toEvaluable)
  obtain ⟨P, r, hP⟩ : ∃ P r, (Zk.honest E C coins junk).evaluate (Zk.honest E C coins junk).start = .ok (P, r) :=
    ⟨_, _, by simp only [Zk.honest, hev, Outcome.ok_bind, Outcome.pure_eq]; rfl⟩
  refine ⟨m, h, fun w => ?_⟩
  obtain ⟨A', h1, h2, h3⟩ := C57_any_claim mix enc E C hwf.deep _ tables P r hP m h w
  exact ⟨_, A', m, h1, h2, h3, rfl⟩

example := C57_false (B := 4) (by decide) (fun k x => x ^^^ k.rotateLeft 3)
  (fun (x : ZMod p) (j : Fin 4) => BitVec.ofNat 8 (x.val + j)) toyPairing exampleParallel exampleParallel_wf
  exampleParallel_ok
  (fun i hi => by
    have hi : i < 3 := by have : i + 1 < 4 := hi; omega
    interval_cases i <;> exact ⟨by decide, lt_trans (by decide : _ < 3) (by norm_num)⟩)
  exampleCoins exampleCoins_ok blankProver blankTables

end Libra.Props
