import Verif.Proofs.ParaUpdate

/-!
# `V_res` of the threaded prover
-/

namespace Libra.ParaTrack
open Libra Spec Finset Threads Threads.Prog FastTrack
variable {F : Type} [CommRing F]

theorem vResLoop_run (omr r : F) (a b : ℕ) (m : VLoc → F) :
    let m' := ((forRange a b (vResBody omr r)).run m).1
    (∀ j, a ≤ j → j < b → m' (.nout j) = m (.out (2 * j)) * omr + m (.out (2 * j + 1)) * r) := by
  intro m'
  have key := loop_inv (n := b - a) (s := m)
    (b := fun k m => ((vResBody omr r (a + k)).run m).1)
    (fun n (M : VLoc → F) =>
      (∀ j, a ≤ j → j < a + n → M (.nout j) = m (.out (2 * j)) * omr + m (.out (2 * j + 1)) * r) ∧
      ∀ j, M (.out j) = m (.out j))
    ⟨fun j _ h => by omega, fun _ => rfl⟩ (by
      rintro n - M ⟨h1, h2⟩
      simp only [vResBody, run_bind', run_get, run_set, shl_one, two_mul_or_one]
      refine ⟨fun j hj hj' => ?_, fun j => ?_⟩
      · by_cases e : j = a + n
        · subst e; rw [Function.update_self, h2, h2]
        · rw [Function.update_of_ne (by simpa using e), h1 j hj (by omega)]
      · rw [Function.update_of_ne (by simp), h2])
  have e : m' = loop (b - a) (fun k m => ((vResBody omr r (a + k)).run m).1) m :=
    run_forRange a b _ m
  rw [e]
  intro j h1 h2
  exact key.1 j h1 (by omega)

/-- what thread `id` of `V_res` writes -/
def vW (half : ℕ) (id : Fin numThreads) : VLoc → Prop
  | .nout j => j / (half / numThreads) = id
  | _ => False

/-- what the threads of `V_res` read -/
def vR (_id : Fin numThreads) : VLoc → Prop
  | .out _ => True
  | _ => False

theorem vRes_disjoint (omr r : F) (half : ℕ) :
    Threads.Disjoint vR (vW half) (fun id : Fin numThreads => vResThread omr r half id) := by
  refine ⟨fun id => ?_, fun i j hij l hi hj => ?_, fun i j hij l hi hj => ?_⟩
  · refine .forRange (fun j h1 h2 => ?_)
    have hb : 0 < half / numThreads := by
      rcases Nat.eq_zero_or_pos (half / numThreads) with h | h
      · rw [h] at h1 h2; omega
      · exact h
    have : j / (half / numThreads) = id := by
      rw [Nat.div_eq_iff hb]
      rw [Nat.add_mul, one_mul] at h2
      constructor <;> omega
    exact .bind' (.get trivial) fun _ => .bind' (.get trivial) fun _ => .set this
  · rcases l with k | k
    · exact hi
    · exact hj
  · rcases l with k | k
    · exact hi
    · exact hij (Fin.ext (hi.symm.trans hj))

/-- a round of `V_res` halves the table -/
theorem vResRound_spec {omr r : F} {n : ℕ} {m m' : VLoc → F} (h : VResRound omr r (2 ^ n) m m') :
    ∀ j < 2 ^ n, m' (.nout j) = m (.out (2 * j)) * omr + m (.out (2 * j + 1)) * r := by
  intro j hj
  rw [VResRound] at h
  split_ifs at h with h4
  · obtain ⟨h1, _⟩ := (vRes_disjoint omr r (2 ^ n)).joins h
    obtain ⟨k, rfl⟩ : ∃ k, n = k + 2 := by
      rcases n with _ | _ | k
      · norm_num [numThreads] at h4
      · norm_num [numThreads] at h4
      · exact ⟨k, rfl⟩
    have hq : 2 ^ (k + 2) / numThreads = 2 ^ k := by
      rw [numThreads, show 2 ^ (k + 2) = 4 * 2 ^ k by ring, Nat.mul_div_cancel_left _ (by norm_num)]
    have hlt : j / 2 ^ k < numThreads := by
      rw [Nat.div_lt_iff_lt_mul (Nat.two_pow_pos k), numThreads]
      calc j < 2 ^ (k + 2) := hj
        _ = 4 * 2 ^ k := by ring
    rw [h1 ⟨j / 2 ^ k, hlt⟩ (.nout j) (by change j / _ = _; rw [hq])]
    refine vResLoop_run omr r _ _ m j ?_ ?_
    · rw [hq]; exact Nat.div_mul_le_self _ _
    · rw [hq, mul_comm]; exact Nat.lt_mul_div_succ j (Nat.two_pow_pos k)
  · rw [h]
    exact vResLoop_run omr r _ _ m j (Nat.zero_le _) hj

/-- **`V_res` returns the same under every schedule** -/
theorem vRes_spec {omr r raw : ℕ → F} {n : ℕ} {x : F} (h : ∀ j < n, omr j = 1 - r j)
    (hx : VRes omr r raw n (2 ^ n) x) : x = mle n raw r := by
  obtain ⟨m, hm, rfl⟩ := hx
  have key : ∀ k m, VResLoop omr r raw (2 ^ n) k m → k ≤ n →
      ∀ i < 2 ^ (n - k), m (.out i) = foldK r k raw i := by
    intro k m hm
    induction hm with
    | init h0 => intro _ i hi; exact h0 i hi
    | @round k m m' _ hr ih =>
      intro hk i hi
      have e : (2 ^ n >>> k) >>> 1 = 2 ^ (n - (k + 1)) := by
        rw [← Nat.shiftRight_add, Nat.shiftRight_eq_div_pow, Nat.pow_div hk (by norm_num)]
      rw [e] at hr
      have hp := pow_sub_succ (n := n) (k := k) (by omega)
      change m' (.nout i) = _
      rw [vResRound_spec hr i hi, ih (by omega) _ (by omega), ih (by omega) _ (by omega),
        h k (by omega)]
      rfl
  rw [key n m hm le_rfl 0 (by simp), foldK_mle]

end Libra.ParaTrack
