import Verif.Proofs.TradReader
import Verif.Props.Blocked

/-!
# C75, C76, C77: the readers and the programs of the traditional protocols
-/

namespace Libra.Props
open Libra Spec FastTrack TradReader

/-! ## C75: the reader -/

/-- A file with at least one layer, no empty layer and gates numbered in order is read as the
circuit it describes, whatever follows it. -/
theorem C75_read (f : File) (rest : List ℤ) (hr : TradReadable f) (hn : ∀ L ∈ f, Numbered L) :
    readTrad (tokens f ++ rest) = .ok (tradCircuitOf f) :=
  readTrad_ok f rest hr hn

/-- That circuit has the layers of the file; the number of gates of a layer is the least power of two,
at least 2, that is not smaller than the number of lines; gate `g` is line `g`. -/
theorem C75_circuit (f : File) :
    (tradCircuitOf f).depth = f.length ∧ ∀ i (h : i < f.length),
      IsLeast {k | 1 ≤ k ∧ f[i].length ≤ 2 ^ k} ((tradCircuitOf f).bl i) ∧
      (∀ g (hg : g < f[i].length),
        (tradCircuitOf f).gate i g = ⟨f[i][g].ty, f[i][g].u, f[i][g].v⟩) ∧
      (f[i].length = 1 → (tradCircuitOf f).gate i 1 = ⟨2, 0, 0⟩) :=
  ⟨tradCircuitOf_depth f, fun i h => ⟨by rw [tradCircuitOf_bl f i h]; exact Reader.width_isLeast _,
    fun g hg => tradCircuitOf_gate f i h g hg, tradCircuitOf_dummy f i h⟩⟩

/-- Two layers: the inputs 5 and 7; their sum and product. -/
def tradFile : File :=
  [[⟨3, 0, 5, 0⟩, ⟨3, 1, 7, 0⟩], [⟨0, 0, 0, 1⟩, ⟨1, 1, 1, 0⟩], [⟨1, 0, 0, 1⟩]]

theorem tradFile_good : AddMultFile tradFile where
  readable := by
    refine ⟨by decide, by decide, fun L hL => ?_⟩
    simp only [tradFile, List.mem_cons, List.not_mem_nil, or_false] at hL
    rcases hL with rfl | rfl | rfl <;> refine ⟨by decide, by decide, ?_⟩ <;> intro l hl <;>
      simp only [List.mem_cons, List.not_mem_nil, or_false] at hl
    · rcases hl with rfl | rfl <;> norm_num [Line.Ints]
    · rcases hl with rfl | rfl <;> norm_num [Line.Ints]
    · subst hl; norm_num [Line.Ints]
  numbered := by
    intro L hL
    simp only [tradFile, List.mem_cons, List.not_mem_nil, or_false] at hL
    rcases hL with rfl | rfl | rfl <;> unfold Numbered <;> decide
  full := by
    intro L hL
    simp only [tradFile, List.mem_cons, List.not_mem_nil, or_false] at hL
    rcases hL with rfl | rfl | rfl
    · exact ⟨1, rfl⟩
    · exact ⟨1, rfl⟩
    · exact ⟨0, rfl⟩
  inputs := by decide
  shallow := by decide
  gates := by
    intro i h
    obtain hi | hi : i = 0 ∨ i = 1 := by change i + 1 < 3 at h; omega
    all_goals
      subst hi
      revert h
      unfold Wire
      decide +kernel

example : readTrad (tokens tradFile ++ [17]) = .ok (tradCircuitOf tradFile) :=
  C75_read tradFile [17] tradFile_good.readable tradFile_good.numbered

/-- `evaluate()` on the circuit of a good file computes what the lines of the file say: line `g` of the
first layer is an input, a line `0 g u v` (`1 g u v`) of a later layer is the sum (product) of the
values of the lines `u` and `v` of the layer before, a line `2 g u v` is zero. -/
theorem C75_value {F : Type} [CommRing F] (f : File) (hf : AddMultFile f) (hd : f.length ≤ 1000) :
    ∃ vals : List (List F), Cmt.evaluate (tradCircuitOf f) = .ok vals ∧
      (∀ g (h0 : 0 < f.length) (hg : g < f[0].length),
        valueFn vals 0 g = (inputNumber f[0][g].u : F)) ∧
      ∀ i (h : i + 1 < f.length) g (hg : g < f[i + 1].length),
        (f[i + 1][g].ty = 0 → valueFn vals (i + 1) g =
          valueFn vals i f[i + 1][g].u.toNat + valueFn vals i f[i + 1][g].v.toNat) ∧
        (f[i + 1][g].ty = 1 → valueFn vals (i + 1) g =
          valueFn vals i f[i + 1][g].u.toNat * valueFn vals i f[i + 1][g].v.toNat) ∧
        (f[i + 1][g].ty = 2 → valueFn vals (i + 1) g = 0) := by
  obtain ⟨vals, e, hv⟩ := C38_evaluate (F := F) (tradCircuitOf f)
    { addMult_wf hf with small := by rw [tradCircuitOf_depth]; omega }
  have hdep := tradCircuitOf_depth f
  have hlt : ∀ i (h : i < f.length), ∀ g < f[i].length, g < 2 ^ (tradCircuitOf f).bl i := by
    intro i h g hg
    rw [tradCircuitOf_bl f i h]
    exact lt_of_lt_of_le hg (Reader.width_isLeast _).1.2
  refine ⟨vals, e, fun g h0 hg => ?_, fun i h g hg => ?_⟩
  · rw [hv 0 (by omega) g (hlt 0 h0 g hg), value, tradCircuitOf_gate f 0 h0 g hg, inputValue]
    have hm : f[0][g] ∈ f[0] := List.getElem_mem _
    have hh : f.headD [] = f[0] := by
      cases f with
      | nil => simp at h0
      | cons => rfl
    rcases hf.inputs f[0][g] (by rw [hh]; exact hm) with h3 | ⟨h2, hu⟩
    · rw [if_pos (show (gate f[0][g]).ty = 3 from h3)]; rfl
    · rw [if_neg (show ¬ (gate f[0][g]).ty = 3 by change ¬ f[0][g].ty = 3; omega), hu]
      simp [inputNumber]
  · have hval : valueFn vals (i + 1) g = gateValue (gate f[i + 1][g])
        (fun k => (value (tradCircuitOf f) i k.toNat : F)) := by
      rw [hv (i + 1) (by omega) g (hlt (i + 1) h g hg), value, tradCircuitOf_gate f (i + 1) h g hg]
    have hwire : f[i + 1][g].ty ≠ 2 →
        valueFn vals i f[i + 1][g].u.toNat = (value (tradCircuitOf f) i f[i + 1][g].u.toNat : F) ∧
        valueFn vals i f[i + 1][g].v.toNat = (value (tradCircuitOf f) i f[i + 1][g].v.toNat : F) := by
      intro hne
      rcases hf.gates i h _ (List.getElem_mem hg) with ⟨-, ⟨u0, u1⟩, v0, v1⟩ | h2
      · rw [← tradCircuitOf_bl f i (by omega)] at u1 v1
        have hb : ((2 ^ (tradCircuitOf f).bl i : ℕ) : ℤ) = 2 ^ (tradCircuitOf f).bl i := by push_cast; rfl
        exact ⟨hv i (by omega) _ (by omega), hv i (by omega) _ (by omega)⟩
      · exact absurd h2 hne
    have ety : (gate f[i + 1][g]).ty = f[i + 1][g].ty := rfl
    have eu : (gate f[i + 1][g]).u = f[i + 1][g].u := rfl
    have ev : (gate f[i + 1][g]).v = f[i + 1][g].v := rfl
    refine ⟨fun ht => ?_, fun ht => ?_, fun ht => ?_⟩
    · rw [hval, (hwire (by omega)).1, (hwire (by omega)).2]
      simp [gateValue, ety, eu, ev, ht]
    · rw [hval, (hwire (by omega)).1, (hwire (by omega)).2]
      simp [gateValue, ety, eu, ev, ht]
    · rw [hval]
      simp [gateValue, ety, ht]

example : ∃ vals : List (List ℤ), Cmt.evaluate (tradCircuitOf tradFile) = .ok vals ∧
    valueFn vals 2 0 = (5 + 7) * (7 * 5) := by
  obtain ⟨vals, e, h0, hg⟩ := C75_value (F := ℤ) tradFile tradFile_good (by decide)
  refine ⟨vals, e, ?_⟩
  have a := (hg 1 (by decide) 0 (by decide)).2.1 rfl
  have b := (hg 0 (by decide) 0 (by decide)).1 rfl
  have c := (hg 0 (by decide) 1 (by decide)).2.1 rfl
  have d := h0 0 (by decide) (by decide)
  have e := h0 1 (by decide) (by decide)
  change valueFn vals 2 0 = valueFn vals 1 0 * valueFn vals 1 1 at a
  change valueFn vals 1 0 = valueFn vals 0 0 + valueFn vals 0 1 at b
  change valueFn vals 1 1 = valueFn vals 0 1 * valueFn vals 0 0 at c
  change valueFn vals 0 0 = 5 at d
  change valueFn vals 0 1 = 7 at e
  rw [a, b, c, d, e]

/-- Unlike the reader of the zero-knowledge program, this reader accepts lines in any order. The
bit length is computed from the last line: two input lines in the reverse order give
a layer with one gate (bit length 0). -/
theorem C75_order_unchecked : ∃ (file : List ℤ) (C : Circuit),
    file = tokens [[⟨3, 1, 5, 0⟩, ⟨3, 0, 7, 0⟩], [⟨0, 0, 0, 1⟩, ⟨1, 1, 1, 0⟩]] ∧
    readTrad file = .ok C ∧ C.bl 0 = 0 ∧ C.bl 1 = 1 ∧
    (Cmt.evaluate C : Outcome (List (List ℤ))) = .undefined :=
  ⟨_, ⟨[{ gates := [some ⟨3, 7, 0⟩, some ⟨3, 5, 0⟩], bitLength := 0 },
    { gates := [some ⟨0, 0, 1⟩, some ⟨1, 1, 0⟩], bitLength := 1 }]⟩, rfl, by decide +kernel, rfl, rfl,
    by decide +kernel⟩

/-! ## C76: `bc_clogc` -/

theorem maxBitLength_le {C : Circuit} {k : ℕ} (h : ∀ L ∈ C.layers, L.bitLength ≤ k) :
    maxBitLength C ≤ k := by
  unfold maxBitLength
  have key : ∀ (ls : List Layer) (m : ℕ), m ≤ k → (∀ L ∈ ls, L.bitLength ≤ k) →
      ls.foldl (fun m L => max m L.bitLength) m ≤ k := by
    intro ls
    induction ls with
    | nil => intro m hm _; exact hm
    | cons L ls ih =>
      intro m hm hls
      exact ih _ (max_le hm (hls L (by simp))) (fun x hx => hls x (by simp [hx]))
  exact key _ 0 (Nat.zero_le _) h

theorem readBlocked_ok {f : File} (rest : List ℤ) (hf : AddMultFile f) {n lg : ℕ} (hn : 0 < n)
    (hs : ∀ L ∈ f, width L.length + lg ≤ 30) :
    readBlocked (tokens f ++ rest) n lg = .ok ⟨fun _ => tradCircuitOf f, n, lg⟩ := by
  have hne := hf.readable.1
  have hlg : lg ≤ 30 := by
    cases f with
    | nil => exact absurd rfl hne
    | cons L f => have := hs L (by simp); omega
  have hm : maxBitLength (tradCircuitOf f) ≤ 30 - lg := by
    refine maxBitLength_le (fun L hL => ?_)
    obtain ⟨L', hL', rfl⟩ := List.mem_map.1 hL
    have := hs L' hL'
    change width L'.length ≤ 30 - lg
    omega
  unfold readBlocked
  rw [if_neg (by omega), if_neg (by omega), readTrad_ok f rest hf.readable hf.numbered, Outcome.ok_bind,
    if_neg (by omega)]
  rfl

/-- The program `bc_clogc` prints "Verification Pass" for every good file, every number of copies
and every number `log` with `2 <= 2^log <= copies`, whatever the random values and
the content of uninitialised memory. -/
theorem C76_pass (f : File) (rest : List ℤ) (hf : AddMultFile f) (hw : DummyWires f) (n lg : ℕ)
    (hlg : 1 ≤ lg) (hn : 2 ^ lg ≤ n) (hs : ∀ L ∈ f, width L.length + lg ≤ 30)
    (junk : Blocked.Prover Fp) (tables : BetaTables Fp) (ch : Blocked.BlockChallenges Fp) :
    bcClogc (tokens f ++ rest) n lg junk tables ch = .ok true := by
  unfold bcClogc
  rw [readBlocked_ok rest hf (lt_of_lt_of_le (Nat.two_pow_pos lg) hn) hs, Outcome.ok_bind,
    C47_complete _ (repeats_of_file hf hw hlg hn) junk tables ch]
  rfl

theorem tradFile_wires : DummyWires tradFile := by
  intro i h
  obtain hi | hi : i = 0 ∨ i = 1 := by change i + 1 < 3 at h; omega
  all_goals
    subst hi
    revert h
    unfold Wire
    decide +kernel

example (junk : Blocked.Prover Fp) (tables : BetaTables Fp) (ch : Blocked.BlockChallenges Fp) :
    bcClogc (tokens tradFile ++ []) 11 3 junk tables ch = .ok true :=
  C76_pass tradFile [] tradFile_good tradFile_wires 11 3 (by decide) (by decide) (by decide) junk tables ch

/-- If the two numbers of the command line do not fit, nothing is printed that could be relied on: with
fewer copies than `2^log` the run is not a defined execution. -/
theorem C76_few_copies (f : File) (rest : List ℤ) (hf : AddMultFile f) (n lg : ℕ) (hn : n < 2 ^ lg)
    (junk : Blocked.Prover Fp) (tables : BetaTables Fp) (ch : Blocked.BlockChallenges Fp) :
    bcClogc (tokens f ++ rest) n lg junk tables ch ≠ .ok true := by
  unfold bcClogc
  intro h
  obtain ⟨B, e, h⟩ := Outcome.bind_eq_ok' h
  obtain ⟨b, e', h⟩ := Outcome.bind_eq_ok' h
  have hB : B.total = n ∧ B.log = lg := by
    unfold readBlocked at e
    split_ifs at e
    obtain ⟨C, -, e⟩ := Outcome.bind_eq_ok' e
    split_ifs at e
    cases e
    exact ⟨rfl, rfl⟩
  have hv := C47_few_blocks B (by rw [hB.1, hB.2]; exact hn) (Blocked.honest B junk) tables ch
  revert e'
  cases hc : Blocked.verify B (Blocked.honest B junk) tables ch with
  | ok u => exact absurd hc hv
  | reject => intro e'; cases e'; cases h
  | _ => intro e'; cases e'

example (junk : Blocked.Prover Fp) (tables : BetaTables Fp) (ch : Blocked.BlockChallenges Fp) :
    bcClogc (tokens tradFile ++ []) 7 3 junk tables ch ≠ .ok true :=
  C76_few_copies tradFile [] tradFile_good 7 3 (by decide) junk tables ch

/-- With `log = 0` (a single copy) the run is not a defined execution either, if there are two layers. -/
theorem C76_one_copy (f : File) (rest : List ℤ) (hf : AddMultFile f) (hd : 2 ≤ f.length) (n : ℕ)
    (junk : Blocked.Prover Fp) (tables : BetaTables Fp) (ch : Blocked.BlockChallenges Fp) :
    bcClogc (tokens f ++ rest) n 0 junk tables ch ≠ .ok true := by
  unfold bcClogc
  intro h
  obtain ⟨B, e, h⟩ := Outcome.bind_eq_ok' h
  obtain ⟨b, e', h⟩ := Outcome.bind_eq_ok' h
  have hB : B.log = 0 ∧ B.blocks 0 = tradCircuitOf f := by
    unfold readBlocked at e
    split_ifs at e
    obtain ⟨C, hC, e⟩ := Outcome.bind_eq_ok' e
    split_ifs at e
    cases e
    rw [readTrad_ok f rest hf.readable hf.numbered] at hC
    cases hC
    exact ⟨rfl, rfl⟩
  have hv := C47_one_block B hB.1 (by rw [hB.2, tradCircuitOf_depth]; exact hd) junk tables ch
  revert e'
  cases hc : Blocked.verify B (Blocked.honest B junk) tables ch with
  | ok u => exact absurd hc hv
  | reject => intro e'; cases e'; cases h
  | _ => intro e'; cases e'

/-- All copies compute the same: the program reads one file for all of them, and
there is no way to give a copy inputs of its own. -/
theorem C76_same_inputs (file : List ℤ) (n lg : ℤ) (B : Blocked.BlockedCircuit)
    (h : readBlocked file n lg = .ok B) :
    ∃ C, readTrad file = .ok C ∧ ∀ b i g, (blockValue B i b g : Fp) = value C i g := by
  unfold readBlocked at h
  split_ifs at h
  obtain ⟨C, hC, e⟩ := Outcome.bind_eq_ok' h
  split_ifs at e
  cases e
  exact ⟨C, hC, fun _ _ _ => rfl⟩

/-! ## C77: `bclogc` -/

/-- The program `bclogc` prints "Verification Pass" for every good file of at most 1000 layers and every
number of copies, whatever the random values and the content of uninitialised memory. -/
theorem C77_pass (f : File) (rest : List ℤ) (hf : AddMultFile f) (hd : f.length ≤ 1000) (n : ℕ)
    (junk : ℕ → Cmt.Prover Fp) (tables : ℕ → BetaTables Fp) (ch : ℕ → Challenges Fp) :
    bclogc (tokens f ++ rest) n junk tables ch = .ok true := by
  unfold bclogc
  rw [if_neg (by omega)]
  have hwf : AddMult (tradCircuitOf f) :=
    { addMult_wf hf with small := by rw [tradCircuitOf_depth]; omega }
  have key : ∀ k, loopM k (fun i finalResult => do
      let C ← readTrad (tokens f ++ rest)
      let result ← toBool (Cmt.verify C (Cmt.honest C (junk i)) (tables i) (ch i))
      return finalResult && result) true = .ok true := by
    intro k
    induction k with
    | zero => rfl
    | succ k ih =>
      rw [loopM_succ, ih, Outcome.bind_ok, readTrad_ok f rest hf.readable hf.numbered, Outcome.ok_bind,
        C38_complete _ hwf]
      rfl
  exact key _

example (junk : ℕ → Cmt.Prover Fp) (tables : ℕ → BetaTables Fp) (ch : ℕ → Challenges Fp) :
    bclogc (tokens tradFile ++ []) 5 junk tables ch = .ok true :=
  C77_pass tradFile [] tradFile_good (by decide) 5 junk tables ch

/-- "Verification Pass" is printed exactly when all runs accept: one run whose `verify()` returns
false makes the program print "Verification Fail". -/
theorem C77_exact (file : List ℤ) (n : ℕ) (C : Circuit) (hC : readTrad file = .ok C)
    (junk : ℕ → Cmt.Prover Fp) (tables : ℕ → BetaTables Fp) (ch : ℕ → Challenges Fp)
    (hdef : ∀ i < n, Cmt.verify C (Cmt.honest C (junk i)) (tables i) (ch i) = .ok () ∨
      Cmt.verify C (Cmt.honest C (junk i)) (tables i) (ch i) = .reject) :
    ∃ b, bclogc file n junk tables ch = .ok b ∧
      (b = true ↔ ∀ i < n, Cmt.verify C (Cmt.honest C (junk i)) (tables i) (ch i) = .ok ()) := by
  unfold bclogc
  rw [if_neg (by omega), Int.toNat_natCast]
  induction n with
  | zero => exact ⟨true, rfl, by simp⟩
  | succ n ih =>
    obtain ⟨b, e, hb⟩ := ih (fun i hi => hdef i (by omega))
    rw [loopM_succ, e, Outcome.bind_ok, hC, Outcome.ok_bind]
    rcases hdef n (by omega) with h | h
    · rw [h]
      refine ⟨b && true, rfl, ?_⟩
      rw [Bool.and_true, hb]
      constructor
      · intro hall i hi
        by_cases hin : i = n
        · rw [hin]; exact h
        · exact hall i (by omega)
      · exact fun hall i hi => hall i (by omega)
    · rw [h]
      refine ⟨b && false, rfl, ?_⟩
      rw [Bool.and_false]
      constructor
      · intro hc; cases hc
      · intro hall
        have := hall n (by omega)
        rw [h] at this
        cases this

/-- Without a copy the program prints "Verification Pass" for every file, even one that is no circuit:
nothing is read and nothing is verified. -/
theorem C77_no_copy (file : List ℤ) (junk : ℕ → Cmt.Prover Fp) (tables : ℕ → BetaTables Fp)
    (ch : ℕ → Challenges Fp) : bclogc file 0 junk tables ch = .ok true := rfl

end Libra.Props
