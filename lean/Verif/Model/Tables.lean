import Verif.Model.Loop
import Verif.Model.Poly
import Verif.Model.Circuit

/-!
# Table operations shared by the linear-time provers

Code fragments that occur literally in several functions of `prover_fast_track.cpp`,
`zk_prover.cpp`, `verifier_fast_track.cpp` and `zk_verifier.cpp`. Arithmetic is written with the
ring operations of an arbitrary commutative ring; at the ring `Fp` these are the limb operations of
the code, and the raw 512-bit statements `x.value = (...) % prime_field::mod` compute the same
element (`Props/RawStmts`).
-/

namespace Libra
variable {F : Type} [CommRing F]

/-- The doubling loop of the provers (e.g. prover_fast_track.cpp:200-209 for one table, with
`off = 0`; 211-220 with `off = first_half`):
```
for i < n: for j < (1 << i):
  T[j | (1 << i)] = T[j] * r[i + off];  T[j] = T[j] * one_minus_r[i + off];
``` -/
def doubling (r omr : ℕ → F) (off n : ℕ) (T : ℕ → F) : ℕ → F :=
  loop n (fun i T => loop (2 ^ i) (fun j T =>
    let T := Function.update T (j ||| 2 ^ i) (T j * r (i + off))
    Function.update T j (T j * omr (i + off))) T) T

/-- The doubling loop of the verifiers (verifier_fast_track.cpp:325-338): two separate passes. -/
def doubling2 (r omr : ℕ → F) (off n : ℕ) (T : ℕ → F) : ℕ → F :=
  loop n (fun i T =>
    let T := loop (2 ^ i) (fun j T => Function.update T (j ||| 2 ^ i) (T j * r (i + off))) T
    loop (2 ^ i) (fun j T => Function.update T j (T j * omr (i + off))) T) T

/-- `T[0] = x` -/
def setZero (T : ℕ → F) (x : F) : ℕ → F := Function.update T 0 x

/-- `fhalf[i & mask_fhalf] * shalf[i >> first_half]` with `mask_fhalf = (1 << first_half) - 1` -/
def halves (first : ℕ) (f s : ℕ → F) (i : ℕ) : F := f (i &&& (2 ^ first - 1)) * s (i >>> first)

/-- `T[i].b.value = (T[i].b.value + x) % mod` on an array of `linear_poly` -/
def addB (T : ℕ → LinearPoly F) (i : ℕ) (x : F) : ℕ → LinearPoly F :=
  Function.update T i { T i with b := (T i).b + x }

/-- One array in the body of `sumcheck_phase1_update` / `sumcheck_phase2_update`
(e.g. prover_fast_track.cpp:332-334 for `current_bit == 0`, 346-347 otherwise):
```
if current_bit == 0:  T[i].b = T[2i].b;               T[i].a = T[2i+1].b - T[i].b
else:                 T[i].b = T[2i].a * r + T[2i].b; T[i].a = T[2i+1].a * r + T[2i+1].b - T[i].b
``` -/
def bindStep (first : Bool) (r : F) (i : ℕ) (T : ℕ → LinearPoly F) : ℕ → LinearPoly F :=
  let g0 := i <<< 1
  let g1 := i <<< 1 ||| 1
  if first then
    let T := Function.update T i { T i with b := (T g0).b }
    Function.update T i { T i with a := (T g1).b - (T i).b }
  else
    let T := Function.update T i { T i with b := (T g0).a * r + (T g0).b }
    Function.update T i { T i with a := (T g1).a * r + (T g1).b - (T i).b }

/-- The accumulation at the end of the loop body (prover_fast_track.cpp:355-359). -/
def accumulate (A V B : LinearPoly F) (ret : QuadraticPoly F) : QuadraticPoly F :=
  { a := ret.a + A.a * V.a
    b := ret.b + A.a * V.b + A.b * V.a + B.a
    c := ret.c + A.b * V.b + B.b }

/-- The three arrays `V_mult_add`, `addV_array`, `add_mult_sum` of the provers. -/
structure Tabs (F : Type) where
  vMultAdd : ℕ → LinearPoly F
  addVArray : ℕ → LinearPoly F
  addMultSum : ℕ → LinearPoly F

/-- The initialisation loop of both phases (prover_fast_track.cpp:183-191 and 414-421,
zk_prover.cpp:402-410 and 824-831); only entries below `tot` are written. -/
def Tabs.init (tot : ℕ) (V : ℕ → F) (T : Tabs F) : Tabs F :=
  loop tot (fun i T =>
    { vMultAdd := Function.update T.vMultAdd i (LinearPoly.ofConst (V i))
      addVArray := Function.update T.addVArray i ⟨0, 0⟩
      addMultSum := Function.update T.addMultSum i ⟨0, 0⟩ }) T

/-- The table loop of the update functions (prover_fast_track.cpp:328-360 and 530-561): `m` is
`total_uv >> 1`, `first` is `current_bit == 0`, `r` is `previous_random`. The functions differ only
in the order of the summands of `ret.b`. -/
def Tabs.round (first : Bool) (r : F) (m : ℕ) (T : Tabs F) : Tabs F × QuadraticPoly F :=
  loop m (fun i (s : Tabs F × QuadraticPoly F) =>
    let V := bindStep first r i s.1.vMultAdd
    let B := bindStep first r i s.1.addVArray
    let A := bindStep first r i s.1.addMultSum
    (⟨V, B, A⟩, accumulate (A i) (V i) (B i) s.2)) (T, ⟨0, 0, 0⟩)

/-- `V_res` (prover_fast_track.cpp:8-33, zk_prover.cpp:27-52) and `V_in`
(verifier_fast_track.cpp:383-401, zk_verifier.cpp): the output array is copied and halved in place,
`output_size` is shifted down every round. The test `res.value < 0` on an unsigned value is never
true and is dropped. -/
def foldOutput (omr r : ℕ → F) (raw : ℕ → F) (rSize outputSize : ℕ) : F :=
  (loop rSize (fun i (s : (ℕ → F) × ℕ) =>
    (loop (s.2 >>> 1) (fun j out =>
      Function.update out j (out (j <<< 1) * omr i + out (j <<< 1 ||| 1) * r i)) s.1, s.2 >>> 1))
    (raw, outputSize)).1 0

/-- The switch of `sumcheck_phase1_init` for gate `i` (prover_fast_track.cpp:229-313,
zk_prover.cpp:466-605; the zk version adds the types 12 and 13). `V` is
`circuit_value[sumcheck_layer_id - 1]`, `tmpG i` the product of the half tables at `i`. The exp-sum loop (type 12) doubles `tmp` after each term. -/
def phase1Gate (var : Variant) (tmpG : ℕ → F) (V : ℕ → F) (g : Gate) (i : ℕ)
    (T : Tabs F) : Tabs F :=
  let u := g.u.toNat
  let v := g.v.toNat
  let tmp := tmpG i
  if g.ty = 0 then
    { T with addMultSum := addB T.addMultSum u tmp, addVArray := addB T.addVArray u (V v * tmp) }
  else if g.ty = 1 then { T with addMultSum := addB T.addMultSum u (V v * tmp) }
  else if g.ty = 4 then { T with addMultSum := addB T.addMultSum u (tmpG u) }
  else if g.ty = 5 then { T with addMultSum := loopFrom u v (fun j A => addB A j tmp) T.addMultSum }
  else if g.ty = 6 then
    { T with addMultSum := addB T.addMultSum u (-tmp), addVArray := addB T.addVArray u tmp }
  else if g.ty = 7 then
    { T with addMultSum := addB T.addMultSum u tmp, addVArray := addB T.addVArray u (-(V v * tmp)) }
  else if g.ty = 8 then
    { T with addMultSum := addB T.addMultSum u (tmp - 2 * V v * tmp),
             addVArray := addB T.addVArray u (tmp * V v) }
  else if g.ty = 9 then
    { T with addMultSum := addB T.addMultSum u (-(V v * tmp)),
             addVArray := addB T.addVArray u (tmp * V v) }
  else if g.ty = 10 then { T with addMultSum := addB T.addMultSum u tmp }
  else if var = .zk ∧ g.ty = 12 then
    { T with addMultSum := (loopFrom u (g.v + 1).toNat (fun j (s : (ℕ → LinearPoly F) × F) =>
      (addB s.1 j s.2, s.2 + s.2)) (T.addMultSum, tmp)).1 }
  else if var = .zk ∧ g.ty = 13 then
    { T with addMultSum := addB T.addMultSum u (-(tmp * V v) + tmp) }
  else T

/-- The switch of `sumcheck_phase2_init` for gate `i` (prover_fast_track.cpp:426-515,
zk_prover.cpp:858-995). `tmpU j` is the product of the half tables of `r_u` at `j`. Only the plain
prover asserts `v == 0` for relay gates. -/
def phase2Gate (var : Variant) (tmpG tmpU : ℕ → F) (vU : F) (g : Gate) (i : ℕ)
    (T : Tabs F) : Outcome (Tabs F) :=
  let u := g.u.toNat
  let v := g.v.toNat
  let tmp := tmpG i * tmpU u
  if g.ty = 1 then pure { T with addMultSum := addB T.addMultSum v (tmp * vU) }
  else if g.ty = 0 then pure
    { T with addMultSum := addB T.addMultSum v tmp,
             addVArray := addB T.addVArray v (tmp * vU) }
  else if g.ty = 5 then
    pure
    { T with addVArray := loopFrom u v (fun j B => addB B 0 (tmpG i * vU * tmpU j)) T.addVArray }
  else if g.ty = 6 then pure { T with addVArray := addB T.addVArray v (tmp - tmp * vU) }
  else if g.ty = 7 then pure
    { T with addMultSum := addB T.addMultSum v (-tmp),
             addVArray := addB T.addVArray v (tmp * vU) }
  else if g.ty = 8 then pure
    { T with addMultSum := addB T.addMultSum v (tmp - 2 * vU * tmp),
             addVArray := addB T.addVArray v (tmp * vU) }
  else if g.ty = 9 then pure { T with addMultSum := addB T.addMultSum v (tmp - vU * tmp) }
  else if g.ty = 10 then do
    Outcome.assert (var == .zk || g.v == 0)
    pure { T with addVArray := addB T.addVArray v (tmp * vU) }
  else if var = .zk ∧ g.ty = 12 then
    pure { T with addVArray := (loopFrom u (g.v + 1).toNat (fun j (s : (ℕ → LinearPoly F) × F) =>
      (addB s.1 0 (s.2 * tmpU j), s.2 + s.2)) (T.addVArray, tmpG i * vU)).1 }
  else if var = .zk ∧ g.ty = 13 then pure
    { T with addMultSum := addB T.addMultSum v (-(tmp * vU)),
             addVArray := addB T.addVArray v (tmp * vU) }
  else pure T

end Libra
