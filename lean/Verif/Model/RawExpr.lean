import Verif.Model.U512
import Mathlib.Logic.Function.Iterate

/-!
# Statements on raw 512-bit values

The provers and verifiers often bypass the operators of `field_element` and compute on the 512-bit
integer `value` directly, e.g. `x.value = (a.value * r.value + b.value) % prime_field::mod`.
`Raw` is the syntax of such right-hand sides; `Raw.run` executes one with the limb operations of
`Verif.Model.U512`.
-/

namespace Libra

/-- Right-hand sides made of `.value` accesses, `prime_field::mod`, `field_element(n).value` and the
`u512b` operators. -/
inductive Raw where
  /-- the value of the `i`-th field element occurring in the statement -/
  | var (i : Nat)
  /-- `prime_field::mod` -/
  | modulus
  /-- `prime_field::field_element(n).value` -/
  | lit (n : Nat)
  | add (x y : Raw)
  | sub (x y : Raw)
  | mul (x y : Raw)
  /-- `x % prime_field::mod` -/
  | rem (x : Raw)
  /-- `if (x >= mod) x = x - mod` (`viaNeg = false`) or `... x = x + minus_mod_512` (`true`) -/
  | csub (viaNeg : Bool) (x : Raw)
  /-- the same with `while` instead of `if` -/
  | wsub (viaNeg : Bool) (x : Raw)
deriving DecidableEq, Repr

namespace Raw

/-- the body of the conditional reductions -/
def step (viaNeg : Bool) (v : U512) : U512 :=
  if v.ge PrimeField.mod512 then
    if viaNeg then v.add PrimeField.minusMod512 else v.sub PrimeField.mod512
  else v

/-- Execution with the code's 512-bit operations (prime_field.cpp:278-383, 450-461). -/
def run (env : Nat → U512) : Raw → U512
  | var i => env i
  | modulus => PrimeField.mod512
  | lit n => FE.ofInt n
  | add x y => (x.run env).add (y.run env)
  | sub x y => (x.run env).sub (y.run env)
  | mul x y => (x.run env).mul (y.run env)
  | rem x => (x.run env).mod
  | csub n x => step n (x.run env)
  -- a `while` loop: `toNat` many rounds are always enough, further rounds change nothing
  | wsub n x => (step n)^[(x.run env).toNat] (x.run env)

instance : Add Raw := ⟨add⟩
instance : Sub Raw := ⟨sub⟩
instance : Mul Raw := ⟨mul⟩

end Raw
end Libra
