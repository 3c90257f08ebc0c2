import Mathlib.Data.Nat.Notation
import Mathlib.Logic.Function.Basic

/-!
# Loops and outcomes

`for (int i = 0; i < n; ++i) body` is `loop n body`. C arrays are total functions `ℕ → α`, an
assignment `a[i] = x` is `Function.update a i x`.
-/

namespace Libra

/-- `for (int i = 0; i < n; ++i) s = body(i, s)` -/
def loop {σ : Type _} (n : ℕ) (body : ℕ → σ → σ) (s : σ) : σ :=
  match n with
  | 0 => s
  | n + 1 => body n (loop n body s)

/-- `for (int i = a; i < b; ++i) s = body(i, s)` -/
def loopFrom {σ : Type _} (a b : ℕ) (body : ℕ → σ → σ) (s : σ) : σ :=
  loop (b - a) (fun k => body (a + k)) s

/-- Result of running C++ code: a value, a failed `assert`, a call to `exit`, undefined behaviour
(out-of-bounds or uninitialised access), or a loop that does not terminate. `reject` is used for
the verifiers: `verify()` prints "Verification fail" and returns `false`. -/
inductive Outcome (α : Type _) where
  | ok (a : α)
  | reject
  | assertFail
  | exit
  | undefined
  | diverges
deriving Repr, DecidableEq

namespace Outcome
/-- sequencing: the first abnormal outcome stops the program -/
def bind {α β : Type _} (x : Outcome α) (f : α → Outcome β) : Outcome β :=
  match x with
  | ok a => f a
  | reject => reject
  | assertFail => assertFail
  | exit => exit
  | undefined => undefined
  | diverges => diverges

instance : Monad Outcome where
  pure := ok
  bind := bind

/-- `assert(c)` -/
def assert (c : Bool) : Outcome Unit := if c then ok () else assertFail

/-- reading a memory cell that may not exist or not be initialised -/
def read {α : Type _} (x : Option α) : Outcome α :=
  match x with
  | some a => ok a
  | none => undefined

/-- `if(!c) { fprintf(stderr, "Verification fail ..."); return false; }` -/
def check (c : Bool) : Outcome Unit := if c then ok () else reject

end Outcome

/-- `for (int i = 0; i < n; ++i) body` where the body may stop the program or return early -/
def loopM {σ : Type _} (n : ℕ) (body : ℕ → σ → Outcome σ) (s : σ) : Outcome σ :=
  match n with
  | 0 => .ok s
  | n + 1 => (loopM n body s).bind (body n)

/-- `for (int i = n; i >= 1; --i) body` where the body may stop the program or return early -/
def loopDownM {σ : Type _} (n : ℕ) (body : ℕ → σ → Outcome σ) (s : σ) : Outcome σ :=
  match n with
  | 0 => .ok s
  | n + 1 => (body (n + 1) s).bind (loopDownM n body)

end Libra
