import Verif.Model.Loop
import Mathlib.Logic.Relation

/-!
# Threads sharing memory

The threaded prover starts `NUM_THREADS` threads on the same arrays and joins them
(`std::thread`, prover_fast_para_track.cpp:32-36 and passim). A thread is a sequence of single loads
and stores; the threads are interleaved arbitrarily, access by access.

In C++11 a program with a data race has undefined behaviour, and a program without one behaves like
some interleaving. A data race is possible iff some interleaving reaches a state in which two threads
are about to access the same location and one of the two accesses is a store.
-/

namespace Libra.Threads

/-- The code of a thread: `L` are the memory locations, `F` the values. -/
inductive Prog (L F α : Type) where
  | ret (a : α)
  | load (l : L) (k : F → Prog L F α)
  | store (l : L) (x : F) (k : Prog L F α)

namespace Prog
variable {L F α β : Type}

/-- one program after the other -/
def bind : Prog L F α → (α → Prog L F β) → Prog L F β
  | ret a, f => f a
  | load l k, f => load l (fun x => (k x).bind f)
  | store l x k, f => store l x (k.bind f)

instance : Monad (Prog L F) where
  pure := ret
  bind := bind

/-- the value of a memory location -/
def get (l : L) : Prog L F F := load l ret

/-- an assignment to a memory location -/
def set (l : L) (x : F) : Prog L F Unit := store l x (ret ())

/-- `for (int i = a; i < b; ++i) body` -/
def forRange (a b : ℕ) (body : ℕ → Prog L F Unit) : Prog L F Unit :=
  loop (b - a) (fun k p => p.bind fun _ => body (a + k)) (ret ())

/-- `for (x : l) body`, the elements of a `std::vector` in order -/
def forIn' {γ : Type} (l : List γ) (body : γ → Prog L F Unit) : Prog L F Unit :=
  l.foldl (fun p x => p.bind fun _ => body x) (ret ())

/-- Execution without other threads: the final memory and the result. -/
def run [DecidableEq L] : Prog L F α → (L → F) → (L → F) × α
  | ret a, m => (m, a)
  | load l k, m => (k (m l)).run m
  | store l x k, m => k.run (Function.update m l x)

/-- The location a thread accesses next, and whether it stores. -/
def next : Prog L F α → Option (L × Bool)
  | ret _ => none
  | load l _ => some (l, false)
  | store l _ _ => some (l, true)

end Prog

variable {ι L F : Type} [DecidableEq ι] [DecidableEq L]

/-- The shared memory and what is left to do for each thread. -/
abbrev Config (ι L F : Type) := (L → F) × (ι → Prog L F Unit)

/-- One access of one thread. -/
inductive Step : Config ι L F → Config ι L F → Prop
  | load {m : L → F} {ts : ι → Prog L F Unit} (i : ι) {l : L} {k : F → Prog L F Unit}
      (h : ts i = .load l k) : Step (m, ts) (m, Function.update ts i (k (m l)))
  | store {m : L → F} {ts : ι → Prog L F Unit} (i : ι) {l : L} {x : F} {k : Prog L F Unit}
      (h : ts i = .store l x k) :
      Step (m, ts) (Function.update m l x, Function.update ts i k)

/-- some interleaving leads from one state to the other -/
def Reaches : Config ι L F → Config ι L F → Prop := Relation.ReflTransGen Step

/-- every thread has returned -/
def Finished (ts : ι → Prog L F Unit) : Prop := ∀ i, ts i = .ret ()

/-- Starting the threads in memory `m` and joining them can leave memory `m'`. -/
def Joins (m : L → F) (ts : ι → Prog L F Unit) (m' : L → F) : Prop :=
  ∃ ts', Reaches (m, ts) (m', ts') ∧ Finished ts'

/-- Two threads are about to access the same location, one of them with a store. -/
def Racy (c : Config ι L F) : Prop :=
  ∃ i j, i ≠ j ∧ ∃ l a b, (c.2 i).next = some (l, a) ∧ (c.2 j).next = some (l, b) ∧
    (a = true ∨ b = true)

/-- The threads have a data race. -/
def DataRace (m : L → F) (ts : ι → Prog L F Unit) : Prop := ∃ c, Reaches (m, ts) c ∧ Racy c

/-- Running the threads one after the other, in the given order. -/
def inOrder (ts : ι → Prog L F Unit) (order : List ι) (m : L → F) : L → F :=
  order.foldl (fun m i => ((ts i).run m).1) m

end Libra.Threads
