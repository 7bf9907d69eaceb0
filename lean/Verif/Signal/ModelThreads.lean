import Verif.Cpp

/-!
# Signals: emissions by several threads

`operator()` is a constant member function, but it writes to the member `m_slotIterator`, which is mutable (Signal.hpp:76): emissions of one signal by several threads share it.
The model interleaves the steps of the threads; a step is one access to the member (in favour of the code: accesses without synchronization are undefined, and `++` is two accesses).
The callbacks leave the signal as it is.
-/

namespace Verif.Signal.Threads
open Verif.Cpp

/-- Where a thread is in `operator()`, Signal.inl:181-182: before the loop, before the test, before the call, before the increment, after the loop. -/
inductive Pc
  | start | test | call | inc | done
  deriving DecidableEq, Repr

/-- The shared `m_slotIterator`, and for each thread its position in the code and the slots that it has called. -/
structure St where
  iter : Nat
  pc : Nat → Pc
  called : Nat → List Nat

/-- All threads are about to emit the signal. -/
def St.init : St := ⟨0, fun _ => .start, fun _ => []⟩

/-- Thread `t` goes on to `p`. -/
def St.goto (σ : St) (t : Nat) (p : Pc) : St := ⟨σ.iter, fun u => if u = t then p else σ.pc u, σ.called⟩

/-- One step of thread `t` in `operator()`, Signal.inl:181-182, of a signal with the slots `slots`. -/
def step (slots : List Nat) (t : Nat) (σ : St) : M St :=
  match σ.pc t with
  | .start => pure { σ.goto t .test with iter := 0 }
  | .test => pure (if σ.iter < slots.length then σ.goto t .call else σ.goto t .done)
  | .call => do
    let s ← rd slots σ.iter
    pure { σ.goto t .inc with called := fun u => if u = t then σ.called u ++ [s] else σ.called u }
  | .inc => pure { σ.goto t .test with iter := σ.iter + 1 }
  | .done => pure σ

/-- The threads run in the order of the schedule. -/
def run (slots : List Nat) (schedule : List Nat) (σ : St) : M St := schedule.foldlM (fun σ t => step slots t σ) σ

end Verif.Signal.Threads
