import Verif.Signal.Model

/-!
# Signals: whole programs whose callbacks create, destroy and move signals

Here the callbacks may do to signals whatever the rest of the program may do: create, destroy and move them, connect, disconnect, clear, emit, and throw
exceptions.  A program is a function that says, from all that has happened so far, what is done next by the code that runs (the callback that was called last and has not ended, or the
main function), or that this code ends.  The log of what happened is kept apart from the world: it is not part of the code.

Not modelled here: see Model.lean; the self-move of a signal.
-/

namespace Verif.Signal
open Verif.Cpp

/-- What happened: the events of Model.lean, those of the lives of signals, and the ends of emissions by exceptions. -/
inductive EventL where
  | ev (e : Event)
  | create (s : Nat)
  | destroy (s : Nat)
  | moveConstruct (s t : Nat)
  | moveAssign (s t : Nat)
  /-- an exception left the emission of the signal -/
  | threw (s : Nat)
  deriving DecidableEq

/-- What is done next. -/
inductive ActionL where
  | act (x : Action)
  | create (s : Nat)
  | destroy (s : Nat)
  /-- `Signal s(std::move(t))` -/
  | moveConstruct (s t : Nat)
  /-- `s = std::move(t)` -/
  | moveAssign (s t : Nat)
  /-- an emission in a `try` block that swallows exceptions -/
  | tryEmit (s arg : Nat)
  | throw
  deriving DecidableEq

/-- What the code that runs does next; `none`: it ends. -/
abbrev Program := List EventL → Option ActionL

/-- A world and what happened so far. -/
abbrev State := World × List EventL

/-- One action, `em` being the emission of a signal.  The second component of results tells whether there is an exception. -/
def ActionL.run (em : Nat → Nat → State → M (State × Bool)) : ActionL → State → M (State × Bool)
  | .act (.connect s cb), x => do
    let r ← Signal.connect s cb x.1
    pure ((r.1, x.2 ++ [.ev (.connect s r.2 cb)]), false)
  | .act (.disconnect id), x => do
    let w ← Signal.disconnect (some id) x.1
    pure ((w, x.2 ++ [.ev (.disconnect id)]), false)
  | .act (.clear s), x => do
    let w ← Signal.clear s x.1
    pure ((w, x.2 ++ [.ev (.clear s)]), false)
  | .act (.emit s a), x => em s a x
  | .create s, x => pure ((newSignal s x.1, x.2 ++ [.create s]), false)
  | .destroy s, x => do
    let w ← destroySignal s x.1
    pure ((w, x.2 ++ [.destroy s]), false)
  | .moveConstruct s t, x => do
    let w ← Signal.moveConstruct s t x.1
    pure ((w, x.2 ++ [.moveConstruct s t]), false)
  | .moveAssign s t, x => do
    let w ← Signal.moveAssign s t x.1
    pure ((w, x.2 ++ [.moveAssign s t]), false)
  | .tryEmit s a, x => do
    let r ← em s a x
    pure (r.1, false)
  | .throw, x => pure (x, true)

/-- The actions of a callback, or of the main function, up to its end or to the first exception that leaves it, at most `n` of them. -/
def runProgram (em : Nat → Nat → State → M (State × Bool)) (p : Program) : Nat → State → M (State × Bool)
  | 0, _ => .error .diverge
  | n + 1, x =>
    match p x.2 with
    | none => pure (x, false)
    | some act => do
      let r ← act.run em x
      if r.2 then pure r else runProgram em p n r.1

/-- The loop of `operator()`, Signal.inl:181-182, without its initialization, for at most `fuel` tests of the condition (in nested emissions: on each path); an exception leaves it at
once.  The accesses to `m_slotIterator` and `m_slots` after the call of a callback are accesses to whatever signal is at the address then. -/
def emitLoopL (p : Program) : Nat → Nat → Nat → State → M (State × Bool)
  | 0, _, _, _ => .error .diverge
  | fuel + 1, s, a, x => do
    let c ← currentSlot s x.1
    match c with
    | none => pure ((x.1, x.2 ++ [.ev (.done s)]), false)
    | some (id, slot) => do
      let r ← runProgram (fun t b y => do
        let w ← setIter t (fun _ => some 0) y.1
        emitLoopL p fuel t b (w, y.2 ++ [.ev (.emit t b)])) p fuel (x.1, x.2 ++ [.ev (.call s id slot.callback a)])
      if r.2 then pure ((r.1.1, r.1.2 ++ [.threw s]), true)
      else do
        let w ← setIter s iterInc r.1.1
        emitLoopL p fuel s a (w, r.1.2)

/-- `operator()`, Signal.inl:178-183. -/
def emitL (p : Program) (fuel s a : Nat) (x : State) : M (State × Bool) := do
  let w ← setIter s (fun _ => some 0) x.1
  emitLoopL p fuel s a (w, x.2 ++ [.ev (.emit s a)])

/-- A whole program. -/
def runMain (p : Program) (fuel : Nat) : M (State × Bool) := runProgram (emitL p fuel) p fuel (.empty, [])

end Verif.Signal
