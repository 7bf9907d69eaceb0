import Verif.Signal.Spec

/-!
# Signals: what a running callback uses

A callback is a `std::function` inside its slot (Signal.hpp:68): what it captured lives as long as the slot.  A callback also has its parameters.  Here the callbacks, besides acting on
signals, use what they captured and assign to their parameter.
-/

namespace Verif.Signal
open Verif.Cpp

/-- What callbacks do: an action on signals, a use of something they captured, an assignment to their parameter. -/
inductive ActionC where
  | act (x : Action)
  | use
  | assign (v : Nat)
  deriving DecidableEq

abbrev ScriptC := List Event → List ActionC

/-- The actions of the callback of slot `id`, `arg` being the value of its parameter.  A use of what it captured is undefined once the slot is destroyed.  Result: the
world and the value of the parameter. -/
def runActionsC (em : Nat → Nat → World → M World) (id : Nat) : List ActionC → Nat → World → M (World × Nat)
  | [], arg, w => pure (w, arg)
  | .act x :: xs, arg, w => do
    let w ← x.run em w
    runActionsC em id xs arg w
  | .use :: xs, arg, w => do
    guardUB (w.heap id).isSome
    runActionsC em id xs arg w
  | .assign v :: xs, _, w => runActionsC em id xs v w

/-- The loop of `operator()`, Signal.inl:181-182: `m_slots[m_slotIterator]->callback(args...)`.  The slot is not kept alive during the call.  `args` is a variable of
`operator()` and is passed as an lvalue: if the parameter type is a reference (`byRef`), the callbacks are given that object, and otherwise each is given a copy
of it.  Result: the world and the value of the argument after the last call. -/
def emitLoopC (byRef : Bool) (script : ScriptC) : Nat → Nat → Nat → World → M (World × Nat)
  | 0, _, _, _ => .error .diverge
  | fuel + 1, s, a, w => do
    let c ← currentSlot s w
    match c with
    | none => pure (w.record (.done s), a)
    | some (id, slot) => do
      let w := w.record (.call s id slot.callback a)
      let r ← runActionsC (fun s a w => do
        let w ← setIter s (fun _ => some 0) w
        let r ← emitLoopC byRef script fuel s a (w.record (.emit s a))
        pure r.1) id (script w.trace) a w
      let w ← setIter s iterInc r.1
      emitLoopC byRef script fuel s (if byRef then r.2 else a) w

/-- `operator()`, Signal.inl:178-183. -/
def emitC (byRef : Bool) (script : ScriptC) (fuel s a : Nat) (w : World) : M (World × Nat) := do
  let w ← setIter s (fun _ => some 0) w
  emitLoopC byRef script fuel s a (w.record (.emit s a))

/-- What the callbacks do to signals. -/
def onSignals (script : ScriptC) : Script := fun tr =>
  (script tr).filterMap (fun x => match x with
    | .act y => some y
    | _ => none)

/-- Each callback uses what it captured only before it disconnects a slot, clears a signal or emits a signal. -/
def ScriptC.UsesFirst (script : ScriptC) : Prop :=
  ∀ tr, ∃ xs ys, script tr = xs ++ ys ∧ (∀ x ∈ xs, ∀ y, x = .act y → ∃ s cb, y = .connect s cb) ∧ ActionC.use ∉ ys

/-- The callback uses what it captured after having disconnected itself: `connection.Disconnect(); use(captured);`. -/
def selfDisconnect : ScriptC := fun tr =>
  match tr.getLast? with
  | some (.call _ id _ _) => [.act (.disconnect id), .use]
  | _ => []

/-- The callback uses what it captured after having cleared the signal that calls it. -/
def selfClear : ScriptC := fun tr =>
  match tr.getLast? with
  | some (.call s _ _ _) => [.act (.clear s), .use]
  | _ => []

/-- The callbacks assign to their parameter: callback `cb` the value `f cb x`, `x` being the value it is given. -/
def assigning (f : Nat → Nat → Nat) : ScriptC := fun tr =>
  match tr.getLast? with
  | some (.call _ _ cb x) => [.assign (f cb x)]
  | _ => []

end Verif.Signal
