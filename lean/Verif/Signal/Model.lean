import Verif.Cpp

/-!
# Model of `Signal.hpp` / `Signal.inl`

The world consists of signals (by address), slots (the objects owned by the `std::shared_ptr`s in `m_slots`, by number) and the trace of
what happened.  A `Connection` is a `std::weak_ptr` to a slot: `none` or the number of a slot; numbers are never reused, like control blocks that are still referred to.

`m_slots` is a `HybridVector<SlotPtr, 1>`: by the theorems of the FixedVector unit (C25, C27) it is the list of its elements, and the flag whether it uses its
fallback, which decides what moves do.  A null `SlotPtr` is `none`.
`m_slotIterator` is a `std::size_t`, `none` being its largest value (the result of `--` on 0), which is greater than every size.

Not modelled here: what the destructors of callbacks do (see ModelOwn); the destruction and the move of signals during emissions (see ModelLife); a callback that is disconnected while it runs
goes on running.
-/

namespace Verif.Signal
open Verif.Cpp

/-- `Signal::Slot`, Signal.hpp:61-71; the callback is a name. -/
structure Slot where
  callback : Nat
  signal : Nat
  index : Nat
  deriving DecidableEq

/-- The members of a signal, Signal.hpp:75-76. -/
structure Sig where
  slots : List (Option Nat)
  fallback : Bool
  iter : Option Nat
  deriving DecidableEq

/-- What happens in a program: the events are recorded by the model and are not part of the code. -/
inductive Event where
  | connect (s id cb : Nat)
  | disconnect (id : Nat)
  | clear (s : Nat)
  | emit (s arg : Nat)
  | call (s id cb arg : Nat)
  | done (s : Nat)
  deriving DecidableEq

structure World where
  heap : Nat → Option Slot
  next : Nat
  sigs : Nat → Option Sig
  /-- a slot that is owned by `n + 1` `SlotPtr`s in the lists of the signals occurs `n` times -/
  shared : List Nat
  trace : List Event

def update {β : Type} (f : Nat → β) (i : Nat) (x : β) : Nat → β := fun j => if j = i then x else f j

/-- No signals. -/
def World.empty : World := ⟨fun _ => none, 0, fun _ => none, [], []⟩

/-- Access to a signal: undefined if there is none at this address. -/
def World.sig (w : World) (s : Nat) : M Sig :=
  match w.sigs s with
  | some g => .ok g
  | none => .error .ub

def World.setSig (w : World) (s : Nat) (g : Option Sig) : World := ⟨w.heap, w.next, update w.sigs s g, w.shared, w.trace⟩
def World.setSlot (w : World) (id : Nat) (x : Option Slot) : World := ⟨update w.heap id x, w.next, w.sigs, w.shared, w.trace⟩
def World.record (w : World) (e : Event) : World := ⟨w.heap, w.next, w.sigs, w.shared, w.trace ++ [e]⟩

/-- A `SlotPtr` is destroyed or overwritten: the slot dies with its last owner. -/
def World.release (w : World) (p : Option Nat) : World :=
  match p with
  | none => w
  | some id => if id ∈ w.shared then ⟨w.heap, w.next, w.sigs, w.shared.erase id, w.trace⟩ else w.setSlot id none

def World.releaseAll (w : World) : List (Option Nat) → World
  | [] => w
  | p :: ps => (w.release p).releaseAll ps

/-- `ptr->index = k`. -/
def World.setIndex (w : World) (p : Option Nat) (k : Nat) : M World :=
  match p with
  | none => .error .ub
  | some id =>
    match w.heap id with
    | none => .error .ub
    | some x => .ok (w.setSlot id (some ⟨x.callback, x.signal, k⟩))

/-- `m_slotIterator >= n`. -/
def iterGe : Option Nat → Nat → Bool
  | none, _ => true
  | some i, n => decide (n ≤ i)

/-- `m_slotIterator < n`. -/
def iterLt : Option Nat → Nat → Bool
  | none, _ => false
  | some i, n => decide (i < n)

/-- `--m_slotIterator` (of a value that is not the largest). -/
def iterDec : Option Nat → Option Nat
  | none => none
  | some 0 => none
  | some (i + 1) => some i

/-- `++m_slotIterator`. -/
def iterInc : Option Nat → Option Nat
  | none => some 0
  | some i => some (i + 1)

/-- `Signal()`, Signal.inl:19-23; `Signal(const Signal&)`, 30-34; at address `s`. -/
def newSignal (s : Nat) (w : World) : World := w.setSig s (some ⟨[], false, some 0⟩)

/-- `~Signal`, Signal.hpp:38. -/
def destroySignal (s : Nat) (w : World) : M World := do
  let g ← w.sig s
  pure ((w.releaseAll g.slots).setSig s none)

/-- `Clear`, Signal.inl:52-57 (`HybridVector::clear` keeps using the fallback). -/
def clear (s : Nat) (w : World) : M World := do
  let g ← w.sig s
  pure ((w.releaseAll g.slots).setSig s (some ⟨[], g.fallback, some 0⟩))

/-- The signal after `Connect`: Signal.inl:86-95. -/
def Sig.connected (g : Sig) (id : Nat) : Sig :=
  ⟨g.slots ++ [some id], g.fallback || decide (1 ≤ g.slots.length), if iterGe g.iter g.slots.length then some (g.slots.length + 1) else g.iter⟩

/-- `Connect`, Signal.inl:79-98 (also 66-70 and the overloads for member functions, 108-170; a non-empty function).  Returns the connection. -/
def connect (s cb : Nat) (w : World) : M (World × Nat) := do
  let g ← w.sig s
  let w' := (w.setSlot w.next (some ⟨cb, s, g.slots.length⟩)).setSig s (some (g.connected w.next))
  pure (⟨w'.heap, w.next + 1, w'.sigs, w'.shared, w'.trace⟩, w.next)

/-- The first branch of `Disconnect`, Signal.inl:240-242, and 260. -/
def disconnectSimple (slot : Slot) (g : Sig) (w : World) : M World := do
  let victim ← rd g.slots slot.index
  let back ← rd g.slots (g.slots.length - 1)
  let w ← w.setIndex back slot.index
  pure ((w.setSig slot.signal (some ⟨(g.slots.set slot.index back).dropLast, g.fallback, g.iter⟩)).release victim)

/-- The second branch of `Disconnect`, Signal.inl:247-256, and 260. -/
def disconnectTricky (i : Nat) (slot : Slot) (g : Sig) (w : World) : M World := do
  let victim ← rd g.slots slot.index
  let current ← rd g.slots i
  let w ← w.setIndex current slot.index
  let back ← rd g.slots (g.slots.length - 1)
  let w ← w.setIndex back i
  pure ((w.setSig slot.signal (some ⟨((g.slots.set slot.index current).set i back).dropLast, g.fallback, iterDec g.iter⟩)).release victim)

/-- `Signal::Disconnect`, Signal.inl:226-261, called for the signal `slot->signal` (its third assertion compares this signal with itself). -/
def disconnectSlot (slot : Slot) (w : World) : M World := do
  let g ← w.sig slot.signal
  assert (slot.index < g.slots.length)
  if iterGe g.iter (g.slots.length - 1) || iterLt g.iter slot.index then disconnectSimple slot g w
  else
    match g.iter with
    | none => .error .ub
    | some i => disconnectTricky i slot g w

/-- `Connection::Disconnect`, Signal.inl:310-315. -/
def disconnect (c : Option Nat) (w : World) : M World :=
  match c with
  | none => pure w
  | some id =>
    match w.heap id with
    | none => pure w
    | some slot => disconnectSlot slot w

/-- `Connection::IsConnected`, Signal.inl:322-326. -/
def isConnected (c : Option Nat) (w : World) : Bool :=
  match c with
  | none => false
  | some id => (w.heap id).isSome

/-! ## Emission -/

/-- What callbacks do: connect a callback to a signal, disconnect a slot through one of its connections, clear a signal, emit a signal. -/
inductive Action where
  | connect (s cb : Nat)
  | disconnect (id : Nat)
  | clear (s : Nat)
  | emit (s arg : Nat)
  deriving DecidableEq

/-- The callbacks of a program: what the callback does that was called last in the given trace. -/
abbrev Script := List Event → List Action

/-- One action, `em` being the emission of a signal. -/
def Action.run (em : Nat → Nat → World → M World) : Action → World → M World
  | .connect s cb, w => do
    let r ← Signal.connect s cb w
    pure (r.1.record (.connect s r.2 cb))
  | .disconnect id, w => do
    let w ← Signal.disconnect (some id) w
    pure (w.record (.disconnect id))
  | .clear s, w => do
    let w ← Signal.clear s w
    pure (w.record (.clear s))
  | .emit s a, w => em s a w

def runActions (em : Nat → Nat → World → M World) : List Action → World → M World
  | [], w => pure w
  | x :: xs, w => do
    let w ← x.run em w
    runActions em xs w

/-- `m_slotIterator = ...`. -/
def setIter (s : Nat) (f : Option Nat → Option Nat) (w : World) : M World := do
  let g ← w.sig s
  pure (w.setSig s (some ⟨g.slots, g.fallback, f g.iter⟩))

/-- The callback that the iterator of signal `s` designates, `none` at the end: Signal.inl:181-182. -/
def currentSlot (s : Nat) (w : World) : M (Option (Nat × Slot)) := do
  let g ← w.sig s
  match g.iter with
  | none => pure none
  | some i =>
    match g.slots[i]? with
    | none => pure none
    | some none => .error .ub
    | some (some id) =>
      match w.heap id with
      | none => .error .ub
      | some slot => pure (some (id, slot))

/-- The loop of `operator()`, Signal.inl:181-182, without its initialization, for at most `fuel` tests of the condition (in nested emissions: on each
path). -/
def emitLoop (script : Script) : Nat → Nat → Nat → World → M World
  | 0, _, _, _ => .error .diverge
  | fuel + 1, s, a, w => do
    let c ← currentSlot s w
    match c with
    | none => pure (w.record (.done s))
    | some (id, slot) => do
      let w := w.record (.call s id slot.callback a)
      let w ← runActions (fun s a w => do
        let w ← setIter s (fun _ => some 0) w
        emitLoop script fuel s a (w.record (.emit s a))) (script w.trace) w
      let w ← setIter s iterInc w
      emitLoop script fuel s a w

/-- `operator()`, Signal.inl:178-183. -/
def emit (script : Script) (fuel s a : Nat) (w : World) : M World := do
  let w ← setIter s (fun _ => some 0) w
  emitLoop script fuel s a (w.record (.emit s a))

/-! ## Emission with callbacks that throw -/

/-- What callbacks that may throw do: an action (an exception that leaves a nested emission leaves the callback as well), an emission in a `try` block that
swallows exceptions, or a `throw`. -/
inductive ActionX where
  | act (x : Action)
  | tryEmit (s arg : Nat)
  | throw
  deriving DecidableEq

abbrev ScriptX := List Event → List ActionX

/-- The actions of a callback up to the first exception that leaves it; the second component tells whether there is one. -/
def runActionsX (em : Nat → Nat → World → M (World × Bool)) : List ActionX → World → M (World × Bool)
  | [], w => pure (w, false)
  | .throw :: _, w => pure (w, true)
  | .tryEmit s a :: xs, w => do
    let r ← em s a w
    runActionsX em xs r.1
  | .act (.emit s a) :: xs, w => do
    let r ← em s a w
    if r.2 then pure r else runActionsX em xs r.1
  | .act x :: xs, w => do
    let w ← x.run (fun _ _ w => pure w) w
    runActionsX em xs w

/-- The loop of `operator()`, Signal.inl:181-182: an exception leaves it at once, `m_slotIterator` keeps its value. -/
def emitLoopX (script : ScriptX) : Nat → Nat → Nat → World → M (World × Bool)
  | 0, _, _, _ => .error .diverge
  | fuel + 1, s, a, w => do
    let c ← currentSlot s w
    match c with
    | none => pure (w.record (.done s), false)
    | some (id, slot) => do
      let w := w.record (.call s id slot.callback a)
      let r ← runActionsX (fun s a w => do
        let w ← setIter s (fun _ => some 0) w
        emitLoopX script fuel s a (w.record (.emit s a))) (script w.trace) w
      if r.2 then pure r
      else do
        let w ← setIter s iterInc r.1
        emitLoopX script fuel s a w

/-- `operator()`, Signal.inl:178-183, with callbacks that may throw.  The second component of the result tells whether an exception leaves the call. -/
def emitX (script : ScriptX) (fuel s a : Nat) (w : World) : M (World × Bool) := do
  let w ← setIter s (fun _ => some 0) w
  emitLoopX script fuel s a (w.record (.emit s a))

/-! ## Moves -/

/-- `slot->signal = this` for the slots of the list: Signal.inl:210-211. -/
def retarget (s : Nat) : List (Option Nat) → World → M World
  | [], w => pure w
  | none :: _, _ => .error .ub
  | some id :: l, w =>
    match w.heap id with
    | none => .error .ub
    | some x => retarget s l (w.setSlot id (some ⟨x.callback, s, x.index⟩))

/-- `m_slots = std::move(signal.m_slots)` for different signals with the members `g` (target) and `h` (source): FixedVector.inl:712-732.  If the source uses its fallback,
the elements in the inline storage of the target are forgotten (their destructors are never called, so the slots stay).  If the target uses its fallback and the source does not, the
elements are copied: `push_back(T&&)` passes an lvalue to the fallback (FixedVector.inl:529), so both signals own them.  Result: world, target and source. -/
def moveSlots (g h : Sig) (w : World) : World × Sig × Sig :=
  if h.fallback then (if g.fallback then w.releaseAll g.slots else w, ⟨h.slots, true, h.iter⟩, ⟨[], true, h.iter⟩)
  else if g.fallback then
    let w' := w.releaseAll g.slots
    (⟨w'.heap, w'.next, w'.sigs, w'.shared ++ h.slots.filterMap id, w'.trace⟩, ⟨h.slots, true, h.iter⟩, ⟨h.slots, false, h.iter⟩)
  else (w.releaseAll g.slots, ⟨h.slots, false, h.iter⟩, ⟨h.slots.map (fun _ => none), false, h.iter⟩)

/-- Move assignment of signal `t` to another signal `s`, Signal.inl:203-214. -/
def moveAssign (s t : Nat) (w : World) : M World := do
  let g ← w.sig s
  let h ← w.sig t
  let r := moveSlots g h w
  retarget s h.slots ((r.1.setSig s (some r.2.1)).setSig t (some r.2.2))

/-- Move construction of a signal at address `s` from signal `t`, Signal.inl:42-46: `m_slots` is empty before the assignment. -/
def moveConstruct (s t : Nat) (w : World) : M World := moveAssign s t (newSignal s w)

/-- Move assignment of a signal to itself, for a signal that does not use its fallback: `m_slots` is cleared (FixedVector.inl:726). -/
def moveAssignSelf (s : Nat) (w : World) : M World := do
  let g ← w.sig s
  guardUB (!g.fallback)
  pure ((w.releaseAll g.slots).setSig s (some ⟨[], false, g.iter⟩))

/-! ## Guards

A guard is a connection, Signal.hpp:107-135; these functions return the world and the connections of the guards. -/

/-- `~ConnectionGuard`, Signal.inl:375-379; `ConnectionGuard::Disconnect`, 400-404. -/
def guardDisconnect (c : Option Nat) (w : World) : M World := disconnect c w

/-- `ConnectionGuard::Connect`, Signal.inl:388-394, with `Connection::Connect`, 299-304. -/
def guardConnect (c : Option Nat) (s cb : Nat) (w : World) : M (World × Option Nat) := do
  let w ← disconnect c w
  let r ← connect s cb w
  pure (r.1, some r.2)

/-- `operator=(const Connection&)`, Signal.inl:435-442. -/
def guardAssign (c : Option Nat) (c' : Option Nat) (w : World) : M (World × Option Nat) := do
  let w ← disconnect c w
  pure (w, c')

/-- `operator=(ConnectionGuard&&)` from another guard, Signal.inl:470-480, with the move assignment of connections, 333-340: world, this guard, the other guard. -/
def guardMoveAssign (c c' : Option Nat) (w : World) : M (World × Option Nat × Option Nat) := do
  let w ← disconnect c w
  pure (w, c', none)

/-- The move constructor of guards, Signal.hpp:117, with that of connections, Signal.inl:273-278: the new guard, and the source. -/
def guardMoveConstruct (c : Option Nat) : Option Nat × Option Nat := (c, none)

end Verif.Signal
