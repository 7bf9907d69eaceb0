import Verif.Signal.ModelLife
import Verif.Signal.Spec

/-! # Signals: what whole programs may do, and what they may expect (C127) -/

namespace Verif.Signal

/-- The effect of an event. -/
def Abs.eventL (a : Abs) : EventL → Abs
  | .ev e => a.event e
  | .create s => a.create s
  | .destroy s => a.destroy s
  | .moveConstruct s t => (a.create s).move s t
  | .moveAssign s t => a.move s t
  | .threw _ => a

/-- What is connected after the events of a program, the first event being the first to happen. -/
def after (log : List EventL) : Abs := log.foldl Abs.eventL .empty

/-- The emissions (signals and arguments) that go on, the innermost one first, after an event. -/
def activeStep (st : List (Nat × Nat)) : EventL → List (Nat × Nat)
  | .ev (.emit s arg) => (s, arg) :: st
  | .ev (.done _) => st.tail
  | .threw _ => st.tail
  | _ => st

/-- The emissions that go on after the events. -/
def active (log : List EventL) : List (Nat × Nat) := log.foldl activeStep []

/-- What may happen next: new slots are numbered in order, and only a connected slot is called, with its callback, for the signal to which it is connected, which is the signal of
the innermost emission that goes on, with the argument of this emission; the innermost emission ends first. -/
def EventL.fits (a : Abs) (act : List (Nat × Nat)) : EventL → Prop
  | .ev (.connect s id _) => a.Live s ∧ id = a.next
  | .ev (.call s id cb arg) => id ∈ a.slots s ∧ cb = a.cb id ∧ act.head? = some (s, arg)
  | .ev (.done s) => ∃ arg, act.head? = some (s, arg)
  | .threw s => ∃ arg, act.head? = some (s, arg)
  | _ => True

/-- All that happened makes sense. -/
def Sensible (log : List EventL) : Prop := ∀ l1 e l2, log = l1 ++ e :: l2 → e.fits (after l1) (active l1)

/-- What a program may do when `a` is connected and the signals of `act` are being emitted: use signals that are there and not left hollow; no signal is destroyed, or moved from,
during its own emission.  (Why: `C127_...violated`.  The conditions of moves are those of C43.) -/
def ActionL.ok (a : Abs) (act : List (Nat × Nat)) : ActionL → Prop
  | .act x => x.ok a
  | .create s => a.conn s = .absent
  | .destroy s => a.conn s ≠ .absent ∧ s ∉ act.map Prod.fst
  | .moveConstruct s t => a.conn s = .absent ∧ a.Live t ∧ t ∉ act.map Prod.fst
  | .moveAssign s t =>
    s ≠ t ∧ a.conn s ≠ .absent ∧ a.Live t ∧ (a.grown t = true → a.grown s = true ∨ a.slots s = []) ∧ (a.grown s = true → a.grown t = true ∨ a.slots t = []) ∧ t ∉ act.map Prod.fst
  | .tryEmit s _ => a.Live s
  | .throw => True

/-- The event is what the program does after the events `log`, or it is not an action of the program. -/
def EventL.by (p : Program) (log : List EventL) : EventL → Prop
  | .ev (.connect s _ cb) => p log = some (.act (.connect s cb))
  | .ev (.disconnect id) => p log = some (.act (.disconnect id))
  | .ev (.clear s) => p log = some (.act (.clear s))
  | .ev (.emit s arg) => p log = some (.act (.emit s arg)) ∨ p log = some (.tryEmit s arg)
  | .create s => p log = some (.create s)
  | .destroy s => p log = some (.destroy s)
  | .moveConstruct s t => p log = some (.moveConstruct s t)
  | .moveAssign s t => p log = some (.moveAssign s t)
  | _ => True

/-- The events follow the program. -/
def Follows (p : Program) (log : List EventL) : Prop := ∀ l1 e l2, log = l1 ++ e :: l2 → e.by p l1

/-- The program does only what is allowed. -/
def Program.Ok (p : Program) : Prop := ∀ log x, Sensible log → Follows p log → p log = some x → x.ok (after log) (active log)

/-- Signal `s` is cleared, emitted, moved (from or to), created or destroyed, or its emission ends. -/
def EventL.disturbs (s : Nat) : EventL → Bool
  | .ev (.clear t) => t = s
  | .ev (.emit t _) => t = s
  | .ev (.done t) => t = s
  | .create t => t = s
  | .destroy t => t = s
  | .moveConstruct t u => t = s || u = s
  | .moveAssign t u => t = s || u = s
  | .threw t => t = s
  | _ => false

/-- The slot that the event calls for signal `s`, if it does. -/
def EventL.slot (s : Nat) : EventL → Option Nat
  | .ev (.call t id _ _) => if t = s then some id else none
  | _ => none

/-- The slots called for signal `s`, in order. -/
def callsL (s : Nat) (log : List EventL) : List Nat := log.filterMap (EventL.slot s)

/-- In the events `l` of an emission of signal `s` that come after the events `before`: no callback of the signal disconnects a slot of the signal and then connects one to it.  (Why:
`C42_skips_violated`.) -/
def Orderly (before : List EventL) (s : Nat) (l : List EventL) : Prop :=
  ∀ m1 id m2 k cb m3, l = m1 ++ .ev (.disconnect id) :: (m2 ++ .ev (.connect s k cb) :: m3) → id ∈ (after (before ++ m1)).slots s →
    ∃ k' cb' arg, .ev (.call s k' cb' arg) ∈ m2

end Verif.Signal
