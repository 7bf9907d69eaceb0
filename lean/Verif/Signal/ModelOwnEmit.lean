import Verif.Signal.ModelOwn

/-!
# Signals: emissions whose callbacks own guards

As ModelOwn, for slots that are disconnected by callbacks during emissions.  A callback that is disconnected while it runs goes on running (it must not use what it captured any more).
-/

namespace Verif.Signal
open Verif.Cpp

/-- `Connection::Disconnect`, Signal.inl:310-315, as `disconnectO`; each slot that is disconnected is recorded. -/
def disconnectT (owns : Nat → List Nat) : Nat → Nat → World → M World
  | 0, _, _ => .error .diverge
  | fuel + 1, id, w =>
    match w.heap id with
    | none => pure (w.record (.disconnect id))
    | some slot => do
      let w ← disconnectSlot slot w
      let w := w.record (.disconnect id)
      match w.heap id with
      | some _ => pure w
      | none => (owns id).foldlM (fun w g => disconnectT owns fuel g w) w

/-- As `releaseO`, recording the slots that are disconnected. -/
def releaseT (owns : Nat → List Nat) (fuel : Nat) : List (Option Nat) → World → M World
  | [], w => pure w
  | none :: ps, w => releaseT owns fuel ps w
  | some id :: ps, w => do
    let w := w.release (some id)
    let w ← (match w.heap id with
      | some _ => pure w
      | none => (owns id).foldlM (fun w g => disconnectT owns fuel g w) w)
    releaseT owns fuel ps w

/-- `Clear`, Signal.inl:52-57, as `clearO`; it is recorded when it begins. -/
def clearT (owns : Nat → List Nat) (fuel s : Nat) (w : World) : M World := do
  let g ← w.sig s
  let w ← releaseT owns fuel g.slots ((w.setSig s none).record (.clear s))
  pure (w.setSig s (some ⟨[], g.fallback, some 0⟩))

/-- What callbacks do: connect a callback to a signal, disconnect a slot through one of its connections or guards, clear a signal, emit a signal. -/
inductive ActionG where
  | connect (s cb : Nat)
  | disconnect (id : Nat)
  | clear (s : Nat)
  | emit (s arg : Nat)
  deriving DecidableEq

/-- What the callback does that was called last in the given trace. -/
abbrev ScriptG := List Event → List ActionG

/-- One action, `em` being the emission of a signal.  There are at most `w.next` slots that can be disconnected. -/
def ActionG.run (owns : Nat → List Nat) (em : Nat → Nat → World → M World) : ActionG → World → M World
  | .connect s cb, w => do
    let r ← Signal.connect s cb w
    pure (r.1.record (.connect s r.2 cb))
  | .disconnect id, w => disconnectT owns (w.next + 1) id w
  | .clear s, w => clearT owns (w.next + 1) s w
  | .emit s a, w => em s a w

def runActionsG (owns : Nat → List Nat) (em : Nat → Nat → World → M World) : List ActionG → World → M World
  | [], w => pure w
  | x :: xs, w => do
    let w ← x.run owns em w
    runActionsG owns em xs w

/-- The loop of `operator()`, Signal.inl:181-182, as `emitLoop`. -/
def emitLoopG (owns : Nat → List Nat) (script : ScriptG) : Nat → Nat → Nat → World → M World
  | 0, _, _, _ => .error .diverge
  | fuel + 1, s, a, w => do
    let c ← currentSlot s w
    match c with
    | none => pure (w.record (.done s))
    | some (id, slot) => do
      let w := w.record (.call s id slot.callback a)
      let w ← runActionsG owns (fun s a w => do
        let w ← setIter s (fun _ => some 0) w
        emitLoopG owns script fuel s a (w.record (.emit s a))) (script w.trace) w
      let w ← setIter s iterInc w
      emitLoopG owns script fuel s a w

/-- `operator()`, Signal.inl:178-183. -/
def emitG (owns : Nat → List Nat) (script : ScriptG) (fuel s a : Nat) (w : World) : M World := do
  let w ← setIter s (fun _ => some 0) w
  emitLoopG owns script fuel s a (w.record (.emit s a))

/-! ## Specification -/

/-- The guards of a callback of signal `s` disconnect no other slot of `s` (they may disconnect their own). -/
def Apart (owns : Nat → List Nat) (a : Abs) (s : Nat) : Prop := ∀ i ∈ a.slots s, ∀ j ∈ a.slots s, Falls owns a i j → j = i

/-- Callbacks only use signals that are there; a signal is cleared only if, whatever happens before, the guards of its callbacks disconnect no other slots of it (why: `C135_clear_violated`). -/
def ActionG.ok (owns : Nat → List Nat) (a : Abs) : ActionG → Prop
  | .connect s _ => a.Live s
  | .disconnect _ => True
  | .clear s => a.Live s ∧ ∀ es, Valid a es → Apart owns (a.events es) s
  | .emit s _ => a.Live s

def ScriptG.Ok (owns : Nat → List Nat) (script : ScriptG) (a : Abs) : Prop := ∀ tr, ∀ x ∈ script tr, x.ok owns a

/-- The callbacks do nothing but disconnect slots. -/
def ScriptG.OnlyDisconnects (script : ScriptG) : Prop := ∀ tr, ∀ x ∈ script tr, ∃ id, x = .disconnect id

/-- The slots that the event disconnects, `a` being what is connected before it. -/
def Event.ends (a : Abs) : Event → Nat → Prop
  | .disconnect id, i => i = id ∧ a.Connected id
  | .clear s, i => i ∈ a.slots s
  | _, _ => False

/-- When a connected slot is disconnected, by itself or because its signal is cleared, the slots of the guards that its callback owns are disconnected before anything else happens. -/
def Cascades (owns : Nat → List Nat) (a : Abs) (es : List Event) : Prop :=
  ∀ es1 e es2, es = es1 ++ e :: es2 → ∀ i, e.ends (a.events es1) i → ∀ j ∈ owns i, ∃ (ds : List Nat) (rest : List Event), es2 = ds.map Event.disconnect ++ rest ∧ j ∈ ds

/-- A slot is disconnected only because a callback asks for it, or by a guard owned by the callback of a slot that is disconnected or whose signal is cleared; a signal is cleared only because
a callback asks for it. -/
def Asked (owns : Nat → List Nat) (script : ScriptG) (a : Abs) (tr es : List Event) : Prop :=
  (∀ j, Event.disconnect j ∈ es → (∃ es1, es1 <+: es ∧ ActionG.disconnect j ∈ script (tr ++ es1)) ∨ (∃ id, Event.disconnect id ∈ es ∧ j ∈ owns id) ∨
    ∃ es1 s es2 i, es = es1 ++ .clear s :: es2 ∧ i ∈ (a.events es1).slots s ∧ j ∈ owns i) ∧
  ∀ s, Event.clear s ∈ es → ∃ es1, es1 <+: es ∧ ActionG.clear s ∈ script (tr ++ es1)

end Verif.Signal
