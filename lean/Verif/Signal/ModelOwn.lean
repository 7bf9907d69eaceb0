import Verif.Signal.Spec

/-!
# Signals: callbacks that own guards

A callback may capture `ConnectionGuard`s (directly, or by a `std::shared_ptr` of which it is the last owner).  When its slot is destroyed, the guards are destroyed, and disconnect their slots, whose
callbacks may own guards in turn.  `owns id` lists the slots of the guards that the callback of slot `id` captured, in the order in which they are destroyed.

While the vector of slots of a signal is being cleared or destroyed, every call of its member functions is undefined (the inline storage has room for one slot, which can then not be
another one): the signal counts as not being there.  For slots that are disconnected during emissions see ModelOwnEmit.
-/

namespace Verif.Signal
open Verif.Cpp

/-- `Connection::Disconnect`, Signal.inl:310-315, called by the destructor of a guard, 375-379.  `ptr` keeps the slot until the end of the call; if it is then destroyed, so are the guards
of its callback. -/
def disconnectO (owns : Nat → List Nat) : Nat → Nat → World → M World
  | 0, _, _ => .error .diverge
  | fuel + 1, id, w =>
    match w.heap id with
    | none => pure w
    | some slot => do
      let w ← disconnectSlot slot w
      match w.heap id with
      | some _ => pure w
      | none => (owns id).foldlM (fun w g => disconnectO owns fuel g w) w

/-- The slots of the list are released one after the other: a slot that dies takes the guards of its callback with it. -/
def releaseO (owns : Nat → List Nat) (fuel : Nat) : List (Option Nat) → World → M World
  | [], w => pure w
  | none :: ps, w => releaseO owns fuel ps w
  | some id :: ps, w => do
    let w := w.release (some id)
    let w ← (match w.heap id with
      | some _ => pure w
      | none => (owns id).foldlM (fun w g => disconnectO owns fuel g w) w)
    releaseO owns fuel ps w

/-- `Clear`, Signal.inl:52-57. -/
def clearO (owns : Nat → List Nat) (fuel s : Nat) (w : World) : M World := do
  let g ← w.sig s
  let w ← releaseO owns fuel g.slots (w.setSig s none)
  pure (w.setSig s (some ⟨[], g.fallback, some 0⟩))

/-- `~Signal`, Signal.hpp:38. -/
def destroySignalO (owns : Nat → List Nat) (fuel s : Nat) (w : World) : M World := do
  let g ← w.sig s
  let w ← releaseO owns fuel g.slots (w.setSig s none)
  pure (w.setSig s none)

/-! ## Specification -/

/-- The slots that are disconnected along with slot `id`: itself, and those of the guards owned by the callback of such a slot that is connected. -/
inductive Falls (owns : Nat → List Nat) (a : Abs) (id : Nat) : Nat → Prop
  | self : Falls owns a id id
  | owned {i j : Nat} : Falls owns a id i → a.Connected i → j ∈ owns i → Falls owns a id j

end Verif.Signal
