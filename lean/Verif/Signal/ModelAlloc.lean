import Verif.Signal.Spec

/-!
# Signals: memory that runs out

`Connect` allocates at three places: the copy of the callable in `Connect(const Callback&)` (or in the `std::function` that is made from a lambda), the slot (`std::make_shared`), and room for it in
`m_slots`; by C100, `emplace_back` leaves the vector as it was if it gets no memory.  An exception leaves the call; the number of a slot that no connection ever refers to is used again.
-/

namespace Verif.Signal
open Verif.Cpp

/-- The allocation that fails. -/
inductive Alloc where
  | callable
  | slot
  | room
  deriving DecidableEq

/-- `Connect`, Signal.inl:66-70 and 79-98.  Result: the world, and the connection unless an exception leaves the call. -/
def connectA (fail : Option Alloc) (s cb : Nat) (w : World) : M (World × Option Nat) := do
  if fail = some .callable then pure (w, none)
  else do
    let g ← w.sig s
    if fail = some .slot then pure (w, none)
    else
      -- `tempPtr`
      let w1 := w.setSlot w.next (some ⟨cb, s, g.slots.length⟩)
      if fail = some .room then
        -- `tempPtr` is destroyed
        pure (w1.release (some w.next), none)
      else
        let w2 := w1.setSig s (some (g.connected w.next))
        pure (⟨w2.heap, w.next + 1, w2.sigs, w2.shared, w2.trace⟩, some w.next)

/-- `Connection::Connect`, Signal.inl:299-304, for the connection `c`.  Result: the world, the connection, and whether an exception leaves the call. -/
def connectionConnectA (fail : Option Alloc) (c : Option Nat) (s cb : Nat) (w : World) : M (World × Option Nat × Bool) := do
  let r ← connectA fail s cb w
  match r.2 with
  | none => pure (r.1, c, true)
  | some id => pure (r.1, some id, false)

/-- `ConnectionGuard::Connect`, Signal.inl:388-394. -/
def guardConnectA (fail : Option Alloc) (c : Option Nat) (s cb : Nat) (w : World) : M (World × Option Nat × Bool) := do
  let w ← disconnect c w
  connectionConnectA fail c s cb w

/-- Move assignment of signal `t` to another signal `s`, Signal.inl:203-214: a target that uses its fallback gives it up for that of the source, and needs room for the slot of a
source that uses none (FixedVector.inl:712-732, `C100_move_assign_violated`); both functions are `noexcept`. -/
def moveAssignA (fail : Bool) (s t : Nat) (w : World) : M World := do
  let g ← w.sig s
  let h ← w.sig t
  if fail && (g.fallback && (!h.fallback && !h.slots.isEmpty)) then .error .terminate
  else moveAssign s t w

end Verif.Signal
