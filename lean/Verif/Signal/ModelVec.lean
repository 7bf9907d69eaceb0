import Verif.Signal.Model
import Verif.FixedVector.Model

/-!
# What signals do with `m_slots`, on the model of `HybridVector<SlotPtr, 1>`

The model of signals (Model.lean) describes `m_slots` by the list of its elements and the flag whether it uses its fallback.  Here the same member functions are written with
the member functions of the vector, as the code does; PropsVec.lean shows that both agree.  Only the effect on `m_slots` and `m_slotIterator` is described: the slots that the
elements point to, and the owners of the slots, are in Model.lean.
-/

namespace Verif.Signal
open Verif.Cpp

/-- `HybridVector<SlotPtr, 1>`, Signal.hpp:74: capacity 1, a fallback; a default constructed and a moved-from `std::shared_ptr` are null. -/
def slotVector : FixedVector.Cfg (Option Nat) := ⟨1, true, none, fun _ => none⟩

/-- The members of a signal, Signal.hpp:75-76. -/
structure SigV where
  vec : FixedVector.Vec (Option Nat)
  iter : Option Nat
  deriving DecidableEq

/-- A member function of `m_slots`; no constructor of a `SlotPtr` throws. -/
def SigV.on {β : Type} (v : FixedVector.Vec (Option Nat)) (m : X (FixedVector.St (Option Nat)) β) : M (FixedVector.Vec (Option Nat) × β) :=
  match m ⟨v, none⟩ with
  | .done s x => .ok (s.vec, x)
  | .thrown _ => .error .throw
  | .fail e => .error e

/-- `Signal()`, Signal.inl:19-23. -/
def SigV.new : SigV := ⟨FixedVector.empty slotVector, some 0⟩

/-- `Clear`, Signal.inl:52-57. -/
def SigV.clear (g : SigV) : M SigV := do
  let (v, _) ← SigV.on g.vec (FixedVector.clear slotVector)
  pure ⟨v, some 0⟩

/-- `Connect`, Signal.inl:83-97, of the slot `id`: also the index that the slot is given (89) and the slot that the returned connection refers to (97). -/
def SigV.connect (g : SigV) (id : Nat) : M (SigV × Nat × Option Nat) := do
  let (v, n) ← SigV.on g.vec (FixedVector.size slotVector)
  let resetIt := iterGe g.iter n
  let (v, index) ← SigV.on v (FixedVector.size slotVector)
  let (v, _) ← SigV.on v (FixedVector.emplaceBack slotVector (.value (some id)))
  let (v, n) ← SigV.on v (FixedVector.size slotVector)
  let (v, back) ← SigV.on v (FixedVector.back slotVector)
  pure (⟨v, if resetIt then some n else g.iter⟩, index, back)

/-- `m_slots[k] = std::move(m_slots[i])`: move assignment of a `std::shared_ptr`, equivalent to `shared_ptr(std::move(r)).swap(*this)`; returns the pointer that is moved. -/
def SigV.moveElement (v : FixedVector.Vec (Option Nat)) (k i : Nat) : M (FixedVector.Vec (Option Nat) × Option Nat) := do
  let (v, x) ← SigV.on v (FixedVector.at' slotVector i)
  let (v, _) ← SigV.on v (FixedVector.assignAt slotVector i none)
  let (v, _) ← SigV.on v (FixedVector.assignAt slotVector k x)
  pure (v, x)

/-- The first branch of `Disconnect`, Signal.inl:240-242, and 260, for a slot with index `k`; returns the slot whose index is set.  `m_slots.back()` is the last element. -/
def SigV.disconnectSimple (g : SigV) (k : Nat) : M (SigV × Option Nat) := do
  let (v, n) ← SigV.on g.vec (FixedVector.size slotVector)
  let (v, _) ← SigV.on v (FixedVector.back slotVector)
  let (v, newSlot) ← SigV.moveElement v k (n - 1)
  let (v, _) ← SigV.on v (FixedVector.popBack slotVector)
  pure (⟨v, g.iter⟩, newSlot)

/-- The second branch of `Disconnect`, Signal.inl:247-256, and 260, for a slot with index `k` and the value `i` of the iterator; returns the slots whose indices are set. -/
def SigV.disconnectTricky (g : SigV) (i k : Nat) : M (SigV × Option Nat × Option Nat) := do
  let (v, newSlot) ← SigV.moveElement g.vec k i
  let (v, n) ← SigV.on v (FixedVector.size slotVector)
  let (v, _) ← SigV.on v (FixedVector.back slotVector)
  let (v, current) ← SigV.moveElement v i (n - 1)
  let (v, _) ← SigV.on v (FixedVector.popBack slotVector)
  pure (⟨v, iterDec g.iter⟩, newSlot, current)

/-- `Disconnect`, Signal.inl:226-261, of a slot with index `k`; returns the slots whose index is set (242, 251, 254) with their new indices. -/
def SigV.disconnect (g : SigV) (k : Nat) : M (SigV × List (Option Nat × Nat)) := do
  let (_, n) ← SigV.on g.vec (FixedVector.size slotVector)
  assert (k < n)
  if iterGe g.iter (n - 1) || iterLt g.iter k then do
    let (g, p) ← g.disconnectSimple k
    pure (g, [(p, k)])
  else
    match g.iter with
    | none => .error .ub
    | some i => do
      let (g, p, q) ← g.disconnectTricky i k
      pure (g, [(p, k), (q, i)])

/-- `~Signal`, Signal.hpp:38: the destructor of `m_slots`. -/
def SigV.destroy (g : SigV) : M Unit := do
  let _ ← SigV.on g.vec (FixedVector.destructor slotVector)

/-- Move assignment of a signal to itself, Signal.inl:203-214, while the inline storage is in use. -/
def SigV.moveSelf (g : SigV) : M SigV := do
  let (v, _) ← SigV.on g.vec (FixedVector.moveAssignSelf slotVector)
  pure ⟨v, g.iter⟩

/-- `m_slots = std::move(signal.m_slots)` and the copy of the iterator, Signal.inl:206-207, for different signals: target and source. -/
def SigV.move (g h : SigV) : M (SigV × SigV) :=
  match FixedVector.moveAssign slotVector (⟨g.vec, none⟩, h.vec) with
  | .done (s, v) _ => .ok (⟨s.vec, h.iter⟩, ⟨v, h.iter⟩)
  | .thrown _ => .error .throw
  | .fail e => .error e

/-- `m_slotIterator < m_slots.size()` and `m_slots[m_slotIterator]`, Signal.inl:181-182: the element that the iterator designates, `none` at the end. -/
def SigV.current (g : SigV) : M (Option (Option Nat)) := do
  let (v, n) ← SigV.on g.vec (FixedVector.size slotVector)
  match g.iter with
  | none => pure none
  | some i =>
    if i < n then do
      let (_, x) ← SigV.on v (FixedVector.at' slotVector i)
      pure (some x)
    else pure none

end Verif.Signal
