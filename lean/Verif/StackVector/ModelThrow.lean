import Verif.StackVector.Model

/-!
# `StackVector` of elements whose moves may throw

As for `FixedVector` (`FixedVector/ModelThrow.lean`): `Model.lean` lets every construction of an element throw except moves; here `fuse` counts the
moves of `emplace` and `erase` too.  Simplification: a move that throws leaves both objects as they were.
-/

namespace Verif.StackVector
open Verif.Cpp
open Verif.FixedVector (St Arg onData mSize setSize construct tick)

variable {α : Type} (C : Nat) (mv : α → α)

/-- `PlacementNew(&m_ptr[i], std::move(m_ptr[j]))`. -/
def moveCreateT (i j : Nat) : X (St α) Unit := do
  tick
  onData (Slots.moveCreate mv · i j)

/-- `m_ptr[i] = std::move(m_ptr[j])`. -/
def moveAssignT (i j : Nat) : X (St α) Unit := do
  tick
  onData (Slots.moveAssign mv · i j)

/-- The part of `emplace` that makes room, StackVector.inl:129-135. -/
def emplaceShiftT (index n : Nat) : X (St α) Unit := do
  moveCreateT mv n (n - 1)
  X.forDown index (n - 1 - index) (fun i => moveAssignT mv i (i - 1))
  onData (Slots.destroy · index)

/-- `emplace` (`insert`), StackVector.inl:118-139 and 211-221. -/
def emplaceT (index : Nat) (a : Arg α) : X (St α) Nat := do
  let n ← mSize
  X.assert (n < C)
  X.assert (index ≤ n)
  if index < n then emplaceShiftT mv index n else pure ()
  setSize (some (n + 1))
  construct index a
  pure index

/-- `erase(pos)`, StackVector.inl:167-176. -/
def eraseT (index : Nat) : X (St α) Nat := do
  let n ← mSize
  X.assert (index < n)
  X.forUp (index + 1) (n - (index + 1)) (fun i => moveAssignT mv (i - 1) i)
  popBack
  pure index

/-- `erase(first, last)`, StackVector.inl:178-195. -/
def eraseRangeT (dflt : α) (first last : Nat) : X (St α) Nat := do
  if first = last then pure first
  else
    X.assert (first < last)
    let n ← mSize
    X.assert (last ≤ n)
    let count := last - first
    X.forUp (first + count) (n - (first + count)) (fun i => moveAssignT mv (i - count) i)
    resize C (n - count) (.value dflt)
    pure first

end Verif.StackVector
