import Verif.FixedVector.Props

/-!
# `FixedVector` of elements whose moves may throw, and exceptions in constructors

`Model.lean` lets every construction of an element throw except moves.  Here the moves of `emplace`, `erase` and
`MoveStorageToFallback` may throw as well: `fuse` counts them like the other constructions.  Simplification: a move that throws leaves both
objects as they were (the values do not matter for what is alive).  With `fuse = none` the operations are those of `Model.lean`
(`agrees` in `LemmasMoveThrow.lean`).  Moves inside the fallback container are not modelled: the theorems are about elements in the inline storage and on
their way to the fallback.
-/

namespace Verif.FixedVector
open Verif.Cpp

variable {α : Type} (K : Cfg α)

/-- `PlacementNew(data(i), std::move(*data(j)))`. -/
def moveCreateT (i j : Nat) : X (St α) Unit := do
  tick
  onData (Slots.moveCreate K.mv · i j)

/-- `*data(i) = std::move(*data(j))`. -/
def moveAssignT (i j : Nat) : X (St α) Unit := do
  tick
  onData (Slots.moveAssign K.mv · i j)

/-- One iteration of the loop of `MoveStorageToFallback`, FixedVector.inl:769-774.  (The fallback has room, 768, so that only the
move constructor can throw.) -/
def moveOneToFallbackT (i : Nat) : X (St α) Unit := do
  let v ← ofData (Slots.read · i)
  tick
  let l ← getFallback
  setFallback (l ++ [v])
  onData (Slots.assign · i (K.mv v))
  onData (Slots.destroy · i)

/-- `MoveStorageToFallback`, FixedVector.inl:763-776. -/
def moveStorageToFallbackT : X (St α) Unit := do
  let u ← isUsingFallback K
  X.assert (!u)
  let n ← mSize
  X.forUp 0 n (moveOneToFallbackT K)
  setSize none

/-- `CheckFallbackOnGrow`, FixedVector.inl:734-752. -/
def checkFallbackOnGrowT : X (St α) Bool := do
  if K.hasFallback then
    if ← isUsingFallback K then pure true
    else
      let n ← mSize
      if n ≥ K.capacity then
        moveStorageToFallbackT K
        pure true
      else pure false
  else pure false

/-- `emplace_back`, FixedVector.inl:390-402; `push_back`, 510-534. -/
def emplaceBackT (a : Arg α) : X (St α) Nat := do
  if ← checkFallbackOnGrowT K then
    let l ← getFallback
    emplaceInFallback l.length a
    pure l.length
  else
    let n ← mSize
    X.assert (n < K.capacity)
    setSize (some (n + 1))
    construct n a
    pure n

/-- The part of `emplace` that makes room, FixedVector.inl:377-383. -/
def emplaceShiftT (index n : Nat) : X (St α) Unit := do
  moveCreateT K n (n - 1)
  X.forDown index (n - 1 - index) (fun i => moveAssignT K i (i - 1))
  onData (Slots.destroy · index)

/-- `emplace` (`insert`), FixedVector.inl:361-388 and 489-499. -/
def emplaceT (index : Nat) (a : Arg α) : X (St α) Nat := do
  let n ← size K
  X.assert (index ≤ n)
  if ← checkFallbackOnGrowT K then
    emplaceInFallback index a
    pure index
  else
    let n ← mSize
    X.assert (n < K.capacity)
    if index < n then emplaceShiftT K index n else pure ()
    setSize (some (n + 1))
    construct index a
    pure index

/-- `resize(count, value)`, FixedVector.inl:587-620, and `resize(count)`, 552-585. -/
def resizeT (count : Nat) (a : Arg α) : X (St α) Unit := do
  if ← isUsingFallback K then resizeFallback count a
  else if K.hasFallback && count > K.capacity then
    moveStorageToFallbackT K
    resizeFallback count a
  else resizeInline K count a

/-- `reserve`, FixedVector.inl:622-639. -/
def reserveT (count : Nat) : X (St α) Unit := do
  if K.hasFallback then
    if count ≤ K.capacity then pure ()
    else if ← isUsingFallback K then pure ()
    else moveStorageToFallbackT K
  else X.assert (count ≤ K.capacity)

/-- `erase(pos)`, FixedVector.inl:428-444. -/
def eraseT (index : Nat) : X (St α) Nat := do
  let n ← size K
  X.assert (index < n)
  if ← isUsingFallback K then
    let l ← getFallback
    setFallback (l.eraseIdx index)
    pure index
  else
    X.forUp (index + 1) (n - (index + 1)) (fun i => moveAssignT K (i - 1) i)
    popBack K
    pure index

/-- `erase(first, last)`, FixedVector.inl:446-473. -/
def eraseRangeT (first last : Nat) : X (St α) Nat := do
  if ← isUsingFallback K then
    let l ← getFallback
    X.guardUB (first ≤ last && last ≤ l.length)
    setFallback (l.take first ++ l.drop last)
    pure first
  else if first = last then pure first
  else
    X.assert (first < last)
    let n ← size K
    X.assert (last ≤ n)
    let count := last - first
    X.forUp (first + count) (n - (first + count)) (fun i => moveAssignT K (i - count) i)
    resizeT K (n - count) (.value K.dflt)
    pure first

/-! ## Exceptions that leave a constructor -/

/-- A constructor that delegates to another one (here `FixedVector()`): if its body throws, the destructor is called. -/
def delegating (body : X (St α) Unit) : X (St α) Unit := fun s =>
  match body s with
  | .done s' u => .done s' u
  | .thrown s' =>
    match destructor K s' with
    | .done d _ => .thrown d
    | .thrown d => .thrown d
    | .fail e => .fail e
  | .fail e => .fail e

/-- A constructor that does not delegate: if its body throws, the base class and the data members are destroyed (the fallback and the bytes of the
inline storage), but not the elements. -/
def plain (body : X (St α) Unit) : X (St α) Unit := fun s =>
  match body s with
  | .done s' u => .done s' u
  | .thrown s' => .thrown { s' with vec := { s'.vec with fallback := [] } }
  | .fail e => .fail e

/-- `FixedVector(size, value)`, FixedVector.inl:188-193, on raw memory; the vector is in state `FixedVector()` when the body begins. -/
def ctorSize (n : Nat) (v : α) : X (St α) Unit := do
  X.modify (fun s => { s with vec := empty K })
  delegating K (ofSize K n v)

/-- `FixedVector(first, last)` and `FixedVector(std::initializer_list<T>)`, FixedVector.inl:195-208, on raw memory. -/
def ctorRange (vs : List α) : X (St α) Unit := do
  X.modify (fun s => { s with vec := empty K })
  delegating K (emplaceAll K vs)

/-- `FixedVector(const FixedVector&)`, FixedVector.inl:210-222, on raw memory: the fallback is copied (element by element), then the elements of the inline storage are. -/
def ctorCopy (vec : Vec α) : X (St α) Unit :=
  plain (do
    ticks vec.fallback.length
    copyConstruct K vec)

/-- A function declared `noexcept`: an exception ends the program. -/
def noexcept {σ β : Type} (m : X σ β) : X σ β := fun s =>
  match m s with
  | .thrown _ => .fail .terminate
  | r => r

/-- `push_back(std::move(vec[i]))` on a pair `(*this, vec)`, FixedVector.inl:232 and 729, if the move constructor may throw.  (`*this` has room; into
the fallback the element is copied, which `moveOne` counts.) -/
def moveOneT (i : Nat) : X (St α × Vec α) Unit := do
  let u ← onThis (isUsingFallback K)
  if !u then onThis tick else pure ()
  moveOne K i

/-- `FixedVector(FixedVector&&) noexcept`, FixedVector.inl:224-236. -/
def moveConstructT : X (St α × Vec α) Unit := noexcept (do
  X.modify (fun s => ({ s.1 with vec := { empty K with fallback := s.2.fallback } }, { s.2 with fallback := [] }))
  let s ← X.get
  if !s.2.usesFallback K then
    match s.2.size with
    | some n => X.forUp 0 n (moveOneT K)
    | none => X.fail .ub
  else onThis (setSize none))

/-- `operator=(FixedVector&&) noexcept`, FixedVector.inl:712-732. -/
def moveAssignTo : X (St α × Vec α) Unit := noexcept (do
  X.modify (fun s => ({ s.1 with vec := { s.1.vec with fallback := s.2.fallback } }, { s.2 with fallback := [] }))
  let s ← X.get
  if s.2.usesFallback K then onThis (setSize s.2.size)
  else
    onThis (clear K)
    match s.2.size with
    | some n => do
      onThis (reserveT K n)
      X.forUp 0 n (moveOneT K)
    | none => X.fail .ub)

end Verif.FixedVector
