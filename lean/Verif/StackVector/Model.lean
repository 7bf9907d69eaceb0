import Verif.FixedVector.Props

/-!
# Model of `StackVector` and `StackArray`

The members of a `StackVector` are its capacity, its size and a pointer to a buffer.  For the operations on one vector the
state is that of the model of `FixedVector` (`St`: size, slots, oracle for exceptions, whose fallback is never used here), the slots being the
buffer, and the capacity is a parameter `C`.  For moves, where two vectors exchange their buffers, see `Handle`.

The `assert` of these files is the one of the C library; it is treated as `NazaraAssert`.
-/

namespace Verif.StackVector
open Verif.Cpp
open Verif.FixedVector (St Vec Arg onData ofData mSize setSize construct tick)

variable {α : Type} (C : Nat) (mv : α → α)

/-- `StackVector(stackMemory, capacity)`, StackVector.inl:26-32, on a raw buffer of that capacity; `StackVector()`, 18-24, is the case of
capacity 0. -/
def new : St α := ⟨⟨some 0, List.replicate C none, []⟩, none⟩

/-- `size`, StackVector.inl:314-318. -/
def size : X (St α) Nat := mSize

/-- `empty`, StackVector.inl:149-153. -/
def isEmpty : X (St α) Bool := do
  let n ← mSize
  pure (n == 0)

/-- `operator[]`, StackVector.inl:320-332. -/
def at' (pos : Nat) : X (St α) α := do
  let n ← mSize
  X.assert (pos < n)
  ofData (Slots.read · pos)

/-- `operator[](pos) = v`. -/
def assignAt (pos : Nat) (v : α) : X (St α) Unit := do
  let n ← mSize
  X.assert (pos < n)
  onData (Slots.assign · pos v)

/-- `front`, StackVector.inl:197-209. -/
def front : X (St α) α := do
  let e ← isEmpty
  X.assert (!e)
  ofData (Slots.read · 0)

/-- `back`, StackVector.inl:44-56. -/
def back : X (St α) α := do
  let e ← isEmpty
  X.assert (!e)
  let n ← mSize
  ofData (Slots.read · (n - 1))

/-- `emplace_back`, StackVector.inl:141-147; `push_back`, 229-241, has the same body. -/
def emplaceBack (a : Arg α) : X (St α) Nat := do
  let n ← mSize
  X.assert (n < C)
  setSize (some (n + 1))
  construct n a
  pure n

/-- The part of `emplace` that makes room, StackVector.inl:129-135. -/
def emplaceShift (index n : Nat) : X (St α) Unit := do
  onData (Slots.moveCreate mv · n (n - 1))
  X.forDown index (n - 1 - index) (fun i => onData (Slots.moveAssign mv · i (i - 1)))
  onData (Slots.destroy · index)

/-- `emplace` (`insert`), StackVector.inl:118-139 and 211-221. -/
def emplace (index : Nat) (a : Arg α) : X (St α) Nat := do
  let n ← mSize
  X.assert (n < C)
  X.assert (index ≤ n)
  if index < n then emplaceShift mv index n else pure ()
  setSize (some (n + 1))
  construct index a
  pure index

/-- `pop_back`, StackVector.inl:243-248. -/
def popBack : X (St α) Unit := do
  let e ← isEmpty
  X.assert (!e)
  let n ← mSize
  setSize (some (n - 1))
  onData (Slots.destroy · (n - 1))

/-- `resize(count, value)`, StackVector.inl:270-288; `resize(count)`, 250-268, is the case of a default constructed element. -/
def resize (count : Nat) (a : Arg α) : X (St α) Unit := do
  X.assert (count ≤ C)
  let n ← mSize
  if count > n then
    X.forUp n (count - n) (fun i => construct i a)
    setSize (some count)
  else if count < n then
    X.forUp count (n - count) (fun i => onData (Slots.destroy · i))
    setSize (some count)
  else pure ()

/-- `clear`, StackVector.inl:76-80: `resize(0)`; `~StackVector`, 34-42, is `clear()`.  `dflt` is the default constructed element. -/
def clear (dflt : α) : X (St α) Unit := resize C 0 (.value dflt)

/-- `erase(pos)`, StackVector.inl:167-176. -/
def erase (index : Nat) : X (St α) Nat := do
  let n ← mSize
  X.assert (index < n)
  X.forUp (index + 1) (n - (index + 1)) (fun i => onData (Slots.moveAssign mv · (i - 1) i))
  popBack
  pure index

/-- `erase(first, last)`, StackVector.inl:178-195. -/
def eraseRange (dflt : α) (first last : Nat) : X (St α) Nat := do
  if first = last then pure first
  else
    X.assert (first < last)
    let n ← mSize
    X.assert (last ≤ n)
    let count := last - first
    X.forUp (first + count) (n - (first + count)) (fun i => onData (Slots.moveAssign mv · (i - count) i))
    resize C (n - count) (.value dflt)
    pure first

/-! ## Buffers and moves -/

/-- The members of a `StackVector` (StackVector.hpp:110-112) when there are several vectors: `ptr` is a buffer number, `none` the null pointer. -/
structure Handle where
  capacity : Nat
  size : Nat
  ptr : Option Nat
  deriving DecidableEq

/-- The buffers of the program. -/
abbrev Heap (α : Type) := List (Slots α)

/-- `PlacementDestroy(&m_ptr[i])`, MemoryHelper.inl:37-42: nothing is done for a null pointer; an address past a null pointer is no object. -/
def destroyAt (p : Option Nat) (i : Nat) (h : Heap α) : M (Heap α) :=
  match p with
  | none => if i = 0 then .ok h else .error .ub
  | some b =>
    match h[b]? with
    | some l => do
      let l ← Slots.destroy l i
      .ok (h.set b l)
    | none => .error .ub

/-- The destructor, StackVector.inl:34-42 (`resize(0)`, 250-268: destroys the elements from 0 on). -/
def Handle.destroy (v : Handle) (h : Heap α) : M (Heap α) := forUp 0 v.size (fun i h => destroyAt v.ptr i h) h

/-- The defaulted move constructor, StackVector.hpp:43: memberwise, with the move constructor of `MovablePtr` (MovablePtr.inl:21-26).  Result: the new vector and
the source. -/
def Handle.moveConstruct (v : Handle) : Handle × Handle := (v, { v with ptr := none })

/-- The defaulted move assignment, StackVector.hpp:107: memberwise, with the move assignment of `MovablePtr` (MovablePtr.inl:54-59), which swaps. -/
def Handle.moveAssign (this v : Handle) : Handle × Handle := (v, { v with ptr := this.ptr })

/-- Element `i` of a vector. -/
def Handle.read (v : Handle) (h : Heap α) (i : Nat) : M α := do
  Cpp.assert (i < v.size)
  match v.ptr with
  | none => .error .ub
  | some b =>
    match h[b]? with
    | some l => Slots.read l i
    | none => .error .ub

/-! ## StackArray -/

namespace Arr

/-- `PlacementNew(&m_ptr[i])` with a constructor that may throw. -/
def constructOne (dflt : α) (i : Nat) : X (St α) Unit := construct i (.value dflt)

/-- `StackArray(stackMemory, size)`, StackArray.inl:25-32, on a raw buffer. -/
def construct (n : Nat) (dflt : α) : X (St α) Unit := do
  setSize (some n)
  X.forUp 0 n (constructOne dflt)

/-- `StackArray(stackMemory, size, NoInitTag)`, StackArray.inl:34-39, for a buffer in which the caller constructed the elements. -/
def constructNoInit (n : Nat) : X (St α) Unit := setSize (some n)

/-- `~StackArray`, StackArray.inl:41-50. -/
def destructor : X (St α) Unit := do
  let n ← mSize
  X.forUp 0 n (fun i => onData (Slots.destroy · i))

/-- `operator[]`, StackArray.inl:186-198. -/
def at' (pos : Nat) : X (St α) α := do
  let n ← mSize
  X.assert (pos < n)
  ofData (Slots.read · pos)

/-- `operator[](pos) = v`. -/
def assignAt (pos : Nat) (v : α) : X (St α) Unit := do
  let n ← mSize
  X.assert (pos < n)
  onData (Slots.assign · pos v)

/-- `fill`, StackArray.inl:132-136. -/
def fill (v : α) : X (St α) Unit := do
  let n ← mSize
  X.forUp 0 n (fun i => onData (Slots.assign · i v))

/-- `front`, StackArray.inl:138-148 (no assertion). -/
def front : X (St α) α := ofData (Slots.read · 0)

/-- `back`, StackArray.inl:52-64. -/
def back : X (St α) α := do
  let n ← mSize
  X.assert (n != 0)
  ofData (Slots.read · (n - 1))

end Arr
end Verif.StackVector
