import Verif.Exec
import Verif.Memory

/-!
# Model of `FixedVector.hpp` / `FixedVector.inl`

One model for `FixedVector<T, Capacity>` and `FixedVector<T, Capacity, std::vector<T>>` (`HybridVector`).  The storage
`m_data` consists of slots (`Verif.Cpp.Slots`); the fallback `std::vector` is a list, with the behaviour the standard
gives to its member functions (its capacity is not modelled; if one of its element constructors throws it is unchanged).
Iterators are indices.

Element moves and destructors do not throw; every other construction of an element may, at the choice of the oracle
`fuse` of the state.
-/

namespace Verif.FixedVector
open Verif.Cpp

/-- The template parameters: `Capacity`, whether there is a `Fallback`, the value of a default constructed `T`, and the value left in a moved-from
`T`. -/
structure Cfg (α : Type) where
  capacity : Nat
  hasFallback : Bool
  dflt : α
  mv : α → α

/-- The data members, FixedVector.hpp:126-127 and FixedVector.inl:97.  `size` is `m_size`, `none` standing for
`FallbackInUse`. -/
structure Vec (α : Type) where
  size : Option Nat
  data : Slots α
  fallback : List α
  deriving DecidableEq

/-- A vector, and the number of element constructions after which one throws (`none`: never). -/
structure St (α : Type) where
  vec : Vec α
  fuse : Option Nat
  deriving DecidableEq

variable {α : Type} (K : Cfg α)

/-- A call of an element constructor that may throw. -/
def tick : X (St α) Unit := fun s =>
  match s.fuse with
  | none => .done s ()
  | some 0 => .thrown { s with fuse := none }
  | some (n + 1) => .done { s with fuse := some n } ()

/-- An operation on `m_data`. -/
def onData (f : Slots α → M (Slots α)) : X (St α) Unit := fun s =>
  match f s.vec.data with
  | .ok d => .done { s with vec := { s.vec with data := d } } ()
  | .error e => .fail e

/-- Read access to `m_data`. -/
def ofData {β : Type} (f : Slots α → M β) : X (St α) β := fun s =>
  match f s.vec.data with
  | .ok x => .done s x
  | .error e => .fail e

/-- `m_size` where the code uses it as a number (it is not, while the fallback is in use). -/
def mSize : X (St α) Nat := fun s =>
  match s.vec.size with
  | some n => .done s n
  | none => .fail .ub

def setSize (n : Option Nat) : X (St α) Unit := X.modify (fun s => { s with vec := { s.vec with size := n } })
def getFallback : X (St α) (List α) := fun s => .done s s.vec.fallback
def setFallback (l : List α) : X (St α) Unit := X.modify (fun s => { s with vec := { s.vec with fallback := l } })

/-- What an element is constructed from: a value that is not part of the vector, or (a reference to) the element in slot
`i` of the vector itself. -/
inductive Arg (α : Type) where
  | value (v : α)
  | slot (i : Nat)

/-- The value of an argument, at the moment it is read. -/
def Arg.read : Arg α → X (St α) α
  | .value v => pure v
  | .slot i => ofData (Slots.read · i)

/-- `PlacementNew(data(i), arg)` on the inline storage. -/
def construct (i : Nat) (a : Arg α) : X (St α) Unit := do
  let v ← a.read
  tick
  onData (Slots.create · i v)

/-- `FixedVector()`, FixedVector.inl:182-186. -/
def empty : Vec α := ⟨some 0, List.replicate K.capacity none, []⟩

/-- `IsUsingFallback`, FixedVector.inl:754-761. -/
def isUsingFallback : X (St α) Bool := fun s => .done s (K.hasFallback && s.vec.size.isNone)

/-- `size`, FixedVector.inl:665-675. -/
def size : X (St α) Nat := do
  if ← isUsingFallback K then
    let l ← getFallback
    pure l.length
  else mSize

/-- `empty()`, FixedVector.inl:404-414. -/
def isEmpty : X (St α) Bool := do
  let n ← size K
  pure (n == 0)

/-- `capacity()`, FixedVector.inl:270-280, while the inline storage is in use (the capacity of the fallback is not modelled), and
`max_size()`, 501-508, without fallback. -/
def capacity : Nat := K.capacity

/-- `*data(n)`, FixedVector.inl:331-359: a read of an element. -/
def readAt (n : Nat) : X (St α) α := do
  if ← isUsingFallback K then
    let l ← getFallback
    match l[n]? with
    | some v => pure v
    | none => X.fail .ub
  else ofData (Slots.read · n)

/-- `operator[]`, FixedVector.inl:677-689. -/
def at' (pos : Nat) : X (St α) α := do
  let n ← size K
  X.assert (pos < n)
  readAt K pos

/-- `operator[](pos) = v`: assignment through the returned reference. -/
def assignAt (pos : Nat) (v : α) : X (St α) Unit := do
  let n ← size K
  X.assert (pos < n)
  if ← isUsingFallback K then
    let l ← getFallback
    setFallback (l.set pos v)
  else onData (Slots.assign · pos v)

/-- `front`, FixedVector.inl:475-487. -/
def front : X (St α) α := do
  let e ← isEmpty K
  X.assert (!e)
  readAt K 0

/-- `back`, FixedVector.inl:244-256. -/
def back : X (St α) α := do
  let e ← isEmpty K
  X.assert (!e)
  let n ← size K
  readAt K (n - 1)

/-- `clear`, FixedVector.inl:282-299. -/
def clear : X (St α) Unit := do
  if ← isUsingFallback K then setFallback []
  else
    let n ← mSize
    X.forUp 0 n (fun i => onData (Slots.destroy · i))
    setSize (some 0)

/-- `~FixedVector`, FixedVector.inl:238-242, followed by the destructor of the fallback. -/
def destructor : X (St α) Unit := do
  clear K
  setFallback []

/-- One iteration of the loop of `MoveStorageToFallback`, FixedVector.inl:769-774. -/
def moveOneToFallback (i : Nat) : X (St α) Unit := do
  let v ← ofData (Slots.read · i)
  let l ← getFallback
  setFallback (l ++ [v])
  onData (Slots.assign · i (K.mv v))
  onData (Slots.destroy · i)

/-- `MoveStorageToFallback`, FixedVector.inl:763-776. -/
def moveStorageToFallback : X (St α) Unit := do
  let u ← isUsingFallback K
  X.assert (!u)
  let n ← mSize
  X.forUp 0 n (moveOneToFallback K)
  setSize none

/-- `CheckFallbackOnGrow`, FixedVector.inl:734-752. -/
def checkFallbackOnGrow : X (St α) Bool := do
  if K.hasFallback then
    if ← isUsingFallback K then pure true
    else
      let n ← mSize
      if n ≥ K.capacity then
        moveStorageToFallback K
        pure true
      else pure false
  else pure false

/-- `EmplaceInFallback`, FixedVector.inl:26-31; `EmplaceBackInFallback`, 33-38, is the case of the end index. -/
def emplaceInFallback (index : Nat) (a : Arg α) : X (St α) Unit := do
  let l ← getFallback
  X.guardUB (index ≤ l.length)
  let v ← a.read
  tick
  setFallback (l.insertIdx index v)

/-- `emplace_back`, FixedVector.inl:390-402; `push_back(const T&)`, 510-521, has the same body.  Returns the index of the element the returned reference
designates.  `m_size++` is evaluated before the constructor is called. -/
def emplaceBack (a : Arg α) : X (St α) Nat := do
  if ← checkFallbackOnGrow K then
    let l ← getFallback
    emplaceInFallback l.length a
    pure l.length
  else
    let n ← mSize
    X.assert (n < K.capacity)
    setSize (some (n + 1))
    construct n a
    pure n

/-- `push_back(std::move(x))`, FixedVector.inl:523-534, `x` having the value `v`.  Returns the value left in `x`.  On the inline storage `x` is moved from (which does
not throw); into the fallback it is copied: `EmplaceBackInFallback(value)`, 529, is called without `std::move`. -/
def pushBackMove (v : α) : X (St α) α := do
  if ← checkFallbackOnGrow K then
    let l ← getFallback
    emplaceInFallback l.length (.value v)
    pure v
  else
    let n ← mSize
    X.assert (n < K.capacity)
    setSize (some (n + 1))
    onData (Slots.create · n v)
    pure (K.mv v)

/-- The constructor from a range, FixedVector.inl:195-208: the elements one after the other. -/
def emplaceAll : List α → X (St α) Unit
  | [] => pure ()
  | v :: vs => do
    let _ ← emplaceBack K (.value v)
    emplaceAll vs

/-- The part of `emplace` that makes room, FixedVector.inl:377-383. -/
def emplaceShift (index n : Nat) : X (St α) Unit := do
  onData (Slots.moveCreate K.mv · n (n - 1))
  X.forDown index (n - 1 - index) (fun i => onData (Slots.moveAssign K.mv · i (i - 1)))
  onData (Slots.destroy · index)

/-- `emplace` (`insert`), FixedVector.inl:361-388 and 489-499; `pos` is the iterator `begin() + index`. -/
def emplace (index : Nat) (a : Arg α) : X (St α) Nat := do
  let n ← size K
  X.assert (index ≤ n)
  if ← checkFallbackOnGrow K then
    emplaceInFallback index a
    pure index
  else
    let n ← mSize
    X.assert (n < K.capacity)
    if index < n then emplaceShift K index n else pure ()
    setSize (some (n + 1))
    construct index a
    pure index

/-- `pop_back`, FixedVector.inl:536-550. -/
def popBack : X (St α) Unit := do
  if ← isUsingFallback K then
    let l ← getFallback
    X.guardUB (0 < l.length)
    setFallback l.dropLast
  else
    let e ← isEmpty K
    X.assert (!e)
    let n ← mSize
    setSize (some (n - 1))
    onData (Slots.destroy · (n - 1))

/-- `count` element constructions of the fallback container. -/
def ticks : Nat → X (St α) Unit
  | 0 => pure ()
  | n + 1 => do
    tick
    ticks n

/-- `ResizeFallback`, FixedVector.inl:87-95. -/
def resizeFallback (count : Nat) (a : Arg α) : X (St α) Unit := do
  let l ← getFallback
  let v ← a.read
  ticks (count - l.length)
  setFallback (l.take count ++ List.replicate (count - l.length) v)

/-- The part of `resize` on the inline storage, FixedVector.inl:570-584 and 605-619. -/
def resizeInline (count : Nat) (a : Arg α) : X (St α) Unit := do
  X.assert (count ≤ K.capacity)
  let n ← mSize
  if count > n then
    X.forUp n (count - n) (fun i => construct i a)
    setSize (some count)
  else if count < n then
    X.forUp count (n - count) (fun i => onData (Slots.destroy · i))
    setSize (some count)
  else pure ()

/-- `resize(count, value)`, FixedVector.inl:587-620; `resize(count)`, 552-585, is the case of a default constructed element. -/
def resize (count : Nat) (a : Arg α) : X (St α) Unit := do
  if ← isUsingFallback K then resizeFallback count a
  else if K.hasFallback && count > K.capacity then
    moveStorageToFallback K
    resizeFallback count a
  else resizeInline K count a

/-- `FixedVector(size, value)`, FixedVector.inl:188-193. -/
def ofSize (n : Nat) (v : α) : X (St α) Unit := resize K n (.value v)

/-- `reserve`, FixedVector.inl:622-639. -/
def reserve (count : Nat) : X (St α) Unit := do
  if K.hasFallback then
    if count ≤ K.capacity then pure ()
    else if ← isUsingFallback K then pure ()
    else moveStorageToFallback K
  else X.assert (count ≤ K.capacity)

/-- `erase(pos)`, FixedVector.inl:428-444. -/
def erase (index : Nat) : X (St α) Nat := do
  let n ← size K
  X.assert (index < n)
  if ← isUsingFallback K then
    let l ← getFallback
    setFallback (l.eraseIdx index)
    pure index
  else
    X.forUp (index + 1) (n - (index + 1)) (fun i => onData (Slots.moveAssign K.mv · (i - 1) i))
    popBack K
    pure index

/-- `erase(first, last)`, FixedVector.inl:446-473. -/
def eraseRange (first last : Nat) : X (St α) Nat := do
  if ← isUsingFallback K then
    let l ← getFallback
    X.guardUB (first ≤ last && last ≤ l.length)
    setFallback (l.take first ++ l.drop last)
    pure first
  else if first = last then pure first
  else
    X.assert (first < last)
    let n ← size K
    X.assert (last ≤ n)
    let count := last - first
    X.forUp (first + count) (n - (first + count)) (fun i => onData (Slots.moveAssign K.mv · (i - count) i))
    resize K (n - count) (.value K.dflt)
    pure first

/-! ## Copies and moves -/

/-- `IsUsingFallback` of another vector. -/
def Vec.usesFallback (v : Vec α) : Bool := K.hasFallback && v.size.isNone

/-- `push_back(vec[i])`, `vec` being another vector that does not use the fallback: FixedVector.inl:218 and 707. -/
def copyOne (vec : Vec α) (i : Nat) : X (St α) Unit :=
  match Slots.read vec.data i with
  | .ok v => do
    let _ ← emplaceBack K (.value v)
  | .error e => X.fail e

/-- The loop `for (i = 0; i < vec.size(); ++i) push_back(vec[i])` of the copy operations, FixedVector.inl:217-218 and
706-707. -/
def copyLoop (vec : Vec α) (n : Nat) : X (St α) Unit := X.forUp 0 n (copyOne K vec)

/-- Copy constructor, FixedVector.inl:210-222, on a new (raw) object. -/
def copyConstruct (vec : Vec α) : X (St α) Unit := do
  X.modify (fun s => { s with vec := empty K })
  setFallback vec.fallback
  if !vec.usesFallback K then
    setSize (some 0)
    match vec.size with
    | some n => copyLoop K vec n
    | none => X.fail .ub
  else setSize none

/-- Copy assignment, FixedVector.inl:691-710, from another vector. -/
def copyAssign (vec : Vec α) : X (St α) Unit := do
  if vec.usesFallback K then
    setFallback vec.fallback
    setSize vec.size
  else
    clear K
    match vec.size with
    | some n => do
      reserve K n
      copyLoop K vec n
    | none => X.fail .ub

/-- Copy assignment from itself, FixedVector.inl:691-710.  After `clear()`, `vec.size()` is the size of the cleared vector. -/
def copyAssignSelf : X (St α) Unit := do
  if ← isUsingFallback K then pure ()
  else
    clear K
    let n ← size K
    reserve K n
    X.forUp 0 n (fun i => do
      let v ← at' K i
      let _ ← emplaceBack K (.value v))

/-- A call of a member function of `*this` in the pair `(*this, vec)`. -/
def onThis {β : Type} (m : X (St α) β) : X (St α × Vec α) β := X.zoom Prod.fst (fun t x => (x, t.2)) m

/-- `push_back(std::move(vec[i]))` on a pair of vectors `(*this, vec)`, `vec` not using the fallback: FixedVector.inl:232 and 729. -/
def moveOne (i : Nat) : X (St α × Vec α) Unit := do
  let s ← X.get
  match Slots.read s.2.data i with
  | .ok v => do
    let left ← onThis (pushBackMove K v)
    let s ← X.get
    match Slots.assign s.2.data i left with
    | .ok d => X.set (s.1, ⟨s.2.size, d, s.2.fallback⟩)
    | .error e => X.fail e
  | .error e => X.fail e

/-- The loop `for (i = 0; i < vec.size(); ++i) push_back(std::move(vec[i]))` of the move operations, FixedVector.inl:231-232 and
728-729. -/
def moveLoop (n : Nat) : X (St α × Vec α) Unit := X.forUp 0 n (moveOne K)

/-- Move constructor, FixedVector.inl:224-236, of a new object from `vec`. -/
def moveConstruct : X (St α × Vec α) Unit := do
  X.modify (fun s => ({ s.1 with vec := { empty K with fallback := s.2.fallback } }, { s.2 with fallback := [] }))
  let s ← X.get
  if !s.2.usesFallback K then
    match s.2.size with
    | some n => moveLoop K n
    | none => X.fail .ub
  else onThis (setSize none)

/-- Move assignment, FixedVector.inl:712-732, from another vector `vec`.  (Without a fallback, the fallbacks are empty and their
assignment has no effect.) -/
def moveAssign : X (St α × Vec α) Unit := do
  X.modify (fun s => ({ s.1 with vec := { s.1.vec with fallback := s.2.fallback } }, { s.2 with fallback := [] }))
  let s ← X.get
  if s.2.usesFallback K then onThis (setSize s.2.size)
  else
    onThis (clear K)
    match s.2.size with
    | some n => do
      onThis (reserve K n)
      moveLoop K n
    | none => X.fail .ub

/-- Move assignment from itself, FixedVector.inl:712-732, while the inline storage is in use (a self-move of the fallback
`std::vector` leaves it with unspecified contents). -/
def moveAssignSelf : X (St α) Unit := do
  if ← isUsingFallback K then X.fail .ub
  else
    clear K
    let n ← size K
    reserve K n
    X.forUp 0 n (fun i => do
      let v ← at' K i
      let _ ← emplaceBack K (.value v))

end Verif.FixedVector
