import Verif.FixedVector.LemmasCopy

/-!
# Model of `FixedVector` with the capacity and the allocations of its fallback `std::vector`

The elements are those of `Verif.FixedVector.Model`; added are the capacity of the fallback container, the identity of its buffer, and a counter of the
allocations tried.  Every allocation may fail with `std::bad_alloc`.  Element constructors do not throw here.

What is used of `std::vector`: a call that needs more than `capacity()` elements allocates once, before any other effect; the others do not allocate; a move
takes the buffer and leaves an empty vector without capacity (true of the usual implementations).
-/

namespace Verif.FixedVectorAlloc
open Verif.Cpp Verif.FixedVector

/-- What the standard library leaves open: the capacity after `reserve(n)`, after another call that needs room for `n` elements (both for `n` larger than the old
capacity `c`), and of a copy of `n` elements; all at least `n`. -/
structure Lib where
  reserve : Nat → Nat → Nat
  grow : Nat → Nat → Nat
  copy : Nat → Nat
  le_reserve : ∀ c n, n ≤ reserve c n
  le_grow : ∀ c n, n ≤ grow c n
  le_copy : ∀ n, n ≤ copy n

/-- The buffer of a fallback container: its capacity, and the number of the allocation that made it (0: there is none). -/
structure Buf where
  cap : Nat
  id : Nat
  deriving DecidableEq

/-- A vector, the buffer of its fallback container, and the number of allocations tried so far in the program. -/
structure HSt (α : Type) where
  st : St α
  buf : Buf
  tries : Nat
  deriving DecidableEq

variable {α : Type} (K : Cfg α) (L : Lib) (grant : Nat → Bool)

/-- An allocation of a buffer of capacity `c`; `grant k` says whether the `k`-th one of the program succeeds. -/
def allocate (c : Nat) : X (HSt α) Unit := fun h =>
  if grant h.tries then .done { h with buf := ⟨c, h.tries + 1⟩, tries := h.tries + 1 } ()
  else .thrown { h with tries := h.tries + 1 }

/-- A call that does not allocate. -/
def lift {β : Type} (m : X (St α) β) : X (HSt α) β := X.zoom HSt.st (fun h s => { h with st := s }) m

/-- An exception that leaves a `noexcept(b)` function. -/
def noexcept {σ β : Type} (b : Bool) (m : X σ β) : X σ β := fun s =>
  match m s with
  | .thrown s => if b then .fail .terminate else .thrown s
  | r => r

/-- The part of a member function of `std::vector` that makes room for `n` elements. -/
def room (n : Nat) : X (HSt α) Unit := do
  let h ← X.get
  if n ≤ h.buf.cap then pure () else allocate grant (L.grow h.buf.cap n)

/-- `capacity()`, FixedVector.inl:270-280. -/
def capacity : X (HSt α) Nat := do
  if ← lift (isUsingFallback K) then
    let h ← X.get
    pure h.buf.cap
  else pure K.capacity

/-- `ReserveFallback`, FixedVector.inl:82-85: `std::vector::reserve`. -/
def reserveFallback (n : Nat) : X (HSt α) Unit := do
  let h ← X.get
  if n ≤ h.buf.cap then pure () else allocate grant (L.reserve h.buf.cap n)

/-- One iteration of the loop of `MoveStorageToFallback`, FixedVector.inl:769-774. -/
def moveOneToFallback (i : Nat) : X (HSt α) Unit := do
  let l ← lift getFallback
  room L grant (l.length + 1)
  lift (FixedVector.moveOneToFallback K i)

/-- `MoveStorageToFallback`, FixedVector.inl:763-776. -/
def moveStorageToFallback (n : Nat) : X (HSt α) Unit := do
  let u ← lift (isUsingFallback K)
  X.assert (!u)
  reserveFallback L grant n
  let size ← lift mSize
  X.forUp 0 size (moveOneToFallback K L grant)
  lift (setSize none)

/-- `CheckFallbackOnGrow`, FixedVector.inl:734-752. -/
def checkFallbackOnGrow : X (HSt α) Bool := do
  if K.hasFallback then
    if ← lift (isUsingFallback K) then pure true
    else
      let n ← lift mSize
      if n ≥ K.capacity then
        moveStorageToFallback K L grant (n + 1)
        pure true
      else pure false
  else pure false

/-- `EmplaceInFallback`, FixedVector.inl:26-31, and `EmplaceBackInFallback`, 33-38. -/
def emplaceInFallback (index : Nat) (v : α) : X (HSt α) Unit := do
  let l ← lift getFallback
  room L grant (l.length + 1)
  lift (FixedVector.emplaceInFallback index (.value v))

/-- `emplace_back`, FixedVector.inl:390-402. -/
def emplaceBack (v : α) : X (HSt α) Nat := do
  if ← checkFallbackOnGrow K L grant then
    let l ← lift getFallback
    emplaceInFallback L grant l.length v
    pure l.length
  else
    let n ← lift mSize
    X.assert (n < K.capacity)
    lift (setSize (some (n + 1)))
    lift (construct n (.value v))
    pure n

/-- `push_back(const T&)`, FixedVector.inl:510-521, which is `noexcept(std::is_nothrow_copy_constructible<T>::value)`. -/
def pushBack (nothrowCopy : Bool) (v : α) : X (HSt α) Nat := noexcept nothrowCopy (emplaceBack K L grant v)

/-- The body of `push_back(T&&)`, FixedVector.inl:526-533.  Returns what is left in the argument. -/
def pushBackMoveBody (v : α) : X (HSt α) α := do
  if ← checkFallbackOnGrow K L grant then
    let l ← lift getFallback
    emplaceInFallback L grant l.length v
    pure v
  else
    let n ← lift mSize
    X.assert (n < K.capacity)
    lift (setSize (some (n + 1)))
    lift (onData (Slots.create · n v))
    pure (K.mv v)

/-- `push_back(T&&)`, FixedVector.inl:523-534, which is `noexcept(std::is_nothrow_move_constructible<T>::value)`; moves do not throw. -/
def pushBackMove (v : α) : X (HSt α) α := noexcept true (pushBackMoveBody K L grant v)

/-- `emplace` (`insert`), FixedVector.inl:361-388 and 489-499. -/
def emplace (index : Nat) (v : α) : X (HSt α) Nat := do
  let n ← lift (size K)
  X.assert (index ≤ n)
  if ← checkFallbackOnGrow K L grant then
    emplaceInFallback L grant index v
    pure index
  else
    let n ← lift mSize
    X.assert (n < K.capacity)
    if index < n then lift (emplaceShift K index n) else pure ()
    lift (setSize (some (n + 1)))
    lift (construct index (.value v))
    pure index

/-- `ResizeFallback`, FixedVector.inl:87-95. -/
def resizeFallback (count : Nat) (v : α) : X (HSt α) Unit := do
  room L grant count
  lift (FixedVector.resizeFallback count (.value v))

/-- `resize(count, value)`, FixedVector.inl:587-620, and `resize(count)`, 552-585. -/
def resize (count : Nat) (v : α) : X (HSt α) Unit := do
  if ← lift (isUsingFallback K) then resizeFallback L grant count v
  else if K.hasFallback && count > K.capacity then
    moveStorageToFallback K L grant count
    resizeFallback L grant count v
  else lift (resizeInline K count (.value v))

/-- `reserve`, FixedVector.inl:622-639. -/
def reserve (count : Nat) : X (HSt α) Unit := do
  if K.hasFallback then
    if count ≤ K.capacity then pure ()
    else if ← lift (isUsingFallback K) then reserveFallback L grant count
    else moveStorageToFallback K L grant count
  else X.assert (count ≤ K.capacity)

/-- A call of the API; those that never make the vector longer do not allocate.  `.pushBack` is `emplace_back`. -/
def run : Op α → X (HSt α) (Option Nat)
  | .pushBack v => do let r ← emplaceBack K L grant v; pure (some r)
  | .emplace i v => do let r ← emplace K L grant i v; pure (some r)
  | .resize n v => do resize K L grant n v; pure none
  | .reserve n => do reserve K L grant n; pure none
  | o => lift (o.run K)

/-! ## Copies and moves -/

/-- `push_back(vec[i])`, FixedVector.inl:218 and 707. -/
def copyOne (nothrowCopy : Bool) (vec : Vec α) (i : Nat) : X (HSt α) Unit :=
  match Slots.read vec.data i with
  | .ok v => do
    let _ ← pushBack K L grant nothrowCopy v
  | .error e => X.fail e

/-- The loop of the copy operations, FixedVector.inl:217-218 and 706-707. -/
def copyLoop (nothrowCopy : Bool) (vec : Vec α) (n : Nat) : X (HSt α) Unit := X.forUp 0 n (copyOne K L grant nothrowCopy vec)

/-- Copy constructor of `std::vector`, for a source of `n` elements. -/
def copyBuffer (n : Nat) : X (HSt α) Unit :=
  if n = 0 then X.modify (fun h => { h with buf := ⟨0, 0⟩ }) else allocate grant (L.copy n)

/-- Copy constructor, FixedVector.inl:210-222, on a new (raw) object. -/
def copyConstruct (nothrowCopy : Bool) (vec : Vec α) : X (HSt α) Unit := do
  lift (X.modify (fun s => { s with vec := empty K }))
  copyBuffer L grant vec.fallback.length
  lift (setFallback vec.fallback)
  if !vec.usesFallback K then
    lift (setSize (some 0))
    match vec.size with
    | some n => copyLoop K L grant nothrowCopy vec n
    | none => X.fail .ub
  else lift (setSize none)

/-- Copy assignment, FixedVector.inl:691-710, from another vector. -/
def copyAssign (nothrowCopy : Bool) (vec : Vec α) : X (HSt α) Unit := do
  if vec.usesFallback K then
    room L grant vec.fallback.length
    lift (setFallback vec.fallback)
    lift (setSize vec.size)
  else
    lift (clear K)
    match vec.size with
    | some n => do
      reserve K L grant n
      copyLoop K L grant nothrowCopy vec n
    | none => X.fail .ub

/-- A pair of vectors `(*this, vec)`; the number of allocations is that of the first. -/
abbrev Pair (α : Type) := HSt α × (Vec α × Buf)

/-- A call of a member function of `*this`. -/
def onThis {β : Type} (m : X (HSt α) β) : X (Pair α) β := X.zoom Prod.fst (fun t x => (x, t.2)) m

/-- `push_back(std::move(vec[i]))`, `vec` not using the fallback: FixedVector.inl:232 and 729. -/
def moveOne (i : Nat) : X (Pair α) Unit := do
  let s ← X.get
  match Slots.read s.2.1.data i with
  | .ok v => do
    let left ← onThis (pushBackMove K L grant v)
    let s ← X.get
    match Slots.assign s.2.1.data i left with
    | .ok d => X.set (s.1, (⟨s.2.1.size, d, s.2.1.fallback⟩, s.2.2))
    | .error e => X.fail e
  | .error e => X.fail e

/-- The loop of the move operations, FixedVector.inl:231-232 and 728-729. -/
def moveLoop (n : Nat) : X (Pair α) Unit := X.forUp 0 n (moveOne K L grant)

/-- Move constructor, FixedVector.inl:224-236, of a new object from `vec`; it is `noexcept` (`moveConstruct`). -/
def moveConstructBody : X (Pair α) Unit := do
  X.modify (fun s => ({ s.1 with st := { s.1.st with vec := { empty K with fallback := s.2.1.fallback } }, buf := s.2.2 },
    ({ s.2.1 with fallback := [] }, ⟨0, 0⟩)))
  let s ← X.get
  if !s.2.1.usesFallback K then
    match s.2.1.size with
    | some n => moveLoop K L grant n
    | none => X.fail .ub
  else onThis (lift (setSize none))

/-- The move constructor, FixedVector.inl:225. -/
def moveConstruct : X (Pair α) Unit := noexcept true (moveConstructBody K L grant)

/-- Move assignment, FixedVector.inl:712-732, from another vector; it is `noexcept` (`moveAssign`). -/
def moveAssignBody : X (Pair α) Unit := do
  X.modify (fun s => ({ s.1 with st := { s.1.st with vec := { s.1.st.vec with fallback := s.2.1.fallback } }, buf := s.2.2 },
    ({ s.2.1 with fallback := [] }, ⟨0, 0⟩)))
  let s ← X.get
  if s.2.1.usesFallback K then onThis (lift (setSize s.2.1.size))
  else
    onThis (lift (clear K))
    match s.2.1.size with
    | some n => do
      onThis (reserve K L grant n)
      moveLoop K L grant n
    | none => X.fail .ub

/-- The move assignment operator, FixedVector.inl:713. -/
def moveAssign : X (Pair α) Unit := noexcept true (moveAssignBody K L grant)

end Verif.FixedVectorAlloc
