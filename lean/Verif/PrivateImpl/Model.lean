import Verif.Exec

/-!
# Model of `PrivateImpl` (PrivateImpl.hpp, PrivateImpl.inl)

First the form on the heap (`BufferSize == 0`), then the form with inline storage.  Programs work on
any number of `PrivateImpl` variables.
-/

namespace Verif.PrivateImpl

open Verif.Cpp

/-- What matters of the type `T`. -/
structure Ty (T : Type) where
  /-- constructing this value from arguments, or assigning it from outside, throws -/
  throws : T → Bool
  /-- copying an object with this value throws -/
  copyThrows : T → Bool
  /-- state left by a move -/
  movedFrom : T → T
  /-- `std::is_copy_assignable_v<T>` -/
  copyAssignable : Bool

/-! ## On the heap -/

/-- Objects on the heap by address (0 is null), the next free address, and the variables with their `m_ptr`. -/
structure St (T : Type) where
  cells : Nat → Option T
  next : Nat
  vars : Nat → Option Nat

namespace Heap
variable {T : Type}

def init : St T := ⟨fun _ => none, 1, fun _ => none⟩

/-- `new T(v)`; `throws` tells for which values the constructor that is called throws. -/
def new (throws : T → Bool) (v : T) : X (St T) Nat := fun s =>
  if throws v then .thrown s
  else .done { s with cells := fun a => if a = s.next then some v else s.cells a, next := s.next + 1 } s.next

/-- `delete p`. -/
def delete (p : Nat) : X (St T) Unit := fun s =>
  if p = 0 then .done s ()
  else match s.cells p with
    | some _ => .done { s with cells := fun a => if a = p then none else s.cells a } ()
    | none => .fail .ub

/-- `*p`. -/
def deref (p : Nat) : X (St T) T := fun s =>
  match s.cells p with
  | some v => if p = 0 then .fail .ub else .done s v
  | none => .fail .ub

/-- `*p = v`; an assignment that throws leaves `*p` (simplified). -/
def store (throws : T → Bool) (p : Nat) (v : T) : X (St T) Unit := fun s =>
  match s.cells p with
  | some _ =>
    if p = 0 then .fail .ub
    else if throws v then .thrown s
    else .done { s with cells := fun a => if a = p then some v else s.cells a } ()
  | none => .fail .ub

/-- `m_ptr` of variable `i`. -/
def getPtr (i : Nat) : X (St T) Nat := fun s =>
  match s.vars i with
  | some p => .done s p
  | none => .fail .ub

def setPtr (i : Nat) (p : Nat) : X (St T) Unit := fun s => .done { s with vars := fun k => if k = i then some p else s.vars k } ()

def endVar (i : Nat) : X (St T) Unit := fun s => .done { s with vars := fun k => if k = i then none else s.vars k } ()

/-- `PrivateImpl(std::nullptr_t)`, PrivateImpl.inl:110-114 -/
def ctorNull (i : Nat) : X (St T) Unit := setPtr i 0

/-- `PrivateImpl(T*)`, PrivateImpl.inl:116-120, called as `PrivateImpl(new T(v))`. -/
def ctorPtr (ty : Ty T) (i : Nat) (v : T) : X (St T) Unit := do
  let p ← new ty.throws v
  setPtr i p

/-- `PrivateImpl(Args&&...)`, PrivateImpl.inl:122-128 -/
def ctorArgs (ty : Ty T) (i : Nat) (v : T) : X (St T) Unit := do
  let p ← new ty.throws v
  setPtr i p

/-- Copy constructor, PrivateImpl.inl:130-135 -/
def copyCtor (ty : Ty T) (i j : Nat) : X (St T) Unit := do
  let q ← getPtr j
  let v ← deref q
  let p ← new ty.copyThrows v
  setPtr i p

/-- Move constructor (defaulted, PrivateImpl.hpp:56): that of `MovablePtr` (MovablePtr.inl:21-26). -/
def moveCtor (i j : Nat) : X (St T) Unit := do
  let q ← getPtr j
  setPtr i q
  setPtr j 0

/-- Destructor, PrivateImpl.inl:137-141 -/
def dtor (i : Nat) : X (St T) Unit := do
  let p ← getPtr i
  delete p
  endVar i

/-- `Emplace`, PrivateImpl.inl:143-152 -/
def emplace (ty : Ty T) (i : Nat) (v : T) : X (St T) Unit := do
  let p ← getPtr i
  X.assert (p == 0)
  let q ← new ty.throws v
  setPtr i q

/-- `Reset`, PrivateImpl.inl:172-179 -/
def reset (i : Nat) : X (St T) Unit := do
  let p ← getPtr i
  delete p
  setPtr i 0

/-- Copy assignment, PrivateImpl.inl:223-242 -/
def copyAssign (ty : Ty T) (i j : Nat) : X (St T) Unit := do
  let p ← getPtr i
  let q ← getPtr j
  if ty.copyAssignable then
    if p != 0 then do
      let v ← deref q
      store ty.copyThrows p v
    else do
      let v ← deref q
      let n ← new ty.copyThrows v
      setPtr i n
  else do
    delete p
    let v ← deref q
    let n ← new ty.copyThrows v
    setPtr i n

/-- Move assignment (defaulted, PrivateImpl.hpp:80): that of `MovablePtr`, an exchange (MovablePtr.inl:54-59). -/
def moveAssign (i j : Nat) : X (St T) Unit := do
  let p ← getPtr i
  let q ← getPtr j
  setPtr i q
  setPtr j p

/-- `*pimpl = v` through `operator*`, `operator->` or `Get` (PrivateImpl.inl:154-164, 181-221). -/
def write (ty : Ty T) (i : Nat) (v : T) : X (St T) Unit := do
  let p ← getPtr i
  store ty.throws p v

/-- `Get`, `operator*`, `operator->`: the object, `none` for null (PrivateImpl.inl:154-164, 181-221). -/
def get (i : Nat) : X (St T) (Option T) := do
  let p ← getPtr i
  if p == 0 then pure none else do
    let v ← deref p
    pure (some v)

/-- `HasValue` and `operator bool`, PrivateImpl.inl:166-170, 193-197 -/
def hasValue (i : Nat) : X (St T) Bool := do
  let p ← getPtr i
  pure (p != 0)

end Heap

/-- Operations of programs (shared by both forms). -/
inductive Op (T : Type) where
  | ctorNull (i : Nat)
  | ctorPtr (i : Nat) (v : T)
  | ctorArgs (i : Nat) (v : T)
  | copyCtor (i j : Nat)
  | moveCtor (i j : Nat)
  | dtor (i : Nat)
  | emplace (i : Nat) (v : T)
  | reset (i : Nat)
  | copyAssign (i j : Nat)
  | moveAssign (i j : Nat)
  | write (i : Nat) (v : T)

namespace Heap
variable {T : Type}

def exec (ty : Ty T) : Op T → X (St T) Unit
  | .ctorNull i => ctorNull i
  | .ctorPtr i v => ctorPtr ty i v
  | .ctorArgs i v => ctorArgs ty i v
  | .copyCtor i j => copyCtor ty i j
  | .moveCtor i j => moveCtor i j
  | .dtor i => dtor i
  | .emplace i v => emplace ty i v
  | .reset i => reset i
  | .copyAssign i j => copyAssign ty i j
  | .moveAssign i j => moveAssign i j
  | .write i v => write ty i v

/-- A program that catches the exceptions of its operations. -/
def run (ty : Ty T) : List (Op T) → St T → Out (St T) Unit
  | [], s => .done s ()
  | op :: ops, s =>
    match exec ty op s with
    | .done s _ => run ty ops s
    | .thrown s => run ty ops s
    | .fail e => .fail e

end Heap

/-! ## Inline storage -/

/-- The variables; the buffer of a variable holds an object, or none after its destruction. -/
abbrev ISt (T : Type) := Nat → Option (Option T)

namespace Inline
variable {T : Type}

def init : ISt T := fun _ => none

def setVar (s : ISt T) (i : Nat) (b : Option (Option T)) : ISt T := fun k => if k = i then b else s k

/-- `*pimpl.Get()` (PrivateImpl.inl:37-53): the buffer must hold an object. -/
def deref (i : Nat) : X (ISt T) T := fun s =>
  match s i with
  | some (some v) => .done s v
  | _ => .fail .ub

/-- `PlacementNew(Get(), ...)` (MemoryHelper.inl:24-28) of an existing variable. -/
def construct (throws : T → Bool) (i : Nat) (v : T) : X (ISt T) Unit := fun s =>
  if throws v then .thrown s else .done (setVar s i (some (some v))) ()

/-- `PlacementDestroy(Get())` (MemoryHelper.inl:37-42). -/
def destroy (i : Nat) : X (ISt T) Unit := fun s =>
  match s i with
  | some (some _) => .done (setVar s i (some none)) ()
  | _ => .fail .ub

/-- `PrivateImpl(Args&&...)`, PrivateImpl.inl:12-17; a constructor that throws makes no variable. -/
def ctorArgs (ty : Ty T) (i : Nat) (v : T) : X (ISt T) Unit := construct ty.throws i v

/-- Copy constructor, PrivateImpl.inl:19-23 -/
def copyCtor (ty : Ty T) (i j : Nat) : X (ISt T) Unit := do
  let v ← deref j
  construct ty.copyThrows i v

/-- Moved object: construct `i` from `std::move(*j)`; moves do not throw here (the functions are `noexcept`). -/
def constructMoved (ty : Ty T) (i j : Nat) : X (ISt T) Unit := do
  let v ← deref j
  X.modify (fun s => setVar (setVar s j (some (some (ty.movedFrom v)))) i (some (some v)))

/-- Move constructor, PrivateImpl.inl:25-29 -/
def moveCtor (ty : Ty T) (i j : Nat) : X (ISt T) Unit := constructMoved ty i j

/-- Destructor, PrivateImpl.inl:31-35 -/
def dtor (i : Nat) : X (ISt T) Unit := do
  destroy i
  X.modify (fun s => setVar s i none)

/-- Copy assignment, PrivateImpl.inl:91-98 -/
def copyAssign (ty : Ty T) (i j : Nat) : X (ISt T) Unit := do
  destroy i
  let v ← deref j
  construct ty.copyThrows i v

/-- Move assignment, PrivateImpl.inl:100-107 -/
def moveAssign (ty : Ty T) (i j : Nat) : X (ISt T) Unit := do
  destroy i
  constructMoved ty i j

/-- `*pimpl = v`, PrivateImpl.inl:55-89; an assignment that throws leaves the object (simplified). -/
def write (ty : Ty T) (i : Nat) (v : T) : X (ISt T) Unit := do
  let _ ← deref i
  construct ty.throws i v

def exec (ty : Ty T) : Op T → X (ISt T) Unit
  | .ctorArgs i v => ctorArgs ty i v
  | .copyCtor i j => copyCtor ty i j
  | .moveCtor i j => moveCtor ty i j
  | .dtor i => dtor i
  | .copyAssign i j => copyAssign ty i j
  | .moveAssign i j => moveAssign ty i j
  | .write i v => write ty i v
  | _ => X.fail .ub -- not members of this form

def run (ty : Ty T) : List (Op T) → ISt T → Out (ISt T) Unit
  | [], s => .done s ()
  | op :: ops, s =>
    match exec ty op s with
    | .done s _ => run ty ops s
    | .thrown s => run ty ops s
    | .fail e => .fail e

end Inline

end Verif.PrivateImpl
