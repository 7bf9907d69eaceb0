import Verif.Cpp

/-!
# Model of `MovablePtr`, `MovableLiteral` and `MovableValue` (MovablePtr.inl, MovableValue.inl)

Each class holds one member `m_value`; a wrapper is modelled by the value of that member.
-/

namespace Verif.Movable

/-- The operations of one of the classes: what they store in the new object or the target, and what they leave in the source. -/
structure Wrapper (T : Type) where
  /-- default construction -/
  default : T
  /-- construction from a value -/
  fromValue : T → T
  /-- move construction: new object, source -/
  moveNew : T → T × T
  /-- copy construction (defaulted): new object, source -/
  copyNew : T → T × T
  /-- assignment of a value: target -/
  assign : T → T → T
  /-- move assignment: target, source -/
  moveAssign : T → T → T × T
  /-- copy assignment (defaulted): target, source -/
  copyAssign : T → T → T × T
  /-- `Get()` and the conversions -/
  get : T → T

/-- `MovablePtr<T>`; a pointer is an address, 0 is null. -/
def ptr : Wrapper Nat where
  default := 0 -- MovablePtr.hpp:17
  fromValue := fun value => value -- MovablePtr.inl:15-19
  moveNew := fun p => (p, 0) -- MovablePtr.inl:21-26
  copyNew := fun p => (p, p) -- MovablePtr.hpp:18
  assign := fun _ value => value -- MovablePtr.inl:46-52
  moveAssign := fun a b => (b, a) -- MovablePtr.inl:54-59 (std::swap)
  copyAssign := fun _ b => (b, b) -- MovablePtr.hpp:29
  get := fun p => p -- MovablePtr.inl:28-44

/-- `MovableLiteral<T, DefaultValue>`. -/
def literal {T : Type} (d : T) : Wrapper T where
  default := d -- MovableValue.inl:9-13
  fromValue := fun value => value -- MovableValue.inl:15-20
  moveNew := fun v => (v, d) -- MovableValue.inl:22-27
  copyNew := fun v => (v, v) -- MovableValue.hpp:20
  assign := fun _ value => value -- MovableValue.inl:65-71
  moveAssign := fun a b => (b, a) -- MovableValue.inl:73-78 (std::swap)
  copyAssign := fun _ b => (b, b) -- MovableValue.hpp:33
  get := fun v => v -- MovableValue.inl:29-63

/-- `MovableValue<T>`; `mv` is the state in which a move of `T` leaves its source. -/
def value {T : Type} (init : T) (mv : T → T) : Wrapper T where
  default := init -- MovableValue.hpp:44
  fromValue := fun value => value -- MovableValue.inl:82-87
  moveNew := fun v => (v, mv v) -- MovableValue.inl:89-93
  copyNew := fun v => (v, v) -- MovableValue.hpp:46
  assign := fun _ value => value -- MovableValue.inl:131-137
  moveAssign := fun _ b => (b, mv b) -- MovableValue.inl:139-144
  copyAssign := fun _ b => (b, b) -- MovableValue.hpp:59, from a const source (see `assignWrapper`)
  get := fun v => v -- MovableValue.inl:95-129

/-- Copy into a member: new value of the member, state of the argument. -/
def copyInto {T : Type} (arg : T) : T × T := (arg, arg)

/-- Move into a member. -/
def moveInto {T : Type} (mv : T → T) (arg : T) : T × T := (arg, mv arg)

/-- `std::forward<U>(value)` into a member. -/
def forwardInto {T : Type} (mv : T → T) (lvalue : Bool) (arg : T) : T × T := if lvalue then copyInto arg else moveInto mv arg

/-- `MovableValue<T>::operator=(U&&)` (MovableValue.inl:131-137): `std::move(value)` for lvalues and rvalues alike. -/
def assignArg {T : Type} (mv : T → T) (_lvalue : Bool) (arg : T) : T × T := moveInto mv arg

/-- `MovableValue<T>(U&&)` (MovableValue.inl:82-87): `std::forward<U>(value)`. -/
def fromArg {T : Type} (mv : T → T) (lvalue : Bool) (arg : T) : T × T := forwardInto mv lvalue arg

/-- How `T` can be assigned: a built-in type, one `operator=(T)`, only `operator=(const T&)`, or both `operator=(const T&)` and `operator=(T&&)`. -/
inductive Assigns where
  | builtin
  | byValue
  | copyOnly
  | copyAndMove
  deriving DecidableEq

/-- Value category of the right-hand side of an assignment. -/
inductive Source where
  | constLvalue
  | lvalue
  | rvalue
  deriving DecidableEq

/-- `m_value = w` for an rvalue `w` of type `MovableValue<T>`, which converts by `operator T&&() &&` and `operator const T&() const&`
(MovableValue.inl:119-129): new value of the member, state of the value held by `w`, `none` if it does not compile.  A built-in type and
a parameter of type `T` take the first conversion (its object parameter binds better), a parameter `const T&` takes the second (it binds to an
lvalue); with both overloads of `T::operator=` neither is better, the call is ambiguous. -/
def assignConverted {T : Type} (mv : T → T) (w : T) : Assigns → Option (T × T)
  | .builtin => some (copyInto w)
  | .byValue => some (moveInto mv w)
  | .copyOnly => some (copyInto w)
  | .copyAndMove => none

/-- `a = b` for two variables of type `MovableValue<T>`: new value of the member of `a`, value left in `b`.  Overload resolution: a const `b`
takes the defaulted copy assignment (MovableValue.hpp:59), an rvalue the move assignment (MovableValue.inl:139-144), and a non-const lvalue the
template `operator=(U&&)` with `U = MovableValue&` (MovableValue.inl:131-137), whose `std::move(value)` is a `MovableValue&&`. -/
def assignWrapper {T : Type} (mv : T → T) (how : Assigns) (b : T) : Source → Option (T × T)
  | .constLvalue => some (copyInto b)
  | .rvalue => some (moveInto mv b)
  | .lvalue => assignConverted mv b how

/-- Programs over any number of wrappers of one class. -/
inductive Op (T : Type) where
  | new (i : Nat) (v : T)
  | newDefault (i : Nat)
  | copyNew (i j : Nat)
  | moveNew (i j : Nat)
  | assign (i : Nat) (v : T)
  | copyAssign (i j : Nat)
  | moveAssign (i j : Nat)
  | destroy (i : Nat)

abbrev Store (T : Type) := Nat → Option T

def Store.set {T : Type} (σ : Store T) (i : Nat) (v : T) : Store T := fun k => if k = i then some v else σ k

/-- One operation.  Constructions of variables that exist already, and operations on variables that do
not exist, are not possible and do nothing here. -/
def step {T : Type} (w : Wrapper T) (σ : Store T) : Op T → Store T
  | .new i v => if σ i = none then σ.set i (w.fromValue v) else σ
  | .newDefault i => if σ i = none then σ.set i w.default else σ
  | .copyNew i j => match σ i, σ j with
    | none, some v => (σ.set j (w.copyNew v).2).set i (w.copyNew v).1
    | _, _ => σ
  | .moveNew i j => match σ i, σ j with
    | none, some v => (σ.set j (w.moveNew v).2).set i (w.moveNew v).1
    | _, _ => σ
  | .assign i v => match σ i with
    | some old => σ.set i (w.assign old v)
    | none => σ
  | .copyAssign i j => match σ i, σ j with
    | some a, some b => (σ.set j (w.copyAssign a b).2).set i (w.copyAssign a b).1
    | _, _ => σ
  | .moveAssign i j => match σ i, σ j with
    | some a, some b => (σ.set j (w.moveAssign a b).2).set i (w.moveAssign a b).1
    | _, _ => σ
  | .destroy i => fun k => if k = i then none else σ k

def run {T : Type} (w : Wrapper T) (ops : List (Op T)) : Store T := ops.foldl (step w) (fun _ => none)

end Verif.Movable
