import Verif.Movable.Model

/-!
# Model of movable wrappers made from wrappers of any type (MovablePtr.hpp, MovableValue.hpp)

Pointers to classes of a hierarchy in `MovablePtr`, numbers in `MovableLiteral`, values of any class in `MovableValue`: which constructor and which assignment operator overload resolution takes
for a wrapper as argument, and what it does to both.  A pointer is the object it points to: conversions to a base class keep the object.  Wrappers of one of the three templates
as arguments of another one are left out.
-/

namespace Verif.Movable.Mixed

/-- The type of a wrapper: `MovablePtr<C>`, `MovableLiteral<T, d>`. -/
inductive Ty where
  | ptr (c : Nat)
  | literal (t : Nat) (d : Int)
  deriving DecidableEq

/-- The hierarchy of the classes and the conversions of the arithmetic types. -/
structure Ctx where
  /-- `derives c b`: class `c` has the (accessible, unambiguous) base class `b` -/
  derives : Nat → Nat → Bool
  /-- `conv t u v`: the value `v` of type `t` converted to type `u` -/
  conv : Nat → Nat → Int → Int

/-- What a wrapper holds: the number of an object, 0 for the null pointer, or a number. -/
inductive Val where
  | obj (p : Nat)
  | num (v : Int)
  deriving DecidableEq

/-- What a default constructed wrapper holds, MovablePtr.hpp:16, MovableValue.inl:9-13. -/
def Ty.default : Ty → Val
  | .ptr _ => .obj 0
  | .literal _ d => .num d

/-- The function that overload resolution takes for a wrapper as argument: the copy or the move constructor (assignment), the one that takes a pointer, the template. -/
inductive Fn where
  | copy
  | move
  | pointer
  | template
  deriving DecidableEq

/-- Direct initialisation of (or assignment to) a wrapper of type `t` from one of type `s`; `none` does not compile.

`MovablePtr` (MovablePtr.hpp:16-18, 27-29): an argument of the same type takes the copy or move function without conversion; another one is converted to its pointer (`operator T*`), then to the
pointer to a base class.
`MovableLiteral` (MovableValue.hpp:19-21, 32-34): for a non-const lvalue of the same type the template (`U = MovableLiteral&`) is a better match than `const MovableLiteral&`, for const
lvalues and rvalues the function that is no template is preferred; wrappers of other types are converted by `operator T&` and the like. -/
def select (c : Ctx) (t s : Ty) (source : Source) : Option Fn :=
  match t, s with
  | .ptr b, .ptr d =>
    if d = b then some (if source = .rvalue then .move else .copy)
    else if c.derives d b then some .pointer
    else none
  | .literal _ _, .literal _ _ =>
    if s = t then
      match source with
      | .constLvalue => some .copy
      | .lvalue => some .template
      | .rvalue => some .move
    else some .template
  | _, _ => none

/-- The value of a wrapper of type `s` as one of type `t`: the same object, or the number converted. -/
def convert (c : Ctx) (t s : Ty) (v : Val) : Val :=
  match t, s, v with
  | .literal u _, .literal k _, .num n => .num (c.conv k u n)
  | _, _, v => v

/-- What the constructor stores and what it leaves in the argument: MovablePtr.inl:15-26, MovableValue.inl:15-27. -/
def construct (c : Ctx) (t s : Ty) (v : Val) : Fn → Val × Val
  | .copy => (v, v)
  | .move => (v, t.default)
  | .pointer => (convert c t s v, v)
  | .template => (convert c t s v, v)

/-- What the assignment stores and what it leaves in the argument: MovablePtr.inl:46-59, MovableValue.inl:65-78 (`std::swap`; `std::move(value)` of a number copies it). -/
def assign (c : Ctx) (t s : Ty) (old v : Val) : Fn → Val × Val
  | .copy => (v, v)
  | .move => (v, old)
  | .pointer => (convert c t s v, v)
  | .template => (convert c t s v, v)

/-- Variables and what they hold. -/
abbrev Vars := Nat → Option (Ty × Val)

def Vars.put (σ : Vars) (i : Nat) (x : Ty × Val) : Vars := fun k => if k = i then some x else σ k

inductive Stmt where
  /-- `MovablePtr<C> i(new C)`, `MovableLiteral<T, d> i(v)` -/
  | new (i : Nat) (t : Ty) (v : Val)
  /-- a new variable `i` of type `t` from variable `j` -/
  | construct (i : Nat) (t : Ty) (j : Nat) (source : Source)
  /-- `i = j` -/
  | assign (i j : Nat) (source : Source)
  | destroy (i : Nat)

/-- One statement; `none`: it does not compile.  A variable is not assigned to itself. -/
def step (c : Ctx) (σ : Vars) : Stmt → Option Vars
  | .new i t v => if σ i = none then some (σ.put i (t, v)) else none
  | .construct i t j source =>
    match σ i, σ j with
    | none, some (s, v) =>
      match select c t s source with
      | some f => some ((σ.put j (s, (construct c t s v f).2)).put i (t, (construct c t s v f).1))
      | none => none
    | _, _ => none
  | .assign i j source =>
    if i = j then none
    else
      match σ i, σ j with
      | some (t, old), some (s, v) =>
        match select c t s source with
        | some f => some ((σ.put j (s, (assign c t s old v f).2)).put i (t, (assign c t s old v f).1))
        | none => none
      | _, _ => none
  | .destroy i => some (fun k => if k = i then none else σ k)

def run (c : Ctx) : Vars → List Stmt → Option Vars
  | σ, [] => some σ
  | σ, s :: ss =>
    match step c σ s with
    | some σ' => run c σ' ss
    | none => none

/-! ### `MovableValue` of a class that can be made from anything -/

/-- What an object of a class with unconstrained templates for construction and assignment holds: a value, or a `MovableValue` with such an object. -/
inductive Any where
  | value (v : Int)
  | wrapper (inner : Any)
  | empty

/-- `MovableValue<Any> a(b)` for a variable `b` of this type that holds `v`: new value, value left.  A non-const lvalue takes the template, MovableValue.inl:82-87, whose `m_value(value)` calls the
constructor template of `Any` (an exact match for `MovableValue&`, the copy constructor would need a conversion); the others take MovableValue.hpp:46 and MovableValue.inl:89-93. -/
def anyConstruct (v : Any) : Source → Any × Any
  | .constLvalue => (v, v)
  | .lvalue => (.wrapper v, v)
  | .rvalue => (v, .empty)

/-- `a = b`: MovableValue.hpp:59 and MovableValue.inl:131-144; the template passes `std::move(b)` to the assignment template of `Any`, which moves the wrapper into the object. -/
def anyAssign (v : Any) : Source → Any × Any
  | .constLvalue => (v, v)
  | .lvalue => (.wrapper v, .empty)
  | .rvalue => (v, .empty)

end Verif.Movable.Mixed
