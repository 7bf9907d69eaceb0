import Verif.PrivateImpl.Model

/-!
# Which constructor of `PrivateImpl<T>` a call selects (PrivateImpl.hpp:21-23 and 51-55, TypeTraits.hpp:138-163)

Overload resolution is done by the compiler.  The classes of the program are the elements of an arbitrary type `K`.
-/

namespace Verif.PrivateImpl.Ctor

/-- A type without reference and without cv-qualification at top level. -/
inductive Core (K : Type)
  /-- a class -/
  | cls (k : K)
  /-- pointer to an object of class `k`, with the qualification of the pointed object -/
  | ptr (const volatile : Bool) (k : K)
  /-- `std::nullptr_t` -/
  | null
  /-- any other type: numbers, enumerations, other pointers, arrays, ... -/
  | other (n : Nat)
deriving DecidableEq

/-- A type: a reference, lvalue or rvalue, to a qualified core, or the qualified core itself. -/
inductive Ref
  | none
  | lvalue
  | rvalue
deriving DecidableEq

structure CppType (K : Type) where
  ref : Ref
  const : Bool
  volatile : Bool
  core : Core K
deriving DecidableEq

/-- `RemoveCvRef<T>::type`, TypeTraits.hpp:138-142: `std::remove_cv_t<std::remove_reference_t<T>>`. -/
def removeCvRef {K : Type} (t : CppType K) : CppType K :=
  let unref : CppType K := { t with ref := .none }
  { unref with const := false, volatile := false }

/-- The classes: `T`, `PrivateImpl<T>` itself, and which class derives (publicly, not ambiguously) from which other one. -/
structure Classes (K : Type) where
  target : K
  wrapper : K
  derives : K → K → Bool

/-- An argument: its type and whether it is an lvalue.  `zero` is the literal `0`, a null pointer constant
(only for arguments of other types). -/
structure Arg (K : Type) where
  const : Bool
  volatile : Bool
  core : Core K
  isLvalue : Bool
  zero : Bool := false
deriving DecidableEq

/-- What `Args` is deduced to in `Args&&`: `U&` for lvalues of type `U`, else `U`. -/
def Arg.deduced {K : Type} (a : Arg K) : CppType K :=
  ⟨if a.isLvalue then .lvalue else .none, a.const, a.volatile, a.core⟩

/-- The constructors, PrivateImpl.hpp:51-55: from `nullptr`, from a pointer, from arguments for `T` (template), copy, move.  The form with
inline storage (lines 21-23) has the last three. -/
inductive Which
  | nullptr
  | pointer
  | forward
  | copy
  | move
deriving DecidableEq, Repr

/-- Ranks of implicit conversion sequences: exact match, standard conversion, user-defined conversion. -/
inductive Rank
  | exact
  | conversion
  | userDefined
deriving DecidableEq, Repr

def Rank.num : Rank → Nat
  | .exact => 0
  | .conversion => 1
  | .userDefined => 2

variable {K : Type} [DecidableEq K]

/-- `PreventHiddenCopyMove<PrivateImpl, Args...>`, TypeTraits.hpp:150-163: the type exists unless `Args` is a single type that is
`PrivateImpl` up to references and qualifications. -/
def forwardEnabled (c : Classes K) (args : List (Arg K)) : Bool :=
  match args with
  | [a] => decide (removeCvRef a.deduced ≠ ⟨.none, false, false, .cls c.wrapper⟩)
  | _ => true

/-- Conversion of one argument to the parameter of a constructor, `none` if there is none.  Conversion functions of classes other than
`PrivateImpl` to pointers are left out: they are user-defined conversions, and for arguments of these classes the template is an exact
match.  An argument of a class that is not `PrivateImpl` or derived from it can be converted to a temporary `PrivateImpl`. -/
def convert (c : Classes K) (w : Which) (a : Arg K) : Option Rank :=
  match w with
  | .nullptr => match a.core with
    | .null => some .exact
    | .other _ => if a.zero then some .conversion else none
    | _ => none
  | .pointer => match a.core with
    | .ptr pc pv k =>
      if pc || pv then none else if k = c.target then some .exact else if c.derives k c.target then some .conversion else none
    | .null => some .conversion
    -- `operator T*()` of a `PrivateImpl` that is not const
    | .cls k => if (k = c.wrapper ∨ c.derives k c.wrapper) ∧ ¬ a.const ∧ ¬ a.volatile then some .userDefined else none
    | .other _ => if a.zero then some .conversion else none
  | .forward => if forwardEnabled c [a] then some .exact else none
  | .copy => match a.core with
    | .cls k =>
      if k = c.wrapper ∨ c.derives k c.wrapper then
        if a.volatile then none else if k = c.wrapper then some .exact else some .conversion
      else some .userDefined
    | _ => some .userDefined
  | .move => match a.core with
    | .cls k =>
      if k = c.wrapper ∨ c.derives k c.wrapper then
        if a.volatile || a.const || a.isLvalue then none else if k = c.wrapper then some .exact else some .conversion
      else some .userDefined
    | _ => some .userDefined

/-- Whether the call of `x` is better than the call of `y` on this argument: a better conversion; or conversions of the same rank, and
an rvalue bound to `PrivateImpl&&` rather than to `const PrivateImpl&`, or a function that is not a template rather than one. -/
def better (c : Classes K) (a : Arg K) (x y : Which) : Bool :=
  match convert c x a, convert c y a with
  | some r, some r' => decide (r.num < r'.num) || (decide (r.num = r'.num) &&
      ((x == .move && y == .copy) || (y == .forward && x != .forward)))
  | _, _ => false

/-- The constructors of the form on the heap (`heap`) or with inline storage that can be called with one argument. -/
def candidates (heap : Bool) : List Which := if heap then [.nullptr, .pointer, .forward, .copy, .move] else [.forward, .copy, .move]

/-- The constructor that `PrivateImpl<T>(args...)` calls; `none` if the program does not compile: no constructor, or no best one. -/
def select (heap : Bool) (c : Classes K) (args : List (Arg K)) : Option Which :=
  match args with
  | [a] =>
    let viable := (candidates heap).filter (fun w => (convert c w a).isSome)
    viable.find? (fun x => viable.all (fun y => x == y || better c a x y))
  | args => if forwardEnabled c args then some .forward else none

end Verif.PrivateImpl.Ctor
