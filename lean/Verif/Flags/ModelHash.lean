import Verif.Flags.Spec

/-!
# Model of `std::hash<Nz::Flags<E>>` (Flags.inl:449-462)

`std::hash` of the underlying integer type is a parameter.  Calling a member function that is not const on a const object does not compile: `none`.
-/

namespace Verif.Flags
open Verif.Cpp

/-- `std::hash<Flags<E>>::operator()`, Flags.inl:454-460, called on a function object that is const or not: the operator is not declared const. -/
def hashFlags {c : Cfg} (stdHash : c.BitField → Nat) (functorConst : Bool) (flags : c.BitField) : Option Nat :=
  if functorConst then none else some (stdHash (toInteger c.width flags))

/-- The hash functor of an unordered container: a bucket is found by calling it on a const object (the Hash requirements of the standard, `unord.req`, ask that `h(k)` is an expression for a
`h` that may be const). -/
def bucket {c : Cfg} (stdHash : c.BitField → Nat) (buckets : Nat) (flags : c.BitField) : Option Nat :=
  (hashFlags stdHash true flags).map (· % buckets)

/-- A hash functor of the user that keeps a `std::hash<Flags<E>>` on the stack, as a work-around: `struct H { size_t operator()(Flags<E> f) const { return std::hash<Flags<E>>{}(f); } }`. -/
def wrapped {c : Cfg} (stdHash : c.BitField → Nat) (flags : c.BitField) : Option Nat := hashFlags stdHash false flags

end Verif.Flags
