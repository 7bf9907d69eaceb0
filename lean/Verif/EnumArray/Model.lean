import Verif.Cpp

/-!
# Model of `EnumArray` and its key-value iterators (EnumArray.hpp, EnumArray.inl)

A value of the enumeration is the integer of its underlying type.  An array is the list of its elements.  `operator+` and `operator-` of the
iterators do not compile when they are used (they pass a pointer where an aggregate is expected, EnumArray.inl:98-108) and are left out.
-/

namespace Verif.EnumArray

open Verif.Cpp

/-- Underlying type of the enumeration. -/
structure Enum where
  signed : Bool
  /-- number of bits of the underlying type, 8 to 64 -/
  width : Nat

/-- Range of the underlying type. -/
def Enum.InRange (E : Enum) (e : Int) : Prop :=
  if E.signed then -2 ^ (E.width - 1) ≤ e ∧ e < 2 ^ (E.width - 1) else 0 ≤ e ∧ e < 2 ^ E.width

/-- `static_cast<std::size_t>(v)` of an integer. -/
def toSizeT (v : Int) : Nat := (v % 2 ^ 64).toNat

/-- `static_cast<E>(n)` of an index: conversion to the underlying type (modulo 2^width). -/
def Enum.ofIndex (E : Enum) (n : Int) : Int := if E.signed then Int.bmod n (2 ^ E.width) else n % 2 ^ E.width

/-- How the enumeration tells its number of values: an enumerator `Count` or an enumerator `Max`. -/
inductive Bound where
  | count (e : Int)
  | max (e : Int)

/-- `EnumValueCount_v<E>`, TypeTraits.hpp:40-58 (`std::size_t` arithmetic) -/
def valueCount : Bound → Nat
  | .count e => toSizeT e
  | .max e => (toSizeT e + 1) % 2 ^ 64

variable {V : Type}

/-- `operator[](E) const`, EnumArray.inl:28-32: `std::array::operator[]` of the underlying value, converted to `std::size_t`. -/
def get (a : List V) (e : Int) : M V := rd a (toSizeT e)

/-- `array[e] = v`, EnumArray.inl:22-26 -/
def set (a : List V) (e : Int) (v : V) : M (List V) := wr a (toSizeT e) v

/-- `EnumArrayKvIterator`: the array (by number) and the index (`difference_type`), EnumArray.hpp:94-95 -/
structure Iter where
  array : Nat
  index : Int
  deriving DecidableEq

/-- `iter_kv().begin()`, EnumArray.inl:10-20, 35-39, 47-51, 60-65 -/
def begin (array : Nat) : Iter := ⟨array, 0⟩

/-- `iter_kv().end()`, EnumArray.inl:41-45, 53-57 -/
def end' (array : Nat) (a : List V) : Iter := ⟨array, a.length⟩

/-- `operator++()` and `operator--()`, EnumArray.inl:75-80, 91-96 -/
def Iter.inc (it : Iter) : Iter := { it with index := it.index + 1 }
def Iter.dec (it : Iter) : Iter := { it with index := it.index - 1 }

/-- `operator++(int)` and `operator--(int)`, EnumArray.inl:66-73, 82-89: result and new value of the iterator. -/
def Iter.postInc (it : Iter) : Iter × Iter := (it, { it with index := it.index + 1 })
def Iter.postDec (it : Iter) : Iter × Iter := (it, { it with index := it.index - 1 })

/-- `operator+=` and `operator-=`, EnumArray.inl:110-122: result (a copy) and new value of the iterator. -/
def Iter.addAssign (it : Iter) (n : Int) : Iter × Iter := let it' := { it with index := it.index + n }; (it', it')
def Iter.subAssign (it : Iter) (n : Int) : Iter × Iter := let it' := { it with index := it.index - n }; (it', it')

/-- `operator[]`, EnumArray.inl:131-136: the key and the value of the element it refers to. -/
def Iter.at' (E : Enum) (a : List V) (it : Iter) (n : Int) : M (Int × V) := do
  let key := E.ofIndex (it.index + n)
  let v ← get a key
  pure (key, v)

/-- `operator*`, EnumArray.inl:124-129 -/
def Iter.deref (E : Enum) (a : List V) (it : Iter) : M (Int × V) := do
  let key := E.ofIndex it.index
  let v ← get a key
  pure (key, v)

/-- `(*it).second = v` -/
def Iter.assign (E : Enum) (a : List V) (it : Iter) (v : V) : M (List V) := set a (E.ofIndex it.index) v

/-- Comparisons, EnumArray.inl:138-178: iterators of the same array. -/
def Iter.eq (x y : Iter) : M Bool := do Cpp.assert (x.array == y.array); pure (x.index == y.index)
def Iter.ne (x y : Iter) : M Bool := do Cpp.assert (x.array == y.array); pure (x.index != y.index)
def Iter.lt (x y : Iter) : M Bool := do Cpp.assert (x.array == y.array); pure (decide (x.index < y.index))
def Iter.le (x y : Iter) : M Bool := do Cpp.assert (x.array == y.array); pure (decide (x.index ≤ y.index))
def Iter.gt (x y : Iter) : M Bool := do Cpp.assert (x.array == y.array); pure (decide (x.index > y.index))
def Iter.ge (x y : Iter) : M Bool := do Cpp.assert (x.array == y.array); pure (decide (x.index ≥ y.index))

/-- `for (auto it = first; it != last; ++it) visit(*it);` the pairs visited; `fuel` bounds the number of rounds. -/
def visit (E : Enum) (a : List V) (last : Iter) : (fuel : Nat) → Iter → M (List (Int × V))
  | 0, _ => .error .diverge
  | fuel + 1, it => do
    if ← it.ne last then
      let kv ← it.deref E a
      let rest ← visit E a last fuel it.inc
      pure (kv :: rest)
    else pure []

/-- `for (auto&& [e, v] : array.iter_kv()) visit(e, v);` -/
def visitAll (E : Enum) (a : List V) (fuel : Nat) : M (List (Int × V)) := visit E a (end' 0 a) fuel (begin 0)

/-- `for (auto&& [e, v] : array.iter_kv()) v = f(e, v);` -/
def updateFrom (E : Enum) (f : Int → V → V) (last : Iter) : (fuel : Nat) → Iter → List V → M (List V)
  | 0, _, _ => .error .diverge
  | fuel + 1, it, a => do
    if ← it.ne last then
      let kv ← it.deref E a
      let a ← it.assign E a (f kv.1 kv.2)
      updateFrom E f last fuel it.inc a
    else pure a

def updateAll (E : Enum) (a : List V) (f : Int → V → V) (fuel : Nat) : M (List V) := updateFrom E f (end' 0 a) fuel (begin 0) a

end Verif.EnumArray
