import Verif.Cpp

/-!
# Model of `TypeList` (TypeList.hpp, TypeList.inl)

A type is an element of `τ`, `std::is_same_v` is equality.  Metafunctions that the compiler rejects have the result `none`.
-/

namespace Verif.TypeList

variable {τ : Type} [DecidableEq τ]

/-- `std::numeric_limits<std::size_t>::max()`. -/
def npos : Nat := 2 ^ 64 - 1

/-- `TypeListAppend`, TypeList.inl:12-16 -/
def append (l : List τ) (t : τ) : List τ := l ++ [t]

/-- `TypeListAt`, TypeList.inl:31-43 (no specialisation for the empty list; `static_assert`). -/
def at' : List τ → Nat → Option τ
  | t :: _, 0 => some t
  | _ :: ts, i + 1 => if i + 1 ≤ ts.length then at' ts i else none
  | [], _ => none

/-- `TypeListConcat`, TypeList.inl:46-50 -/
def concat (a b : List τ) : List τ := a ++ b

/-- `ListFindHelper::Find<Index, ToFind, Types...>`, TypeList.inl:53-67 -/
def findFrom (index : Nat) (toFind : τ) : List τ → Nat
  | [] => npos
  | t :: ts => if toFind = t then index else findFrom (index + 1) toFind ts

/-- `TypeListFind`, TypeList.inl:69-76 -/
def find (l : List τ) (t : τ) : Nat := findFrom 0 t l

/-- `TypeListHas`, TypeList.hpp:75-76 -/
def has (l : List τ) (t : τ) : Bool := find l t != npos

/-- `TypeListInstantiate`, TypeList.inl:79-83: the class template is given by the function from its argument list. -/
def instantiate {C : Type} (l : List τ) (cls : List τ → C) : C := cls l

/-- `TypeListPrepend`, TypeList.inl:86-90 -/
def prepend (l : List τ) (t : τ) : List τ := t :: l

/-- `ListRebuildWithout`, TypeList.inl:93-105 -/
def rebuildWithout (types : List τ) (remove : τ) : List τ → List τ
  | [] => types
  | t :: ts => rebuildWithout (if t ≠ remove then types ++ [t] else types) remove ts

/-- `TypeListRemove`, TypeList.hpp:84-85 -/
def remove (l : List τ) (t : τ) : List τ := rebuildWithout [] t l

/-- `TypeListSize`, TypeList.inl:108-112 -/
def size (l : List τ) : Nat := l.length

/-- `TypeListEmpty`, TypeList.hpp:69-70 -/
def empty (l : List τ) : Bool := size l == 0

/-- `TypeListTransform`, TypeList.inl:115-119 -/
def transform {υ : Type} (l : List τ) (f : τ → υ) : List υ := l.map f

/-- `ListUnique<TypeList<Types...>, TypeList<T1>>`, TypeList.inl:122-127 -/
def uniqueOne (types : List τ) (t : τ) : List τ := if !has types t then types ++ [t] else types

/-- `ListUnique`, TypeList.inl:122-139 (there is no specialisation for an empty second list and a first list that is not). -/
def uniqueFrom (types : List τ) : List τ → Option (List τ)
  | [] => if types = [] then some [] else none
  | [t] => some (uniqueOne types t)
  | t :: t2 :: ts => uniqueFrom (uniqueOne types t) (t2 :: ts)

/-- `TypeListUnique`, TypeList.hpp:93-94 -/
def unique (l : List τ) : Option (List τ) := uniqueFrom [] l

/-! `TypeListApply`: the functors run in a world `W` on an argument in state `A`, passed as an lvalue or rvalue. -/

inductive Category where
  | lvalue
  | rvalue

/-- `ListApply::Apply`, TypeList.inl:19-29: the argument is forwarded to each functor in turn. -/
def listApply {A W : Type} (functor : τ → Category → A → W → A × W) (cat : Category) : List τ → A → W → A × W
  | [], a, w => (a, w)
  | t :: ts, a, w =>
    let (a, w) := functor t cat a w
    if ts.length > 0 then listApply functor cat ts a w else (a, w)

/-- `TypeListApply`, TypeList.inl:142-147 -/
def apply {A W : Type} (l : List τ) (functor : τ → Category → A → W → A × W) (cat : Category) (a : A) (w : W) : A × W :=
  if !empty l then listApply functor cat l a w else (a, w)

end Verif.TypeList
