import Verif.EnumArray.Model
import Verif.Flags.Model

/-!
# Model of what a declared enumeration gives: `EnumValueCount` (TypeTraits.hpp:35-57), the size of an `EnumArray` and the bits of `Flags`

An enumeration is its declaration: a list of names with or without an initialiser.  Initialisers are numbers or the names of earlier enumerators.  The underlying type is taken to be wide enough; an
enumerator `AutoFlag` (Flags.hpp:35-36) is left out.
-/

namespace Verif.EnumArray.Decl
open Verif.Cpp

inductive Name where
  | count
  | max
  | other (k : Nat)
  deriving DecidableEq

inductive Init where
  /-- no initialiser -/
  | next
  | value (v : Int)
  /-- `= Name` -/
  | same (n : Name)

structure Item where
  name : Name
  init : Init

/-- The value of an item without initialiser, `done` being the enumerators before it (the last one first): [dcl.enum], one more than the one before it. -/
def nextValue : List (Name × Int) → Int
  | [] => 0
  | (_, v) :: _ => v + 1

/-- The value of the next item. -/
def valueOf (done : List (Name × Int)) : Init → Option Int
  | .next => some (nextValue done)
  | .value v => some v
  | .same n => done.lookup n

/-- All enumerators with their values, the last one first; `none` if the declaration is ill-formed. -/
def declare (done : List (Name × Int)) : List Item → Option (List (Name × Int))
  | [] => some done
  | i :: is =>
    match valueOf done i.init with
    | none => none
    | some v => declare ((i.name, v) :: done) is

/-- `E::Count`, `E::Max` -/
def valueIn (es : List (Name × Int)) (n : Name) : Option Int := es.lookup n

/-- `EnumValueCount_v<E>`: without `Count` and `Max` the primary template fails its assertion, with both the two partial specialisations are ambiguous, TypeTraits.hpp:35-57. -/
def enumValueCount (es : List (Name × Int)) : Option Nat :=
  match valueIn es .count, valueIn es .max with
  | some c, none => some (valueCount (.count c))
  | none, some m => some (valueCount (.max m))
  | _, _ => none

/-- `GetEnumFlagMax<E>::max`, Flags.hpp:38-48: `EnumAsFlags<E>::max` if it is declared, the number of values minus one otherwise (`std::size_t` arithmetic). -/
def flagMax (es : List (Name × Int)) (asFlags : Option Int) : Option Nat :=
  match asFlags with
  | some m => some (toSizeT m)
  | none => (enumValueCount es).map (fun n => (n + (2 ^ 64 - 1)) % 2 ^ 64)

end Verif.EnumArray.Decl
