import Verif.EnumArray.Model

/-!
# Model of the initialisation of an `EnumArray` (EnumArray.hpp:19-51)

`EnumArray` declares no constructor and has one public base class, so it is an aggregate: `EnumArray<E, V> x { ... }` is aggregate initialisation of a class whose only element is a
`std::array`, whose only element is an array of `V`.  Types are numbers, aggregates of such types, and arrays.  Simplifications: a number initialises every number (no narrowing); expressions of
class type convert to their class and to its base class only; no designated initialisers and no default member initialisers; no classes with constructors.
-/

namespace Verif.EnumArray.Init

/-- A type: a number, an aggregate class (its name and the types of its elements, the base class first), an array. -/
inductive Ty where
  | num
  | cls (name : Nat) (elements : List Ty)
  | arr (n : Nat) (element : Ty)

/-- An object. -/
inductive Val where
  | num (v : Int)
  | cls (name : Nat) (elements : List Val)
  | arr (elements : List Val)

/-- An initializer-clause: an expression (with its value) or a list in braces. -/
inductive Clause where
  | expr (v : Val)
  | braced (clauses : List Clause)

mutual
/-- The object that an empty list makes, [dcl.init.aggr]: zeros. -/
def zero : Ty → Val
  | .num => .num 0
  | .cls name ts => .cls name (zeros ts)
  | .arr n t => .arr (List.replicate n (zero t))
def zeros : List Ty → List Val
  | [] => []
  | t :: ts => zero t :: zeros ts
end

/-- The implicit conversion of an expression to a type, [over.best.ics]: the same type, or its base class (the first element of the object; `base` tells which classes have one). Arrays cannot be
initialised with expressions. -/
def convert (base : Nat → Option Nat) : Ty → Val → Option Val
  | .num, .num v => some (.num v)
  | .cls name _, .cls name' vs =>
    if name' = name then some (.cls name' vs)
    else if base name' = some name then vs.head?
    else none
  | _, _ => none

/-- Whether a type is an aggregate, [dcl.init.aggr]/1. -/
def Ty.isAggregate : Ty → Bool
  | .num => false
  | .cls _ _ => true
  | .arr _ _ => true

/-- No clause may be left over. -/
def complete : Option (List Clause × Val) → Option Val
  | some ([], v) => some v
  | _ => none

/-- Initialisation with a list in braces, [dcl.init.list]/3, `fill` being the initialisation of the elements one after the other: a single expression of the same or a derived class is copied; an
aggregate takes all clauses for its elements, none may be left over; a number takes at most one expression. -/
def listInit (base : Nat → Option Nat) (fill : List Clause → Option (List Clause × Val)) (t : Ty) (cs : List Clause) : Option Val :=
  match t, cs with
  | .num, [] => some (.num 0)
  | .num, [.expr v] => convert base .num v
  | .num, _ => none
  | .cls name ts, [.expr v] => match convert base (.cls name ts) v with
    | some v => some v
    | none => complete (fill cs)
  | _, _ => complete (fill cs)

/-- Initialisation of an element of an aggregate from the clauses that are left, with what is left after it, [dcl.init.aggr]/5, 13-16: with none left, from an empty list; with a list in braces, from
this list; with an expression that converts, from this expression; with another expression, an aggregate takes as many clauses as it has elements (brace elision). -/
def element (base : Nat → Option Nat) (fill : List Clause → Option (List Clause × Val)) (t : Ty) : List Clause → Option (List Clause × Val)
  | [] => some ([], zero t)
  | .braced cs :: rest => (listInit base fill t cs).map (fun v => (rest, v))
  | .expr v :: rest => match convert base t v with
    | some v => some (rest, v)
    | none => if t.isAggregate then fill (.expr v :: rest) else none

/-- `n` elements of an array. -/
def times (f : List Clause → Option (List Clause × Val)) : Nat → List Clause → Option (List Clause × List Val)
  | 0, cs => some (cs, [])
  | n + 1, cs => do
    let (cs, v) ← f cs
    let (cs, vs) ← times f n cs
    some (cs, v :: vs)

mutual
/-- Initialisation of the elements of an aggregate from a list of clauses, in order, with what is left over. -/
def fill (base : Nat → Option Nat) : Ty → List Clause → Option (List Clause × Val)
  | .num, _ => none
  | .cls name ts, cs => do
    let (cs, vs) ← fillAll base ts cs
    some (cs, .cls name vs)
  | .arr n t, cs => do
    let (cs, vs) ← times (element base (fun cs => fill base t cs) t) n cs
    some (cs, .arr vs)
def fillAll (base : Nat → Option Nat) : List Ty → List Clause → Option (List Clause × List Val)
  | [], cs => some (cs, [])
  | t :: ts, cs => do
    let (cs, v) ← element base (fun cs => fill base t cs) t cs
    let (cs, vs) ← fillAll base ts cs
    some (cs, v :: vs)
end

/-- `T x { ... }` -/
def declareBraces (base : Nat → Option Nat) (t : Ty) (cs : List Clause) : Option Val := listInit base (fill base t) t cs

/-- `T x = clause;` -/
def declareWith (base : Nat → Option Nat) (t : Ty) : Clause → Option Val
  | .expr v => convert base t v
  | .braced cs => declareBraces base t cs

/-- The class names of an `EnumArray` and of the `std::array` it derives from, EnumArray.hpp:19-20, in a program with the base classes `base`. -/
structure Classes where
  enumArray : Nat
  stdArray : Nat
  base : Nat → Option Nat
  derives : base enumArray = some stdArray
  root : base stdArray = none
  distinct : enumArray ≠ stdArray

/-- `std::array<V, n>` -/
def Classes.array (C : Classes) (n : Nat) (V : Ty) : Ty := .cls C.stdArray [.arr n V]

/-- `EnumArray<E, V>`, `n` being `EnumValueCount_v<E>`, EnumArray.hpp:19 -/
def Classes.enum (C : Classes) (n : Nat) (V : Ty) : Ty := .cls C.enumArray [C.array n V]

/-- The object with the elements `vs`. -/
def Classes.object (C : Classes) (vs : List Val) : Val := .cls C.enumArray [.cls C.stdArray [.arr vs]]

end Verif.EnumArray.Init
