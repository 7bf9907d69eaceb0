/-!
# Model of `Overloaded` (TypeTraits.hpp:112-118), with `std::visit`

`Overloaded{f1, ..., fn}` derives from the types of its arguments and takes over their call operators, so that a call selects one of them by overload
resolution.  `std::visit` calls it with a reference to the alternative the variant holds.  Types are numbers; the conversions between them are arbitrary.
-/

namespace Verif.TypeTraits

/-- The parameter of the call operator of a handler, for a type `t`: `t`, `const t&`, `t&`, `t&&`; of a generic one: `auto`, `const auto&`, `auto&&`. -/
inductive Param where
  | value (t : Nat)
  | constRef (t : Nat)
  | ref (t : Nat)
  | rvalueRef (t : Nat)
  | auto
  | constAuto
  | forward
  deriving DecidableEq

def Param.isGeneric : Param → Bool
  | .auto => true
  | .constAuto => true
  | .forward => true
  | _ => false

/-- The type the handler is for. -/
def Param.type? : Param → Option Nat
  | .value t => some t
  | .constRef t => some t
  | .ref t => some t
  | .rvalueRef t => some t
  | _ => none

/-- The argument: the type of the alternative, and whether the variant is an lvalue and const. -/
structure Arg where
  type : Nat
  isLvalue : Bool
  isConst : Bool
  deriving DecidableEq

/-- How the parameter is bound to an argument of the same type: as a copy, or by a reference (lvalue or not, to const or not). -/
inductive Binding where
  | copy
  | reference (lvalue const : Bool)
  deriving DecidableEq

/-- The implicit conversion to a parameter: the same type (an exact match) with its binding, or another type with the rank of the conversion (promotion 1, standard conversion 2,
user-defined 3; the argument of `conv` is the type of the argument and that of the parameter). -/
inductive Conversion where
  | same (b : Binding)
  | other (rank : Nat)
  deriving DecidableEq

/-- Conversion of the argument to the parameter, `none` if there is none. -/
def convert (conv : Nat → Nat → Option Nat) (a : Arg) : Param → Option Conversion
  | .value t => if t = a.type then some (.same .copy) else (conv a.type t).map (fun r => .other (r + 1))
  | .constRef t => if t = a.type then some (.same (.reference true true)) else (conv a.type t).map (fun r => .other (r + 1))
  | .ref t => if t = a.type ∧ a.isLvalue = true ∧ a.isConst = false then some (.same (.reference true false)) else none
  | .rvalueRef t =>
    if t = a.type then (if a.isLvalue = false ∧ a.isConst = false then some (.same (.reference false false)) else none)
    else (conv a.type t).map (fun r => .other (r + 1))
  | .auto => some (.same .copy)
  | .constAuto => some (.same (.reference true true))
  | .forward => some (.same (.reference a.isLvalue a.isConst))

/-- The better conversion sequence ([over.ics.rank]): the better rank; of two references an rvalue reference for an rvalue, else the less qualified one. -/
def betterConversion (a : Arg) : Conversion → Conversion → Bool
  | .same (.reference xl xc), .same (.reference yl yc) => (!a.isLvalue && !xl && yl) || (xl == yl && !xc && yc)
  | .same _, .same _ => false
  | .same _, .other _ => true
  | .other _, .same _ => false
  | .other r, .other s => decide (r < s)

/-- The more specialised of two generic parameters ([temp.deduct.partial]): `const auto&` before `auto&&`. -/
def moreSpecialised : Param → Param → Bool
  | .constAuto, .forward => true
  | _, _ => false

/-- The better function ([over.match.best]): the better conversion, then a function rather than a template, then the more specialised template. -/
def better (conv : Nat → Nat → Option Nat) (a : Arg) (x y : Param) : Bool :=
  match convert conv a x, convert conv a y with
  | some cx, some cy =>
    betterConversion a cx cy ||
      (!betterConversion a cy cx && ((!x.isGeneric && y.isGeneric) || (x.isGeneric && y.isGeneric && moreSpecialised x y)))
  | _, _ => false

/-- `Overloaded`: the handlers (TypeTraits.hpp:113-116: all the call operators), each with its parameter. -/
abbrev Overloaded := List (Nat × Param)

/-- The handler that is called for the argument, `none` if the program does not compile: none fits, or none is better than all others. -/
def Overloaded.select (conv : Nat → Nat → Option Nat) (hs : Overloaded) (a : Arg) : Option Nat :=
  let viable := hs.filter (fun h => (convert conv a h.2).isSome)
  (viable.find? (fun x => viable.all (fun y => decide (x = y) || better conv a x.2 y.2))).map Prod.fst

/-- `std::visit(Overloaded{...}, variant)`: compiles only if a handler can be selected for every alternative; then calls the one of the alternative the variant holds.
`alternatives` are the types, `index` the one held. -/
def visit (conv : Nat → Nat → Option Nat) (hs : Overloaded) (alternatives : List Nat) (lvalue const : Bool) (index : Nat) : Option Nat :=
  if alternatives.all (fun t => (hs.select conv ⟨t, lvalue, const⟩).isSome) then
    match alternatives[index]? with
    | some t => hs.select conv ⟨t, lvalue, const⟩
    | none => none
  else none

end Verif.TypeTraits
