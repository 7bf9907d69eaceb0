import Verif.Bitset.Model

/-!
# Model of the selection of a constructor or assignment of `Bitset` (Bitset.hpp:33-42 and 104-107)

What `Bitset b(x)`, `Bitset b = x` (also: `x` passed or returned where a `Bitset` is expected), `b = x` and `Bitset b(x, y)` mean for the kinds of expressions of `Src`.  Left out: arguments that
are bitsets of the same type, braces, pointers to other things, classes that convert to numbers.
-/

namespace Verif.Bitset.Select
open Verif.Cpp

/-- An expression: its type and its value. -/
inductive Src where
  /-- an integer of `t` bits (or a character, or an enumeration) -/
  | integral (isSigned : Bool) (t : Nat) (v : BitVec t)
  | boolean (v : Bool)
  /-- the literal `0`, an `int` that is also a null pointer constant -/
  | literalZero
  /-- a floating point number of `t` bits, its value rounded towards zero (`none` if it is infinite or not a number), and whether it is not zero -/
  | floating (t : Nat) (trunc : Option Int) (nonzero : Bool)
  /-- `const char*`, an array of `const char` or a string literal, with the text up to the null character -/
  | constChars (s : List Char)
  /-- `char*` or an array of `char` -/
  | chars (s : List Char)
  | string (s : List Char)
  | stringView (s : List Char)
  /-- an object of another class that implicitly converts to `const char*`, `std::string_view` or `std::string` (for example of a class derived from them) -/
  | textClass (toPtr toView toString : Bool) (s : List Char)
  /-- an object of any other class, for example a bitset of another type -/
  | other

/-- The types of parameters; `deduced` is the `T` of a template. -/
inductive Param where
  | constCharPtr
  | stringView
  | string
  | deduced
  | sizeT
  | bool
  | bitset
  deriving DecidableEq

/-- Rank of the implicit conversion: 0 identity (and array to pointer), 1 qualification conversion, 2 standard conversion, 3 user-defined conversion.  Anything converts to `Bitset` through
`Bitset(T)`, Bitset.hpp:40.  (The unsigned integer of 64 bits is `size_t`.) -/
def conv : Src → Param → Option Nat
  | _, .deduced => some 0
  | _, .bitset => some 3
  | .constChars _, .constCharPtr => some 0
  | .chars _, .constCharPtr => some 1
  | .literalZero, .constCharPtr => some 2
  | .textClass true _ _ _, .constCharPtr => some 3
  | .stringView _, .stringView => some 0
  | .string _, .stringView => some 3
  | .constChars _, .stringView => some 3
  | .chars _, .stringView => some 3
  | .literalZero, .stringView => some 3
  | .textClass _ true _ _, .stringView => some 3
  | .string _, .string => some 0
  | .constChars _, .string => some 3
  | .chars _, .string => some 3
  | .literalZero, .string => some 3
  | .textClass _ _ true _, .string => some 3
  | .integral sg t _, .sizeT => if sg = false ∧ t = 64 then some 0 else some 2
  | .boolean _, .sizeT => some 2
  | .literalZero, .sizeT => some 2
  | .floating _ _ _, .sizeT => some 2
  | .boolean _, .bool => some 0
  | .integral _ _ _, .bool => some 2
  | .literalZero, .bool => some 2
  | .floating _ _ _, .bool => some 2
  | .constChars _, .bool => some 2
  | .chars _, .bool => some 2
  | _, _ => none

/-- A constructor or assignment operator: the types of its parameters, whether it is `explicit`. -/
structure Cand where
  params : List Param
  isExplicit : Bool
  deriving DecidableEq

def Cand.isTemplate (c : Cand) : Bool := c.params.contains .deduced

/-- The constructors, Bitset.hpp:34-36, 38-40 (without copies). -/
def ctors : List Cand :=
  [⟨[.sizeT, .bool], true⟩, ⟨[.constCharPtr], true⟩, ⟨[.constCharPtr, .sizeT], false⟩, ⟨[.stringView], true⟩, ⟨[.string], true⟩, ⟨[.deduced], false⟩]

/-- The assignment operators, Bitset.hpp:104-107 (the first and the last as one). -/
def assigns : List Cand := [⟨[.bitset], false⟩, ⟨[.stringView], false⟩, ⟨[.deduced], false⟩]

/-- Ranks of the conversions of the arguments, `none` if the candidate is not viable. -/
def ranks : List Src → List Param → Option (List Nat)
  | [], [] => some []
  | s :: ss, p :: ps =>
    match conv s p, ranks ss ps with
    | some r, some rs => some (r :: rs)
    | _, _ => none
  | _, _ => none

/-- No conversion is worse, and one is better, or none is and only the other is a template. -/
def better (c d : Cand × List Nat) : Bool :=
  (c.2.zip d.2).all (fun p => decide (p.1 ≤ p.2)) &&
    ((c.2.zip d.2).any (fun p => decide (p.1 < p.2)) || (!c.1.isTemplate && d.1.isTemplate))

/-- Overload resolution. -/
def resolve (cs : List Cand) (args : List Src) : Option Cand :=
  let vs := cs.filterMap (fun c => (ranks args c.params).map (fun r => (c, r)))
  (vs.find? (fun c => vs.all (fun d => d.1 == c.1 || better c d))).map Prod.fst

/-- The result of an expression that makes a bitset. -/
inductive Made (w : Nat) where
  /-- refused by overload resolution: `std::is_constructible_v` (or `_convertible_`, `_assignable_`) is false -/
  | noMatch
  /-- accepted by overload resolution, and then an error in the body -/
  | error
  | makes (r : M (Bitset w))

variable {w : Nat}

/-- The text that an expression converts to. -/
def Src.text : Src → List Char
  | .constChars s => s
  | .chars s => s
  | .string s => s
  | .stringView s => s
  | .textClass _ _ _ s => s
  | _ => []

/-- Conversion of a floating point number to an unsigned integer of `t` bits: undefined if its integral part is not one of its values ([conv.fpint]). -/
def floatTo (t : Nat) : Option Int → M Nat
  | some n => if 0 ≤ n ∧ n < 2 ^ t then .ok n.toNat else .error .ub
  | none => .error .ub

/-- The constructor template, Bitset.inl:119-138: `static_cast<Block>(value)` compiles for numbers, `value & (T(1U) << bitPos)` for integers.  `bool` has 8 bits (`BitCount<bool>`). -/
def ofT : Src → Made w
  | .integral sg _ v => .makes (ofInt sg v)
  | .boolean v => .makes (ofInt false (BitVec.ofNat 8 v.toNat))
  | .literalZero => .makes (ofInt true 0#32)
  | .floating t v _ =>
    if t ≤ w then
      .makes (do let n ← floatTo w v; pure ⟨[BitVec.ofNat w n], t⟩)
    else .error
  | _ => .error

/-- An expression converted to `size_t`. -/
def Src.toSize : Src → M Nat
  | .integral true _ v => .ok (v.signExtend 64).toNat
  | .integral false _ v => .ok (v.setWidth 64).toNat
  | .boolean v => .ok v.toNat
  | .floating _ v _ => floatTo 64 v
  | _ => .ok 0

/-- An expression converted to `bool`. -/
def Src.toBool : Src → Bool
  | .integral _ _ v => v != 0
  | .boolean v => v
  | .floating _ _ nonzero => nonzero
  | .constChars _ => true
  | .chars _ => true
  | _ => false

/-- The call of the selected constructor, Bitset.inl:39-138; a null pointer as text is undefined behaviour unless no character is read (which an argument of rank 2 is). -/
def construct (c : Cand) : List Src → Made w
  | [x] => if c.params = [.deduced] then ofT x else .makes (match x with
      | .literalZero => .error .ub
      | _ => ofString x.text)
  | [x, y] =>
    if c.params = [.sizeT, .bool] then .makes (do let n ← x.toSize; ofSize n y.toBool)
    else .makes (do
      let n ← y.toSize
      match x with
      | .literalZero => if n = 0 then ofString [] else .error .ub
      | _ => if n ≤ x.text.length then ofString (x.text.take n) else .error .ub)
  | _ => .error

/-- `Bitset b(args...)` -/
def direct (args : List Src) : Made w :=
  match resolve ctors args with
  | none => .noMatch
  | some c => construct c args

/-- `Bitset b = x`, or `x` where a `Bitset` is expected: explicit constructors do not take part. -/
def copyInit (x : Src) : Made w :=
  match resolve (ctors.filter (fun c => !c.isExplicit)) [x] with
  | none => .noMatch
  | some c => construct c [x]

/-- The parameter `value` of `operator=(T)` as an expression: a variable. -/
def Src.asVariable : Src → Src
  | .literalZero => .integral true 32 0
  | x => x

/-- `b = x`, Bitset.inl:980-1003: the operators construct `Bitset bitset(bits)` or `bitset(value)` and swap. -/
def assign (x : Src) : Made w :=
  match resolve assigns [x] with
  | none => .noMatch
  | some c =>
    if c.params = [.deduced] then direct [x.asVariable]
    else if c.params = [.stringView] then .makes (ofString x.text)
    else copyInit x

end Verif.Bitset.Select
