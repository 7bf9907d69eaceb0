import Verif.FixedVector.Spec

/-!
# Model of the selection of a constructor of `FixedVector` (FixedVector.hpp:47-50)

Which of the four constructors without a vector argument a declaration `FixedVector<T, N> v(args...)`, `v{ args... }` or `v = { args... }` calls, and whether it compiles.  The types of the program
and the conversions between them are a parameter (`Lang`).  Left out: arguments that are `FixedVector`s, `std::initializer_list`s or braced lists themselves.
-/

namespace Verif.FixedVector.Select
open Verif.Cpp

/-- What the declaration depends on: the expressions `A` that are passed, their (decayed) types `τ`, and what the language says of them, for one element type `T` whose values are `α`. -/
structure Lang (τ A α : Type) where
  /-- `T` -/
  elem : τ
  /-- `size_type` -/
  sizeT : τ
  ty : A → τ
  /-- rank of the implicit conversion from a type to another one, `none` if there is none, `0` for the identity -/
  conv : τ → τ → Option Nat
  conv_exact : ∀ a b, conv a b = some 0 ↔ a = b
  /-- whether converting this expression to that type is narrowing -/
  narrow : A → τ → Bool
  /-- type of `*first++` (where also `first != last` compiles), `none` if it does not compile: the type is not an iterator -/
  iter : τ → Option τ
  /-- the size type is an integer, not an iterator -/
  iter_sizeT : iter sizeT = none
  /-- `T` can be constructed from this type: `emplace_back` compiles -/
  builds : τ → Bool
  /-- `T{}` compiles -/
  hasDefault : Bool
  /-- the expression converted to `size_type` -/
  toSize : A → Nat
  /-- the expression converted to `T` -/
  toElem : A → α
  /-- the values of `T` constructed from the elements of the range -/
  range : A → A → List α

/-- `v(args...)`, `v{ args... }`, `v = { args... }` -/
inductive Form where
  | paren
  | brace
  | copyBrace
  deriving DecidableEq

/-- The constructors: FixedVector.hpp:47, 48 (with its default argument), 49, 50. -/
inductive Ctor where
  | dflt
  | count
  | range
  | list
  deriving DecidableEq

/-- Line 49 is a template. -/
def Ctor.isTemplate : Ctor → Bool
  | .range => true
  | _ => false

/-- The result of the declaration. -/
inductive Made where
  /-- no constructor fits, or no best one: `std::is_constructible_v` is false -/
  | noMatch
  /-- a constructor is selected, and then the program does not compile: its body, its default argument, a narrowing conversion, or an explicit constructor in a copy initialization -/
  | error
  | calls (c : Ctor)
  deriving DecidableEq

variable {τ A α : Type} [DecidableEq τ] (L : Lang τ A α)

/-- The ranks of the conversions of the arguments for a constructor, `none` if it is not viable (FixedVector.hpp:47-49).  `FixedVector(InputIt, InputIt)` has no constraint on `InputIt`: deduction
succeeds if both types are the same, and the conversions are identities. -/
def ranks : Ctor → List A → Option (List Nat)
  | .dflt, [] => some []
  | .count, [a] =>
    match L.conv (L.ty a) L.sizeT with
    | some r => some [r]
    | none => none
  | .count, [a, b] =>
    match L.conv (L.ty a) L.sizeT, L.conv (L.ty b) L.elem with
    | some r, some r' => some [r, r']
    | _, _ => none
  | .range, [a, b] => if L.ty a = L.ty b then some [0, 0] else none
  | _, _ => none

/-- Whether a candidate is better than another one: no conversion is worse, and one is better, or none is and only the other is a template. -/
def better (c : Ctor × List Nat) (d : Ctor × List Nat) : Bool :=
  (c.2.zip d.2).all (fun p => decide (p.1 ≤ p.2)) &&
    ((c.2.zip d.2).any (fun p => decide (p.1 < p.2)) || (!c.1.isTemplate && d.1.isTemplate))

/-- Overload resolution among lines 47-49. -/
def resolve (args : List A) : Option Ctor :=
  let vs := [Ctor.dflt, .count, .range].filterMap (fun c => (ranks L c args).map (fun r => (c, r)))
  (vs.find? (fun c => vs.all (fun d => d.1 == c.1 || better c d))).map Prod.fst

/-- Whether the selected constructor compiles: `T{}` of line 48, FixedVector.inl:195-202 for the range, narrowing conversions inside braces; line 48 is `explicit`. -/
def compiles (f : Form) : Ctor → List A → Bool
  | .dflt, _ => true
  | .count, [a] => L.hasDefault && (f == .paren || !L.narrow a L.sizeT) && f != .copyBrace
  | .count, [a, b] => (f == .paren || (!L.narrow a L.sizeT && !L.narrow b L.elem)) && f != .copyBrace
  | .range, [a, _] =>
    match L.iter (L.ty a) with
    | some e => L.builds e
    | none => false
  | .list, args => args.all (fun a => !L.narrow a L.elem)
  | _, _ => false

/-- The declaration: in braces line 50 comes first, if every expression converts to `T`. -/
def make (f : Form) (args : List A) : Made :=
  let c :=
    if f ≠ .paren ∧ args ≠ [] ∧ args.all (fun a => (L.conv (L.ty a) L.elem).isSome) = true then some Ctor.list
    else resolve L args
  match c with
  | none => .noMatch
  | some c => if compiles L f c args then .calls c else .error

/-- The call of a constructor (FixedVector.inl:182-208), on the vector that its delegation to `FixedVector()` makes. -/
def call (K : Cfg α) : Ctor → List A → X (St α) Unit
  | .count, [a] => ofSize K (L.toSize a) K.dflt
  | .count, [a, b] => ofSize K (L.toSize a) (L.toElem b)
  | .range, [a, b] => emplaceAll K (L.range a b)
  | .list, args => emplaceAll K (args.map L.toElem)
  | _, _ => pure ()

/-- The vector that a declaration makes; `none` if it does not compile. -/
def declare (K : Cfg α) (f : Form) (args : List A) : Option (Out (St α) Unit) :=
  match make L f args with
  | .calls c => some (call L K c args ⟨empty K, none⟩)
  | _ => none

end Verif.FixedVector.Select
