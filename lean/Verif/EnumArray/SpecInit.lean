import Verif.EnumArray.ModelInit

/-!
# What the initialisation of an `EnumArray` should give
-/

namespace Verif.EnumArray.Init

/-- An expression of a class that is neither the `EnumArray`, nor its `std::array`, nor derived from one of them. -/
def Classes.Other (C : Classes) : Val → Prop
  | .cls name _ => name ≠ C.enumArray ∧ name ≠ C.stdArray ∧ C.base name ≠ some C.enumArray ∧ C.base name ≠ some C.stdArray
  | _ => True

mutual
/-- All numbers in an object, in the order of its elements. -/
def Val.numbers : Val → List Int
  | .num v => [v]
  | .cls _ vs => allNumbers vs
  | .arr vs => allNumbers vs
def allNumbers : List Val → List Int
  | [] => []
  | v :: vs => v.numbers ++ allNumbers vs
end

mutual
/-- How many numbers an object of a type has. -/
def Ty.count : Ty → Nat
  | .num => 1
  | .cls _ ts => countAll ts
  | .arr n t => n * t.count
def countAll : List Ty → Nat
  | [] => 0
  | t :: ts => t.count + countAll ts
end

/-- The values made of `m` numbers each that a list of numbers makes, the last ones filled up with zeros. -/
def groups (name m : Nat) : Nat → List Int → List Val
  | 0, _ => []
  | n + 1, xs => .cls name ((xs.take m ++ List.replicate (m - xs.length) 0).map .num) :: groups name m n (xs.drop m)

end Verif.EnumArray.Init
