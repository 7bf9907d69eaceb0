import Verif.EnumArray.Model

/-!
# What an `EnumArray` is: a map from the enumerators to their values
-/

namespace Verif.EnumArray

/-- `e` is one of the values the array is made for: from zero up to (and without) `Count`, or up to `Max`. -/
def Bound.Has : Bound → Int → Prop
  | .count c, e => 0 ≤ e ∧ e < c
  | .max m, e => 0 ≤ e ∧ e ≤ m

/-- The enumeration declares its bound: a value of the underlying type, not negative, whose array has a size C++ can express. -/
def Bound.Declared (E : Enum) (B : Bound) : Prop :=
  1 ≤ E.width ∧ E.width ≤ 64 ∧
    match B with
    | .count c => E.InRange c ∧ 0 ≤ c
    | .max m => E.InRange m ∧ 0 ≤ m ∧ m < 2 ^ 64 - 1

/-- Moves of an iterator. -/
inductive Move where
  | inc
  | dec
  | postInc
  | postDec
  | add (n : Int)
  | sub (n : Int)

/-- What a move does to the iterator, and the iterator it returns. -/
def Move.run : Move → Iter → Iter × Iter
  | .inc, it => (it.inc, it.inc)
  | .dec, it => (it.dec, it.dec)
  | .postInc, it => it.postInc
  | .postDec, it => it.postDec
  | .add n, it => it.addAssign n
  | .sub n, it => it.subAssign n

/-- How far a move goes. -/
def Move.delta : Move → Int
  | .inc => 1
  | .dec => -1
  | .postInc => 1
  | .postDec => -1
  | .add n => n
  | .sub n => -n

/-- Whether the value of the expression is the position before the move. -/
def Move.returnsOld : Move → Bool
  | .postInc => true
  | .postDec => true
  | _ => false

/-- The iterator after a list of moves. -/
def runMoves : List Move → Iter → Iter
  | [], it => it
  | m :: ms, it => runMoves ms (m.run it).2

end Verif.EnumArray
