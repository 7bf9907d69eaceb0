import Verif.SparsePtr.Model

/-!
# Specification of `Nz::SparsePtr`: strided positions
-/

namespace Verif.SparsePtr

/-- The position of element `n` of a strided sequence. -/
def element (base stride n : Int) : Int := base + n * stride

/-- How many elements a statement moves the pointer by. -/
def Step.count : Step → Int
  | .preInc => 1
  | .postInc => 1
  | .preDec => -1
  | .postDec => -1
  | .addAssign _ c => c
  | .subAssign _ c => -c
  | .add _ c => c
  | .sub _ c => -c

/-- The number of elements a list of statements moves the pointer by. -/
def net : List Step → Int
  | [] => 0
  | s :: ss => s.count + net ss

/-- `index * stride` is a value of the type C++ computes it in. -/
def MulOk (t : IntType) (stride c : Int) : Prop := (common t).Fits (c * stride)

/-- The products of a statement are values of the types C++ computes them in. -/
def Step.MulOk (stride : Int) : Step → Prop
  | .addAssign t c => SparsePtr.MulOk t stride c
  | .subAssign t c => SparsePtr.MulOk t stride c
  | .add t c => SparsePtr.MulOk t stride c
  | .sub t c => SparsePtr.MulOk t stride c
  | _ => True

/-- A position of an array of `size` bytes (its end included). -/
def Inside (size : Nat) (p : Int) : Prop := 0 ≤ p ∧ p ≤ size

end Verif.SparsePtr
