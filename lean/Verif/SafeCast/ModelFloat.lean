import Verif.SafeCast.Model
import Verif.FloatMath.Model

/-!
# Model of `SafeCast` to floating-point types (Algorithm.inl:232-243)

The formats and their arithmetic are those of `Verif.FloatMath`: IEC 60559, so a conversion rounds to the nearest value, and to an
infinity beyond the greatest finite one.
-/

namespace Verif.SafeCast
open Verif.Cpp Verif.FloatMath

/-- A floating-point type of the language. -/
structure FTy where
  fmt : Fmt
  /-- `sizeof` -/
  bytes : Nat

/-- `static_cast<T>(v)` of a floating-point value. -/
def convert (t : FTy) : FVal → FVal
  | .fin q => t.fmt.round q
  | v => v

/-- `MaxValueType` and `MinValueType`, Algorithm.inl:237-240 -/
def wideType (to' from' : FTy) : FTy := if from'.bytes > to'.bytes then from' else to'

/-- The checks for `std::is_floating_point_v<From>` and `std::is_floating_point_v<To>`, Algorithm.inl:234-243 -/
def checkFloat (to' from' : FTy) (value : FVal) : M Unit := do
  let w := wideType to' from'
  Cpp.assert ((convert w value).le (convert w (.fin to'.fmt.maxValue)))
  Cpp.assert ((convert w (.fin (-to'.fmt.maxValue))).le (convert w value))

/-- `SafeCast<To>(value)` between floating-point types, Algorithm.inl:232-243 and 275.  For an lvalue `From` is a reference type and
nothing is checked. -/
def safeCastFloat (cat : Category) (to' from' : FTy) (value : FVal) : M FVal := do
  match cat with
  | .rvalue => checkFloat to' from' value
  | .lvalue => pure ()
  pure (convert to' value)

/-- `SafeCast<To>(value)` of an integer to a floating-point type, Algorithm.inl:232-243 and 275: nothing is checked. -/
def safeCastIntToFloat (_cat : Category) (to' : FTy) (value : Int) : M FVal := pure (to'.fmt.round value)

end Verif.SafeCast
