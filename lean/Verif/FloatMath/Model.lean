import Verif.Cpp
import Verif.MathUtils.Model
import Verif.FloatMath.Format

/-!
# Model of the floating-point functions of `MathUtils.inl` and of `Constants.hpp`

`T` is a format (`Fmt`) and its values are `FVal`.  Assumed: expressions of type `T` are evaluated in `T` (`FLT_EVAL_METHOD` is 0), the default
rounding mode, no `-ffast-math` and no contraction of expressions.
-/

namespace Verif.FloatMath
open Verif.Cpp

/-! ## Limits -/

/-- `std::numeric_limits<T>::max()` (`MaxValue`), Constants.hpp:30-33 -/
def Fmt.maxValue (F : Fmt) : ℚ := (2 ^ F.prec - 1) * 2 ^ (F.emax - F.prec)

/-- `std::numeric_limits<T>::min()` (`MinValue`), Constants.hpp:35-38: the smallest positive number with all its digits. -/
def Fmt.minValue (F : Fmt) : ℚ := 2 ^ (F.emin + F.prec - 1)

/-- `std::numeric_limits<T>::epsilon()`: distance of 1 to the next number. -/
def Fmt.epsilon (F : Fmt) : ℚ := 2 ^ (1 - (F.prec : ℤ))

/-- `std::numeric_limits<T>::max()` and `min()` (`MaxValue`, `MinValue`) of integer types of `w` bits, Constants.hpp:30-38 -/
def intMax (signed : Bool) (w : Nat) : Int := if signed then 2 ^ (w - 1) - 1 else 2 ^ w - 1
def intMin (signed : Bool) (w : Nat) : Int := if signed then -2 ^ (w - 1) else 0

/-! ## Constants: the literals are of type `double` and are then converted to `T` -/

/-- Conversion of a `double` literal to `T`. -/
def Fmt.literal (F : Fmt) (q : ℚ) : FVal :=
  match float64.round q with
  | .fin d => F.round d
  | v => v

/-- `HalfPi<T>()`, Constants.hpp:47-51 -/
def halfPi (F : Fmt) : FVal := F.literal 1.5707963267948966192313216916398
/-- `Pi<T>()`, Constants.hpp:53-57 -/
def pi (F : Fmt) : FVal := F.literal 3.1415926535897932384626433832795
/-- `Sqrt2<T>()`, Constants.hpp:59-63 -/
def sqrt2 (F : Fmt) : FVal := F.literal 1.4142135623730950488016887242097
/-- `Sqrt3<T>()`, Constants.hpp:65-69 -/
def sqrt3 (F : Fmt) : FVal := F.literal 1.7320508075688772935274463415059
/-- `Sqrt5<T>()`, Constants.hpp:71-75 -/
def sqrt5 (F : Fmt) : FVal := F.literal 2.2360679774997896964091736687313
/-- `Tau<T>()`, Constants.hpp:77-81 -/
def tau (F : Fmt) : FVal := F.literal 6.2831853071795864769252867665590

/-! ## Classification -/

/-- `IsFinite` in constant expressions, MathUtils.inl:743 -/
def isFiniteConst (value : FVal) : Bool := value.eq value && value.lt (.inf false) && (FVal.inf false).neg.lt value
/-- `IsInfinity` in constant expressions, MathUtils.inl:763 -/
def isInfinityConst (value : FVal) : Bool := value.eq (.inf false) || value.eq (FVal.inf false).neg
/-- `IsNaN` in constant expressions, MathUtils.inl:783 -/
def isNaNConst (value : FVal) : Bool := !value.eq value

/-- `std::isfinite` (`IsFinite` at run time, MathUtils.inl:747) -/
def isFiniteRun : FVal → Bool
  | .fin _ => true
  | _ => false
/-- `std::isinf` (`IsInfinity` at run time, MathUtils.inl:767) -/
def isInfinityRun : FVal → Bool
  | .inf _ => true
  | _ => false
/-- `std::isnan` (`IsNaN` at run time, MathUtils.inl:787) -/
def isNaNRun : FVal → Bool
  | .nan => true
  | _ => false

/-! ## Comparison with a tolerance -/

/-- `NumberEquals(a, b, maxDifference)` at run time, MathUtils.inl:114 -/
def numberEqualsRun (F : Fmt) (a b maxDifference : FVal) : Bool := (F.sub a b).abs.le maxDifference

/-- `NumberEquals(a, b, maxDifference)` in constant expressions, MathUtils.inl:118-122 -/
def numberEqualsConst (F : Fmt) (a b maxDifference : FVal) : Bool :=
  if a.lt b then (F.sub b a).le maxDifference else (F.sub a b).le maxDifference

/-- `NumberEquals(a, b)`, MathUtils.inl:890-893 -/
def numberEquals2 (F : Fmt) (a b : FVal) : Bool := numberEqualsRun F a b (.fin F.epsilon)

/-! ## Approach and Clamp (`Clamp` is `Verif.MathUtils.clamp` with the `operator<` of `T`) -/

/-- `Approach(value, objective, increment)`, MathUtils.inl:626-634 -/
def approach (F : Fmt) (value objective increment : FVal) : FVal :=
  if value.lt objective then MathUtils.stdMin FVal.lt (F.add value increment) objective
  else if objective.lt value then MathUtils.stdMax FVal.lt (F.sub value increment) objective
  else value

/-! ## Lerp -/

/-- `Lerp(from, to, interpolation)`, all of type `T`, MathUtils.inl:817-820 -/
def lerp (F : Fmt) (src dst interpolation : FVal) : FVal := F.add src (F.mul interpolation (F.sub dst src))

/-- Truncation towards zero. -/
def trunc (q : ℚ) : ℤ := if q < 0 then ⌈q⌉ else ⌊q⌋

/-- Conversion of a floating-point value to an integer type with the given bounds: undefined if the truncated value does not fit. -/
def toInt (lo hi : Int) : FVal → M Int
  | .fin q => if lo ≤ trunc q ∧ trunc q ≤ hi then .ok (trunc q) else .error .ub
  | _ => .error .ub

/-- `to - from` on integers of `w` bits: computed in `int` if narrower, otherwise modulo `2 ^ w` (unsigned) or undefined on overflow (signed). -/
def intSub (signed : Bool) (w : Nat) (x y : Int) : M Int :=
  if signed || decide (w < 32) then MathUtils.sRes (promoted w) (x - y) else .ok ((x - y) % 2 ^ w)

/-- `Lerp(from, to, interpolation)` with an integer `T` of `w` bits and an interpolation of floating-point type, MathUtils.inl:817-820; the
integers are converted to the type of the interpolation. -/
def lerpInt (F : Fmt) (signed : Bool) (w : Nat) (src dst : Int) (interpolation : FVal) : M Int := do
  let d ← intSub signed w dst src
  toInt (intMin signed w) (intMax signed w) (F.add (F.round src) (F.mul interpolation (F.round d)))

/-! ## Mod -/

/-- `std::fmod` (`Mod` at run time, MathUtils.inl:829), as IEC 60559 specifies it: exact. -/
def modRun (_F : Fmt) : FVal → FVal → FVal
  | .fin x, .fin y => if y = 0 then .nan else .fin (x - trunc (x / y) * y)
  | .fin x, .inf _ => .fin x
  | _, _ => .nan

/-- `Mod` in constant expressions, MathUtils.inl:833: `x - static_cast<long long>(x / y) * y`. -/
def modConst (F : Fmt) (zeroSign : Bool) (x y : FVal) : M FVal := do
  let n ← toInt (-2 ^ 63) (2 ^ 63 - 1) (F.div zeroSign x y)
  pure (F.sub x (F.mul (F.round n) y))

/-- `Mod` on unsigned integers, MathUtils.inl:837. -/
def modUnsigned {w : Nat} (x y : BitVec w) : M (BitVec w) := if y = 0#w then .error .ub else .ok (x % y)

/-- `Mod` on signed integers of `w` bits, MathUtils.inl:837: undefined if the quotient (computed in `int` if `T` is narrower) overflows. -/
def modSigned (w : Nat) (x y : Int) : M Int := do
  guardUB (y != 0)
  let _ ← MathUtils.sRes (promoted w) (x.tdiv y)
  pure (x.tmod y)

/-! ## MultiplyAdd -/

/-- `MultiplyAdd(x, y, z)`, MathUtils.inl:852-855 -/
def multiplyAdd (F : Fmt) (x y z : FVal) : FVal := F.add (F.mul x y) z

/-- `MultiplyAdd(x, y, z)` where the host has a fast `fma`, MathUtils.inl:857-879: one rounding. -/
def multiplyAddFused (F : Fmt) : FVal → FVal → FVal → FVal
  | .fin x, .fin y, .fin z => F.round (x * y + z)
  | .fin _, .fin _, .inf s => .inf s
  | x, y, z => F.add (F.mul x y) z

/-! ## Angles -/

/-- `DegreeToRadian(degrees)`, MathUtils.inl:659-662 -/
def degreeToRadian (F : Fmt) (degrees : FVal) : FVal := F.mul degrees (F.div false (pi F) (F.round 180))

/-- `RadianToDegree(radians)`, MathUtils.inl:918-921 -/
def radianToDegree (F : Fmt) (radians : FVal) : FVal := F.mul radians (F.div false (F.round 180) (pi F))

end Verif.FloatMath
