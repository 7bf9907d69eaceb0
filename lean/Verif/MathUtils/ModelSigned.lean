import Verif.MathUtils.Model

/-!
# Powers of two and bit counts on signed types

The functions of `Model` on signed types of `w` bits, where the arithmetic of the code can overflow.
Values are `Int`s; the operands of every operator are promoted to `p = promoted w` bits, a result that
`p` bits cannot hold is undefined behaviour (`sRes`), and an assignment converts back to `w` bits
(`toSigned`).  Bitwise operators act on the two's complement representations.
-/

namespace Verif.MathUtils

open Verif.Cpp

/-- `x & y` on signed operands of `p` bits. -/
def andInt (p : Nat) (x y : Int) : Int := (BitVec.ofInt p x &&& BitVec.ofInt p y).toInt
/-- `x | y` on signed operands of `p` bits. -/
def orInt (p : Nat) (x y : Int) : Int := (BitVec.ofInt p x ||| BitVec.ofInt p y).toInt
/-- `~x` on a signed operand of `p` bits. -/
def notInt (p : Nat) (x : Int) : Int := (~~~BitVec.ofInt p x).toInt

/-- Kernighan's loop of `CountBits` (compile-time path) on signed types, MathUtils.inl:354-362:
`value &= value - 1; count++` while `value` is not 0.  At most `fuel` tests of the condition. -/
def countBitsSignedLoop (w : Nat) : Nat → Int → Nat → M Nat
  | 0, _, _ => .error .diverge
  | fuel + 1, value, count =>
    if value ≠ 0 then do
      let d ← sRes (promoted w) (value - 1)
      countBitsSignedLoop w fuel (toSigned w (andInt (promoted w) value d)) (count + 1)
    else .ok count

/-- `CountBits`, compile-time path, on signed types of `w` bits, MathUtils.inl:317-363, for at most
`fuel` tests of the loop condition. -/
def countBitsSigned (w fuel : Nat) (value : Int) : M Nat := countBitsSignedLoop w fuel value 0

/-- `IsPow2` on signed types, MathUtils.inl:798-802. -/
def isPow2Signed (w : Nat) (value : Int) : M Bool := do
  assert (value ≠ 0)
  let d ← sRes (promoted w) (value - 1)
  pure (andInt (promoted w) value d == 0)

/-- `AlignPow2` on signed types, MathUtils.inl:608-613. -/
def alignPow2Signed (w : Nat) (offset alignment : Int) : M Int := do
  assert (0 < alignment)
  let b ← isPow2Signed w alignment
  assert b
  let s ← sRes (promoted w) (offset + alignment)
  let s ← sRes (promoted w) (s - 1)
  let m ← sRes (promoted w) (alignment - 1)
  pure (toSigned w (andInt (promoted w) s (notInt (promoted w) m)))

/-- One step `value |= value >> s`; `>>` on a signed value is taken to be arithmetic (C++20; before, the
choice of every compiler the library supports). -/
def smearSigned (w s : Nat) (value : Int) : Int :=
  toSigned w (orInt (promoted w) value (value >>> s))

/-- `value--` and `value++` on a signed type of `w` bits (`d` is -1 or 1): `value = T(value + d)`. -/
def stepSigned (w : Nat) (value d : Int) : M Int := do
  let r ← sRes (promoted w) (value + d)
  pure (toSigned w r)

/-- `RoundToPow2` on signed types of `w` bits, MathUtils.inl:923-942. -/
def roundToPow2Signed (w : Nat) (value : Int) : M Int := do
  let value ← stepSigned w value (-1)
  let value := smearSigned w 1 value
  let value := smearSigned w 2 value
  let value := smearSigned w 4 value
  let value := if w > 8 then smearSigned w 8 value else value
  let value := if w > 16 then smearSigned w 16 value else value
  let value := if w > 32 then smearSigned w 32 value else value
  stepSigned w value 1

/-- The loop of `GetNearestPowerOfTwo` on signed types, MathUtils.inl:673-675, for at most `fuel` tests
of the condition.  `x <<= 1` is `T(x * 2)` modulo `2^w`; before C++20 shifting a negative value is
undefined. -/
def nearestPow2SignedLoop (w : Nat) (cpp20 : Bool) : Nat → Int → Int → M Int
  | 0, _, _ => .error .diverge
  | fuel + 1, number, x =>
    if x < number then
      if cpp20 = false ∧ x < 0 then .error .ub
      else nearestPow2SignedLoop w cpp20 fuel number (toSigned w (x * 2))
    else .ok x

/-- `GetNearestPowerOfTwo` on signed types of `w` bits, MathUtils.inl:671-678. -/
def getNearestPowerOfTwoSigned (w : Nat) (cpp20 : Bool) (fuel : Nat) (number : Int) : M Int :=
  nearestPow2SignedLoop w cpp20 fuel number 1

end Verif.MathUtils
