import Verif.Bytes.Spec
import Verif.FloatMath.Format

/-!
# Specification: the numbers that `float` and `double` stand for (IEC 60559)
-/

namespace Verif.Bytes
open Verif.FloatMath

/-- The format of `float` and of `double`. -/
def format (wide : Bool) : Fmt := if wide then float64 else float32

/-- The value of an object: with the largest exponent an infinity or NaN; with exponent 0 a subnormal number (or zero), otherwise a normal number, whose first digit 1 is
not stored. -/
def fltValue (wide : Bool) : Val → FVal
  | .flt s e f =>
    if e = 2 ^ expBits wide - 1 then (if f = 0 then .inf s else .nan)
    else .fin ((if s then -1 else 1) * (if e = 0 then (f : ℚ) * 2 ^ (format wide).emin else (2 ^ fracBits wide + (f : ℚ)) * 2 ^ ((format wide).emin + (e - 1 : ℤ))))
  | _ => .nan

/-- The bytes of the number `n` in memory, the highest digit in base 256 first (`big`) or the lowest first. -/
def digits (big : Bool) (k n : Nat) : List Cell :=
  (if big then (List.range k).reverse else List.range k).map (fun i => some (BitVec.ofNat 8 (n / 256 ^ i)))

end Verif.Bytes
