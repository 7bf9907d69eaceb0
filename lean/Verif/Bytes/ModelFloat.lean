import Verif.Bytes.Model
import Verif.Endianness.Model

/-!
# Floating-point numbers: `ByteSwap` (MathUtils.inl) and the conversions of Endianness.inl

Objects are as in `Verif.Bytes`; a floating-point value is its sign, exponent and fraction, so that all NaNs and both zeros are different values.  Simplified: a
floating-point value passed or returned keeps its bits (as on all hosts with SSE2 or NEON; the x87 unit makes signalling NaNs quiet).
-/

namespace Verif.Bytes
open Verif.Cpp Verif.Endianness

/-- `ByteSwap(value)` of a `float` or `double`, MathUtils.inl:268-286 and 288-292: the bytes of the integer with the same bits are swapped. -/
def byteSwapFlt (big wide : Bool) (value : Val) : M Val := do
  let bits ← bitCast big (.int false (fltSize wide)) (.flt wide) value
  match bits with
  | .num n => bitCast big (.flt wide) (.int false (fltSize wide)) (.num (byteSwap (8 * fltSize wide) (BitVec.ofInt _ n)).toNat)
  | _ => .error .ub

/-- `BigEndianToHost(value)` of a floating-point value, Endianness.inl:9-17; `big`: the host is `NAZARA_BIG_ENDIAN`. -/
def bigEndianToHostFlt (big wide : Bool) (value : Val) : M Val := if big then pure value else byteSwapFlt big wide value

/-- `LittleEndianToHost(value)`, Endianness.inl:19-27 -/
def littleEndianToHostFlt (big wide : Bool) (value : Val) : M Val := if big then byteSwapFlt big wide value else pure value

/-- `HostToBigEndian(value)`, Endianness.inl:29-33 -/
def hostToBigEndianFlt (big wide : Bool) (value : Val) : M Val := bigEndianToHostFlt big wide value

/-- `HostToLittleEndian(value)`, Endianness.inl:35-39 -/
def hostToLittleEndianFlt (big wide : Bool) (value : Val) : M Val := littleEndianToHostFlt big wide value

end Verif.Bytes
