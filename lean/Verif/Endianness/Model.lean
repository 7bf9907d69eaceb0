import Verif.MathUtils.Model

/-!
# Model of `Endianness.inl`
-/

namespace Verif.Endianness
open Verif.MathUtils

/-- The two kinds of hosts: `NAZARA_LITTLE_ENDIAN` and `NAZARA_BIG_ENDIAN`, Endianness.hpp. -/
inductive Host where
  | little
  | big
  deriving DecidableEq, Repr

/-- `ByteSwap`, MathUtils.inl:288-315, dispatching on the size of the type; one byte values are returned unchanged
(the wildcard case: no other size compiles). -/
def byteSwap : (w : Nat) → BitVec w → BitVec w
  | 16, v => byteSwap16 v
  | 32, v => byteSwap32 v
  | 64, v => byteSwap64 v
  | _, v => v

/-- `BigEndianToHost`, Endianness.inl:9-17. -/
def bigEndianToHost (h : Host) {w : Nat} (value : BitVec w) : BitVec w :=
  match h with
  | .big => value
  | .little => byteSwap w value

/-- `LittleEndianToHost`, Endianness.inl:19-27. -/
def littleEndianToHost (h : Host) {w : Nat} (value : BitVec w) : BitVec w :=
  match h with
  | .big => byteSwap w value
  | .little => value

/-- `HostToBigEndian`, Endianness.inl:29-33. -/
def hostToBigEndian (h : Host) {w : Nat} (value : BitVec w) : BitVec w := bigEndianToHost h value

/-- `HostToLittleEndian`, Endianness.inl:35-39. -/
def hostToLittleEndian (h : Host) {w : Nat} (value : BitVec w) : BitVec w := littleEndianToHost h value

end Verif.Endianness
