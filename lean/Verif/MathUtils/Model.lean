import Verif.Cpp

/-!
# Model of `MathUtils.inl` (integral part)

An unsigned integer type of `w` bits is `BitVec w`.  A signed integer type of `w` bits is either a
`BitVec w` (two's complement representation) or an `Int` with explicit range checks where signed
overflow matters.  Operands narrower than 32 bits are promoted to a 32-bit `int`
(`Verif.Cpp.promoted`).
-/

namespace Verif.MathUtils
open Verif.Cpp

/-! ## Tables -/

/-- `Detail::s_BitReverseTable256`, MathUtils.inl:11-29. -/
def bitReverseTable : List Nat := [
  0x00, 0x80, 0x40, 0xC0, 0x20, 0xA0, 0x60, 0xE0, 0x10, 0x90, 0x50, 0xD0, 0x30, 0xB0, 0x70, 0xF0,
  0x08, 0x88, 0x48, 0xC8, 0x28, 0xA8, 0x68, 0xE8, 0x18, 0x98, 0x58, 0xD8, 0x38, 0xB8, 0x78, 0xF8,
  0x04, 0x84, 0x44, 0xC4, 0x24, 0xA4, 0x64, 0xE4, 0x14, 0x94, 0x54, 0xD4, 0x34, 0xB4, 0x74, 0xF4,
  0x0C, 0x8C, 0x4C, 0xCC, 0x2C, 0xAC, 0x6C, 0xEC, 0x1C, 0x9C, 0x5C, 0xDC, 0x3C, 0xBC, 0x7C, 0xFC,
  0x02, 0x82, 0x42, 0xC2, 0x22, 0xA2, 0x62, 0xE2, 0x12, 0x92, 0x52, 0xD2, 0x32, 0xB2, 0x72, 0xF2,
  0x0A, 0x8A, 0x4A, 0xCA, 0x2A, 0xAA, 0x6A, 0xEA, 0x1A, 0x9A, 0x5A, 0xDA, 0x3A, 0xBA, 0x7A, 0xFA,
  0x06, 0x86, 0x46, 0xC6, 0x26, 0xA6, 0x66, 0xE6, 0x16, 0x96, 0x56, 0xD6, 0x36, 0xB6, 0x76, 0xF6,
  0x0E, 0x8E, 0x4E, 0xCE, 0x2E, 0xAE, 0x6E, 0xEE, 0x1E, 0x9E, 0x5E, 0xDE, 0x3E, 0xBE, 0x7E, 0xFE,
  0x01, 0x81, 0x41, 0xC1, 0x21, 0xA1, 0x61, 0xE1, 0x11, 0x91, 0x51, 0xD1, 0x31, 0xB1, 0x71, 0xF1,
  0x09, 0x89, 0x49, 0xC9, 0x29, 0xA9, 0x69, 0xE9, 0x19, 0x99, 0x59, 0xD9, 0x39, 0xB9, 0x79, 0xF9,
  0x05, 0x85, 0x45, 0xC5, 0x25, 0xA5, 0x65, 0xE5, 0x15, 0x95, 0x55, 0xD5, 0x35, 0xB5, 0x75, 0xF5,
  0x0D, 0x8D, 0x4D, 0xCD, 0x2D, 0xAD, 0x6D, 0xED, 0x1D, 0x9D, 0x5D, 0xDD, 0x3D, 0xBD, 0x7D, 0xFD,
  0x03, 0x83, 0x43, 0xC3, 0x23, 0xA3, 0x63, 0xE3, 0x13, 0x93, 0x53, 0xD3, 0x33, 0xB3, 0x73, 0xF3,
  0x0B, 0x8B, 0x4B, 0xCB, 0x2B, 0xAB, 0x6B, 0xEB, 0x1B, 0x9B, 0x5B, 0xDB, 0x3B, 0xBB, 0x7B, 0xFB,
  0x07, 0x87, 0x47, 0xC7, 0x27, 0xA7, 0x67, 0xE7, 0x17, 0x97, 0x57, 0xD7, 0x37, 0xB7, 0x77, 0xF7,
  0x0F, 0x8F, 0x4F, 0xCF, 0x2F, 0xAF, 0x6F, 0xEF, 0x1F, 0x9F, 0x5F, 0xDF, 0x3F, 0xBF, 0x7F, 0xFF]

/-- `Detail::s_MultiplyDeBruijnBitPosition`, MathUtils.inl:32-36. -/
def deBruijnTable : List Nat := [
  0,  9,  1, 10, 13, 21,  2, 29, 11, 14, 16, 18, 22, 25, 3, 30,
  8, 12, 20, 28, 15, 17, 24,  7, 19, 27, 23,  6, 26,  5, 4, 31]

/-- `Detail::s_MultiplyDeBruijnBitPosition2`, MathUtils.inl:38-42. -/
def deBruijnTable2 : List Nat := [
  0,  1, 28,  2, 29, 14, 24, 3, 30, 22, 20, 15, 25, 17,  4, 8,
  31, 27, 13, 23, 21, 19, 16, 7, 26, 12, 18,  6, 11,  5, 10, 9]

/-! ## Binary logarithms -/

/-- `Detail::IntegralLog2(UInt32)`, MathUtils.inl:45-56. -/
def integralLog2_32 (number : BitVec 32) : M Nat :=
  let number := number ||| number >>> 1
  let number := number ||| number >>> 2
  let number := number ||| number >>> 4
  let number := number ||| number >>> 8
  let number := number ||| number >>> 16
  rd deBruijnTable ((number * 0x07C4ACDD#32) >>> 27).toNat

/-- The loop of `Detail::IntegralLog2(T)` for `sizeof(T) > 4`, MathUtils.inl:58-79, on the `n` lowest
32-bit words, from the most significant one down.  The byte offset `i` of the code is `4 * n`;
`(number & mask) >> i*8` is the `n`-th word. -/
def integralLog2Words {w : Nat} (number : BitVec w) : Nat → M Nat
  | 0 => .ok 0
  | n + 1 => do
    let mask : BitVec w := (BitVec.setWidth w 0xFFFFFFFF#32) <<< (n * 32)
    let val := (number &&& mask) >>> (n * 32)
    let log2 ← integralLog2_32 (val.setWidth 32)
    if log2 ≠ 0 then .ok (log2 + n * 32) else integralLog2Words number n

/-- `IntegralLog2<T>` for an unsigned `T` of `w` bits, MathUtils.inl:44-79 and 690-694. -/
def integralLog2 {w : Nat} (number : BitVec w) : M Nat :=
  if w ≤ 32 then integralLog2_32 (number.setWidth 32) else integralLog2Words number (w / 32)

/-- `Detail::IntegralLog2Pot` on 32 bits, MathUtils.inl:81-86. -/
def integralLog2Pot_32 (number : BitVec 32) : M Nat :=
  rd deBruijnTable2 ((number * 0x077CB531#32) >>> 27).toNat

/-- The loop of `Detail::IntegralLog2Pot(T)` for `sizeof(T) > 4`, MathUtils.inl:88-108. -/
def integralLog2PotWords {w : Nat} (number : BitVec w) : Nat → M Nat
  | 0 => .ok 0
  | n + 1 => do
    let mask : BitVec w := (BitVec.setWidth w 0xFFFFFFFF#32) <<< (n * 32)
    let val : BitVec 32 := ((number &&& mask) >>> (n * 32)).setWidth 32
    let log2 ← integralLog2Pot_32 val
    if log2 ≠ 0 ∨ val = 1#32 then .ok (log2 + n * 32) else integralLog2PotWords number n

/-- `IntegralLog2Pot<T>` for an unsigned `T` of `w` bits, MathUtils.inl:81-108 and 708-711. -/
def integralLog2Pot {w : Nat} (number : BitVec w) : M Nat :=
  if w ≤ 32 then integralLog2Pot_32 (number.setWidth 32) else integralLog2PotWords number (w / 32)

/-! ## Bit counting and scanning -/

/-- Kernighan's loop of `CountBits` (compile-time path), MathUtils.inl:354-362.  For types narrower
than `int` the subtraction is done in `int` on a positive value, with the same result. -/
def countBitsLoop {w : Nat} (value : BitVec w) (count : Nat) : Nat :=
  if h : value = 0#w then count else countBitsLoop (value &&& (value - 1#w)) (count + 1)
termination_by value.toNat
decreasing_by
  have hpos : value.toNat ≠ 0 := fun h0 => h (BitVec.eq_of_toNat_eq (by simpa using h0))
  have hw : 1 < 2 ^ w := by
    rcases Nat.eq_zero_or_pos w with rfl | hw
    · have := value.isLt; simp at this; omega
    · exact Nat.one_lt_two_pow (by omega)
  have hle : (value &&& (value - 1#w)).toNat ≤ (value - 1#w).toNat := by
    rw [BitVec.toNat_and]; exact Nat.and_le_right
  have : (value - 1#w).toNat = value.toNat - 1 := by
    have := value.isLt
    rw [BitVec.toNat_sub, BitVec.toNat_ofNat, Nat.mod_eq_of_lt hw,
      show 2 ^ w - 1 + value.toNat = (value.toNat - 1) + 2 ^ w by omega,
      Nat.add_mod_right, Nat.mod_eq_of_lt (by omega)]
  omega

/-- `CountBits`, compile-time path, MathUtils.inl:317-363 (unsigned type of `w` bits). -/
def countBits {w : Nat} (value : BitVec w) : Nat := countBitsLoop value 0

/-- Conversion of a `w`-bit integer of the given signedness to a type of `n ≥ w` bits. -/
def extend {w : Nat} (signed : Bool) (n : Nat) (v : BitVec w) : BitVec n :=
  if signed then v.signExtend n else v.setWidth n

/-- Meaning of `__builtin_popcount`/`popcountll`: the number of set bits of its argument. -/
def builtinPopcount {n : Nat} (v : BitVec n) : Nat := (List.range n).countP (fun i => v.getLsbD i)

/-- `CountBits`, run-time path (GCC/Clang), MathUtils.inl:342-351: the argument is converted to the
builtin's parameter type, `unsigned int` for types of at most 32 bits. -/
def countBitsRuntime {w : Nat} (signed : Bool) (v : BitVec w) : Nat :=
  builtinPopcount (extend signed (promoted w) v)

/-- `FindFirstBit`, compile-time path, MathUtils.inl:413-415. -/
def findFirstBit {w : Nat} (number : BitVec w) : M Nat :=
  if number ≠ 0#w then do
    let r ← integralLog2Pot (number &&& -number)
    pure (r + 1)
  else pure 0

/-- Meaning of `__builtin_ffs`: one plus the index of the lowest set bit, 0 for 0. -/
def builtinFfs {n : Nat} (v : BitVec n) : Nat :=
  match (List.range n).find? (fun i => v.getLsbD i) with
  | some i => i + 1
  | none => 0

/-- `FindFirstBit`, run-time path (GCC/Clang), MathUtils.inl:399-407. -/
def findFirstBitRuntime {w : Nat} (signed : Bool) (v : BitVec w) : Nat :=
  builtinFfs (extend signed (promoted w) v)

/-- One line `if (unsignedVal >= (1u << s)) { unsignedVal >>= s; pos += s; }` of `FindLastBit`. -/
def findLastStep {w : Nat} (s : Nat) (st : BitVec w × Nat) : BitVec w × Nat :=
  if 2 ^ s ≤ st.1.toNat then (st.1 >>> s, st.2 + s) else st

/-- `FindLastBit`, compile-time path, MathUtils.inl:474-489. -/
def findLastBit {w : Nat} (number : BitVec w) : Nat :=
  let st := (number, 0)
  let st := if w > 32 then findLastStep 32 st else st
  let st := findLastStep 16 st
  let st := findLastStep 8 st
  let st := findLastStep 4 st
  let st := findLastStep 2 st
  let st := findLastStep 1 st
  if 1 ≤ st.1.toNat then st.2 + 1 else st.2

/-- Meaning of `__builtin_clz`: number of zero bits above the highest set bit (undefined for 0). -/
def builtinClz {n : Nat} (v : BitVec n) : M Nat :=
  if v = 0#n then .error .ub else .ok (n - 1 - v.toNat.log2)

/-- `FindLastBit`, run-time path (GCC/Clang), MathUtils.inl:458-470. -/
def findLastBitRuntime {w : Nat} (signed : Bool) (v : BitVec w) : M Nat :=
  if v = 0#w then .ok 0
  else do
    let z ← builtinClz (extend signed (promoted w) v)
    pure (promoted w - z)

/-! ## Bit and byte order -/

/-- `ReverseBits<T>` for a type of `n` bytes, MathUtils.inl:499-507 (`n` iterations of the loop). -/
def reverseBits (n : Nat) (integer : BitVec (n * 8)) : M (BitVec (n * 8)) :=
  forUp 0 n (fun i reversed => do
    let e ← rd bitReverseTable ((integer >>> (i * 8)) &&& 0xFF#(n * 8)).toNat
    guardUB (n * 8 - (i + 1) * 8 < promoted (n * 8))
    pure (reversed ||| (BitVec.ofNat (n * 8) e <<< (n * 8 - (i + 1) * 8)))) 0#(n * 8)

/-- The loop of `SwapBytes`, MathUtils.inl:541-542. -/
def swapBytesLoop (bytes : List (BitVec 8)) (i j : Nat) : M (List (BitVec 8)) :=
  if i < j then do
    let a ← rd bytes i
    let b ← rd bytes j
    let bytes ← wr bytes i b
    let bytes ← wr bytes j a
    swapBytesLoop bytes (i + 1) (j - 1)
  else .ok bytes
termination_by j - i

/-- `SwapBytes`, MathUtils.inl:535-543, on a buffer of `bytes.length` accessible bytes; `size - 1` is computed in `size_t`
(64 bits). -/
def swapBytes (bytes : List (BitVec 8)) (size : Nat) : M (List (BitVec 8)) :=
  swapBytesLoop bytes 0 ((size + (2 ^ 64 - 1)) % 2 ^ 64)

/-- `ByteSwapImpl` for 16-bit integers, MathUtils.inl:220-221. -/
def byteSwap16 (value : BitVec 16) : BitVec 16 :=
  ((value &&& 0x00FF#16) <<< 8) ||| ((value &&& 0xFF00#16) >>> 8)

/-- `ByteSwapImpl` for 32-bit integers, MathUtils.inl:239-242. -/
def byteSwap32 (value : BitVec 32) : BitVec 32 :=
  ((value &&& 0x000000FF#32) <<< 24) ||| ((value &&& 0x0000FF00#32) <<< 8) |||
  ((value &&& 0x00FF0000#32) >>> 8) ||| ((value &&& 0xFF000000#32) >>> 24)

/-- `ByteSwapImpl` for 64-bit integers, MathUtils.inl:260-267. -/
def byteSwap64 (value : BitVec 64) : BitVec 64 :=
  ((value &&& 0x00000000000000FF#64) <<< 56) ||| ((value &&& 0x000000000000FF00#64) <<< 40) |||
  ((value &&& 0x0000000000FF0000#64) <<< 24) ||| ((value &&& 0x00000000FF000000#64) <<< 8) |||
  ((value &&& 0x000000FF00000000#64) >>> 8) ||| ((value &&& 0x0000FF0000000000#64) >>> 24) |||
  ((value &&& 0x00FF000000000000#64) >>> 40) ||| ((value &&& 0xFF00000000000000#64) >>> 56)

/-! ## Single bits -/

/-- `ClearBit`, MathUtils.inl:303-307.  The mask is computed in the promoted type. -/
def clearBit {w : Nat} (number : BitVec w) (bit : Nat) : M (BitVec w) := do
  assert (bit < w)
  guardUB (bit < promoted w)
  pure ((number.setWidth (promoted w) &&& ~~~(1#(promoted w) <<< bit)).setWidth w)

/-- `SetBit`, MathUtils.inl:519-523. -/
def setBit {w : Nat} (number : BitVec w) (bit : Nat) : M (BitVec w) := do
  assert (bit < w)
  guardUB (bit < promoted w)
  pure ((number.setWidth (promoted w) ||| (1#(promoted w) <<< bit)).setWidth w)

/-- `ToggleBit`, MathUtils.inl:572-576. -/
def toggleBit {w : Nat} (number : BitVec w) (bit : Nat) : M (BitVec w) := do
  assert (bit < w)
  guardUB (bit < promoted w)
  pure ((number.setWidth (promoted w) ^^^ (1#(promoted w) <<< bit)).setWidth w)

/-- `TestBit`, MathUtils.inl:555-559. -/
def testBit {w : Nat} (number : BitVec w) (bit : Nat) : M Bool := do
  assert (bit < w)
  guardUB (bit < promoted w)
  pure ((number.setWidth (promoted w) &&& (1#(promoted w) <<< bit)) != 0#(promoted w))

/-! ## Alignment -/

/-- `IsPow2` on unsigned types, MathUtils.inl:798-802. -/
def isPow2 {w : Nat} (value : BitVec w) : M Bool := do
  assert (value != 0#w)
  pure ((value &&& (value - 1#w)) == 0#w)

/-- `Align` on unsigned types, MathUtils.inl:590-594: computed in the promoted type, then
converted back. -/
def align {w : Nat} (offset alignment : BitVec w) : M (BitVec w) := do
  assert (0 < alignment.toNat)
  let p := promoted w
  let o := offset.setWidth p
  let a := alignment.setWidth p
  pure ((((o + a - 1#p) / a) * a).setWidth w)

/-- `AlignPow2` on unsigned types, MathUtils.inl:608-613. -/
def alignPow2 {w : Nat} (offset alignment : BitVec w) : M (BitVec w) := do
  assert (0 < alignment.toNat)
  let b ← isPow2 alignment
  assert b
  let p := promoted w
  let o := offset.setWidth p
  let a := alignment.setWidth p
  pure (((o + a - 1#p) &&& ~~~(a - 1#p)).setWidth w)

/-- Result of a signed C++ operation computed in a type of `p` bits: undefined on overflow. -/
def sRes (p : Nat) (x : Int) : M Int :=
  if -(2 ^ (p - 1) : Int) ≤ x ∧ x < 2 ^ (p - 1) then .ok x else .error .ub

/-- Conversion of an integer to a signed type of `w` bits (modulo 2^w). -/
def toSigned (w : Nat) (x : Int) : Int := x.bmod (2 ^ w)

/-- `Align` on signed types of `w` bits, MathUtils.inl:590-594 (truncated division). -/
def alignSigned (w : Nat) (offset alignment : Int) : M Int := do
  assert (0 < alignment)
  let s ← sRes (promoted w) (offset + alignment)
  let s ← sRes (promoted w) (s - 1)
  let q ← sRes (promoted w) (s.tdiv alignment)
  let m ← sRes (promoted w) (q * alignment)
  pure (toSigned w m)

/-! ## Approach and Clamp -/

/-- `std::min(a, b)`: `(b < a) ? b : a`. -/
def stdMin {α : Type u} (lt : α → α → Bool) (a b : α) : α := if lt b a then b else a
/-- `std::max(a, b)`: `(a < b) ? b : a`. -/
def stdMax {α : Type u} (lt : α → α → Bool) (a b : α) : α := if lt a b then b else a

/-- `Clamp`, MathUtils.inl:645-649, for any type with an `operator<`. -/
def clamp {α : Type u} (lt : α → α → Bool) (value min max : α) : α :=
  stdMax lt (stdMin lt value max) min

/-- `Approach` on unsigned types of `w` bits, MathUtils.inl:625-634.  (It does not compile for
types narrower than `int`: `std::min(int, T)`; so `w ≥ 32`.) -/
def approach {w : Nat} (value objective increment : BitVec w) : BitVec w :=
  let lt := fun a b : BitVec w => decide (a.toNat < b.toNat)
  if value.toNat < objective.toNat then stdMin lt (value + increment) objective
  else if objective.toNat < value.toNat then stdMax lt (value - increment) objective
  else value

/-- `Approach` on signed types of `w ≥ 32` bits, MathUtils.inl:625-634. -/
def approachSigned (w : Nat) (value objective increment : Int) : M Int :=
  let lt := fun a b : Int => decide (a < b)
  if value < objective then do
    let s ← sRes w (value + increment)
    pure (stdMin lt s objective)
  else if value > objective then do
    let s ← sRes w (value - increment)
    pure (stdMax lt s objective)
  else pure value

/-! ## Powers -/

/-- The loop of `GetNearestPowerOfTwo`, MathUtils.inl:673-675, run for at most `fuel` tests of the
loop condition; `none` means that it is still running. -/
def nearestPow2Loop {w : Nat} : Nat → BitVec w → BitVec w → Option (BitVec w)
  | 0, _, _ => none
  | fuel + 1, number, x =>
    if x.toNat < number.toNat then nearestPow2Loop fuel number (x <<< 1) else some x

/-- `GetNearestPowerOfTwo` on unsigned types, MathUtils.inl:671-678. -/
def getNearestPowerOfTwo {w : Nat} (fuel : Nat) (number : BitVec w) : Option (BitVec w) :=
  nearestPow2Loop fuel number 1#w

/-- One step `value |= value >> s`. -/
def smear {w : Nat} (s : Nat) (v : BitVec w) : BitVec w := v ||| v >>> s

/-- `RoundToPow2` on unsigned types of `w` bits, MathUtils.inl:923-942. -/
def roundToPow2 {w : Nat} (value : BitVec w) : BitVec w :=
  let value := value - 1#w
  let value := smear 1 value
  let value := smear 2 value
  let value := smear 4 value
  let value := if w > 8 then smear 8 value else value
  let value := if w > 16 then smear 16 value else value
  let value := if w > 32 then smear 32 value else value
  value + 1#w

/-- `r *= base` for an unsigned type of `w` bits: narrow types are multiplied as 32-bit `int`,
where overflow is undefined. -/
def mulAssign {w : Nat} (r base : BitVec w) : M (BitVec w) := do
  guardUB (32 ≤ w || r.toNat * base.toNat < 2 ^ 31)
  pure (r * base)

/-- `IntegralPow` on unsigned types, MathUtils.inl:721-729. -/
def integralPow {w : Nat} (base : BitVec w) (exponent : Nat) : M (BitVec w) :=
  forUp 0 exponent (fun _ r => mulAssign r base) 1#w

/-- `IntegralPow` on signed types of `w` bits, MathUtils.inl:721-729. -/
def integralPowSigned (w : Nat) (base : Int) (exponent : Nat) : M Int :=
  forUp 0 exponent (fun _ r => do
    let m ← sRes (promoted w) (r * base)
    pure (toSigned w m)) 1

/-! ## Comparisons and shifts -/

/-- `NumberEquals` on unsigned types, MathUtils.inl:126-133. -/
def numberEquals {w : Nat} (a b maxDifference : BitVec w) : Bool :=
  let (a, b) := if b.toNat > a.toNat then (b, a) else (a, b)
  decide ((a - b).toNat ≤ maxDifference.toNat)

/-- `NumberEquals` on signed types of `w` bits, MathUtils.inl:135-142: for narrow types the
unsigned operands are promoted to `int` before the subtraction, which then is a signed one. -/
def numberEqualsSigned {w : Nat} (a b maxDifference : BitVec w) : Bool :=
  let (a, b) := if b.toInt > a.toInt then (b, a) else (a, b)
  if w < 32 then decide ((a.toNat : Int) - b.toNat ≤ maxDifference.toNat)
  else decide ((a - b).toNat ≤ maxDifference.toNat)

/-- C++17 right shift of a signed value; for negative values the standard leaves the result to the
implementation: arithmetic (`arith`) or logical. -/
def implShiftRight {w : Nat} (arith : Bool) (v : BitVec w) (s : Nat) : BitVec w :=
  if arith then v.sshiftRight s else v >>> s

/-- `ArithmeticRightShift` before C++20, MathUtils.inl:164-176, on a signed type of `w` bits, the value
being promoted to `p = max w 32` bits.  `shiftSigned` says whether the type of the shift amount is
signed.  `~static_cast<std::make_unsigned_t<T1>>(0u)` is the all-ones unsigned value for `w ≥ 32`,
and the `int` -1 for narrower types (promotion before `~`). -/
def arithmeticRightShift17 {w : Nat} (arith shiftSigned : Bool) (value : BitVec w) (shift : Nat) :
    M (BitVec w) := do
  let p := promoted w
  guardUB (shift < p)
  let v := value.signExtend p
  let ones := if w < 32 then implShiftRight arith (BitVec.allOnes p) shift
    else BitVec.allOnes p >>> shift
  if shiftSigned && decide (value.toInt < 0) && decide (0 < shift) then
    pure ((implShiftRight arith v shift ||| ~~~ones).setWidth w)
  else pure ((implShiftRight arith v shift).setWidth w)

/-- `ArithmeticRightShift` since C++20, MathUtils.inl:160-163: the shift is arithmetic by definition. -/
def arithmeticRightShift20 {w : Nat} (value : BitVec w) (shift : Nat) : M (BitVec w) := do
  guardUB (shift < promoted w)
  pure (((value.signExtend (promoted w)).sshiftRight shift).setWidth w)

end Verif.MathUtils
