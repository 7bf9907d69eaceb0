import Verif.Cpp

/-!
# Object representations: `BitCast`, `AccessByOffset` and `NazaraOffsetOf` (Algorithm.inl, OffsetOf.hpp)

Types are integers, `float`, `double`, `bool` and structures of those, to any depth (an array is a structure of equal members).  The layout of structures is that of the usual ABIs: each
member at the first place behind the one before that has its alignment.  Unions, bit-fields, virtual functions and bases are not modelled.  A byte of memory has a
value or none (padding, uninitialised memory).
-/

namespace Verif.Bytes
open Verif.Cpp

/-- Types: integers of `k` bytes, `float` and `double` (wide), `bool`, structures. -/
inductive CType where
  | int (signed : Bool) (k : Nat)
  | flt (wide : Bool)
  | bool
  | struct (fs : List CType)

/-- Values: of integers and `bool` (0 and 1), of floating-point types (sign, exponent and fraction of the binary formats of IEEE 754), and of structures. -/
inductive Val where
  | num (v : Int)
  | flt (sign : Bool) (exponent fraction : Nat)
  | agg (vs : List Val)

/-- `sizeof(float)`, `sizeof(double)` -/
def fltSize (wide : Bool) : Nat := if wide then 8 else 4
/-- Bits of the fraction of `float` and `double`. -/
def fracBits (wide : Bool) : Nat := if wide then 52 else 23
/-- Bits of the exponent of `float` and `double`. -/
def expBits (wide : Bool) : Nat := if wide then 11 else 8

/-- A byte of memory. -/
abbrev Cell := Option (BitVec 8)

/-- The first multiple of `a` from `n` on. -/
def alignUp (n a : Nat) : Nat := (n + a - 1) / a * a

mutual
/-- `alignof` -/
def CType.align : CType → Nat
  | .int _ k => k
  | .flt wide => fltSize wide
  | .bool => 1
  | .struct fs => alignAll fs
/-- The largest alignment of some members. -/
def alignAll : List CType → Nat
  | [] => 1
  | f :: fs => max f.align (alignAll fs)
end

mutual
/-- `sizeof`: at least 1, and a multiple of the alignment. -/
def CType.size : CType → Nat
  | .int _ k => k
  | .flt wide => fltSize wide
  | .bool => 1
  | .struct fs => alignUp (max 1 (endOf fs 0)) (alignAll fs)
/-- Where members end that are placed from `pos` on. -/
def endOf : List CType → Nat → Nat
  | [], pos => pos
  | f :: fs, pos => endOf fs (alignUp pos f.align + f.size)
end

/-- Where member `i` is. -/
def memberAt : List CType → Nat → Nat → Nat
  | [], pos, _ => pos
  | f :: _, pos, 0 => alignUp pos f.align
  | f :: fs, pos, i + 1 => memberAt fs (alignUp pos f.align + f.size) i

/-- The `k` lowest digits of a number in base 256, the lowest first. -/
def toBytes : Nat → Nat → List (BitVec 8)
  | 0, _ => []
  | k + 1, n => BitVec.ofNat 8 n :: toBytes k (n / 256)

def ofBytes : List (BitVec 8) → Nat
  | [] => 0
  | b :: bs => b.toNat + 256 * ofBytes bs

/-- The order of the bytes in memory: `NAZARA_BIG_ENDIAN` or `NAZARA_LITTLE_ENDIAN`. -/
def order (big : Bool) (l : List (BitVec 8)) : List (BitVec 8) := if big then l.reverse else l

/-- Fill up to `n` bytes with padding. -/
def padTo (n : Nat) (l : List Cell) : List Cell := l ++ List.replicate (n - l.length) none

/-- The bits of a floating-point value: the sign, then the exponent, then the fraction. -/
def fltBits (wide : Bool) (sign : Bool) (exponent fraction : Nat) : Nat := (sign.toNat * 2 ^ expBits wide + exponent) * 2 ^ fracBits wide + fraction

/-- The floating-point value with given bits. -/
def fltOf (wide : Bool) (n : Nat) : Val := .flt (n / 2 ^ fracBits wide / 2 ^ expBits wide == 1) (n / 2 ^ fracBits wide % 2 ^ expBits wide) (n % 2 ^ fracBits wide)

mutual
/-- The bytes of an object. -/
def enc (big : Bool) : CType → Val → List Cell
  | .int _ k, .num v => (order big (toBytes k (v % 2 ^ (8 * k)).toNat)).map some
  | .flt wide, .flt s e f => (order big (toBytes (fltSize wide) (fltBits wide s e f))).map some
  | .bool, .num v => [some (BitVec.ofInt 8 v)]
  | .struct fs, .agg vs => padTo (CType.struct fs).size (encAll big fs vs [])
  | _, _ => []
/-- Members placed behind the bytes `acc`. -/
def encAll (big : Bool) : List CType → List Val → List Cell → List Cell
  | f :: fs, v :: vs, acc => encAll big fs vs (padTo (alignUp acc.length f.align) acc ++ enc big f v)
  | _, _, acc => acc
end

/-- All of the bytes have values. -/
def allSome : List Cell → Option (List (BitVec 8))
  | [] => some []
  | some b :: l => (allSome l).map (b :: ·)
  | none :: _ => none

mutual
/-- The value of an object with the given bytes.  No value: bytes without value in a number, a `bool` that is neither 0 nor 1. -/
def dec (big : Bool) : CType → List Cell → Option Val
  | .int s k, l =>
    match allSome (l.take k) with
    | none => none
    | some bs =>
      let n := ofBytes (order big bs)
      some (.num (if s then Int.bmod n (2 ^ (8 * k)) else n))
  | .flt wide, l =>
    match allSome (l.take (fltSize wide)) with
    | none => none
    | some bs => some (fltOf wide (ofBytes (order big bs)))
  | .bool, l =>
    match l.head? with
    | some (some b) => if b.toNat ≤ 1 then some (.num b.toNat) else none
    | _ => none
  | .struct fs, l => (decAll big fs l 0).map .agg
/-- The values of members placed from `pos` on. -/
def decAll (big : Bool) : List CType → List Cell → Nat → Option (List Val)
  | [], _, _ => some []
  | f :: fs, l, pos =>
    match dec big f (l.drop (alignUp pos f.align)) with
    | none => none
    | some v => (decAll big fs l (alignUp pos f.align + f.size)).map (v :: ·)
end

/-- Reading an object: undefined if its bytes are no value. -/
def load (big : Bool) (t : CType) (l : List Cell) : M Val :=
  match dec big t l with
  | some v => .ok v
  | none => .error .ub

/-- `BitCast<To>(value)` with `std::bit_cast` or `__builtin_bit_cast`, Algorithm.inl:103-112.  (Different sizes do not compile.) -/
def bitCast (big : Bool) (to' from' : CType) (value : Val) : M Val := load big to' (enc big from' value)

/-- `std::memcpy(dst, src, n)` -/
def memcpy (dst src : List Cell) (n : Nat) : M (List Cell) := forUp 0 n (fun i d => do
  let b ← rd src i
  wr d i b) dst

/-- `BitCast<To>(value)` with `std::memcpy`, Algorithm.inl:113-118: `To result;` is not initialised. -/
def bitCastMemcpy (big : Bool) (to' from' : CType) (value : Val) : M Val := do
  let result ← memcpy (List.replicate to'.size none) (enc big from' value) to'.size
  load big to' result

/-- Memory: the bytes from address `base` on. -/
structure Mem where
  base : Nat
  cells : List Cell

/-- The pointer computed by `AccessByOffset`, `static_cast<UInt8*>(basePtr) + offset`, Algorithm.inl:71-79 and 90-100; addresses have 64 bits. -/
def accessByOffset (basePtr offset : Nat) : Nat := (basePtr + offset) % 2 ^ 64

/-- Reading an object of type `t` at address `p`: undefined out of bounds or if not aligned. -/
def read (big : Bool) (t : CType) (m : Mem) (p : Nat) : M Val := do
  guardUB (p % t.align == 0)
  guardUB (decide (m.base ≤ p) && decide (p + t.size ≤ m.base + m.cells.length))
  load big t (m.cells.drop (p - m.base))

/-- Replace the bytes from `i` on. -/
def patch (l : List Cell) (i : Nat) (new : List Cell) : List Cell := l.take i ++ new ++ l.drop (i + new.length)

/-- Writing an object of type `t` at address `p`. -/
def write (big : Bool) (t : CType) (m : Mem) (p : Nat) (v : Val) : M Mem := do
  guardUB (p % t.align == 0)
  guardUB (decide (m.base ≤ p) && decide (p + t.size ≤ m.base + m.cells.length))
  pure ⟨m.base, patch m.cells (p - m.base) (enc big t v)⟩

/-- `NazaraOffsetOf(type, member)`, OffsetOf.hpp:18-22 and 26: the address of the member of an object at the null pointer, as compilers compute it.  (By the standard the
expression is undefined.) -/
def offsetOf (fs : List CType) (i : Nat) : Nat := 0 + memberAt fs 0 i

end Verif.Bytes
