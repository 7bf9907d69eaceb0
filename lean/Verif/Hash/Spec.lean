import Mathlib.Algebra.Polynomial.Div
import Mathlib.Data.ZMod.Basic
import Verif.Hash.Model

/-!
# Specifications of the hash functions

CRC-32 is specified twice: bit by bit, and as a remainder of polynomials over GF(2).
-/

namespace Verif.Hash

open Polynomial

/-- The bits of a byte sequence in the order in which CRC-32 consumes them: least significant first. -/
def bitsOf (bytes : List Byte) : List Bool := bytes.flatMap (fun b => (List.range 8).map b.getLsbD)

/-- One bit of the reflected CRC-32: the register is shifted to the right, and the polynomial
0xEDB88320 is added if the bit that leaves differs from the bit of the message. -/
def crcBit (register : BitVec 32) (bit : Bool) : BitVec 32 :=
  if register.getLsbD 0 != bit then (register >>> 1) ^^^ 0xEDB88320#32 else register >>> 1

/-- The register after a sequence of bits, started with all ones. -/
def crcRegister (bits : List Bool) : BitVec 32 := bits.foldl crcBit (BitVec.allOnes 32)

/-- CRC-32, bit by bit. -/
def crcSpec (bytes : List Byte) : BitVec 32 := ~~~(crcRegister (bitsOf bytes))

/-- FNV-1a of the given width: add each byte to the hash without carries, multiply by the prime. -/
def fnvSpec (w : Nat) (basis prime : Nat) (bytes : List Byte) : Nat :=
  bytes.foldl (fun h b => (h ^^^ b.toNat) * prime % 2 ^ w) basis

/-- The generator polynomial of CRC-32 (IEEE 802.3). -/
noncomputable def generator : (ZMod 2)[X] :=
  X ^ 32 + (X ^ 26 + X ^ 23 + X ^ 22 + X ^ 16 + X ^ 12 + X ^ 11 + X ^ 10 + X ^ 8 + X ^ 7 + X ^ 5 + X ^ 4 + X ^ 2 + X + 1)

/-- The polynomial of a bit string: the first bit has the highest power. -/
noncomputable def bitsPoly (bits : List Bool) : (ZMod 2)[X] := bits.foldl (fun p b => X * p + if b then 1 else 0) 0

/-- The polynomial of a (reflected) register: bit 31 is the constant coefficient. -/
noncomputable def registerPoly (v : BitVec 32) : (ZMod 2)[X] :=
  ∑ i ∈ Finset.range 32, if v.getLsbD (31 - i) then X ^ i else 0

/-- Two byte sequences of the same length that differ in one byte only. -/
def DifferInOneByte (a b : List Byte) : Prop :=
  ∃ (pre : List Byte) (x y : Byte) (post : List Byte), x ≠ y ∧ a = pre ++ x :: post ∧ b = pre ++ y :: post

/-- Two byte sequences that differ, but only inside a window of at most 32 consecutive bits. -/
def DifferInBurst (a b : List Byte) : Prop :=
  ∃ (pre u v post : List Bool), u.length = v.length ∧ u.length ≤ 32 ∧ u ≠ v ∧
    bitsOf a = pre ++ u ++ post ∧ bitsOf b = pre ++ v ++ post

/-- Two byte sequences whose bits (least significant bit of the first byte first) are the same but
for two bits, of which the second is `distance` bits after the first. -/
def DifferInTwoBits (a b : List Byte) (distance : Nat) : Prop :=
  ∃ (before between after : List Bool) (x y : Bool),
    bitsOf a = before ++ x :: between ++ y :: after ∧
    bitsOf b = before ++ (!x) :: between ++ (!y) :: after ∧
    distance = between.length + 1

/-- Two byte sequences of the same length that differ, but only inside `n` consecutive bytes. -/
def DifferWithin (n : Nat) (a b : List Byte) : Prop :=
  ∃ pre u v post : List Byte, u.length = v.length ∧ u.length ≤ n ∧ u ≠ v ∧ a = pre ++ u ++ post ∧ b = pre ++ v ++ post

/-- The number of bits in which two byte sequences of the same length differ. -/
def differingBits (a b : List Byte) : Nat := (List.zipWith (· != ·) (bitsOf a) (bitsOf b)).count true

/-- The four bytes of a number, the least significant one first. -/
def littleEndian (v : BitVec 32) : List Byte := (List.range 4).map (fun i => v.extractLsb' (8 * i) 8)

/-- The bytes of `a` with the bits changed that are set in `d`. -/
def changed (a d : List Byte) : List Byte := List.zipWith (· ^^^ ·) a d

end Verif.Hash
