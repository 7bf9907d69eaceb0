import Verif.Bitset.Model

/-!
# `AppendBits` with a signed type (Bitset.inl:154-191)

Conversions of `bits` to a wider block extend the sign, and `>>` is an arithmetic shift.
-/

namespace Verif.Bitset
open Verif.Cpp

variable {w : Nat}

/-- `(k < BitCount<T>) ? bits >> k : T(0)`, Bitset.inl:165 and 177-180, `T` signed. -/
def shiftOutSigned {t : Nat} (bits : BitVec t) (k : Nat) : BitVec t := if k < t then bits.sshiftRight k else 0#t

/-- First part of `AppendBits`, Bitset.inl:161-168: completion of the last block. -/
def appendHeadSigned {t : Nat} (b : Bitset w) (bits : BitVec t) (bitCount : Nat) : M (AppendState w t) :=
  let bitShift := b.bitCount % w
  if bitShift != 0 then do
    let remainingBits := w - bitShift
    guardUB (0 < b.blocks.length)
    let back ← rd b.blocks (b.blocks.length - 1)
    let x ← shl (bits.signExtend w) bitShift
    let blocks ← wr b.blocks (b.blocks.length - 1) (back ||| x)
    pure ⟨blocks, shiftOutSigned bits remainingBits, bitCount - min remainingBits bitCount⟩
  else pure ⟨b.blocks, bits, bitCount⟩

/-- Second part of `AppendBits`, Bitset.inl:170-190: new blocks.  `bits &= mask` is computed in a type at least as wide as both and
converted back to `T`: the low bits of `mask`, which is not negative. -/
def appendTailSigned {t : Nat} (s : AppendState w t) : M (List (BitVec w)) :=
  if s.bitCount > 0 then do
    let blockCount := computeBlockCount w s.bitCount
    let s ← forUp 0 (blockCount - 1) (fun _ (s : AppendState w t) =>
      pure ⟨s.blocks ++ [s.bits.signExtend w], shiftOutSigned s.bits w, s.bitCount - w⟩) s
    let remainingBits := s.bitCount
    guardUB (remainingBits < promoted w)
    let mask : BitVec (promoted w) := (1#(promoted w) <<< remainingBits) - 1#(promoted w)
    let bits := s.bits &&& mask.setWidth t
    pure (s.blocks ++ [bits.signExtend w])
  else pure s.blocks

/-- `AppendBits`, Bitset.inl:154-191, for a signed type `T` of `t` bits. -/
def appendBitsSigned {t : Nat} (b : Bitset w) (bits : BitVec t) (bitCount : Nat) : M (Bitset w) := do
  let s ← appendHeadSigned b bits bitCount
  let blocks ← appendTailSigned s
  pure ⟨blocks, b.bitCount + bitCount⟩

end Verif.Bitset
