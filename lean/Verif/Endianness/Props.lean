import Verif.Endianness.Model
import Verif.MathUtils.Spec
import Verif.MathUtils.PropsOrder

/-!
# Endianness conversions (C16)
-/

namespace Verif.Endianness
open Verif.MathUtils

/-- Specification: the bytes of a `w`-bit value in the memory of a host, in increasing address order. -/
def memory (h : Host) {w : Nat} (v : BitVec w) : List (BitVec 8) :=
  match h with
  | .little => bytesLE (w / 8) v
  | .big => (bytesLE (w / 8) v).reverse

theorem bytesLE_byteSwap {w : Nat} (hw : IsWidth w) (v : BitVec w) :
    bytesLE (w / 8) (byteSwap w v) = (bytesLE (w / 8) v).reverse := by
  obtain ⟨h16, h32, h64⟩ := C15_byteSwap
  rcases hw with rfl | rfl | rfl | rfl
  · rfl
  · exact bytesLE_mirror (n := 2) _ v (h16 v)
  · exact bytesLE_mirror (n := 4) _ v (h32 v)
  · exact bytesLE_mirror (n := 8) _ v (h64 v)

theorem byteSwap_byteSwap {w : Nat} (hw : IsWidth w) (v : BitVec w) : byteSwap w (byteSwap w v) = v := by
  obtain ⟨h16, h32, h64⟩ := C15_byteSwap_involutive
  rcases hw with rfl | rfl | rfl | rfl
  · rfl
  · exact h16 v
  · exact h32 v
  · exact h64 v

/-- C16: on either host, `HostToBigEndian(v)` has in memory the bytes of `v`, most significant first, and
`HostToLittleEndian(v)` the bytes of `v`, least significant first. -/
theorem C16_memory {w : Nat} (hw : IsWidth w) (h : Host) (v : BitVec w) :
    memory h (hostToBigEndian h v) = (bytesLE (w / 8) v).reverse ∧
    memory h (hostToLittleEndian h v) = bytesLE (w / 8) v := by
  cases h
  · exact ⟨bytesLE_byteSwap hw v, rfl⟩
  · refine ⟨rfl, ?_⟩
    change (bytesLE (w / 8) (byteSwap w v)).reverse = _
    rw [bytesLE_byteSwap hw, List.reverse_reverse]

/-- C16: conversion to either byte order and back is the identity, in both directions. -/
theorem C16_roundtrip {w : Nat} (hw : IsWidth w) (h : Host) (v : BitVec w) :
    bigEndianToHost h (hostToBigEndian h v) = v ∧ hostToBigEndian h (bigEndianToHost h v) = v ∧
    littleEndianToHost h (hostToLittleEndian h v) = v ∧ hostToLittleEndian h (littleEndianToHost h v) = v := by
  cases h <;> refine ⟨?_, ?_, ?_, ?_⟩ <;> first | rfl | exact byteSwap_byteSwap hw v

example : memory .little (hostToBigEndian .little 0x01020304#32) = [1#8, 2#8, 3#8, 4#8] := by decide +kernel

end Verif.Endianness
