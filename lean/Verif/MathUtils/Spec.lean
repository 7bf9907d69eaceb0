/-!
# Small specifications for `MathUtils`

Bits of a value are read with `BitVec.getLsbD` (bit 0 is the least significant one).
-/

namespace Verif.MathUtils

/-- `k` is the index of the lowest set bit of `v`. -/
def IsLowest {w : Nat} (v : BitVec w) (k : Nat) : Prop :=
  v.getLsbD k = true ∧ ∀ j, j < k → v.getLsbD j = false

/-- `k` is the index of the highest set bit of `v`. -/
def IsHighest {w : Nat} (v : BitVec w) (k : Nat) : Prop :=
  v.getLsbD k = true ∧ ∀ j, k < j → v.getLsbD j = false

/-- Number of set bits of `v`. -/
def popcount {w : Nat} (v : BitVec w) : Nat := (List.range w).countP (fun i => v.getLsbD i)

/-- `n` is the answer of a bit scan that reports one plus an index, and 0 on the value 0. -/
def IsScan {w : Nat} (P : BitVec w → Nat → Prop) (v : BitVec w) (n : Nat) : Prop :=
  (v = 0#w ∧ n = 0) ∨ ∃ k, P v k ∧ n = k + 1

/-- The widths of the C++ integer types. -/
def IsWidth (w : Nat) : Prop := w = 8 ∨ w = 16 ∨ w = 32 ∨ w = 64

/-- `m` is the least multiple of `a` that is at least `o`. -/
def IsNextMultiple (o a m : Int) : Prop :=
  a ∣ m ∧ o ≤ m ∧ ∀ m', a ∣ m' → o ≤ m' → m ≤ m'

/-- `m` is the least power of two that is at least `n`. -/
def IsCeilPow2 (n m : Nat) : Prop :=
  (∃ k, m = 2 ^ k) ∧ n ≤ m ∧ ∀ k, n ≤ 2 ^ k → m ≤ 2 ^ k

/-- Byte `i` of a value (byte 0 is the least significant one). -/
def byte {w : Nat} (v : BitVec w) (i : Nat) : BitVec 8 := v.extractLsb' (8 * i) 8

/-- The `n` bytes of a value, least significant first (its object representation on a little endian host). -/
def bytesLE {w : Nat} (n : Nat) (v : BitVec w) : List (BitVec 8) := (List.range n).map (byte v)

end Verif.MathUtils
