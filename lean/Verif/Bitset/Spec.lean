import Verif.Bitset.Model

/-!
# Specification of bitsets: sequences of booleans

A bitset is meant to be a sequence of booleans (`List Bool`, bit 0 first).  The functions of the namespace `Seq` are the
operations of the API on such sequences, one boolean at a time, without any notion of block (except for `setBlock`,
whose argument is a block).
-/

namespace Verif.Bitset

/-- Block types have a number of bits that is a power of two. -/
def IsBlockWidth (w : Nat) : Prop := ∃ k, w = 2 ^ k

theorem IsBlockWidth.std : IsBlockWidth 8 ∧ IsBlockWidth 16 ∧ IsBlockWidth 32 ∧ IsBlockWidth 64 :=
  ⟨⟨3, rfl⟩, ⟨4, rfl⟩, ⟨5, rfl⟩, ⟨6, rfl⟩⟩

namespace Seq

/-- The first `n` booleans, filled up with `v`. -/
def resize (l : List Bool) (n : Nat) (v : Bool) : List Bool := l.take n ++ List.replicate (n - l.length) v

/-- Set one boolean, growing the sequence only for a `true`. -/
def unboundedSet (l : List Bool) (i : Nat) (v : Bool) : List Bool :=
  if i < l.length then l.set i v
  else if v then l ++ List.replicate (i - l.length) false ++ [true]
  else l

/-- Overwrite the booleans `i*w`, ..., `i*w + w - 1` that exist with the bits of `x`. -/
def setBlock {w : Nat} (l : List Bool) (i : Nat) (x : BitVec w) : List Bool :=
  l.mapIdx (fun j v => if j / w = i then x.getLsbD (j % w) else v)

/-- Move every boolean `p` places up, dropping the highest ones. -/
def shiftLeft (l : List Bool) (p : Nat) : List Bool := List.replicate (min p l.length) false ++ l.take (l.length - p)

/-- Move every boolean `p` places down, dropping the lowest ones. -/
def shiftRight (l : List Bool) (p : Nat) : List Bool := l.drop p ++ List.replicate (min p l.length) false

/-- Combine two sequences, the shorter one being read as `false` past its end. -/
def zip (f : Bool → Bool → Bool) (l m : List Bool) : List Bool :=
  (List.range (max l.length m.length)).map (fun i => f (l.getD i false) (m.getD i false))

/-- The sequence written as a string, highest index first. -/
def ofString (s : List Char) : List Bool := s.reverse.map (fun c => c == '1')

/-- The string of a sequence, highest index first. -/
def toString (l : List Bool) : List Char := (l.map (fun v => if v then '1' else '0')).reverse

/-- The binary number whose digits are the booleans (index 0 has weight 1). -/
def toNat (l : List Bool) : Nat := l.foldr (fun v n => 2 * n + v.toNat) 0

/-- The low `n` bits of an integer value. -/
def lowBits {t : Nat} (v : BitVec t) (n : Nat) : List Bool := (List.range n).map (fun i => v.getLsbD i)

/-- Bit `k` of the bytes from `ptr` on, the least significant bit of the first byte being bit 0. -/
def streamBit (mem : List (BitVec 8)) (ptr k : Nat) : Bool := (mem.getD (ptr + k / 8) 0#8).getLsbD (k % 8)

/-- `n` bits of a byte stream from bit `bit` of byte `ptr` on. -/
def stream (mem : List (BitVec 8)) (ptr bit n : Nat) : List Bool := (List.range n).map (fun k => streamBit mem ptr (bit + k))

end Seq

/-- `b` shows the sequence `l` through `GetSize` and `Test`. -/
def Shows {w : Nat} (b : Bitset w) (l : List Bool) : Prop :=
  getSize b = l.length ∧ ∀ (i : Nat) (hi : i < l.length), test b i = .ok l[i]

end Verif.Bitset
