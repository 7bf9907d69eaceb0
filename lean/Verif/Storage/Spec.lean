import Verif.Storage.Model

/-!
# What is asked of the places of objects
-/

namespace Verif.Storage

/-- Alignments are powers of two. -/
def IsAlign (a : Nat) : Prop := ∃ k, a = 2 ^ k

/-- The types C++ has: the size is a multiple of the alignment and not 0. -/
structure Ty.Valid (T : Ty) : Prop where
  align : IsAlign T.align
  dvd : T.align ∣ T.size
  pos : 0 < T.size

/-- All bytes of `r` are bytes of `s`. -/
def Region.Inside (r s : Region) : Prop := ∀ b, r.addr ≤ b → b < r.addr + r.size → s.addr ≤ b ∧ b < s.addr + s.size

/-- No byte is in both. -/
def Region.Disjoint (r s : Region) : Prop := ∀ b, r.addr ≤ b → b < r.addr + r.size → s.addr ≤ b → b < s.addr + s.size → False

/-- The address suits objects of an alignment. -/
def Region.Aligned (r : Region) (a : Nat) : Prop := a ∣ r.addr

end Verif.Storage
