import Verif.BitsetAlloc.Model

/-!
# `UnboundedSet` for every value of `std::size_t`

Elsewhere indices are natural numbers, as no bitset has 2^64 bits.  `UnboundedSet` takes any index, also that of no bit (`npos`, MaxValue), and computes with it.
-/

namespace Verif.BitsetAlloc
open Verif.Cpp Verif.Bitset

variable {w : Nat}

/-- `npos`, Bitset.hpp: the greatest `std::size_t`, which `FindFirst` and `FindNext` return if there is no bit. -/
def npos : BitVec 64 := BitVec.allOnes 64

/-- `UnboundedSet`, Bitset.inl:911-922, with `bit + 1` computed in `std::size_t`.  (A number of blocks beyond `max_size` of the vector is one that is not granted: `std::length_error`.) -/
def unboundedSetIndex (g : Grant) (bit : BitVec 64) (val : Bool) : X (Bitset w) Unit := do
  let b ← X.get
  if bit.toNat < b.bitCount then lift (fun b => set b bit.toNat val)
  else if val then do
    resize g (bit + 1#64).toNat false
    lift (fun b => set b bit.toNat true)
  else pure ()

/-- `UnboundedReset`, Bitset.inl:895-899. -/
def unboundedResetIndex (g : Grant) (bit : BitVec 64) : X (Bitset w) Unit := unboundedSetIndex g bit false

/-- `UnboundedTest`, Bitset.inl:932-939. -/
def unboundedTestIndex (b : Bitset w) (bit : BitVec 64) : M Bool :=
  if bit.toNat < b.bitCount then test b bit.toNat else pure false

end Verif.BitsetAlloc
