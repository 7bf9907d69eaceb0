import Verif.FixedBitset.Model

/-!
# Model of `HybridBitset`: `Bitset` over a `HybridVector`

`HybridBitset<Block, Capacity>` (Bitset.hpp:149-150) is `Bitset` with a `FixedVector` of `N = (Capacity + 7) / 8` blocks that has a
`std::vector` as fallback.  The container is the sequence of its blocks and the answer to "is the fallback in use": it moves its
elements to the fallback when it needs more than `N` of them, and never moves them back (FixedVector.inl:734-776).  That the model of
`FixedVector` does so is proved in `PropsContainer.lean`.

Allocations do not fail.  (`push_back` and the move assignment are `noexcept`: see C100 for what happens otherwise.)
-/

namespace Verif.HybridBitset
open Verif.Cpp Verif.Bitset

variable {w : Nat}

/-- A variable: the data members (Bitset.hpp:142-143), `fallback` being `m_blocks.IsUsingFallback()` (FixedVector.inl:754-761). -/
structure Var (w : Nat) where
  bits : Bitset w
  fallback : Bool
  deriving DecidableEq

/-- `Bitset()`, Bitset.inl:27-31. -/
def Var.new : Var w := ⟨empty, false⟩

/-- The calls: those of `Bitset`, and `Reserve`. -/
inductive HOp (w : Nat) where
  | bit (op : Op w)
  | reserve (d n : Nat)

/-- Whether a call makes its target longer than `N` blocks at some moment: exactly then the container without fallback, in whose
place it is, fails its assertion (`NazaraAssert(count <= Capacity)`, FixedVector.inl:605, `NazaraAssert(m_size < Capacity)`, 519 and
532) where the one with fallback calls `MoveStorageToFallback` (599-600, 514 and 734-752). -/
def grows (N : Nat) (σ : Nat → Bitset w) (op : Op w) : Bool :=
  match FixedBitset.result N σ op with
  | .ok _ => false
  | .error _ => true

/-- Whether the container of the target uses its fallback after a call.  The values that an assignment (`d = Bitset(n, v)`,
`d = a & b`) takes from a temporary are moved to the fallback of the target if the temporary or the target uses its own
(`operator=`, FixedVector.inl:691-732); likewise for `d = a`, and for both sides of `std::swap` (Bitset.inl:778), which makes one move
construction and two move assignments. -/
def newFallback (N : Nat) (σ : Nat → Var w) : Op w → Bool
  | .copy d a | .swap d a => (σ d).fallback || (σ a).fallback
  | op => (σ op.target).fallback || grows N (fun k => (σ k).bits) op

/-- Copy assignment (defaulted, Bitset.hpp:104) from the bitset itself: `m_blocks = m_blocks` assigns the fallback to itself
(FixedVector.inl:694-702), or clears the blocks if it is not in use (704-707); `m_bitCount` is unchanged. -/
def copySelf (v : Var w) : Var w := if v.fallback then v else ⟨⟨[], v.bits.bitCount⟩, false⟩

/-- One call.  `Reserve`, Bitset.inl:531-535, and `reserve`, FixedVector.inl:622-639. -/
def exec (N : Nat) (σ : Nat → Var w) : HOp w → M (Nat → Var w)
  | .reserve d n => .ok (upd σ d ⟨(σ d).bits, (σ d).fallback || decide (N < computeBlockCount w n)⟩)
  | .bit (.copy d a) =>
    if a = d then .ok (upd σ d (copySelf (σ d)))
    else .ok (upd σ d ⟨(σ a).bits, newFallback N σ (.copy d a)⟩)
  | .bit (.swap d a) =>
    .ok (upd (upd σ d ⟨(σ a).bits, newFallback N σ (.swap d a)⟩) a ⟨(σ d).bits, newFallback N σ (.swap d a)⟩)
  | .bit op => do
    let r ← op.result (fun k => (σ k).bits)
    pure (upd σ op.target ⟨r, newFallback N σ op⟩)

/-- A history. -/
def run (N : Nat) (σ : Nat → Var w) : List (HOp w) → M (Nat → Var w)
  | [] => .ok σ
  | op :: ops => do
    let σ ← exec N σ op
    run N σ ops

end Verif.HybridBitset
