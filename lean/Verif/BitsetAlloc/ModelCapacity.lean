import Verif.BitsetAlloc.Spec

/-!
# `Reserve` and `GetCapacity` of `Bitset`

Each variable has, besides its bitset, the capacity of its vector in blocks.  A vector asks its allocator for memory only to hold more blocks than that ([vector.capacity]),
and no function of `Bitset` calls `shrink_to_fit`.  How much a vector takes when it must grow is its own choice: an arbitrary function `room`, of which only counts that suffice are used.
Only operations that keep the vector of their target are regarded (`InPlace`): constructors, assignments, `Swap` and the operators `&`, `|`, `^`, `~` give the variable another vector.
-/

namespace Verif.BitsetAlloc
open Verif.Cpp Verif.Bitset

variable {w : Nat}

/-- Bitset variables with the capacities of their vectors in blocks. -/
structure Vars (w : Nat) where
  bits : Nat → Bitset w
  cap : Nat → Nat

/-- `GetCapacity`, Bitset.inl:312-315. -/
def getCapacity (s : Vars w) (d : Nat) : Nat := s.cap d * w

/-- The capacity of a vector of capacity `c` after it has come to hold `n` blocks. -/
def grown (room : Nat → Nat) (c n : Nat) : Nat := if n ≤ c then c else max n (room n)

/-- `Reserve`, Bitset.inl:532-535: `m_blocks.reserve(ComputeBlockCount(bitCount))`, which throws and changes nothing if it needs memory and gets none. -/
def reserve (alloc : Grant) (room : Nat → Nat) (d bitCount : Nat) : X (Vars w) Unit := fun s =>
  if computeBlockCount w bitCount ≤ s.cap d || alloc (s.cap d) (computeBlockCount w bitCount) then
    .done { s with cap := upd s.cap d (grown room (s.cap d) (computeBlockCount w bitCount)) } ()
  else .thrown s

/-- Operations that keep the vector of their target. -/
def InPlace : Op w → Bool
  | .construct _ | .ofSize _ _ _ | .ofString _ _ | .ofInt _ _ _ | .copy _ _ | .swap _ _ | .opAnd _ _ _ | .opOr _ _ _ | .opXor _ _ _ | .opNot _ _ => false
  | _ => true

/-- An operation on its target: the allocator is asked only for more blocks than the capacity. -/
def call (alloc : Grant) (room : Nat → Nat) (op : Op w) : X (Vars w) Unit := fun s =>
  let after (σ : Nat → Bitset w) : Vars w := ⟨σ, upd s.cap op.target (grown room (s.cap op.target) (getBlockCount (σ op.target)))⟩
  match exec (fun m n => n ≤ s.cap op.target || alloc m n) s.bits op with
  | .done σ _ => .done (after σ) ()
  | .thrown σ => .thrown (after σ)
  | .fail e => .fail e

/-- Calls one after the other, each with its own allocator. -/
def calls (room : Nat → Nat) : List (Grant × Op w) → X (Vars w) Unit
  | [] => pure ()
  | (alloc, op) :: rest => do
    call alloc room op
    calls room rest

end Verif.BitsetAlloc
