import Verif.Bitset.History

/-!
# Loops over the set bits whose bodies change the bitset

The iterator of `IterBits` keeps a pointer to the bitset (Bitset.hpp:214-215) and asks it for the next bit at each increment.
-/

namespace Verif.Bitset
open Verif.Cpp

variable {w : Nat}

/-- `for (std::size_t bit : d.IterBits()) { … }` over variable `d`, from the position `pos` on (`none`: `npos`), Bitset.inl:1232-1242 and 1441-1464.  The body makes the calls
`body seen`, where `seen` are the indices seen so far, the current one included.  Stopped after `n` tests of the condition; the result: the variables, the indices seen and
whether the loop has ended. -/
def loopFrom (body : List Nat → List (Op w)) (d : Nat) : (n : Nat) → (seen : List Nat) → (pos : Option Nat) → (Nat → Bitset w) → M ((Nat → Bitset w) × List Nat × Bool)
  | 0, seen, _, σ => .ok (σ, seen, false)
  | _ + 1, seen, none, σ => .ok (σ, seen, true)
  | n + 1, seen, some i, σ => do
    let σ ← run σ (body (seen ++ [i]))
    let next ← preIncrement (σ d) i
    loopFrom body d n (seen ++ [i]) next σ

/-- The whole loop: `begin()` is at the first set bit, Bitset.inl:1232-1236. -/
def loopBits (body : List Nat → List (Op w)) (d n : Nat) (σ : Nat → Bitset w) : M ((Nat → Bitset w) × List Nat × Bool) := do
  let first ← findFirst (σ d)
  loopFrom body d n [] first σ

end Verif.Bitset
