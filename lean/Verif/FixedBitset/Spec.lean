import Verif.FixedBitset.Model

/-!
# What a history needs from the capacity of a `FixedBitset`

`Bitset.Op`, `Op.spec` (the operations on sequences of booleans) and `Op.Valid` are those of `Verif.Bitset`.
-/

namespace Verif.FixedBitset
open Verif.Bitset

variable {w : Nat}

/-- No variable is assigned to itself. -/
def NoSelfCopy (ops : List (Op w)) : Prop := ∀ d, Op.copy d d ∉ ops

/-- No bitset ever has more than `n` bits. -/
def Within (n : Nat) (τ : Nat → List Bool) : List (Op w) → Prop
  | [] => ∀ k, (τ k).length ≤ n
  | op :: ops => (∀ k, (τ k).length ≤ n) ∧ Within n (op.spec τ) ops

end Verif.FixedBitset
