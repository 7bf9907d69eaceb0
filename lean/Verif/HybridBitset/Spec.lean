import Verif.HybridBitset.Model

/-!
# What a `HybridBitset` is meant to be: a sequence of booleans

`Op.spec` (the operations on sequences of booleans) and `Op.Valid` are those of `Verif.Bitset`.
-/

namespace Verif.HybridBitset
open Verif.Bitset

variable {w : Nat}

/-- One call on sequences of booleans: `Reserve` changes nothing. -/
def HOp.spec (τ : Nat → List Bool) : HOp w → Nat → List Bool
  | .bit op => op.spec τ
  | .reserve _ _ => τ

/-- The calls that are allowed. -/
def HOp.Valid (τ : Nat → List Bool) : HOp w → Prop
  | .bit op => op.Valid τ
  | .reserve _ _ => True

def specRun (τ : Nat → List Bool) : List (HOp w) → Nat → List Bool
  | [] => τ
  | op :: ops => specRun (op.spec τ) ops

/-- Which variables have been wide (`g` before the call): have had, since they exist, more than `limit` bits, or room for more than that
by `Reserve`, or have been assigned from, or exchanged with, one that was wide. -/
def HOp.wide (limit : Nat) (τ : Nat → List Bool) (g : Nat → Bool) : HOp w → Nat → Bool
  | .reserve d n => upd g d (g d || decide (limit < n))
  | .bit (.copy d a) => upd g d (g d || g a)
  | .bit (.swap d a) => upd (upd g d (g d || g a)) a (g d || g a)
  | .bit op => upd g op.target (g op.target || decide (limit < (op.specResult τ).length))

def wideRun (limit : Nat) (τ : Nat → List Bool) (g : Nat → Bool) : List (HOp w) → Nat → Bool
  | [] => g
  | op :: ops => wideRun limit (op.spec τ) (op.wide limit τ g) ops

/-- The histories in which every call is allowed, and no variable is assigned to itself unless it has been wide. -/
def Allowed (limit : Nat) (τ : Nat → List Bool) (g : Nat → Bool) : List (HOp w) → Prop
  | [] => True
  | op :: ops => op.Valid τ ∧ (∀ d, op = .bit (.copy d d) → g d = true) ∧ Allowed limit (op.spec τ) (op.wide limit τ g) ops

end Verif.HybridBitset
