import Verif.Retrieve.Model

/-!
# Specification of `Retrieve`: maps are partial functions
-/

namespace Verif.Retrieve
open Verif.Cpp

variable {K V : Type} [DecidableEq K]

/-- The maps of the program and what they contain. -/
abbrev Abs (K V : Type) := Nat → Option (K → Option V)

def Abs.set (a : Abs K V) (m : Nat) (k : K) (x : Option V) : Abs K V := fun n => if n = m then (a n).map (fun f j => if j = k then x else f j) else a n

/-- What a program does with maps. -/
inductive Op (K V : Type) where
  | create (m : Nat)
  | insert (m : Nat) (k : K) (v : V)
  | erase (m : Nat) (k : K)
  | destroy (m : Nat)
  /-- `Retrieve(map, key) = value;` -/
  | assign (m : Nat) (k : K) (v : V)

def Op.run (enabled : Bool) : Op K V → World K V → M (World K V)
  | .create m, w => pure (Retrieve.create m w)
  | .insert m k v, w => Retrieve.insert m k v w
  | .erase m k, w => Retrieve.erase m k w
  | .destroy m, w => Retrieve.destroy m w
  | .assign m k v, w => do
    let r ← retrieve enabled m k w
    store r v w

def Op.spec : Op K V → Abs K V → Abs K V
  | .create m, a => update a m (some fun _ => none)
  | .insert m k v, a => a.set m k (some v)
  | .erase m k, a => a.set m k none
  | .destroy m, a => update a m none
  | .assign m k v, a => a.set m k (some v)

/-- The calls that are allowed: `Retrieve` only of keys that are there. -/
def Op.ok (a : Abs K V) : Op K V → Prop
  | .create m => a m = none
  | .insert m _ _ => a m ≠ none
  | .erase m _ => a m ≠ none
  | .destroy m => a m ≠ none
  | .assign m k _ => ∃ f v, a m = some f ∧ f k = some v

/-- The call leaves the entry of key `k` in map `m` where it is. -/
def Op.keeps (m : Nat) (k : K) : Op K V → Prop
  | .erase n j => n = m → j ≠ k
  | .destroy n => n ≠ m
  | _ => True

/-- A history of allowed calls leads from one state to another; `P` holds of each call. -/
inductive Steps (enabled : Bool) (P : Op K V → Prop) : World K V → Abs K V → World K V → Abs K V → Prop
  | refl {w a} : Steps enabled P w a w a
  | step {w a w' a' w''} (h : Steps enabled P w a w' a') (o : Op K V) (hok : o.ok a') (hp : P o) (hrun : o.run enabled w' = .ok w'') :
    Steps enabled P w a w'' (o.spec a')

/-- The states that programs reach. -/
def Reached (enabled : Bool) (w : World K V) (a : Abs K V) : Prop := Steps enabled (fun _ => True) .empty (fun _ => none) w a

end Verif.Retrieve
