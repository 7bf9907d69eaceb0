import Verif.Retrieve.ModelMulti

/-!
# Specification: a multimap is a collection of entries
-/

namespace Verif.Retrieve.Multi
open Verif.Cpp

variable {K Q V : Type}

/-- The entries, named by numbers: key and value. -/
abbrev Entries (K V : Type) := Nat → Option (K × V)

/-- What a program does: new entries, entries that end, assignments through references. -/
inductive Op (K V : Type) where
  | insert (place : Nat) (k : K) (v : V) (r : Nat)
  | erase (gone : K → Nat → Bool)
  | assign (r : Nat) (v : V)

def Op.run : Op K V → Multi K V → M (Multi K V)
  | .insert p k v r, w => pure (Multi.insert p k v r w)
  | .erase g, w => pure (Multi.erase g w)
  | .assign r v, w => store r v w

def Op.spec : Op K V → Entries K V → Entries K V
  | .insert _ k v r, a => fun j => if j = r then some (k, v) else a j
  | .erase g, a => fun j => (a j).filter (fun e => !g e.1 j)
  | .assign r v, a => fun j => if j = r then (a j).map (fun e => (e.1, v)) else a j

/-- A new entry has a name not in use; assignments are made to entries that are there. -/
def Op.ok (a : Entries K V) : Op K V → Prop
  | .insert _ _ _ r => a r = none
  | .erase _ => True
  | .assign r _ => a r ≠ none

/-- The call does not end entry `r`, whose key is `k`. -/
def Op.keeps (k : K) (r : Nat) : Op K V → Prop
  | .erase g => g k r = false
  | _ => True

/-- A history of allowed calls; `P` holds of each. -/
inductive Steps (P : Op K V → Prop) : Multi K V → Entries K V → Multi K V → Entries K V → Prop
  | refl {w a} : Steps P w a w a
  | step {w a w' a' w''} (h : Steps P w a w' a') (o : Op K V) (hok : o.ok a') (hp : P o) (hrun : o.run w' = .ok w'') : Steps P w a w'' (o.spec a')

/-- What programs can reach from an empty map. -/
abbrev Reached (w : Multi K V) (a : Entries K V) : Prop := Steps (fun _ => True) Multi.empty (fun _ => none) w a

/-- An implementation of `find`: it picks one of the entries. -/
def Picks (pick : List Nat → Nat) : Prop := ∀ l, l ≠ [] → pick l ∈ l

end Verif.Retrieve.Multi
