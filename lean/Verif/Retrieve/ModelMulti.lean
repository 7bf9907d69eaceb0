import Verif.Cpp

/-!
# `Retrieve` with multimaps and with keys of another type (Algorithm.inl:170-192)

`std::multimap` and `std::unordered_multimap` have `find` too, so that `Retrieve` takes them.  An entry is a node of its own, at an address that no other entry has at that time (it may have been
the address of an entry erased before).  `find` gives one of the entries of the key; the standard leaves open which.  The key may have another type (`const T& key`), if the map can compare it.
What the maps do themselves is taken from the standard; one map (others have other nodes).
-/

namespace Verif.Retrieve.Multi
open Verif.Cpp

variable {K Q V : Type}

/-- The entries (key and address) in the order of the map, and the values. -/
structure Multi (K V : Type) where
  entries : List (K × Nat)
  node : Nat → Option V

def Multi.empty : Multi K V := ⟨[], fun _ => none⟩

/-- The entries whose keys are equivalent to what is looked for. -/
def matching (same : K → Q → Bool) (q : Q) (w : Multi K V) : List Nat := (w.entries.filter (fun e => same e.1 q)).map (·.2)

/-- `map.find(key)`: the implementation picks an entry; `none` for `map.end()`. -/
def find (pick : List Nat → Nat) (same : K → Q → Bool) (q : Q) (w : Multi K V) : Option Nat :=
  match matching same q w with
  | [] => none
  | r :: l => some (pick (r :: l))

/-- `Retrieve(map, key)`, Algorithm.inl:170-176 and 186-192 (the `const` version is the same).  `enabled`: assertions are compiled in. -/
def retrieve (enabled : Bool) (pick : List Nat → Nat) (same : K → Q → Bool) (q : Q) (w : Multi K V) : M Nat := do
  let it := find pick same q w
  if enabled then Cpp.assert it.isSome
  match it with
  | some r => pure r
  | none => .error .ub

/-- The value a reference refers to. -/
def deref (r : Nat) (w : Multi K V) : M V :=
  match w.node r with
  | some v => .ok v
  | none => .error .ub

/-- Assignment through a reference. -/
def store (r : Nat) (v : V) (w : Multi K V) : M (Multi K V) :=
  match w.node r with
  | some _ => .ok { w with node := fun j => if j = r then some v else w.node j }
  | none => .error .ub

/-- `map.insert`: a new entry at address `r`, at any place in the order. -/
def insert (place : Nat) (k : K) (v : V) (r : Nat) (w : Multi K V) : Multi K V :=
  ⟨w.entries.take place ++ (k, r) :: w.entries.drop place, fun j => if j = r then some v else w.node j⟩

/-- `map.erase` of the entries `gone` (by iterator: one; by key: those of the key; `clear`, end of the map: all). -/
def erase (gone : K → Nat → Bool) (w : Multi K V) : Multi K V :=
  ⟨w.entries.filter (fun e => !gone e.1 e.2), fun j => if w.entries.any (fun e => e.2 = j && gone e.1 e.2) then none else w.node j⟩

end Verif.Retrieve.Multi
