import Verif.Cpp

/-!
# `Retrieve` (Algorithm.inl:170-192)

The maps are those of the standard library (`std::map`, `std::unordered_map`): each entry is a node of its own, which stays where it is until the entry is erased or the map is
cleared or destroyed.  What the maps do themselves is taken from the standard; `Retrieve` is the code modelled.
-/

namespace Verif.Retrieve
open Verif.Cpp

variable {K V : Type} [DecidableEq K]

/-- The maps of the program (for each, its entries: key and node), the nodes and their values, the number of nodes so far. -/
structure World (K V : Type) where
  maps : Nat → Option (List (K × Nat))
  node : Nat → Option V
  next : Nat

def update {α : Type} (f : Nat → α) (i : Nat) (x : α) : Nat → α := fun j => if j = i then x else f j

def World.empty : World K V := ⟨fun _ => none, fun _ => none, 0⟩

/-- `map.find(key)`: the node, `none` for `map.end()`. -/
def find (l : List (K × Nat)) (k : K) : Option Nat := (l.find? (fun e => e.1 = k)).map (·.2)

/-- A map that is there. -/
def getMap (m : Nat) (w : World K V) : M (List (K × Nat)) :=
  match w.maps m with
  | some l => .ok l
  | none => .error .ub

/-- `Retrieve(map, key)`, Algorithm.inl:170-176 and 186-192 (the `const` version is the same): the node whose value the result refers to.  `enabled`: assertions are compiled in. -/
def retrieve (enabled : Bool) (m : Nat) (k : K) (w : World K V) : M Nat := do
  let l ← getMap m w
  let it := find l k
  if enabled then Cpp.assert it.isSome
  match it with
  | some r => pure r
  | none => .error .ub

/-- The value a reference refers to. -/
def deref (r : Nat) (w : World K V) : M V :=
  match w.node r with
  | some v => .ok v
  | none => .error .ub

/-- Assignment through a reference. -/
def store (r : Nat) (v : V) (w : World K V) : M (World K V) :=
  match w.node r with
  | some _ => .ok { w with node := update w.node r (some v) }
  | none => .error .ub

/-- The end of some nodes. -/
def freeAll : List (K × Nat) → (Nat → Option V) → (Nat → Option V)
  | [], f => f
  | e :: l, f => freeAll l (update f e.2 none)

/-- A new map. -/
def create (m : Nat) (w : World K V) : World K V := { w with maps := update w.maps m (some []) }

/-- `map.insert_or_assign(key, value)` -/
def insert (m : Nat) (k : K) (v : V) (w : World K V) : M (World K V) := do
  let l ← getMap m w
  match find l k with
  | some r => pure { w with node := update w.node r (some v) }
  | none => pure ⟨update w.maps m (some (l ++ [(k, w.next)])), update w.node w.next (some v), w.next + 1⟩

/-- `map.erase(key)` -/
def erase (m : Nat) (k : K) (w : World K V) : M (World K V) := do
  let l ← getMap m w
  match find l k with
  | some r => pure { w with maps := update w.maps m (some (l.filter (fun e => e.1 ≠ k))), node := update w.node r none }
  | none => pure w

/-- The end of a map. -/
def destroy (m : Nat) (w : World K V) : M (World K V) := do
  let l ← getMap m w
  pure { w with maps := update w.maps m none, node := freeAll l w.node }

end Verif.Retrieve
