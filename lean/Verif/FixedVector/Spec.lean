import Verif.FixedVector.Model

/-!
# Specification of `FixedVector`: a finite sequence

The intended meaning of the vector is a plain list of values.  `Op` is the mutating part of the API, `Op.spec` what
each operation does to a list and `Op.ok` when a call is allowed.
-/

namespace Verif.FixedVector
open Verif.Cpp

variable {α : Type}

/-- Mutating calls (with arguments that are not elements of the vector). -/
inductive Op (α : Type) where
  | pushBack (v : α)
  | emplace (index : Nat) (v : α)
  | erase (index : Nat)
  | eraseRange (first last : Nat)
  | popBack
  | resize (count : Nat) (v : α)
  | reserve (count : Nat)
  | assignAt (index : Nat) (v : α)
  | clear

/-- The effect of a call on the sequence, and the index it returns (as iterator or reference), if any. -/
def Op.spec : Op α → List α → List α × Option Nat
  | .pushBack v, l => (l ++ [v], some l.length)
  | .emplace i v, l => (l.take i ++ v :: l.drop i, some i)
  | .erase i, l => (l.take i ++ l.drop (i + 1), some i)
  | .eraseRange f t, l => (l.take f ++ l.drop t, some f)
  | .popBack, l => (l.take (l.length - 1), none)
  | .resize n v, l => (l.take n ++ List.replicate (n - l.length) v, none)
  | .reserve _, l => (l, none)
  | .assignAt i v, l => (l.set i v, none)
  | .clear, _ => ([], none)

/-- The calls allowed on a sequence by a vector of the given capacity, if it has (or not) a fallback container. -/
def Op.ok (capacity : Nat) (hasFallback : Bool) : Op α → List α → Prop
  | .pushBack _, l => hasFallback = true ∨ l.length < capacity
  | .emplace i _, l => i ≤ l.length ∧ (hasFallback = true ∨ l.length < capacity)
  | .erase i, l => i < l.length
  | .eraseRange f t, l => f ≤ t ∧ t ≤ l.length
  | .popBack, l => l ≠ []
  | .resize n _, _ => hasFallback = true ∨ n ≤ capacity
  | .reserve n, _ => hasFallback = true ∨ n ≤ capacity
  | .assignAt i _, l => i < l.length
  | .clear, _ => True

/-- The call of the model. -/
def Op.run (K : Cfg α) : Op α → X (St α) (Option Nat)
  | .pushBack v => do let r ← FixedVector.emplaceBack K (.value v); pure (some r)
  | .emplace i v => do let r ← FixedVector.emplace K i (.value v); pure (some r)
  | .erase i => do let r ← FixedVector.erase K i; pure (some r)
  | .eraseRange f t => do let r ← FixedVector.eraseRange K f t; pure (some r)
  | .popBack => do FixedVector.popBack K; pure none
  | .resize n v => do FixedVector.resize K n (.value v); pure none
  | .reserve n => do FixedVector.reserve K n; pure none
  | .assignAt i v => do FixedVector.assignAt K i v; pure none
  | .clear => do FixedVector.clear K; pure none

/-- A sequence of calls, with the list of what they return. -/
def runAll (K : Cfg α) : List (Op α) → X (St α) (List (Option Nat))
  | [] => pure []
  | o :: os => do
    let r ← o.run K
    let rs ← runAll K os
    pure (r :: rs)

def specAll : List (Op α) → List α → List α × List (Option Nat)
  | [], l => (l, [])
  | o :: os, l =>
    let p := o.spec l
    let q := specAll os p.1
    (q.1, p.2 :: q.2)

/-- Every call of the history is allowed when it is made. -/
def okAll (capacity : Nat) (hasFallback : Bool) : List (Op α) → List α → Prop
  | [], _ => True
  | o :: os, l => o.ok capacity hasFallback l ∧ okAll capacity hasFallback os (o.spec l).1

/-- What the observers of the vector say is the sequence `l`. -/
structure Shows (K : Cfg α) (s : St α) (l : List α) : Prop where
  size : size K s = .done s l.length
  empty : isEmpty K s = .done s l.isEmpty
  at_lt : ∀ (i : Nat) (h : i < l.length), at' K i s = .done s l[i]
  at_ge : ∀ (i : Nat), l.length ≤ i → at' K i s = .fail .assert
  front : ∀ (h : l ≠ []), front K s = .done s (l.head h)
  back : ∀ (h : l ≠ []), back K s = .done s (l.getLast h)
  front_nil : l = [] → FixedVector.front K s = .fail .assert
  back_nil : l = [] → FixedVector.back K s = .fail .assert

/-- The number of living elements in a state (in the inline storage and in the fallback). -/
def living (s : St α) : Nat := s.vec.data.alive + s.vec.fallback.length

end Verif.FixedVector
