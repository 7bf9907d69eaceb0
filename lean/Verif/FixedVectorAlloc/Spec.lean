import Verif.FixedVectorAlloc.Model

/-!
# Specification of the capacity and the allocations of `FixedVector`
-/

namespace Verif.FixedVectorAlloc
open Verif.Cpp Verif.FixedVector

variable {α : Type}

/-- The number of elements a call needs room for: those there are after the call, or those asked for. -/
def needs : Op α → List α → Nat
  | .pushBack _, l => l.length + 1
  | .emplace _ _, l => l.length + 1
  | .resize n _, _ => n
  | .reserve n, _ => n
  | _, _ => 0

/-- The calls of the history are allowed, and none needs room for more than `c` elements. -/
def Within (capacity : Nat) (hasFallback : Bool) (c : Nat) : List (Op α) → List α → Prop
  | [], _ => True
  | o :: os, l => o.ok capacity hasFallback l ∧ needs o l ≤ c ∧ Within capacity hasFallback c os (o.spec l).1

/-- The elements `[0, kept o l)` are not touched by the call. -/
def kept : Op α → List α → Nat
  | .pushBack _, l => l.length
  | .emplace i _, _ => i
  | .erase i, _ => i
  | .eraseRange f _, _ => f
  | .popBack, l => l.length - 1
  | .resize n _, l => min n l.length
  | .reserve _, l => l.length
  | .assignAt i _, _ => i
  | .clear, _ => 0

/-- The element of index `i` is not touched by the history. -/
def KeptAll (i : Nat) : List (Op α) → List α → Prop
  | [], _ => True
  | o :: os, l => i < kept o l ∧ KeptAll i os (o.spec l).1

/-- The storage that holds the elements: the inline one, or a buffer of the fallback container. -/
inductive Storage where
  | inline
  | buffer (id : Nat)
  deriving DecidableEq

/-- Where the elements of a vector are (`data()`); element `i` is the one of index `i` there. -/
def storage (K : Cfg α) (h : HSt α) : Storage := if h.st.vec.usesFallback K then .buffer h.buf.id else .inline

/-- Nothing but the count of allocations has changed. -/
def Unchanged (h h' : HSt α) : Prop := h'.st = h.st ∧ h'.buf = h.buf

/-- A history of calls; a call that throws is caught and the history continues. -/
def runAll (K : Cfg α) (L : Lib) (grant : Nat → Bool) : List (Op α) → HSt α → Except Err (HSt α × List (Option (Option Nat)))
  | [], h => .ok (h, [])
  | o :: os, h =>
    match run K L grant o h with
    | .done h' r => (runAll K L grant os h').map (fun p => (p.1, some r :: p.2))
    | .thrown h' => (runAll K L grant os h').map (fun p => (p.1, none :: p.2))
    | .fail e => .error e

/-- The sequences a history may lead to: a call has its effect (and result), or throws and has none. -/
inductive Runs (capacity : Nat) (hasFallback : Bool) : List (Op α) → List α → List (Option (Option Nat)) → List α → Prop where
  | nil (l : List α) : Runs capacity hasFallback [] l [] l
  | done {o : Op α} {os : List (Op α)} {l l' : List α} {rs : List (Option (Option Nat))} (hok : o.ok capacity hasFallback l)
      (h : Runs capacity hasFallback os (o.spec l).1 rs l') : Runs capacity hasFallback (o :: os) l (some (o.spec l).2 :: rs) l'
  | thrown {o : Op α} {os : List (Op α)} {l l' : List α} {rs : List (Option (Option Nat))}
      (h : Runs capacity hasFallback os l rs l') : Runs capacity hasFallback (o :: os) l (none :: rs) l'

/-- The calls of the history are allowed, whatever calls throw. -/
def Allowed (capacity : Nat) (hasFallback : Bool) : List (Op α) → List α → Prop
  | [], _ => True
  | o :: os, l => o.ok capacity hasFallback l ∧ Allowed capacity hasFallback os (o.spec l).1 ∧ Allowed capacity hasFallback os l

end Verif.FixedVectorAlloc
