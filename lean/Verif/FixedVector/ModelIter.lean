import Verif.FixedVector.Model

/-!
# Iterators of `FixedVector`

The iterators are pointers (FixedVector.hpp:36 and 41).  A pointer is a place of the inline storage or of the buffer of the fallback.  The
buffer of the fallback is one buffer: that `std::vector` replaces it when it grows is not modelled, so nothing may be concluded about a pointer into the
fallback that is used after a call that adds elements.
-/

namespace Verif.FixedVector
open Verif.Cpp

variable {α β : Type} (K : Cfg α)

/-- A pointer to an element: `T*`. -/
structure Ptr where
  heap : Bool
  idx : Nat
  deriving DecidableEq

/-- `++it`. -/
def Ptr.next (p : Ptr) : Ptr := ⟨p.heap, p.idx + 1⟩

/-- `it + n`. -/
def Ptr.add (p : Ptr) (n : Nat) : Ptr := ⟨p.heap, p.idx + n⟩

/-- `*p`, for reading. -/
def deref (p : Ptr) : X (St α) α :=
  if p.heap then do
    let l ← getFallback
    match l[p.idx]? with
    | some v => pure v
    | none => X.fail .ub
  else ofData (Slots.read · p.idx)

/-- `*p = v`. -/
def store (p : Ptr) (v : α) : X (St α) Unit :=
  if p.heap then do
    let l ← getFallback
    X.guardUB (p.idx < l.length)
    setFallback (l.set p.idx v)
  else onData (Slots.assign · p.idx v)

/-- `data(n)`, FixedVector.inl:331-341 and 349-359; `data()`, 325-329 and 343-347, is `data(0)`.  (`std::launder`, which the standard allows only
for a pointer to a living object, is taken as the identity also for the pointer past the last element.) -/
def dataAt (n : Nat) : X (St α) Ptr := do
  if ← isUsingFallback K then pure ⟨true, n⟩ else pure ⟨false, n⟩

/-- `begin`, `cbegin`, FixedVector.inl:258-268 and 301-305. -/
def begin' : X (St α) Ptr := dataAt K 0

/-- `end`, `cend`, FixedVector.inl:416-426 and 307-311. -/
def end' : X (St α) Ptr := do
  let n ← size K
  dataAt K n

/-- The base of `rbegin`, `crbegin`, FixedVector.inl:641-651 and 313-317. -/
def rbegin : X (St α) Ptr := do
  let n ← size K
  dataAt K n

/-- The base of `rend`, `crend`, FixedVector.inl:653-663 and 319-323. -/
def rend : X (St α) Ptr := dataAt K 0

/-- `for (it = b; it != e; ++it) body(it)`, with the results of the bodies; `fuel` bounds the number of iterations. -/
def forRange (body : Ptr → X (St α) β) : (fuel : Nat) → Ptr → Ptr → X (St α) (List β)
  | 0, b, e => if b = e then pure [] else X.fail .diverge
  | n + 1, b, e =>
    if b = e then pure [] else do
      let x ← body b
      let xs ← forRange body n b.next e
      pure (x :: xs)

/-- `for (it = b; it != e; ++it) body(it)` for reverse iterators, given by their bases: `*it` is `*(base - 1)`, and `++it` decreases the base. -/
def forRangeRev (body : Ptr → X (St α) β) : (fuel : Nat) → Ptr → Ptr → X (St α) (List β)
  | 0, b, e => if b = e then pure [] else X.fail .diverge
  | n + 1, b, e =>
    if b = e then pure [] else do
      X.guardUB (0 < b.idx)
      let x ← body ⟨b.heap, b.idx - 1⟩
      let xs ← forRangeRev body n ⟨b.heap, b.idx - 1⟩ e
      pure (x :: xs)

/-- The index of an iterator: `std::distance(cbegin(), pos)`, undefined for a pointer into another storage. -/
def indexOf (pos : Ptr) : X (St α) Nat := do
  let b ← begin' K
  X.guardUB (pos.heap == b.heap)
  pure (pos.idx - b.idx)

/-- `erase(pos)` on iterators, FixedVector.inl:428-444. -/
def eraseIt (pos : Ptr) : X (St α) Ptr := do
  let index ← indexOf K pos
  let r ← erase K index
  dataAt K r

/-- `insert(pos, value)` on iterators, FixedVector.inl:489-499 and 361-388. -/
def insertIt (pos : Ptr) (v : α) : X (St α) Ptr := do
  let index ← indexOf K pos
  let r ← emplace K index (.value v)
  dataAt K r

/-- The loop by which a program erases the elements that satisfy a predicate:
`for (it = v.begin(); it != v.end();) if (pred(*it)) it = v.erase(it); else ++it;`. -/
def eraseLoop (pred : α → Bool) : (fuel : Nat) → Ptr → X (St α) Unit
  | 0, it => do
    let e ← end' K
    if it = e then pure () else X.fail .diverge
  | n + 1, it => do
    let e ← end' K
    if it = e then pure () else
      let x ← deref it
      if pred x then
        let it ← eraseIt K it
        eraseLoop pred n it
      else eraseLoop pred n it.next

/-- The loop by which a program inserts an element before every element:
`for (it = v.begin(); it != v.end(); it += 2) it = v.insert(it, g(*it));`. -/
def insertLoop (g : α → α) : (fuel : Nat) → Ptr → X (St α) Unit
  | 0, it => do
    let e ← end' K
    if it = e then pure () else X.fail .diverge
  | n + 1, it => do
    let e ← end' K
    if it = e then pure () else
      let x ← deref it
      let it ← insertIt K it (g x)
      insertLoop g n (it.add 2)

end Verif.FixedVector
