import Verif.MemoryPool.Spec

/-!
# Model of loops over a memory pool that change the pool

`for (auto it = pool.begin(); it != pool.end(); ++it) { ... *it ... }` where the body of the loop makes calls on the pool that is iterated.

The body is any function from the indices visited so far, the current one included and last, to the calls to make (what a deterministic program does in the
body depends on the past only).
-/

namespace Verif.MemoryPool
open Verif.Cpp

variable {α : Type}

/-- The loop from the position `cur` on, with the iterators of MemoryPool.inl:424-475; `seen` are the values of `it.GetIndex()` so far.  It is observed after
at most `n` tests of the condition: the result is the pool, the indices visited and whether the loop has ended. -/
def walkBody (S : Nat) (body : List Nat → List (Op α)) : Nat → Option (Nat × Nat) → List Nat → Pool α → M (Pool α × List Nat × Bool)
  | 0, _, seen, p => .ok (p, seen, false)
  | _ + 1, none, seen, p => .ok (p, seen, true)
  | n + 1, some (blockIndex, localIndex), seen, p => do
    let _ ← getAllocatedPointer S p blockIndex localIndex
    let index := blockIndex * p.blockSize + localIndex
    let (p, _) ← runAll S (body (seen ++ [index])) p
    let next ← getNextAllocatedEntry p blockIndex localIndex
    walkBody S body n next (seen ++ [index]) p

/-- The loop over the whole pool: `begin`, MemoryPool.inl:309-327, `GetFirstAllocatedEntry`, 382-385. -/
def iterateBody (S : Nat) (body : List Nat → List (Op α)) (p : Pool α) (n : Nat) : M (Pool α × List Nat × Bool) := do
  let first ← getFirstAllocatedEntryFromBlock p 0
  walkBody S body n first [] p

/-! ## Specification -/

/-- The least index in use that is at least `lo`. -/
def Abs.nextLive (bs : Nat) (a : Abs α) (lo : Nat) : Option Nat := (a.live bs).find? (fun i => decide (lo ≤ i))

/-- The loop is meant to go on to the least index in use above the current one, in the contents that the pool has at that time. -/
def visits (bs : Nat) (body : List Nat → List (Op α)) : Nat → List Nat → Nat → Abs α → Abs α × List Nat × Bool
  | 0, seen, _, a => (a, seen, false)
  | n + 1, seen, lo, a =>
    match a.nextLive bs lo with
    | none => (a, seen, true)
    | some i => visits bs body n (seen ++ [i]) (i + 1) (specAll bs (body (seen ++ [i])) a).1

/-- The calls of the body are allowed when they are made, and `Clear` is not among them. -/
def okVisits (bs S : Nat) (body : List Nat → List (Op α)) : Nat → List Nat → Nat → Abs α → Prop
  | 0, _, _, _ => True
  | n + 1, seen, lo, a =>
    match a.nextLive bs lo with
    | none => True
    | some i => Op.clear ∉ body (seen ++ [i]) ∧ okAll bs S (body (seen ++ [i])) a ∧
        okVisits bs S body n (seen ++ [i]) (i + 1) (specAll bs (body (seen ++ [i])) a).1

/-- The calls made by the bodies of a loop that visits `seen`. -/
def madeCalls (body : List Nat → List (Op α)) (seen : List Nat) : List (Op α) := (List.range seen.length).flatMap (fun k => body (seen.take (k + 1)))

/-- The call takes entry `i` out of the pool. -/
def Op.Frees (o : Op α) (i : Nat) : Prop :=
  match o with
  | .free j => j = i
  | .freeNoDestruction j => j = i
  | .clear => True
  | _ => False

/-- The call adds an entry. -/
def Op.Adds (o : Op α) : Prop :=
  match o with
  | .allocate _ _ => True
  | .allocateDefer _ => True
  | _ => False

end Verif.MemoryPool
