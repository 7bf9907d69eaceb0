import Verif.MemoryPool.ModelNest

/-!
# Model of memory pools of objects whose destructors use the pool in any way

A destructor may free and allocate entries of the pool that holds the object.  `Free` looks up the block after the destructor (MemoryPool.inl:133), `Reset` before it (222):
it keeps a reference to the block and goes on with it, but the block may have been moved by then, with the vector that holds it.
-/

namespace Verif.MemoryPool
open Verif.Cpp Verif.Bitset

variable {α : Type}

/-! ## Free -/

/-- `Free(index)`, MemoryPool.inl:125-140, of an object whose destructor acts on the pool; the lifetime of the object ends when its destructor begins. -/
def freeWith (S : Nat) (dtor : Pool α → M (Pool α)) (p : Pool α) (index : Nat) : M (Pool α) := do
  guardUB (p.blockSize != 0)
  let blockIndex := index / p.blockSize
  let localIndex := index % p.blockSize
  let _ ← getAllocatedPointer S p blockIndex localIndex
  let p ← onSlot p blockIndex localIndex Slots.destroy
  let p ← dtor p
  release p blockIndex localIndex

/-- The calls that a program makes on a pool: the calls of `Op`, `Allocate` with a constructor that makes the calls `body` (as in `Calls`), and `Free(i)` of an object
whose destructor makes the calls `body`. -/
inductive CallsD (α : Type) where
  | done
  | call (o : Op α) (rest : CallsD α)
  | make (base : Nat) (body : CallsD α) (v : Option α) (rest : CallsD α)
  | drop (i : Nat) (body rest : CallsD α)

/-- The calls on the model. -/
def CallsD.run (S : Nat) : CallsD α → Pool α → M (Pool α × List (Option Nat))
  | .done, p => pure (p, [])
  | .call o rest, p => do
    let (p, r) ← o.run S p
    let (p, rs) ← rest.run S p
    pure (p, r :: rs)
  | .make base body v rest, p => do
    let (p, i, _) ← allocateWith S base (fun p => do
      let (p, _) ← body.run S p
      pure (p, v)) p
    let (p, rs) ← rest.run S p
    pure (p, some i :: rs)
  | .drop i body rest, p => do
    let p ← freeWith S (fun p => do
      let (p, _) ← body.run S p
      pure p) p i
    let (p, rs) ← rest.run S p
    pure (p, none :: rs)

/-- The meaning of the calls.  `Allocate`: the entry is taken, then the constructor makes its calls, then the object is there (if no exception is thrown).  `Free`: the
object is gone, then the destructor makes its calls, then the entry is free. -/
def CallsD.spec (bs : Nat) : CallsD α → Abs α → Abs α × List (Option Nat)
  | .done, a => (a, [])
  | .call o rest, a => ((rest.spec bs (o.spec bs a).1).1, (o.spec bs a).2 :: (rest.spec bs (o.spec bs a).1).2)
  | .make base body v rest, a =>
    let i := a.firstFree bs
    let a1 := (body.spec bs ((a.grow bs base).set i (some none))).1
    let a2 := match v with
      | none => a1
      | some v => a1.set i (some (some v))
    ((rest.spec bs a2).1, some i :: (rest.spec bs a2).2)
  | .drop i body rest, a =>
    let a2 := (body.spec bs (a.set i (some none))).1.set i none
    ((rest.spec bs a2).1, none :: (rest.spec bs a2).2)

/-- The calls are allowed when they are made.  Constructors that do not throw, and destructors, leave the entry of their object as it is. -/
def CallsD.ok (bs S : Nat) : CallsD α → Abs α → Prop
  | .done, _ => True
  | .call o rest, a => o.ok bs S a ∧ rest.ok bs S (o.spec bs a).1
  | .make base body v rest, a =>
    let i := a.firstFree bs
    let a0 := (a.grow bs base).set i (some none)
    let a1 := (body.spec bs a0).1
    (∀ b ∈ a.bases, Abs.Apart bs S base b) ∧ body.ok bs S a0 ∧
      match v with
      | none => rest.ok bs S a1
      | some v => a1.entries i = some none ∧ rest.ok bs S (a1.set i (some (some v)))
  | .drop i body rest, a =>
    let a0 := a.set i (some none)
    let a1 := (body.spec bs a0).1
    (∃ v, a.entries i = some (some v)) ∧ body.ok bs S a0 ∧ a1.entries i = some none ∧ rest.ok bs S (a1.set i none)

/-! ## Reset, Clear and the destructor -/

/-- What the destructor of an object does: it allocates objects of the values `ws`; block `k` of the pool is at address `bases k`. -/
def spawnAll (S : Nat) (bases : Nat → Nat) (ws : List α) (p : Pool α) : M (Pool α) :=
  ws.foldlM (fun p w => do
    let r ← allocate S (bases p.blocks.length) (some w) p
    pure r.1) p

/-- The inner loop of `Reset`, MemoryPool.inl:226-230, from the position `cur` on, for at most `fuel` tests of the condition.  The destructor of an object of value `v`
allocates the objects `spawn v`.  `moves n m` tells whether the blocks are moved when the vector of blocks grows from `n` to `m` elements: the reference `block` of
line 222, used in line 226, is then dangling. -/
def destroyLoopS (S : Nat) (bases : Nat → Nat) (spawn : α → List α) (moves : Nat → Nat → Bool) (blockIndex : Nat) : Nat → Option Nat → Pool α → M (Pool α)
  | 0, _, _ => .error .diverge
  | _ + 1, none, p => .ok p
  | fuel + 1, some i, p => do
    let b ← rd p.blocks blockIndex
    let v ← Slots.read b.memory i
    let q ← onSlot p blockIndex i Slots.destroy
    let q ← spawnAll S bases (spawn v) q
    guardUB (q.blocks.length == p.blocks.length || !moves p.blocks.length q.blocks.length)
    let b ← rd q.blocks blockIndex
    let next ← Bitset.findNext b.occupiedEntries i
    destroyLoopS S bases spawn moves blockIndex fuel next q

/-- The body of the loop of `Reset`, MemoryPool.inl:222-235 (see `resetBlock`). -/
def resetBlockS (S : Nat) (bases : Nat → Nat) (spawn : α → List α) (moves : Nat → Nat → Bool) (blockIndex : Nat) (p : Pool α) : M (Pool α) := do
  let b ← rd p.blocks blockIndex
  if b.count = 0 then pure p
  else do
    let first ← Bitset.findFirst b.occupiedEntries
    let p ← destroyLoopS S bases spawn moves blockIndex (b.occupiedEntries.bitCount + 1) first p
    let b ← rd p.blocks blockIndex
    let free ← Bitset.reset b.freeEntries 1
    let occupied ← Bitset.reset b.occupiedEntries 0
    let blocks ← wr p.blocks blockIndex ⟨0, b.base, b.memory, free, occupied⟩
    pure ⟨p.blockSize, blocks⟩

/-- The loop of `Reset`, MemoryPool.inl:220-236, from block `blockIndex` on, for at most `fuel` blocks. -/
def resetLoopS (S : Nat) (bases : Nat → Nat) (spawn : α → List α) (moves : Nat → Nat → Bool) : Nat → Nat → Pool α → M (Pool α)
  | 0, _, _ => .error .diverge
  | fuel + 1, blockIndex, p =>
    if blockIndex < p.blocks.length then do
      let p ← resetBlockS S bases spawn moves blockIndex p
      resetLoopS S bases spawn moves fuel (blockIndex + 1) p
    else .ok p

/-- The destructor, MemoryPool.inl:34-37, and the release of the members: the number of objects that are still alive in the released storage.  `Clear`, 108-114,
does the same. -/
def destructorS (S : Nat) (bases : Nat → Nat) (spawn : α → List α) (moves : Nat → Nat → Bool) (fuel : Nat) (p : Pool α) : M Nat := do
  let p ← resetLoopS S bases spawn moves fuel 0 p
  pure (p.blocks.map (fun b => b.memory.alive)).sum

/-! ### Specification -/

/-- One object only, `k`, allocates an object when it is destroyed: one of value `w`, which allocates none in turn. -/
structure OneSpawns (spawn : α → List α) (a : Abs α) (k : Nat) (v w : α) : Prop where
  object : a.entries k = some (some v)
  spawns : spawn v = [w]
  child : spawn w = []
  others : ∀ i u, i ≠ k → a.entries i = some (some u) → spawn u = []

end Verif.MemoryPool
