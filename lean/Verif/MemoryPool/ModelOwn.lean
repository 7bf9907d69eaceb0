import Verif.MemoryPool.Spec

/-!
# Model of memory pools of objects that own entries of the pool

The nodes of a tree that is kept in a pool: the destructor of an object returns other entries to the pool that holds it.

`owns v` are the indices `j` for which the destructor of an object of value `v` calls `pool.Free(j)`, in this order.  The lifetime of an object ends when its
destructor begins.  Destructors that allocate entries are in `ModelSpawn` (`Reset`, MemoryPool.inl:222, keeps a reference into the vector of blocks during the call of a
destructor, and the vector may grow).
-/

namespace Verif.MemoryPool
open Verif.Cpp Verif.Bitset

variable {α : Type}

/-- `PlacementDestroy` on an object, MemoryHelper.inl:37-42, whose destructor frees what it owns by `freeOne`. -/
def destroyWith (owns : α → List Nat) (freeOne : Pool α → Nat → M (Pool α)) (p : Pool α) (blockIndex localIndex : Nat) : M (Pool α) := do
  let b ← rd p.blocks blockIndex
  let v ← Slots.read b.memory localIndex
  let p ← onSlot p blockIndex localIndex Slots.destroy
  (owns v).foldlM freeOne p

/-- `Free(index)`, MemoryPool.inl:125-140, with at most `depth` nested calls. -/
def freeO (S : Nat) (owns : α → List Nat) : Nat → Pool α → Nat → M (Pool α)
  | 0, _, _ => .error .diverge
  | depth + 1, p, index => do
    guardUB (p.blockSize != 0)
    let _ ← getAllocatedPointer S p (index / p.blockSize) (index % p.blockSize)
    let p ← destroyWith owns (freeO S owns depth) p (index / p.blockSize) (index % p.blockSize)
    release p (index / p.blockSize) (index % p.blockSize)

/-- The inner loop of `Reset`, MemoryPool.inl:226-230, from the position `cur` on, for at most `fuel` tests of the condition; `FindNext` sees the bits that the
destructors leave. -/
def destroyLoopO (S : Nat) (owns : α → List Nat) (depth blockIndex : Nat) : Nat → Option Nat → Pool α → M (Pool α)
  | 0, _, _ => .error .diverge
  | _ + 1, none, p => .ok p
  | fuel + 1, some i, p => do
    let p ← destroyWith owns (freeO S owns depth) p blockIndex i
    let b ← rd p.blocks blockIndex
    let next ← Bitset.findNext b.occupiedEntries i
    destroyLoopO S owns depth blockIndex fuel next p

/-- The body of the loop of `Reset`, MemoryPool.inl:222-235 (see `resetBlock`). -/
def resetBlockO (S : Nat) (owns : α → List Nat) (depth blockIndex : Nat) (p : Pool α) : M (Pool α) := do
  let b ← rd p.blocks blockIndex
  if b.count = 0 then pure p
  else do
    let first ← Bitset.findFirst b.occupiedEntries
    let p ← destroyLoopO S owns depth blockIndex (b.occupiedEntries.bitCount + 1) first p
    let b ← rd p.blocks blockIndex
    let free ← Bitset.reset b.freeEntries 1
    let occupied ← Bitset.reset b.occupiedEntries 0
    let blocks ← wr p.blocks blockIndex ⟨0, b.base, b.memory, free, occupied⟩
    pure ⟨p.blockSize, blocks⟩

/-- `Reset`, MemoryPool.inl:218-237. -/
def resetO (S : Nat) (owns : α → List Nat) (depth : Nat) (p : Pool α) : M (Pool α) :=
  forUp 0 p.blocks.length (resetBlockO S owns depth) p

/-- The destructor, MemoryPool.inl:34-37, and the release of the members: the number of objects that are still alive in the released storage.  `Clear`, 108-114,
does the same. -/
def destructorO (S : Nat) (owns : α → List Nat) (depth : Nat) (p : Pool α) : M Nat := do
  let p ← resetO S owns depth p
  pure (p.blocks.map (fun b => b.memory.alive)).sum

/-! ## Specification -/

/-- The object of entry `i`. -/
def Abs.object (a : Abs α) (i : Nat) : Option α := (a.entries i).join

/-- Object `i` owns entry `j`. -/
def Owns (owns : α → List Nat) (m : Nat → Option α) (i j : Nat) : Prop := ∃ v, m i = some v ∧ j ∈ owns v

/-- Entry `j` is `i`, or is owned by `i`, directly or not. -/
inductive Below (owns : α → List Nat) (m : Nat → Option α) (i : Nat) : Nat → Prop
  | refl : Below owns m i i
  | step {j k : Nat} : Below owns m i j → Owns owns m j k → Below owns m i k

/-- No object owns entry `i`. -/
def Root (owns : α → List Nat) (m : Nat → Option α) (i : Nat) : Prop := ∀ j, ¬ Owns owns m j i

/-- The objects of a pool form trees of less than `depth` levels: an entry that is owned holds an object, and is owned once. -/
structure Forest (owns : α → List Nat) (m : Nat → Option α) (depth : Nat) : Prop where
  object : ∀ i j, Owns owns m i j → ∃ v, m j = some v
  once : ∀ i j k, Owns owns m i k → Owns owns m j k → i = j
  nodup : ∀ i v, m i = some v → (owns v).Nodup
  levels : ∃ rank : Nat → Nat, (∀ i j, Owns owns m i j → rank j < rank i) ∧ ∀ i, rank i < depth

/-- The root of every tree has the least index of the tree. -/
def RootFirst (owns : α → List Nat) (m : Nat → Option α) : Prop := ∀ r, Root owns m r → ∀ j, Below owns m r j → r ≤ j

end Verif.MemoryPool
