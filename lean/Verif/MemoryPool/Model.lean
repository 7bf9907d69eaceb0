import Verif.Bitset.Model
import Verif.Memory

/-!
# Model of `MemoryPool.hpp` / `MemoryPool.inl`

The bitsets of a block are those of the model of `Bitset<UInt64>`, its storage is a list of slots (`Slots`) with checked lifetimes, at an
address `base` chosen by the allocator.  `InvalidIndex` is `none`, `size_t` is `Nat`.

`S` is the size of `AlignedStorage` (the distance of two entries) and `Z` is `sizeof(T)`, with `Z ≤ S`; they differ if the `Alignment` parameter is greater than
the alignment of `T`.  The `assert` of this file is the one of the C library; it is treated as `NazaraAssert`.
Elements whose constructors or destructors use the pool are in `ModelNest` and `ModelOwn`.
-/

namespace Verif.MemoryPool
open Verif.Cpp Verif.Bitset

/-- `Block`, MemoryPool.hpp:82-88. -/
structure Block (α : Type) where
  count : Nat
  base : Nat
  memory : Slots α
  freeEntries : Bitset 64
  occupiedEntries : Bitset 64

/-- The members of the pool, MemoryPool.hpp:90-91. -/
structure Pool (α : Type) where
  blockSize : Nat
  blocks : List (Block α)

variable {α : Type}

/-- The block made by `AllocateBlock`, MemoryPool.inl:353-359, whose storage is at address `base`. -/
def newBlock (blockSize base : Nat) : M (Block α) := do
  let free ← Bitset.resize Bitset.empty blockSize true
  let occupied ← Bitset.resize Bitset.empty blockSize false
  pure ⟨0, base, List.replicate blockSize none, free, occupied⟩

/-- `AllocateBlock`, MemoryPool.inl:353-359. -/
def allocateBlock (base : Nat) (p : Pool α) : M (Pool α) := do
  let b ← newBlock p.blockSize base
  pure ⟨p.blockSize, p.blocks ++ [b]⟩

/-- The constructor, MemoryPool.inl:23-28. -/
def new (blockSize base : Nat) : M (Pool α) := allocateBlock base ⟨blockSize, []⟩

/-- Address of an entry: `&block.memory[localIndex]`. -/
def Block.address (S : Nat) (b : Block α) (localIndex : Nat) : Nat := b.base + localIndex * S

/-- The search of `Allocate`, MemoryPool.inl:48-59: the first block that is not full and its first free entry. -/
def findFree (p : Pool α) : M (Option (Nat × Nat)) := do
  let r ← findUp 0 p.blocks.length (fun i => do
    let b ← rd p.blocks i
    pure (b.count != p.blockSize))
  match r with
  | none => pure none
  | some blockIndex => do
    let b ← rd p.blocks blockIndex
    let f ← Bitset.findFirst b.freeEntries
    match f with
    | none => .error .assert
    | some localIndex => pure (some (blockIndex, localIndex))

/-- The block and the entry chosen by `Allocate`, MemoryPool.inl:48-68, `base` being the address of the new block if one is added. -/
def chooseEntry (base : Nat) (p : Pool α) : M (Pool α × Nat × Nat) := do
  let r ← findFree p
  match r with
  | some (blockIndex, localIndex) => pure (p, blockIndex, localIndex)
  | none => do
    let q ← allocateBlock base p
    pure (q, p.blocks.length, 0)

/-- The block after taking an entry, MemoryPool.inl:72-75. -/
def Block.take (b : Block α) (localIndex : Nat) : M (Block α) := do
  let free ← Bitset.reset b.freeEntries localIndex
  let occupied ← Bitset.set b.occupiedEntries localIndex true
  pure ⟨b.count + 1, b.base, b.memory, free, occupied⟩

/-- `Allocate(DeferConstruct, index)`, MemoryPool.inl:46-83.  Returns the index and the address of the entry. -/
def allocateDefer (S base : Nat) (p : Pool α) : M (Pool α × Nat × Nat) := do
  let (p, blockIndex, localIndex) ← chooseEntry base p
  let b ← rd p.blocks blockIndex
  let b ← b.take localIndex
  let blocks ← wr p.blocks blockIndex b
  pure (⟨p.blockSize, blocks⟩, blockIndex * p.blockSize + localIndex, b.address S localIndex)

/-- `GetAllocatedPointer`, MemoryPool.inl:362-379. -/
def getAllocatedPointer (S : Nat) (p : Pool α) (blockIndex localIndex : Nat) : M Nat := do
  assert (blockIndex < p.blocks.length)
  let b ← rd p.blocks blockIndex
  let t ← Bitset.test b.occupiedEntries localIndex
  assert t
  pure (b.address S localIndex)

/-- `RetrieveFromIndex`, MemoryPool.inl:248-273. -/
def retrieveFromIndex (S : Nat) (p : Pool α) (index : Nat) : M Nat := do
  guardUB (p.blockSize != 0)
  getAllocatedPointer S p (index / p.blockSize) (index % p.blockSize)

/-- Run `f` on the slot of an entry. -/
def onSlot (p : Pool α) (blockIndex localIndex : Nat) (f : Slots α → Nat → M (Slots α)) : M (Pool α) := do
  let b ← rd p.blocks blockIndex
  let m ← f b.memory localIndex
  let blocks ← wr p.blocks blockIndex ⟨b.count, b.base, m, b.freeEntries, b.occupiedEntries⟩
  pure ⟨p.blockSize, blocks⟩

/-- `Allocate(index, args...)`, MemoryPool.inl:91-99; `v` is the value of the constructed object, `none` means that the constructor throws an
exception, which the last component of the result reports. -/
def allocate (S base : Nat) (v : Option α) (p : Pool α) : M (Pool α × Nat × Nat × Bool) := do
  let (p, index, address) ← allocateDefer S base p
  match v with
  | none => pure (p, index, address, true)
  | some v => do
    let p ← onSlot p (index / p.blockSize) (index % p.blockSize) (fun m i => Slots.create m i v)
    pure (p, index, address, false)

/-- The end of `Free`, MemoryPool.inl:133-139 and 156-162. -/
def release (p : Pool α) (blockIndex localIndex : Nat) : M (Pool α) := do
  let b ← rd p.blocks blockIndex
  assert (b.count > 0)
  let free ← Bitset.set b.freeEntries localIndex true
  let occupied ← Bitset.reset b.occupiedEntries localIndex
  let blocks ← wr p.blocks blockIndex ⟨b.count - 1, b.base, b.memory, free, occupied⟩
  pure ⟨p.blockSize, blocks⟩

/-- `Free(index)`, MemoryPool.inl:125-140. -/
def free (S : Nat) (p : Pool α) (index : Nat) : M (Pool α) := do
  guardUB (p.blockSize != 0)
  let _ ← getAllocatedPointer S p (index / p.blockSize) (index % p.blockSize)
  let p ← onSlot p (index / p.blockSize) (index % p.blockSize) Slots.destroy
  release p (index / p.blockSize) (index % p.blockSize)

/-- `Free(index, NoDestruction)`, MemoryPool.inl:151-163. -/
def freeNoDestruction (p : Pool α) (index : Nat) : M (Pool α) := do
  guardUB (p.blockSize != 0)
  release p (index / p.blockSize) (index % p.blockSize)

/-- `GetAllocatedEntryCount`, MemoryPool.inl:169-177, and `size`, 346-350. -/
def getAllocatedEntryCount (p : Pool α) : Nat := p.blocks.foldl (fun n b => n + b.count) 0

/-- `GetBlockCount`, MemoryPool.inl:183-187. -/
def getBlockCount (p : Pool α) : Nat := p.blocks.length

/-- `GetBlockSize`, MemoryPool.inl:193-197. -/
def getBlockSize (p : Pool α) : Nat := p.blockSize

/-- `GetFreeEntryCount`, MemoryPool.inl:203-208 (as an integer: `size_t` would wrap around). -/
def getFreeEntryCount (p : Pool α) : Int := (p.blocks.length * p.blockSize : Nat) - (getAllocatedEntryCount p : Int)

/-- The inner loop of `Reset`, MemoryPool.inl:226-230, from the position `cur` on, for at most `fuel` tests of the condition. -/
def destroyLoop (occupied : Bitset 64) : Nat → Option Nat → Slots α → M (Slots α)
  | 0, _, _ => .error .diverge
  | _ + 1, none, m => .ok m
  | fuel + 1, some i, m => do
    let m ← Slots.destroy m i
    let next ← Bitset.findNext occupied i
    destroyLoop occupied fuel next m

/-- The body of the loop of `Reset`, MemoryPool.inl:222-235.  `freeEntries.Reset(true)` and `occupiedEntries.Reset(false)`, 232-233, are calls of
`Bitset::Reset(std::size_t bit)`, the only overload with a parameter (Bitset.hpp:70-71): they reset bit 1 and bit 0. -/
def resetBlock (b : Block α) : M (Block α) :=
  if b.count = 0 then pure b
  else do
    let first ← Bitset.findFirst b.occupiedEntries
    let m ← destroyLoop b.occupiedEntries (b.occupiedEntries.bitCount + 1) first b.memory
    let free ← Bitset.reset b.freeEntries 1
    let occupied ← Bitset.reset b.occupiedEntries 0
    pure ⟨0, b.base, m, free, occupied⟩

/-- `Reset`, MemoryPool.inl:218-237; also the destructor, 34-37. -/
def reset (p : Pool α) : M (Pool α) :=
  forUp 0 p.blocks.length (fun i p => do
    let b ← rd p.blocks i
    let b ← resetBlock b
    let blocks ← wr p.blocks i b
    pure ⟨p.blockSize, blocks⟩) p

/-- `Clear`, MemoryPool.inl:108-114.  Returns also the number of objects alive in the released storage. -/
def clear (p : Pool α) : M (Pool α × Nat) := do
  let p ← reset p
  pure (⟨p.blockSize, []⟩, (p.blocks.map (fun b => b.memory.alive)).sum)

/-- The destructor, MemoryPool.inl:34-37 and the release of the members: the number of objects that are still alive in the released
storage. -/
def destructor (p : Pool α) : M Nat := do
  let p ← reset p
  pure (p.blocks.map (fun b => b.memory.alive)).sum

/-- The search of `RetrieveEntryIndex`, MemoryPool.inl:284-299: the block to which the address belongs. -/
def retrieveEntryIndex (S Z : Nat) (p : Pool α) (data : Nat) : M (Option Nat) := do
  let r ← findUp 0 p.blocks.length (fun i => do
    let b ← rd p.blocks i
    pure (decide (b.base ≤ data) && decide (data < b.base + p.blockSize * Z)))
  match r with
  | none => pure none
  | some blockIndex => do
    let b ← rd p.blocks blockIndex
    -- the difference of two `T*` is undefined if their distance is not a multiple of `sizeof(T)`
    guardUB ((data - b.base) % Z == 0)
    let localIndex := (data - b.base) / Z
    assert (data == b.address S localIndex)
    pure (some (blockIndex * p.blockSize + localIndex))

/-! ## Access to the entries by the user -/

/-- Construction of an object in a deferred entry: `PlacementNew(pool.RetrieveFromIndex(index), v)`. -/
def constructAt (S : Nat) (p : Pool α) (index : Nat) (v : α) : M (Pool α) := do
  let _ ← retrieveFromIndex S p index
  onSlot p (index / p.blockSize) (index % p.blockSize) (fun m i => Slots.create m i v)

/-- Destruction of the object of an entry: `PlacementDestroy(pool.RetrieveFromIndex(index))`. -/
def destroyAt (S : Nat) (p : Pool α) (index : Nat) : M (Pool α) := do
  let _ ← retrieveFromIndex S p index
  onSlot p (index / p.blockSize) (index % p.blockSize) Slots.destroy

/-- `*pool.RetrieveFromIndex(index) = v`. -/
def assignAt (S : Nat) (p : Pool α) (index : Nat) (v : α) : M (Pool α) := do
  let _ ← retrieveFromIndex S p index
  onSlot p (index / p.blockSize) (index % p.blockSize) (fun m i => Slots.assign m i v)

/-- `*pool.RetrieveFromIndex(index)`. -/
def readAt (S : Nat) (p : Pool α) (index : Nat) : M α := do
  let _ ← retrieveFromIndex S p index
  let b ← rd p.blocks (index / p.blockSize)
  Slots.read b.memory (index % p.blockSize)

/-! ## Iteration -/

/-- `GetFirstAllocatedEntryFromBlock`, MemoryPool.inl:388-407. -/
def getFirstAllocatedEntryFromBlock (p : Pool α) (blockIndex : Nat) : M (Option (Nat × Nat)) := do
  let r ← findUp blockIndex (p.blocks.length - blockIndex) (fun i => do
    let b ← rd p.blocks i
    pure (b.count != 0))
  match r with
  | none => pure none
  | some blockIndex => do
    let b ← rd p.blocks blockIndex
    let f ← Bitset.findFirst b.occupiedEntries
    match f with
    | none => .error .assert
    | some localIndex => pure (some (blockIndex, localIndex))

/-- `GetNextAllocatedEntry`, MemoryPool.inl:410-421. -/
def getNextAllocatedEntry (p : Pool α) (blockIndex localIndex : Nat) : M (Option (Nat × Nat)) := do
  assert (blockIndex < p.blocks.length)
  let b ← rd p.blocks blockIndex
  let n ← Bitset.findNext b.occupiedEntries localIndex
  match n with
  | some next => pure (some (blockIndex, next))
  | none => getFirstAllocatedEntryFromBlock p (blockIndex + 1)

/-- `for (it = begin; it != end; ++it)` from the position `cur` on, with the iterators of MemoryPool.inl:424-475: the values of `it.GetIndex()` and `&*it`, for
at most `fuel` tests of the condition. -/
def walk (S : Nat) (p : Pool α) : Nat → Option (Nat × Nat) → M (List (Nat × Nat))
  | 0, _ => .error .diverge
  | _ + 1, none => .ok []
  | fuel + 1, some (blockIndex, localIndex) => do
    let a ← getAllocatedPointer S p blockIndex localIndex
    let next ← getNextAllocatedEntry p blockIndex localIndex
    let r ← walk S p fuel next
    pure ((blockIndex * p.blockSize + localIndex, a) :: r)

/-- The loop over the whole pool: `begin`, MemoryPool.inl:309-327, `GetFirstAllocatedEntry`, 382-385. -/
def iterate (S : Nat) (p : Pool α) (fuel : Nat) : M (List (Nat × Nat)) := do
  let first ← getFirstAllocatedEntryFromBlock p 0
  walk S p fuel first

/-- A loop that frees the entries selected by `sel` while it visits them: `for (it = begin; it != end; ++it) if (sel) pool.Free(it.GetIndex());`. -/
def walkFree (S : Nat) (sel : Nat → Bool) : Nat → Option (Nat × Nat) → Pool α → M (Pool α × List (Nat × Nat))
  | 0, _, _ => .error .diverge
  | _ + 1, none, p => .ok (p, [])
  | fuel + 1, some (blockIndex, localIndex), p => do
    let a ← getAllocatedPointer S p blockIndex localIndex
    let index := blockIndex * p.blockSize + localIndex
    let p ← if sel index then free S p index else pure p
    let next ← getNextAllocatedEntry p blockIndex localIndex
    let (p, r) ← walkFree S sel fuel next p
    pure (p, (index, a) :: r)

/-- The same loop over the whole pool. -/
def iterateFree (S : Nat) (sel : Nat → Bool) (p : Pool α) (fuel : Nat) : M (Pool α × List (Nat × Nat)) := do
  let first ← getFirstAllocatedEntryFromBlock p 0
  walkFree S sel fuel first p

/-! ## Moves -/

/-- The defaulted move constructor, MemoryPool.hpp:33 (the source of the move of a `std::vector` is empty).  Result: the new pool and the source. -/
def moveConstruct (p : Pool α) : Pool α × Pool α := (p, ⟨p.blockSize, []⟩)

/-- The defaulted move assignment, MemoryPool.hpp:66.  Result: the target, the source, and the number of objects alive in the storage that the target released. -/
def moveAssign (this p : Pool α) : Pool α × Pool α × Nat :=
  (p, ⟨p.blockSize, []⟩, (this.blocks.map (fun b => b.memory.alive)).sum)

end Verif.MemoryPool
