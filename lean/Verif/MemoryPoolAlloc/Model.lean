import Verif.BitsetAlloc.Model
import Verif.MemoryPool.Model

/-!
# Model of the calls of `MemoryPool` that allocate, with allocations that fail

`AllocateBlock` allocates up to four times: for the vector of blocks, for the two bitsets of the block, and for its storage.  The state (the data
members of the pool) is kept when `std::bad_alloc` leaves a call.  All other calls are those of `Verif.MemoryPool`.
-/

namespace Verif.MemoryPoolAlloc
open Verif.Cpp Verif.Bitset Verif.MemoryPool

/-- Which of the allocations of `AllocateBlock` succeed (a vector that has enough capacity is one for which the answer is yes). -/
structure Grants where
  vector : Bool
  freeBits : BitsetAlloc.Grant
  occupiedBits : BitsetAlloc.Grant
  storage : Bool

variable {α : Type}

/-- Code that does not allocate. -/
def lift {σ β : Type} (m : M β) : X σ β := fun s =>
  match m with
  | .ok x => .done s x
  | .error e => .fail e

/-- A block made by its default constructor, MemoryPool.hpp:82-88: no storage (a null pointer) and empty bitsets. -/
def rawBlock : Block α := ⟨0, 0, [], Bitset.empty, Bitset.empty⟩

/-- `m_blocks.emplace_back()`, MemoryPool.inl:355; `std::vector` is unchanged when it throws ([vector.modifiers]). -/
def emplaceBack (g : Grants) : X (Pool α) Unit := fun p =>
  if g.vector then .done ⟨p.blockSize, p.blocks ++ [rawBlock]⟩ () else .thrown p

/-- `block.memory = std::make_unique<AlignedStorage[]>(m_blockSize)`, MemoryPool.inl:358; the storage is at address `base`. -/
def makeStorage (g : Grants) (blockSize base : Nat) : X (Block α) Unit := fun b =>
  if g.storage then .done { b with base := base, memory := List.replicate blockSize none } () else .thrown b

/-- The initialisation of the new block, MemoryPool.inl:356-358. -/
def fillBlock (g : Grants) (blockSize base : Nat) : X (Block α) Unit := do
  X.zoom (fun b => b.freeEntries) (fun b e => { b with freeEntries := e }) (BitsetAlloc.resize g.freeBits blockSize true)
  X.zoom (fun b => b.occupiedEntries) (fun b e => { b with occupiedEntries := e }) (BitsetAlloc.resize g.occupiedBits blockSize false)
  makeStorage g blockSize base

/-- `AllocateBlock`, MemoryPool.inl:352-359. -/
def allocateBlock (g : Grants) (base : Nat) : X (Pool α) Unit := do
  emplaceBack g
  let p ← X.get
  X.zoom (fun p => p.blocks.getLastD rawBlock) (fun p b => ⟨p.blockSize, p.blocks.dropLast ++ [b]⟩) (fillBlock g p.blockSize base)

/-- The choice of an entry by `Allocate`, MemoryPool.inl:48-68. -/
def chooseEntry (g : Grants) (base : Nat) : X (Pool α) (Nat × Nat) := do
  let p ← X.get
  let r ← lift (findFree p)
  match r with
  | some x => pure x
  | none => do
    allocateBlock g base
    pure (p.blocks.length, 0)

/-- The end of `Allocate`, MemoryPool.inl:72-82: takes entry `localIndex` of block `blockIndex`.  `block.memory[localIndex]`, 77, is undefined for a null
pointer ([unique.ptr.runtime.observers]). -/
def takeEntry (S blockIndex localIndex : Nat) (p : Pool α) : M (Pool α × Nat × Nat) := do
  let b ← rd p.blocks blockIndex
  let b ← b.take localIndex
  guardUB (localIndex < b.memory.length)
  let blocks ← wr p.blocks blockIndex b
  pure (⟨p.blockSize, blocks⟩, blockIndex * p.blockSize + localIndex, b.address S localIndex)

/-- Code that does not allocate and changes the pool. -/
def update {σ β : Type} (f : σ → M (σ × β)) : X σ β := fun s =>
  match f s with
  | .ok (s, x) => .done s x
  | .error e => .fail e

/-- `Allocate(DeferConstruct, index)`, MemoryPool.inl:46-83.  Returns the index and the address of the entry. -/
def allocateDefer (g : Grants) (S base : Nat) : X (Pool α) (Nat × Nat) := do
  let (blockIndex, localIndex) ← chooseEntry g base
  update (takeEntry S blockIndex localIndex)

/-- `Allocate(index, args...)`, MemoryPool.inl:91-99, for a constructor that does not throw (for one that does see `Verif.MemoryPool.allocate`). -/
def allocate (g : Grants) (S base : Nat) (v : α) : X (Pool α) (Nat × Nat) := do
  let (index, address) ← allocateDefer g S base
  update (fun p => do
    let p ← onSlot p (index / p.blockSize) (index % p.blockSize) (fun m i => Slots.create m i v)
    pure (p, (index, address)))

end Verif.MemoryPoolAlloc
