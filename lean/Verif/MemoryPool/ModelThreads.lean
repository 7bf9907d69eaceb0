import Verif.MemoryPool.Model

/-!
# Model of threads that use one pool without synchronisation

The memory of the pool consists of locations: the counters of the blocks, the words of their bitsets and their entries.  The calls are sequences of accesses, each a load or a store of one
location, which a schedule interleaves.  A thread has two registers, for a counter and for a word.  What the calls only read and nobody changes (`m_blockSize`, the vector of the blocks, the sizes of
the bitsets) is not part of the memory.  Two accesses of one location that may be concurrent, one of them a store, are undefined behaviour in C++; this is the predicate `Race` of the specification, the
interleaving shows what an ordinary machine does.
-/

namespace Verif.MemoryPool
namespace Threads
open Verif.Cpp Verif.Bitset

/-- The locations, MemoryPool.hpp:82-88: `occupiedEntryCount` of block `b`, word `k` of `freeEntries` and of `occupiedEntries`, entry `l` of `memory`. -/
inductive Loc where
  | count (b : Nat)
  | free (b k : Nat)
  | occupied (b k : Nat)
  | entry (b l : Nat)
  deriving DecidableEq

/-- What is in a location; an entry may have no object. -/
inductive Val (α : Type) where
  | count (n : Nat)
  | word (x : BitVec 64)
  | entry (x : Option α)
  deriving DecidableEq

variable {α : Type}

/-- The memory of a pool. -/
def contents (p : Pool α) : Loc → Option (Val α)
  | .count b => p.blocks[b]?.map (fun B => .count B.count)
  | .free b k => p.blocks[b]?.bind (fun B => B.freeEntries.blocks[k]?.map .word)
  | .occupied b k => p.blocks[b]?.bind (fun B => B.occupiedEntries.blocks[k]?.map .word)
  | .entry b l => p.blocks[b]?.bind (fun B => B.memory[l]?.map .entry)

/-- The registers of a thread, and the objects that it has read. -/
structure Regs (α : Type) where
  n : Nat
  word : BitVec 64
  answers : List α

/-- An access: a load, or a store of a value that depends on the registers (and on the old value only in that an object must be there). -/
inductive Access (α : Type) where
  | load (l : Loc) (f : Val α → Regs α → M (Regs α))
  | store (l : Loc) (g : Val α → Regs α → M (Val α))

/-- The bit of an entry in its word. -/
def mask (l : Nat) : BitVec 64 := 1#64 <<< getBitIndex 64 l

/-- `assert(block.occupiedEntries.Test(localIndex))`, MemoryPool.inl:366, 376; Bitset.inl:791-796. -/
def testOccupied (b l : Nat) : Access α := .load (.occupied b (getBlockIndex 64 l)) (fun v r =>
  match v with
  | .word x => do assert ((x &&& mask l) != 0#64); pure r
  | _ => .error .ub)

/-- `PlacementDestroy(entry)`, MemoryPool.inl:131. -/
def destroyEntry (b l : Nat) : Access α := .store (.entry b l) (fun v _ =>
  match v with
  | .entry (some _) => .ok (.entry none)
  | _ => .error .ub)

/-- Assignment to the object. -/
def assignEntry (b l : Nat) (x : α) : Access α := .store (.entry b l) (fun v _ =>
  match v with
  | .entry (some _) => .ok (.entry (some x))
  | _ => .error .ub)

/-- Reading the object. -/
def readEntry (b l : Nat) : Access α := .load (.entry b l) (fun v r =>
  match v with
  | .entry (some x) => .ok { r with answers := r.answers ++ [x] }
  | _ => .error .ub)

/-- `assert(block.occupiedEntryCount > 0)`, MemoryPool.inl:134. -/
def checkCount (b : Nat) : Access α := .load (.count b) (fun v r =>
  match v with
  | .count n => do assert (n > 0); pure r
  | _ => .error .ub)

/-- The load of `block.occupiedEntryCount--`, MemoryPool.inl:135. -/
def loadCount (b : Nat) : Access α := .load (.count b) (fun v r =>
  match v with
  | .count n => .ok { r with n := n }
  | _ => .error .ub)

/-- Its store. -/
def storeCount (b : Nat) : Access α := .store (.count b) (fun _ r => .ok (.count (if r.n = 0 then 2 ^ 64 - 1 else r.n - 1)))

/-- The load of `Set` on a bitset, Bitset.inl:636. -/
def loadWord (l : Loc) : Access α := .load l (fun v r =>
  match v with
  | .word x => .ok { r with word := x }
  | _ => .error .ub)

/-- Its store, Bitset.inl:636-640. -/
def storeWord (l : Loc) (k : Nat) (v : Bool) : Access α := .store l (fun _ r => .ok (.word ((r.word &&& ~~~(mask k)) ||| ((-(if v then 1#64 else 0#64)) &&& mask k))))

/-- A call: `Free(i)`, `*RetrieveFromIndex(i) = v`, reading `*RetrieveFromIndex(i)`. -/
inductive Call (α : Type) where
  | free (i : Nat)
  | assign (i : Nat) (v : α)
  | read (i : Nat)

/-- The accesses of a call on a pool of blocks of `bs` entries, MemoryPool.inl:125-140 and 248-255. -/
def Call.code (bs : Nat) : Call α → List (Access α)
  | .free i =>
    let b := i / bs
    let l := i % bs
    [testOccupied b l, destroyEntry b l, checkCount b, loadCount b, storeCount b, loadWord (.free b (getBlockIndex 64 l)), storeWord (.free b (getBlockIndex 64 l)) l true,
      loadWord (.occupied b (getBlockIndex 64 l)), storeWord (.occupied b (getBlockIndex 64 l)) l false]
  | .assign i v => [testOccupied (i / bs) (i % bs), assignEntry (i / bs) (i % bs) v]
  | .read i => [testOccupied (i / bs) (i % bs), readEntry (i / bs) (i % bs)]

/-- The store of `block.occupiedEntryCount++`, MemoryPool.inl:75. -/
def incCount (b : Nat) : Access α := .store (.count b) (fun _ r => .ok (.count (r.n + 1)))

/-- The accesses of `Allocate(DeferConstruct, index)` after the search has found entry `l` of block `b`, MemoryPool.inl:72-75; then the call returns the index of this entry. -/
def takeCode (b l : Nat) : List (Access α) :=
  [loadWord (.free b (getBlockIndex 64 l)), storeWord (.free b (getBlockIndex 64 l)) l false, loadWord (.occupied b (getBlockIndex 64 l)), storeWord (.occupied b (getBlockIndex 64 l)) l true,
    loadCount b, incCount b]

structure Thread (α : Type) where
  code : List (Access α)
  regs : Regs α

structure St (α : Type) where
  mem : Loc → Option (Val α)
  threads : Nat → Thread α

def put {β γ : Type} [DecidableEq γ] (f : γ → β) (t : γ) (x : β) : γ → β := fun u => if u = t then x else f u

/-- One access. -/
def Access.run (m : Loc → Option (Val α)) (r : Regs α) : Access α → M ((Loc → Option (Val α)) × Regs α)
  | .load l f =>
    match m l with
    | none => .error .ub
    | some v => do
      let r ← f v r
      .ok (m, r)
  | .store l g =>
    match m l with
    | none => .error .ub
    | some v => do
      let v ← g v r
      .ok (put m l (some v), r)

/-- One step of thread `t`. -/
def step (σ : St α) (t : Nat) : M (St α) :=
  match (σ.threads t).code with
  | [] => .ok σ
  | x :: rest => do
    let (m, r) ← x.run σ.mem (σ.threads t).regs
    .ok ⟨m, put σ.threads t ⟨rest, r⟩⟩

/-- A schedule: which thread makes the next step. -/
def run (σ : St α) : List Nat → M (St α)
  | [] => .ok σ
  | t :: ts => do
    let σ ← step σ t
    run σ ts

/-- The threads at the beginning. -/
def start (p : Pool α) (calls : Nat → List (Call α)) : St α := ⟨contents p, fun t => ⟨(calls t).flatMap (Call.code p.blockSize), ⟨0, 0#64, []⟩⟩⟩

end Threads
end Verif.MemoryPool
