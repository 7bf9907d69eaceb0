import Verif.MemoryPool.Model

/-!
# Specification of memory pools

A pool is meant to be a partial map from indices to objects.  It grows by blocks of a fixed number of entries, whose addresses (`bases`) are chosen by the allocator.
-/

namespace Verif.MemoryPool
open Verif.Cpp

/-- A map from indices to entries: `none` is a free entry, `some none` an allocated entry without object (`DeferConstruct`), `some (some v)` an object. -/
structure Abs (α : Type) where
  entries : Nat → Option (Option α)
  bases : List Nat

variable {α : Type}

namespace Abs

/-- No entries, no blocks. -/
def empty : Abs α := ⟨fun _ => none, []⟩

/-- No entries, one block. -/
def start (base : Nat) : Abs α := ⟨fun _ => none, [base]⟩

/-- Number of entries of all blocks. -/
def capacity (bs : Nat) (a : Abs α) : Nat := a.bases.length * bs

def isLive (a : Abs α) (i : Nat) : Bool := (a.entries i).isSome

/-- The live indices in increasing order. -/
def live (bs : Nat) (a : Abs α) : List Nat := (List.range (a.capacity bs)).filter a.isLive

/-- The address of entry `i`, entries being `S` bytes apart. -/
def address (bs S : Nat) (a : Abs α) (i : Nat) : Nat := a.bases.getD (i / bs) 0 + i % bs * S

/-- The least index that is free; it is the capacity if all entries are live. -/
def firstFree (bs : Nat) (a : Abs α) : Nat := ((List.range (a.capacity bs)).find? (fun i => !a.isLive i)).getD (a.capacity bs)

def set (a : Abs α) (i : Nat) (x : Option (Option α)) : Abs α := ⟨fun j => if j = i then x else a.entries j, a.bases⟩

/-- Add a block at address `base` if all entries are live. -/
def grow (bs base : Nat) (a : Abs α) : Abs α := if a.firstFree bs = a.capacity bs then ⟨a.entries, a.bases ++ [base]⟩ else a

/-- Blocks at `base` and `base'` do not overlap. -/
def Apart (bs S base base' : Nat) : Prop := base + bs * S ≤ base' ∨ base' + bs * S ≤ base

end Abs

/-- Calls and accesses that change the pool; `base` is the address that the allocator would give to a new block. -/
inductive Op (α : Type) where
  | allocate (base : Nat) (v : α)
  | allocateDefer (base : Nat)
  | constructAt (i : Nat) (v : α)
  | destroyAt (i : Nat)
  | assignAt (i : Nat) (v : α)
  | free (i : Nat)
  | freeNoDestruction (i : Nat)
  | clear

/-- The meaning of the calls, and the index that they return. -/
def Op.spec (bs : Nat) : Op α → Abs α → Abs α × Option Nat
  | .allocate base v, a => ((a.grow bs base).set (a.firstFree bs) (some (some v)), some (a.firstFree bs))
  | .allocateDefer base, a => ((a.grow bs base).set (a.firstFree bs) (some none), some (a.firstFree bs))
  | .constructAt i v, a => (a.set i (some (some v)), none)
  | .destroyAt i, a => (a.set i (some none), none)
  | .assignAt i v, a => (a.set i (some (some v)), none)
  | .free i, a => (a.set i none, none)
  | .freeNoDestruction i, a => (a.set i none, none)
  | .clear, _ => (.empty, none)

/-- The calls that are allowed.  New blocks do not overlap existing ones.  (`Clear` on blocks of one entry fails, see `C36_block_of_one_violated`.) -/
def Op.ok (bs S : Nat) : Op α → Abs α → Prop
  | .allocate base _, a => ∀ b ∈ a.bases, Abs.Apart bs S base b
  | .allocateDefer base, a => ∀ b ∈ a.bases, Abs.Apart bs S base b
  | .constructAt i _, a => a.entries i = some none
  | .destroyAt i, a => ∃ v, a.entries i = some (some v)
  | .assignAt i _, a => ∃ v, a.entries i = some (some v)
  | .free i, a => ∃ v, a.entries i = some (some v)
  | .freeNoDestruction i, a => a.entries i = some none
  | .clear, a => (∀ i, a.entries i ≠ some none) ∧ (bs = 1 → ∀ i, a.entries i = none)

/-- The calls of the model. -/
def Op.run (S : Nat) : Op α → Pool α → M (Pool α × Option Nat)
  | .allocate base v, p => do let r ← MemoryPool.allocate S base (some v) p; pure (r.1, some r.2.1)
  | .allocateDefer base, p => do let r ← MemoryPool.allocateDefer S base p; pure (r.1, some r.2.1)
  | .constructAt i v, p => do let p ← MemoryPool.constructAt S p i v; pure (p, none)
  | .destroyAt i, p => do let p ← MemoryPool.destroyAt S p i; pure (p, none)
  | .assignAt i v, p => do let p ← MemoryPool.assignAt S p i v; pure (p, none)
  | .free i, p => do let p ← MemoryPool.free S p i; pure (p, none)
  | .freeNoDestruction i, p => do let p ← MemoryPool.freeNoDestruction p i; pure (p, none)
  | .clear, p => do let r ← MemoryPool.clear p; pure (r.1, none)

def runAll (S : Nat) : List (Op α) → Pool α → M (Pool α × List (Option Nat))
  | [], p => pure (p, [])
  | o :: os, p => do
    let (p, r) ← o.run S p
    let (p, rs) ← runAll S os p
    pure (p, r :: rs)

def specAll (bs : Nat) : List (Op α) → Abs α → Abs α × List (Option Nat)
  | [], a => (a, [])
  | o :: os, a => ((specAll bs os (o.spec bs a).1).1, (o.spec bs a).2 :: (specAll bs os (o.spec bs a).1).2)

def okAll (bs S : Nat) : List (Op α) → Abs α → Prop
  | [], _ => True
  | o :: os, a => o.ok bs S a ∧ okAll bs S os (o.spec bs a).1

/-- `p` is a pool that a program can build: by the constructor with blocks of `bs > 0` entries, followed by allowed calls; `a` is its contents according to
the meaning of the calls. -/
def Reached (bs S : Nat) (p : Pool α) (a : Abs α) : Prop :=
  0 < bs ∧ ∃ base os p0 rs, new bs base = .ok p0 ∧ okAll bs S os (.start base) ∧ runAll S os p0 = .ok (p, rs) ∧ a = (specAll bs os (.start base)).1

/-- What the observers of the pool show. -/
structure Shows (bs S : Nat) (p : Pool α) (a : Abs α) : Prop where
  blockSize : getBlockSize p = bs
  blockCount : getBlockCount p = a.bases.length
  allocated : getAllocatedEntryCount p = (a.live bs).length
  free : getFreeEntryCount p = (a.capacity bs - (a.live bs).length : Nat)
  live_lt : ∀ i, a.isLive i = true → i < a.capacity bs
  retrieve : ∀ i, retrieveFromIndex S p i = if a.isLive i then .ok (a.address bs S i) else .error .assert
  read : ∀ i v, a.entries i = some (some v) → readAt S p i = .ok v
  iterate : ∀ fuel, (a.live bs).length < fuel → iterate S p fuel = .ok ((a.live bs).map (fun i => (i, a.address bs S i)))

end Verif.MemoryPool
