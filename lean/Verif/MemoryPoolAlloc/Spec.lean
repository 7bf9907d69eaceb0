import Verif.MemoryPoolAlloc.Model
import Verif.MemoryPool.Spec

/-!
# Specification of memory pools whose allocations may fail

The contents of a pool and the meaning of the calls are those of `Verif.MemoryPool.Spec`.  A call that ends with an exception is meant to have no effect.  What really
remains after some failures is a block without entries: `Residue` says at which step its initialisation stopped.
-/

namespace Verif.MemoryPoolAlloc
open Verif.Cpp Verif.MemoryPool

/-- The step of the initialisation of a new block that failed. -/
inductive Residue where
  | freeBits
  | occupiedBits
  | storage
  deriving DecidableEq

/-- The number of 64-bit words for `bs` bits. -/
def words (bs : Nat) : Nat := (bs + 63) / 64

/-- All allocations for a new block of `bs` entries succeed. -/
def Grants.all (bs : Nat) (g : Grants) : Bool := g.vector && g.freeBits 0 (words bs) && g.occupiedBits 0 (words bs) && g.storage

/-- What remains when the allocations for a new block of `bs` entries do not all succeed. -/
def Grants.residue (bs : Nat) (g : Grants) : Option Residue :=
  if g.vector = false then none
  else if g.freeBits 0 (words bs) = false then some .freeBits
  else if g.occupiedBits 0 (words bs) = false then some .occupiedBits
  else some .storage

variable {α : Type}

/-- The calls of the model; the result is the index that the call returns. -/
def exec (g : Grants) (S : Nat) : Op α → X (Pool α) (Option Nat)
  | .allocate base v => do
    let r ← allocate g S base v
    pure (some r.1)
  | .allocateDefer base => do
    let r ← allocateDefer g S base
    pure (some r.1)
  | o => update (o.run S)

def isAllocation : Op α → Bool
  | .allocate _ _ => true
  | .allocateDefer _ => true
  | _ => false

def isClear : Op α → Bool
  | .clear => true
  | _ => false

/-- Some entry is free. -/
def HasFree (bs : Nat) (a : Abs α) : Prop := ∃ i, i < a.capacity bs ∧ a.entries i = none

/-- The calls that are allowed on a pool with contents `a` and residue `s`: those of `Op.ok`, and a pool with a residue must not need a new block. -/
def Allowed (bs S : Nat) (a : Abs α) (s : Option Residue) (o : Op α) : Prop :=
  o.ok bs S a ∧ (s.isSome = true → isAllocation o = true → HasFree bs a)

/-- Histories with failures: the pool, what the calls that ended normally made of its contents, and the residue of the failures since the last `Clear`. -/
inductive Runs (bs S : Nat) : Pool α → Abs α → Option Residue → Prop where
  | start (base : Nat) {p : Pool α} (hbs : 0 < bs) (h : MemoryPool.new bs base = .ok p) : Runs bs S p (.start base) none
  | succeeded (g : Grants) (o : Op α) {p q : Pool α} {a : Abs α} {s : Option Residue} {r : Option Nat} (h : Runs bs S p a s) (hok : Allowed bs S a s o)
      (e : exec g S o p = .done q r) : Runs bs S q (o.spec bs a).1 (if isClear o then none else s)
  | failed (g : Grants) (o : Op α) {p q : Pool α} {a : Abs α} {s : Option Residue} (h : Runs bs S p a s) (hok : Allowed bs S a s o)
      (e : exec g S o p = .thrown q) : Runs bs S q a (g.residue bs)

/-- What the observers of the pool show when there is a residue (or not): everything but the number of blocks and the number of free entries is
as in a pool without failures. -/
structure Observed (bs S : Nat) (p : Pool α) (a : Abs α) (s : Option Residue) : Prop where
  blockSize : getBlockSize p = bs
  blockCount : getBlockCount p = a.bases.length + (if s.isSome then 1 else 0)
  allocated : getAllocatedEntryCount p = (a.live bs).length
  free : getFreeEntryCount p = ((a.capacity bs - (a.live bs).length + (if s.isSome then bs else 0) : Nat) : Int)
  live_lt : ∀ i, a.isLive i = true → i < a.capacity bs
  retrieve : ∀ i, retrieveFromIndex S p i = if a.isLive i then .ok (a.address bs S i) else .error .assert
  read : ∀ i v, a.entries i = some (some v) → readAt S p i = .ok v
  iterate : ∀ fuel, (a.live bs).length < fuel → iterate S p fuel = .ok ((a.live bs).map (fun i => (i, a.address bs S i)))

end Verif.MemoryPoolAlloc
