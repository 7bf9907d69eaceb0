import Verif.Bitset.Model

/-!
# Model of threads that use one container without synchronisation

The threads read and write elements that exist and do not change the size.  A cell is what one access of the memory reads or writes: an element of a vector or array, or a block of a bitset.
A write of a bit reads the block and writes it back, in two steps of the thread; assignments of elements are treated alike.  The steps of the threads are interleaved by a schedule.  Accesses that may
be concurrent are undefined behaviour in C++; this is the predicate `Race` of the specification, the interleaving shows what an ordinary machine does.
-/

namespace Verif.Threads
open Verif.Cpp Verif.Bitset

/-- What a thread does with a cell: read it and use `f` of it, or replace its value `x` by `g x`. -/
inductive Op (β γ : Type) where
  | read (c : Nat) (f : β → γ)
  | update (c : Nat) (g : β → β)

/-- A thread: what it has to do, the value it has loaded for the update that comes next, and the results of its reads. -/
structure Thread (β γ : Type) where
  ops : List (Op β γ)
  loaded : Option β
  answers : List γ

structure St (β γ : Type) where
  cells : List β
  threads : Nat → Thread β γ

variable {β γ : Type}

def put (f : Nat → Thread β γ) (t : Nat) (x : Thread β γ) : Nat → Thread β γ := fun u => if u = t then x else f u

/-- One step of thread `t`. -/
def step (σ : St β γ) (t : Nat) : M (St β γ) :=
  match (σ.threads t).ops with
  | [] => .ok σ
  | .read c f :: rest => do
    let x ← rd σ.cells c
    .ok ⟨σ.cells, put σ.threads t ⟨rest, none, (σ.threads t).answers ++ [f x]⟩⟩
  | .update c g :: rest =>
    match (σ.threads t).loaded with
    | none => do
      let x ← rd σ.cells c
      .ok ⟨σ.cells, put σ.threads t { σ.threads t with loaded := some x }⟩
    | some x => do
      let cells ← wr σ.cells c (g x)
      .ok ⟨cells, put σ.threads t ⟨rest, none, (σ.threads t).answers⟩⟩

/-- A schedule: which thread makes the next step. -/
def run (σ : St β γ) : List Nat → M (St β γ)
  | [] => .ok σ
  | t :: ts => do
    let σ ← step σ t
    run σ ts

/-- The threads at the beginning. -/
def start (cells : List β) (progs : Nat → List (Op β γ)) : St β γ := ⟨cells, fun t => ⟨progs t, none, []⟩⟩

/-! ## Bits of a bitset -/

/-- A call: `Set(i, v)` and `Reset(i)` (also those of `bitset[i]`), `bitset[i].Flip()`, `Test(i)`. -/
inductive BitOp where
  | set (i : Nat) (v : Bool)
  | flip (i : Nat)
  | test (i : Nat)
  deriving DecidableEq

/-- The mask of a bit, Bitset.inl:636, 948. -/
def mask (w i : Nat) : BitVec w := 1#w <<< getBitIndex w i

/-- The accesses of a call, Bitset.inl:631-639, 1249-1253, 1273-1279 and 791-796.  The size of the bitset is read only. -/
def BitOp.code (w : Nat) : BitOp → Op (BitVec w) Bool
  | .set i v => .update (getBlockIndex w i) (fun x => (x &&& ~~~(mask w i)) ||| ((-(if v then 1#w else 0#w)) &&& mask w i))
  | .flip i => .update (getBlockIndex w i) (fun x => x ^^^ mask w i)
  | .test i => .read (getBlockIndex w i) (fun x => (x &&& mask w i) != 0#w)

/-! ## Elements -/

/-- A call: `container[i] = v`, reading `container[i]`; FixedVector.inl:677-689, StackVector.inl:320-332, StackArray.inl:186-198, EnumArray.inl:21-31; the index
is in range. -/
inductive ElemOp (α : Type) where
  | assign (i : Nat) (v : α)
  | read (i : Nat)

/-- The accesses of a call. -/
def ElemOp.code {α : Type} : ElemOp α → Op α α
  | .assign i v => .update i (fun _ => v)
  | .read i => .read i id

end Verif.Threads
