import Verif.Cpp

/-!
# Model of `FixedVector` (without fallback) and `StackVector` whose elements use the vector in their constructors and destructors

The two classes have the same code for these functions (FixedVector.inl:283-299, 391-402, 510-550, 677-689; StackVector.inl:76-80, 142-147, 229-248, 250-268, 320-332).  An element has a kind; what the
constructor and the destructor of a kind do to the vector is a list of calls.  Every object has a number of its own.  Simplifications: reads of an object whose constructor or destructor is running are
accepted, and no call throws.
-/

namespace Verif.FixedVector.Reent
open Verif.Cpp

/-- A call of a constructor or destructor to the vector. -/
inductive Act where
  /-- `emplace_back` (or `push_back`) of an element of kind `k` -/
  | push (k : Nat)
  | pop
  | clear
  /-- `vector[i]`, read -/
  | get (i : Nat)
  deriving DecidableEq

/-- What the constructors and destructors do. -/
structure Env where
  ctor : Nat → List Act
  dtor : Nat → List Act

/-- A slot of the storage; objects by number and kind.  `building` and `dying`: the constructor or destructor runs. -/
inductive Slot where
  | raw
  | building (n k : Nat)
  | alive (n k : Nat)
  | dying (n k : Nat)
  deriving DecidableEq

inductive Event where
  /-- the constructor of object `n` is called -/
  | made (n : Nat)
  /-- the destructor of object `n` is called -/
  | ended (n : Nat)
  deriving DecidableEq

structure St where
  slots : Nat → Slot
  /-- `m_size` -/
  size : Nat
  /-- number of the next object -/
  next : Nat
  log : List Event

def put (s : Nat → Slot) (i : Nat) (x : Slot) : Nat → Slot := fun j => if j = i then x else s j

/-- What is being executed. -/
inductive Task where
  | acts (as : List Act)
  | act (a : Act)
  /-- `PlacementDestroy(data(i))`, MemoryHelper.inl:38-43 -/
  | destroy (i : Nat)
  /-- the loop of `clear()` from index `i` on, FixedVector.inl:295-296, StackVector.inl:263-264 -/
  | clearFrom (i : Nat)

/-- The construction of object `n` of kind `k` in slot `i` is complete. -/
def built (i n k : Nat) (σ : St) : M St :=
  if σ.slots i = .building n k then .ok { σ with slots := put σ.slots i (.alive n k) } else .error .ub

/-- The destruction is complete. -/
def destroyed (i n k : Nat) (σ : St) : M St :=
  if σ.slots i = .dying n k then .ok { σ with slots := put σ.slots i .raw } else .error .ub

/-- Runs a task; `fuel` bounds the depth of the calls. -/
def run (env : Env) (cap : Nat) : Nat → St → Task → M St
  | 0, _, _ => .error .diverge
  | _ + 1, σ, .acts [] => .ok σ
  | f + 1, σ, .acts (a :: as) => do
    let σ ← run env cap f σ (.act a)
    run env cap f σ (.acts as)
  -- FixedVector.inl:400-401, StackVector.inl:145-146: the size is incremented before the construction; a slot that is in use may not be constructed again
  | f + 1, σ, .act (.push k) => do
    Cpp.assert (decide (σ.size < cap))
    guardUB (decide (σ.slots σ.size = .raw))
    let σ1 ← run env cap f ⟨put σ.slots σ.size (.building σ.next k), σ.size + 1, σ.next + 1, σ.log ++ [.made σ.next]⟩ (.acts (env.ctor k))
    built σ.size σ.next k σ1
  -- FixedVector.inl:548-549, StackVector.inl:246-247: the size is decremented before the destruction
  | f + 1, σ, .act .pop => do
    Cpp.assert (decide (σ.size ≠ 0))
    run env cap f { σ with size := σ.size - 1 } (.destroy (σ.size - 1))
  -- FixedVector.inl:295-298: the size is set to zero after the loop
  | f + 1, σ, .act .clear => do
    let σ ← run env cap f σ (.clearFrom 0)
    .ok { σ with size := 0 }
  -- FixedVector.inl:680-681, StackVector.inl:323-324
  | _ + 1, σ, .act (.get i) => do
    Cpp.assert (decide (i < σ.size))
    match σ.slots i with
    | .raw => .error .ub
    | _ => .ok σ
  -- only objects whose lifetime has begun and not ended may be destroyed
  | f + 1, σ, .destroy i =>
    match σ.slots i with
    | .alive n k => do
      let σ1 ← run env cap f { σ with slots := put σ.slots i (.dying n k), log := σ.log ++ [.ended n] } (.acts (env.dtor k))
      destroyed i n k σ1
    | _ => .error .ub
  | f + 1, σ, .clearFrom i =>
    if i < σ.size then do
      let σ ← run env cap f σ (.destroy i)
      run env cap f σ (.clearFrom (i + 1))
    else .ok σ

end Verif.FixedVector.Reent
