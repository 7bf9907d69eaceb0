import Verif.MemoryPool.ModelOwn

/-!
# Model of memory pools of objects whose constructors use the pool

`Allocate(index, args...)` takes the entry before it calls the constructor, so a constructor may make calls on the pool: it allocates the children of a node from the
pool that holds the node.
-/

namespace Verif.MemoryPool
open Verif.Cpp Verif.Bitset

variable {α β : Type}

/-- `Allocate(index, args...)`, MemoryPool.inl:91-99, with a constructor that acts on the pool; it ends with the value of the object, or by an exception (`none`).
The last component of the result tells whether an exception left the call.  The lifetime of the object begins when its constructor has ended. -/
def allocateWith (S base : Nat) (ctor : Pool α → M (Pool α × Option α)) (p : Pool α) : M (Pool α × Nat × Bool) := do
  let (p, index, _) ← allocateDefer S base p
  let (p, v) ← ctor p
  match v with
  | none => pure (p, index, true)
  | some v => do
    let p ← onSlot p (index / p.blockSize) (index % p.blockSize) (fun m i => Slots.create m i v)
    pure (p, index, false)

/-! ## Any calls -/

/-- The calls that a program makes on a pool: the calls of `Op`, and `Allocate` with a constructor that makes the calls `body` and ends with the value `v` or, if
`v` is `none`, by an exception that the caller handles (if it does not, it is a constructor that ends by an exception as well). -/
inductive Calls (α : Type) where
  | done
  | call (o : Op α) (rest : Calls α)
  | make (base : Nat) (body : Calls α) (v : Option α) (rest : Calls α)

/-- The calls on the model. -/
def Calls.run (S : Nat) : Calls α → Pool α → M (Pool α × List (Option Nat))
  | .done, p => pure (p, [])
  | .call o rest, p => do
    let (p, r) ← o.run S p
    let (p, rs) ← rest.run S p
    pure (p, r :: rs)
  | .make base body v rest, p => do
    let (p, i, _) ← allocateWith S base (fun p => do
      let (p, _) ← body.run S p
      pure (p, v)) p
    let (p, rs) ← rest.run S p
    pure (p, some i :: rs)

/-- The meaning of the calls: the entry is taken, then the constructor makes its calls, then the object is there (if no exception is thrown). -/
def Calls.spec (bs : Nat) : Calls α → Abs α → Abs α × List (Option Nat)
  | .done, a => (a, [])
  | .call o rest, a => ((rest.spec bs (o.spec bs a).1).1, (o.spec bs a).2 :: (rest.spec bs (o.spec bs a).1).2)
  | .make base body v rest, a =>
    let i := a.firstFree bs
    let a1 := (body.spec bs ((a.grow bs base).set i (some none))).1
    let a2 := match v with
      | none => a1
      | some v => a1.set i (some (some v))
    ((rest.spec bs a2).1, some i :: (rest.spec bs a2).2)

/-- The calls are allowed when they are made; a constructor that does not throw leaves its own entry as it is. -/
def Calls.ok (bs S : Nat) : Calls α → Abs α → Prop
  | .done, _ => True
  | .call o rest, a => o.ok bs S a ∧ rest.ok bs S (o.spec bs a).1
  | .make base body v rest, a =>
    let i := a.firstFree bs
    let a0 := (a.grow bs base).set i (some none)
    let a1 := (body.spec bs a0).1
    (∀ b ∈ a.bases, Abs.Apart bs S base b) ∧ body.ok bs S a0 ∧
      match v with
      | none => rest.ok bs S a1
      | some v => a1.entries i = some none ∧ rest.ok bs S (a1.set i (some (some v)))

/-! ## Trees -/

/-- A list of trees: the first tree (the label of its root and the list of its subtrees), and the other trees. -/
inductive Trees (β : Type) where
  | nil
  | cons (x : β) (sub rest : Trees β)

namespace Trees

/-- Number of nodes. -/
def size : Trees β → Nat
  | nil => 0
  | cons _ sub rest => 1 + sub.size + rest.size

/-- Number of levels. -/
def height : Trees β → Nat
  | nil => 0
  | cons _ sub rest => max (1 + sub.height) rest.height

/-- Number of trees. -/
def count : Trees β → Nat
  | nil => 0
  | cons _ _ rest => 1 + rest.count

/-- One more tree at the end. -/
def add : Trees β → β → Trees β → Trees β
  | nil, x, sub => cons x sub nil
  | cons y s rest, x, sub => cons y s (rest.add x sub)

/-- The trees without tree `k`. -/
def erase : Trees β → Nat → Trees β
  | nil, _ => nil
  | cons _ _ rest, 0 => rest
  | cons x sub rest, k + 1 => cons x sub (rest.erase k)

end Trees

/-- Allocation of trees, one by one: `pool.Allocate(index, x, subtrees)` for each, where the constructor of a node allocates its subtrees from the pool in the same way and
keeps the indices of their roots; `mk` makes the node of a label and the indices.  Block `k` of the pool is at address `bases k`.  Result: the pool and the indices of the
roots. -/
def build (S : Nat) (bases : Nat → Nat) (mk : β → List Nat → α) : Trees β → Pool α → M (Pool α × List Nat)
  | .nil, p => pure (p, [])
  | .cons x sub rest, p => do
    let (p, i, _) ← allocateWith S (bases p.blocks.length) (fun p => do
      let (p, ks) ← build S bases mk sub p
      pure (p, some (mk x ks))) p
    let (p, js) ← build S bases mk rest p
    pure (p, i :: js)

/-- What a program that keeps trees in a pool does: it makes a tree, or frees the `k`-th of the roots that it holds. -/
inductive Act (β : Type) where
  | plant (x : β) (sub : Trees β)
  | fell (k : Nat)

/-- The program on the model; its state is the pool and the indices of the roots. -/
def tend (S : Nat) (bases : Nat → Nat) (mk : β → List Nat → α) (owns : α → List Nat) (depth : Nat) : List (Act β) → Pool α × List Nat → M (Pool α × List Nat)
  | [], s => pure s
  | .plant x sub :: acts, (p, roots) => do
    let (p, js) ← build S bases mk (.cons x sub .nil) p
    tend S bases mk owns depth acts (p, roots ++ js)
  | .fell k :: acts, (p, roots) => do
    let r ← rd roots k
    let p ← freeO S owns depth p r
    tend S bases mk owns depth acts (p, roots.eraseIdx k)

/-! ### Specification -/

/-- The trees that the program holds after the acts. -/
def grown : List (Act β) → Trees β → Trees β
  | [], t => t
  | .plant x sub :: acts, t => grown acts (t.add x sub)
  | .fell k :: acts, t => grown acts (t.erase k)

/-- The program frees trees that it holds, and none has more than `depth` levels. -/
def okActs (depth : Nat) : List (Act β) → Trees β → Prop
  | [], _ => True
  | .plant x sub :: acts, t => 1 + sub.height ≤ depth ∧ okActs depth acts (t.add x sub)
  | .fell k :: acts, t => k < t.count ∧ okActs depth acts (t.erase k)

/-- The objects `m` contain the trees `t`, with their roots at `roots`; `all` are the indices of all their nodes, and every node comes before its descendants. -/
def Holds (mk : β → List Nat → α) (m : Nat → Option α) : Trees β → List Nat → List Nat → Prop
  | .nil, roots, all => roots = [] ∧ all = []
  | .cons x sub rest, roots, all => ∃ i ks js A B, roots = i :: js ∧ all = i :: (A ++ B) ∧ m i = some (mk x ks) ∧ (∀ j ∈ A, i < j) ∧
      Holds mk m sub ks A ∧ Holds mk m rest js B

/-- The addresses of blocks that are not yet allocated do not overlap the others. -/
def Fresh (bs S : Nat) (bases : Nat → Nat) (a : Abs α) : Prop :=
  ∀ k, a.bases.length ≤ k → (∀ x ∈ a.bases, Abs.Apart bs S (bases k) x) ∧ ∀ k', a.bases.length ≤ k' → k ≠ k' → Abs.Apart bs S (bases k) (bases k')

end Verif.MemoryPool
