import Verif.MemoryPool.ModelSpawn

/-!
# When `Clear` and the destructor of a pool end all objects, if these allocate others

In terms of the map from indices to objects only.
-/

namespace Verif.MemoryPool

variable {α : Type}

/-- Objects of the values `ws` are allocated one after the other, each at the first free entry; block `k` gets the address `bases k`. -/
def Abs.spawned (bs : Nat) (bases : Nat → Nat) : List α → Abs α → Abs α
  | [], a => a
  | w :: ws, a => Abs.spawned bs bases ws ((a.grow bs (bases a.bases.length)).set (a.firstFree bs) (some (some w)))

/-- The object at `i`, if there is one, is destroyed and allocates the objects `spawn v`; its entry stays in use. -/
def Abs.ended (bs : Nat) (bases : Nat → Nat) (spawn : α → List α) (i : Nat) (a : Abs α) : Abs α :=
  match a.entries i with
  | some (some v) => Abs.spawned bs bases (spawn v) (a.set i (some none))
  | _ => a

/-- The objects at the entries 0, 1, ... n - 1 are destroyed in this order, those allocated meanwhile included, as far as they are ahead. -/
def Abs.swept (bs : Nat) (bases : Nat → Nat) (spawn : α → List α) : Nat → Abs α → Abs α
  | 0, a => a
  | n + 1, a => Abs.ended bs bases spawn n (Abs.swept bs bases spawn n a)

/-- The condition under which all objects are destroyed: objects that allocate are destroyed with the first block only; no object is left in it, that is, none was allocated
at an entry passed already; and the blocks are not moved when some are added. -/
structure Clean (bs : Nat) (bases : Nat → Nat) (spawn : α → List α) (moves : Nat → Nat → Bool) (a : Abs α) : Prop where
  stay : ∀ i, i < bs → (a.swept bs bases spawn i).bases.length = (a.swept bs bases spawn (i + 1)).bases.length ∨
    moves (a.swept bs bases spawn i).bases.length (a.swept bs bases spawn (i + 1)).bases.length = false
  none_left : ∀ i v, i < bs → (a.swept bs bases spawn bs).entries i ≠ some (some v)
  quiet : ∀ i v, bs ≤ i → (a.swept bs bases spawn bs).entries i = some (some v) → spawn v = []

/-- The addresses of new blocks: apart from those there are, and from each other. -/
structure BasesOk (bs S : Nat) (bases : Nat → Nat) (a : Abs α) : Prop where
  old : ∀ n, a.bases.length ≤ n → ∀ b ∈ a.bases, Abs.Apart bs S (bases n) b
  new : ∀ n m, a.bases.length ≤ n → n < m → Abs.Apart bs S (bases m) (bases n)

end Verif.MemoryPool
