import Verif.Cpp

/-!
# Raw storage for objects

A storage for objects of a type with values `α` is a list of slots, `none` being raw memory and `some v` a living
object of value `v`.  Every access checks the lifetime of the object: constructing an object over a living one,
reading, assigning, moving or destroying one that is not alive, or leaving the storage, is an error (`Err.ub`).

`mv : α → α` is the value in which the move constructor (or assignment) of the type leaves its source.
-/

namespace Verif.Cpp
variable {α : Type}

abbrev Slots (α : Type) := List (Option α)

namespace Slots

/-- Construction of an object in a slot: `PlacementNew`, MemoryHelper.inl:24-28. -/
def create (l : Slots α) (i : Nat) (v : α) : M (Slots α) :=
  match l[i]? with
  | some none => .ok (l.set i (some v))
  | _ => .error .ub

/-- Destruction of the object of a slot: `PlacementDestroy`, MemoryHelper.inl:37-42. -/
def destroy (l : Slots α) (i : Nat) : M (Slots α) :=
  match l[i]? with
  | some (some _) => .ok (l.set i none)
  | _ => .error .ub

/-- Value of the object of a slot. -/
def read (l : Slots α) (i : Nat) : M α :=
  match l[i]? with
  | some (some v) => .ok v
  | _ => .error .ub

/-- Copy assignment to the object of a slot. -/
def assign (l : Slots α) (i : Nat) (v : α) : M (Slots α) :=
  match l[i]? with
  | some (some _) => .ok (l.set i (some v))
  | _ => .error .ub

/-- `new (slot i) T(std::move(slot j))`. -/
def moveCreate (mv : α → α) (l : Slots α) (i j : Nat) : M (Slots α) := do
  let v ← read l j
  let l ← create l i v
  assign l j (mv v)

/-- `slot i = std::move(slot j)`, `i ≠ j`. -/
def moveAssign (mv : α → α) (l : Slots α) (i j : Nat) : M (Slots α) := do
  let v ← read l j
  let l ← assign l i v
  assign l j (mv v)

/-- Number of living objects. -/
def alive (l : Slots α) : Nat := l.countP Option.isSome

/-- The storage of `n` slots with contents `f`. -/
def mk (n : Nat) (f : Nat → Option α) : Slots α := (List.range n).map f

def upd (f : Nat → Option α) (i : Nat) (x : Option α) : Nat → Option α := fun p => if p = i then x else f p

@[simp] theorem mk_length (n : Nat) (f : Nat → Option α) : (mk n f).length = n := by simp [mk]

theorem mk_get {n : Nat} {f : Nat → Option α} {i : Nat} (h : i < n) : (mk n f)[i]? = some (f i) := by
  simp [mk, h]

theorem mk_congr {n : Nat} {f g : Nat → Option α} (h : ∀ p, p < n → f p = g p) : mk n f = mk n g := by
  apply List.map_congr_left
  intro p hp
  exact h p (List.mem_range.mp hp)

theorem mk_set {n : Nat} {f : Nat → Option α} {i : Nat} {x : Option α} : (mk n f).set i x = mk n (upd f i x) := by
  apply List.ext_getElem (by simp)
  intro p h1 h2
  simp only [List.getElem_set, mk, List.getElem_map, List.getElem_range, upd]
  by_cases h : i = p
  · simp [h]
  · simp [h, Ne.symm h]

theorem create_mk {n : Nat} {f : Nat → Option α} {i : Nat} (v : α) (h : i < n) (hf : f i = none) :
    create (mk n f) i v = .ok (mk n (upd f i (some v))) := by
  simp [create, mk_get h, hf, mk_set]

theorem destroy_mk {n : Nat} {f : Nat → Option α} {i : Nat} {v : α} (h : i < n) (hf : f i = some v) :
    destroy (mk n f) i = .ok (mk n (upd f i none)) := by
  simp [destroy, mk_get h, hf, mk_set]

theorem destroy_raw {n : Nat} {f : Nat → Option α} {i : Nat} (h : i < n) (hf : f i = none) :
    destroy (mk n f) i = .error .ub := by
  simp [destroy, mk_get h, hf]

theorem read_mk {n : Nat} {f : Nat → Option α} {i : Nat} {v : α} (h : i < n) (hf : f i = some v) : read (mk n f) i = .ok v := by
  simp [read, mk_get h, hf]

theorem assign_mk {n : Nat} {f : Nat → Option α} {i : Nat} (v : α) {u : α} (h : i < n) (hf : f i = some u) :
    assign (mk n f) i v = .ok (mk n (upd f i (some v))) := by
  simp [assign, mk_get h, hf, mk_set]

theorem moveCreate_mk {mv : α → α} {n : Nat} {f : Nat → Option α} {i j : Nat} {v : α} (hi : i < n) (hj : j < n) (hfi : f i = none)
    (hfj : f j = some v) : moveCreate mv (mk n f) i j = .ok (mk n (upd (upd f i (some v)) j (some (mv v)))) := by
  have hne : j ≠ i := by rintro rfl; rw [hfi] at hfj; exact absurd hfj (by simp)
  rw [moveCreate, read_mk hj hfj, ok_bind, create_mk v hi hfi, ok_bind]
  exact assign_mk (u := v) _ hj (by simp [upd, hne, hfj])

theorem moveAssign_mk {mv : α → α} {n : Nat} {f : Nat → Option α} {i j : Nat} {u v : α} (hi : i < n) (hj : j < n) (hfi : f i = some u)
    (hfj : f j = some v) (hne : j ≠ i) : moveAssign mv (mk n f) i j = .ok (mk n (upd (upd f i (some v)) j (some (mv v)))) := by
  rw [moveAssign, read_mk hj hfj, ok_bind, assign_mk v hi hfi, ok_bind]
  exact assign_mk (u := v) _ hj (by simp [upd, hne, hfj])

/-- The storage of `n` slots the first of which hold the elements of `l`. -/
def ofList (n : Nat) (l : List α) : Slots α := mk n (fun p => l[p]?)

theorem alive_ofList {n : Nat} {l : List α} (h : l.length ≤ n) : alive (ofList n l) = l.length := by
  unfold alive ofList mk
  rw [List.countP_map]
  obtain ⟨m, rfl⟩ := Nat.exists_eq_add_of_le h
  rw [List.range_add, List.countP_append]
  have h1 : List.countP (Option.isSome ∘ fun p => l[p]?) (List.range l.length) = l.length := by
    conv => rhs; rw [← List.length_range (n := l.length)]
    rw [List.countP_eq_length]
    intro p hp
    simpa using hp
  have h2 : List.countP (Option.isSome ∘ fun p => l[p]?) (List.map (fun x => l.length + x) (List.range m)) = 0 := by
    rw [List.countP_eq_zero]
    intro p hp
    simp only [List.mem_map] at hp
    obtain ⟨q, _, rfl⟩ := hp
    simp
  rw [h1, h2]; rfl

end Slots
end Verif.Cpp
