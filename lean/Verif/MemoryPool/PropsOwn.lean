import Verif.MemoryPool.LemmasOwnFail
import Verif.MemoryPool.Props

/-!
# Properties of memory pools of objects that own entries of the pool: C121
-/

namespace Verif.MemoryPool
open Verif.Cpp Verif.Bitset

variable {α : Type} {owns : α → List Nat}

/-- `Free` on the root of a tree destroys the objects of the tree, each once, and returns their entries; the other entries keep their addresses and objects. -/
theorem C121_free {bs S depth : Nat} {p : Pool α} {a : Abs α} (h : Reached bs S p a) (hf : Forest owns a.object depth) (i : Nat) (v : α)
    (hi : a.entries i = some (some v)) (hroot : Root owns a.object i) :
    ∃ q, freeO S owns depth p i = .ok q ∧
      (∀ j, Below owns a.object i j → retrieveFromIndex S q j = .error .assert) ∧
      (∀ j, ¬ Below owns a.object i j → retrieveFromIndex S q j = retrieveFromIndex S p j) ∧
      (∀ j w, ¬ Below owns a.object i j → a.entries j = some (some w) → readAt S q j = .ok w) ∧
      getBlockCount q = getBlockCount p := by
  obtain ⟨rank, h1, h2⟩ := hf.levels
  have r := h.repr
  obtain ⟨q, e, rq⟩ := freeO_ok S bs 0 h.1 rank depth p a i v r.from ⟨hf.object, hf.once, hf.nodup, h1⟩ (object_some.mpr hi) hroot (h2 i)
  have rq' : Repr bs S q (a.without (Below owns a.object i)) := rq.repr r.apart
  refine ⟨q, e, ?_, ?_, ?_, ?_⟩
  · intro j hj
    rw [retrieve_repr rq' h.1]
    simp [Abs.isLive, Abs.without_pos a hj]
  · intro j hj
    rw [retrieve_repr rq' h.1, retrieve_repr r h.1]
    simp only [Abs.isLive, Abs.without_neg a hj, Abs.address]
    rfl
  · intro j w hj hw
    exact readAt_repr rq' h.1 (by rw [Abs.without_neg a hj]; exact hw)
  · simp only [getBlockCount, rq'.len, r.len]
    rfl

/-- If the root of every tree has the least index of its tree, the destructor (and `Clear`) destroys all the objects, each once, before the storage is released. -/
theorem C121_destroy_partial {bs S depth : Nat} {p : Pool α} {a : Abs α} (h : Reached bs S p a) (hobj : ∀ i, a.entries i ≠ some none) (h2 : 2 ≤ bs)
    (hf : Forest owns a.object depth) (hfirst : RootFirst owns a.object) : destructorO S owns depth p = .ok 0 := by
  obtain ⟨rank, h1, h3⟩ := hf.levels
  exact destructorO_ok h2 (fun i => Nat.le_of_lt (h3 i)) h.repr.from
    ⟨⟨hf.object, hf.once, hf.nodup, h1⟩, hfirst, by intro j hj; omega, fun j _ => hobj j⟩

/-- In all other cases the destructor fails: an object that it has destroyed is freed by the destructor of another. -/
theorem C121_destroy_violated {bs S depth : Nat} {p : Pool α} {a : Abs α} (h : Reached bs S p a) (hobj : ∀ i, a.entries i ≠ some none) (h2 : 2 ≤ bs)
    (hf : Forest owns a.object depth) (hfirst : ¬ RootFirst owns a.object) : ∃ e, destructorO S owns depth p = .error e ∧ e ≠ .diverge := by
  obtain ⟨rank, h1, h3⟩ := hf.levels
  rcases destructorO_outcome (S := S) h2 (fun i => Nat.le_of_lt (h3 i)) h.repr.from h1 hobj with hs | he
  · exact absurd (hs.first hf.once h1) hfirst
  · exact he

/-- Objects that own nothing: the model is that of `Free` and of the destructor. -/
theorem C121_owns_nothing {bs S depth : Nat} {p : Pool α} {a : Abs α} (h : Reached bs S p a) (i : Nat) (v : α) (hi : a.entries i = some (some v)) :
    freeO S (fun _ => []) (depth + 1) p i = free S p i := by
  have h0 : (bs != 0) = true := by have := h.1; simp; omega
  obtain ⟨b, q, e1, e2, e3, r⟩ := h.repr.from.destroy h.1 hi
  simp only [freeO, free, destroyWith, h.repr.size, h0, guardUB_true, ok_bind, e1, e2, e3, List.foldlM_nil, pure_ok]

/-! ## Examples: nodes of trees -/

/-- A node is the list of the indices of its children. -/
def node : List Nat → List Nat := id

/-- A root at index 0 that owns 1 and 3, of which 1 owns 2; and a node 4 apart. -/
def tree : List (Op (List Nat)) := [.allocate 9 [1, 3], .allocate 9 [2], .allocate 100 [], .allocate 9 [], .allocate 200 []]

theorem tree_ok : okAll 2 4 tree (.start 1000) := by
  refine ⟨?_, ?_, ?_, ?_, ?_, trivial⟩
  all_goals first
    | (simp only [Op.ok]; show ∀ b ∈ [1000], _; simp [Abs.Apart])
    | (simp only [Op.ok]; show ∀ b ∈ [1000, 100], _; simp [Abs.Apart])

/-- The same nodes, but the root is allocated last. -/
def late : List (Op (List Nat)) := [.allocate 9 [], .allocate 9 [0]]

theorem late_ok : okAll 2 4 late (.start 1000) := by
  refine ⟨?_, ?_, trivial⟩
  all_goals (simp only [Op.ok]; show ∀ b ∈ [1000], _; simp [Abs.Apart])

theorem reach {bs S base : Nat} (hbs : 0 < bs) (os : List (Op α)) (hok : okAll bs S os (.start base)) : ∃ p, Reached bs S p (specAll bs os (.start base)).1 := by
  obtain ⟨p0, p, e0, e, _⟩ := C32_history bs S base hbs os hok
  exact ⟨p, hbs, base, os, p0, _, e0, hok, e, rfl⟩

/-- The objects of `tree`. -/
theorem tree_object (i : Nat) : (specAll 2 tree (.start 1000)).1.object i = [[1, 3], [2], [], [], []][i]? := by
  match i with
  | 0 => rfl
  | 1 => rfl
  | 2 => rfl
  | 3 => rfl
  | 4 => rfl
  | i + 5 => rfl

theorem tree_owns {i j : Nat} (h : Owns node (specAll 2 tree (.start 1000)).1.object i j) : (i = 0 ∧ (j = 1 ∨ j = 3)) ∨ (i = 1 ∧ j = 2) := by
  obtain ⟨v, hv, hj⟩ := h
  rw [tree_object] at hv
  match i, hv with
  | 0, hv => cases hv; simpa [node] using hj
  | 1, hv => cases hv; simpa [node] using hj
  | 2, hv => cases hv; simp [node] at hj
  | 3, hv => cases hv; simp [node] at hj
  | 4, hv => cases hv; simp [node] at hj
  | i + 5, hv => cases hv

theorem tree_forest : Forest node (specAll 2 tree (.start 1000)).1.object 5 := by
  refine ⟨?_, ?_, ?_, fun i => 4 - i, ?_, fun i => by show 4 - i < 5; omega⟩
  · intro i j h
    rcases tree_owns h with ⟨_, rfl | rfl⟩ | ⟨_, rfl⟩
    · exact ⟨[2], rfl⟩
    · exact ⟨[], rfl⟩
    · exact ⟨[], rfl⟩
  · intro i j k h1 h2
    rcases tree_owns h1 with h | h <;> rcases tree_owns h2 with h' | h' <;> omega
  · intro i v hv
    rw [tree_object] at hv
    match i, hv with
    | 0, hv => cases hv; decide
    | 1, hv => cases hv; decide
    | 2, hv => cases hv; decide
    | 3, hv => cases hv; decide
    | 4, hv => cases hv; decide
    | i + 5, hv => cases hv
  · intro i j h
    show 4 - j < 4 - i
    rcases tree_owns h with h | h <;> omega

theorem tree_first : RootFirst node (specAll 2 tree (.start 1000)).1.object := by
  intro r _ j hj
  induction hj with
  | refl => exact Nat.le_refl _
  | step _ h ih => rcases tree_owns h with h | h <;> omega

/-- The hypotheses of `C121_free` and `C121_destroy_partial`. -/
example : ∃ p a, Reached 2 4 p a ∧ (∀ i, a.entries i ≠ some none) ∧ Forest node a.object 5 ∧ RootFirst node a.object ∧ a.entries 0 = some (some [1, 3]) ∧
    Root node a.object 0 ∧ Below node a.object 0 2 := by
  obtain ⟨p, h⟩ := reach (by omega) tree tree_ok
  refine ⟨p, _, h, ?_, tree_forest, tree_first, rfl, ?_, .step (j := 1) (.step .refl ⟨[1, 3], rfl, by simp [node]⟩) ⟨[2], rfl, by simp [node]⟩⟩
  · intro i hi
    have := tree_object i
    rw [object_none.mpr (.inr hi)] at this
    match i, hi, this with
    | i + 5, hi, _ => exact absurd hi (by show (none : Option (Option (List Nat))) ≠ some none; simp)
  · intro j hj
    rcases tree_owns hj with h | h <;> omega

theorem late_object (i : Nat) : (specAll 2 late (.start 1000)).1.object i = [[], [0]][i]? := by
  match i with
  | 0 => rfl
  | 1 => rfl
  | i + 2 => rfl

theorem late_owns {i j : Nat} (h : Owns node (specAll 2 late (.start 1000)).1.object i j) : i = 1 ∧ j = 0 := by
  obtain ⟨v, hv, hj⟩ := h
  rw [late_object] at hv
  match i, hv with
  | 0, hv => cases hv; simp [node] at hj
  | 1, hv => cases hv; simpa [node] using hj
  | i + 2, hv => cases hv

/-- The hypotheses of `C121_destroy_violated`: a tree whose leaf was allocated before its root. -/
example : ∃ p a, Reached 2 4 p a ∧ (∀ i, a.entries i ≠ some none) ∧ Forest node a.object 2 ∧ ¬ RootFirst node a.object := by
  obtain ⟨p, h⟩ := reach (by omega) late late_ok
  refine ⟨p, _, h, ?_, ⟨?_, ?_, ?_, fun i => if i = 1 then 1 else 0, ?_, ?_⟩, ?_⟩
  · intro i hi
    have := late_object i
    rw [object_none.mpr (.inr hi)] at this
    match i, hi, this with
    | i + 2, hi, _ => exact absurd hi (by show (none : Option (Option (List Nat))) ≠ some none; simp)
  · intro i j h
    obtain ⟨_, rfl⟩ := late_owns h
    exact ⟨[], rfl⟩
  · intro i j k h1 h2
    have := late_owns h1
    have := late_owns h2
    omega
  · intro i v hv
    rw [late_object] at hv
    match i, hv with
    | 0, hv => cases hv; decide
    | 1, hv => cases hv; decide
    | i + 2, hv => cases hv
  · intro i j h
    obtain ⟨rfl, rfl⟩ := late_owns h
    decide
  · intro i
    show (if i = 1 then 1 else 0) < 2
    split <;> omega
  · intro hf
    have := hf 1 (by intro j hj; have := late_owns hj; omega) 0 (.step .refl ⟨[0], rfl, by simp [node]⟩)
    omega

end Verif.MemoryPool
