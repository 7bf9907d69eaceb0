import Verif.Bitset.PropsAppend

/-!
# C59, C60, C61: iterator increments, moved-from bitsets, capacity of `FixedBitset`
-/

namespace Verif.Bitset
open Verif.Cpp

variable {w : Nat}

/-! ### C59 -/

/-- What `it++` has to do on an iterator at a set bit: return the old position and leave the iterator at the next one. -/
def IsPostIncrement (b : Bitset w) (pos : Nat) (r : M (Option Nat × Option Nat)) : Prop :=
  ∃ next, preIncrement b pos = .ok next ∧ r = .ok (next, some pos)

/-- C59 is false on every bitset and at every set bit: `it++` never moves the iterator, so that a loop with `it++` does not end. -/
theorem C59_postIncrement_violated (h : MathUtils.IsWidth w) {b : Bitset w} (hb : Reachable b) (pos : Nat) (hp : pos < getSize b) :
    (∃ r, postIncrement b pos = .ok (some pos, r)) ∧ ¬ IsPostIncrement b pos (postIncrement b pos) := by
  have wf := hb.wf (.of_isWidth h)
  obtain ⟨r, e, h1, _⟩ := findNext_ok h b wf pos hp
  have e' : postIncrement b pos = .ok (some pos, r) := by simp [postIncrement, preIncrement, e]
  refine ⟨⟨r, e'⟩, ?_⟩
  rintro ⟨next, hn, hr⟩
  rw [e'] at hr
  injection hr with hr
  injection hr with a1 a2
  have := h1 pos a2
  omega

/-- C59, the part that holds: `++it` moves the iterator to the next set bit (`C04_findNext`) and returns it, and `it++` returns what `++it` would. -/
theorem C59_preIncrement_partial (h : MathUtils.IsWidth w) {b : Bitset w} (hb : Reachable b) {l : List Bool} (hl : Shows b l) (pos : Nat) (hp : pos < l.length) :
    ∃ r, preIncrement b pos = .ok r ∧ IsFirstSet l (pos + 1) r ∧ postIncrement b pos = .ok (some pos, r) := by
  obtain ⟨r, e, hr⟩ := C04_findNext h hb hl pos hp
  exact ⟨r, e, hr, by simp [postIncrement, preIncrement, e]⟩

/-! ### C60 -/

/-- C60, the part that holds: the target of the move is the old bitset, and the source is as new after `Clear`, after an assignment, and
after `Resize` to zero. -/
theorem C60_move_partial (h : IsBlockWidth w) (b : Bitset w) :
    (moveConstruct b).1 = b ∧ clear (moveConstruct b).2 = empty ∧ resize (moveConstruct b).2 0 false = .ok empty := by
  refine ⟨rfl, rfl, ?_⟩
  simp [moveConstruct, resize, resetExtraBits, computeBlockCount_eq h, nb_zero, vresize, empty]

/-- C60 is false: the source of a move of a non-empty bitset keeps its size without its blocks, so that `Test`, `Set` and `FindNext` of an
index that passes their assertion access memory out of bounds. -/
theorem C60_moved_from_violated (h : IsBlockWidth w) (b : Bitset w) (i : Nat) (hi : i < getSize b) (v : Bool) :
    getSize (moveConstruct b).2 = getSize b ∧ test (moveConstruct b).2 i = .error .ub ∧ set (moveConstruct b).2 i v = .error .ub ∧
    (i + 1 < getSize b → findNext (moveConstruct b).2 i = .error .ub) := by
  have _ := h
  have hi' : i < b.bitCount := hi
  refine ⟨rfl, ?_, ?_, ?_⟩
  · simp [moveConstruct, test, hi', rd]
  · simp [moveConstruct, set, hi', rd]
  · intro h1
    have h1' : ¬ b.bitCount ≤ i + 1 := by unfold getSize at h1; omega
    simp [moveConstruct, findNext, hi', h1', rd]

/-! ### C61 -/

/-- C61: a bitset of at most `Capacity` bits never has more blocks than the vector of a `FixedBitset<Block, Capacity>` can hold,
Bitset.hpp:146-147, for blocks of 8 bits or more. -/
theorem C61_capacity (h : IsBlockWidth w) (hw : 8 ≤ w) {b : Bitset w} (hb : Reachable b) (capacity : Nat) (hc : getSize b ≤ capacity) :
    getBlockCount b ≤ (capacity + 7) / 8 := by
  rw [C02_blockCount h hb]
  have h1 : (getSize b + w - 1) / w ≤ (capacity + w - 1) / w := Nat.div_le_div_right (by omega)
  refine Nat.le_trans h1 ?_
  rw [← nb_eq_ceil h.pos, Nat.le_div_iff_mul_le (by omega)]
  have h2 := mul_nb_lt h.pos capacity
  have h3 := Nat.mul_le_mul_right (nb w capacity) hw
  by_cases h0 : nb w capacity ≤ 1
  · by_cases hz : capacity = 0
    · subst hz; rw [nb_zero]; omega
    · omega
  · -- w * (n - 1) < capacity, so 8 * (n - 1) < capacity
    obtain ⟨n, hn⟩ : ∃ n, nb w capacity = n + 1 := ⟨nb w capacity - 1, by omega⟩
    rw [hn, Nat.mul_succ] at h2
    rw [hn]
    have h4 := Nat.mul_le_mul_right n hw
    omega

/-- C61: some capacities are met with equality (8-bit blocks). -/
example : ∃ b : Bitset 8, Reachable b ∧ getSize b = 11 ∧ getBlockCount b = (11 + 7) / 8 := by
  obtain ⟨b, rb, sb⟩ := C01_reachable_all (w := 8) IsBlockWidth.std.1 (List.replicate 11 true)
  refine ⟨b, rb, by simpa using sb.1, ?_⟩
  rw [C02_blockCount IsBlockWidth.std.1 rb, sb.1]
  simp

end Verif.Bitset
