import Verif.EnumArray.Spec
import Mathlib.Tactic.Ring
import Mathlib.Tactic.Linarith

/-!
# Property theorems for `EnumArray` (C56)
-/

namespace Verif.EnumArray

open Verif.Cpp

variable {V : Type}

theorem toSizeT_nat {e : Int} (h : 0 ≤ e) (h' : e < 2 ^ 64) : toSizeT e = e.toNat := by
  unfold toSizeT; rw [Int.emod_eq_of_lt h h']

theorem inRange_lt {E : Enum} (h : E.width ≤ 64) {e : Int} (he : E.InRange e) : e < 2 ^ 64 := by
  unfold Enum.InRange at he
  have h1 : (2 : Int) ^ E.width ≤ 2 ^ 64 := by exact_mod_cast Nat.pow_le_pow_right (by decide) h
  have h2 : (2 : Int) ^ (E.width - 1) ≤ 2 ^ 64 := by exact_mod_cast Nat.pow_le_pow_right (by decide) (by omega)
  split at he <;> omega

/-- A value of the enumeration stays itself when it is made from its index. -/
theorem ofIndex_self {E : Enum} (h0 : 1 ≤ E.width) {e : Int} (h : 0 ≤ e) (he : E.InRange e) : E.ofIndex e = e := by
  unfold Enum.ofIndex; unfold Enum.InRange at he
  have hp : (2 : Int) ^ E.width = 2 * 2 ^ (E.width - 1) := by
    conv_lhs => rw [show E.width = E.width - 1 + 1 by omega]
    rw [pow_succ]; ring
  have hp' : ((2 ^ E.width : Nat) : Int) = 2 ^ E.width := by push_cast; rfl
  split
  · rename_i hs
    rw [if_pos hs] at he
    rw [Int.bmod_def, hp', Int.emod_eq_of_lt h (by omega)]
    rw [if_pos (by omega)]
  · rename_i hs
    rw [if_neg hs] at he
    exact Int.emod_eq_of_lt h he.2

theorem inRange_mono {E : Enum} {e e' : Int} (he : E.InRange e) (h0 : 0 ≤ e') (h : e' ≤ e) : E.InRange e' := by
  unfold Enum.InRange at he ⊢
  have : (0 : Int) < 2 ^ (E.width - 1) := by positivity
  split <;> rename_i hs
  · rw [if_pos hs] at he; omega
  · rw [if_neg hs] at he; omega

/-- The size is the number of values; the values are the indices. -/
theorem has_iff {E : Enum} {B : Bound} (hB : B.Declared E) (e : Int) : B.Has e ↔ 0 ≤ e ∧ e < valueCount B := by
  obtain ⟨_, h64, hB⟩ := hB
  cases B with
  | count c =>
    have := inRange_lt h64 hB.1
    simp only [Bound.Has, valueCount]
    rw [toSizeT_nat hB.2 this]; omega
  | max m =>
    simp only [Bound.Has, valueCount]
    rw [toSizeT_nat hB.2.1 (by omega), Nat.mod_eq_of_lt (by omega)]; omega

theorem has_inRange {E : Enum} {B : Bound} (hB : B.Declared E) {e : Int} (h : B.Has e) : E.InRange e := by
  obtain ⟨_, h64, hB⟩ := hB
  cases B with
  | count c => exact inRange_mono hB.1 h.1 (le_of_lt h.2)
  | max m => exact inRange_mono hB.1 h.1 h.2

theorem get_ok {E : Enum} {B : Bound} (hB : B.Declared E) {a : List V} (ha : a.length = valueCount B) {e : Int} (h : B.Has e) :
    ∃ hl : e.toNat < a.length, get a e = .ok a[e.toNat] := by
  have hi := (has_iff hB e).1 h
  have hl : e.toNat < a.length := by omega
  refine ⟨hl, ?_⟩
  unfold get
  rw [toSizeT_nat hi.1 (inRange_lt hB.2.1 (has_inRange hB h)), rd_ok hl]

theorem set_ok {E : Enum} {B : Bound} (hB : B.Declared E) {a : List V} (ha : a.length = valueCount B) {e : Int} (h : B.Has e) (v : V) :
    set a e v = .ok (a.set e.toNat v) := by
  have hi := (has_iff hB e).1 h
  unfold set
  rw [toSizeT_nat hi.1 (inRange_lt hB.2.1 (has_inRange hB h)), wr_ok (by omega)]

/-- The array has one element for each value of the enumeration: their number is the size. -/
theorem C56_size {E : Enum} {B : Bound} (hB : B.Declared E) (e : Int) : B.Has e ↔ 0 ≤ e ∧ e < valueCount B := has_iff hB e

/-- **C56** Every enumerator has its element.  It can be written: it then has the new value, and the elements of all other enumerators are
unchanged. -/
theorem C56_map {E : Enum} {B : Bound} (hB : B.Declared E) {a : List V} (ha : a.length = valueCount B) {e : Int} (h : B.Has e) (v : V) :
    (∃ old, get a e = .ok old) ∧
    ∃ a', set a e v = .ok a' ∧ a'.length = valueCount B ∧ get a' e = .ok v ∧ ∀ e', B.Has e' → e' ≠ e → get a' e' = get a e' := by
  obtain ⟨hl, hg⟩ := get_ok hB ha h
  refine ⟨⟨_, hg⟩, a.set e.toNat v, set_ok hB ha h v, by simp [ha], ?_, ?_⟩
  · obtain ⟨hl', hg'⟩ := get_ok hB (a := a.set e.toNat v) (by simp [ha]) h
    rw [hg']; simp
  · intro e' h' hne
    obtain ⟨hl', hg'⟩ := get_ok hB (a := a.set e.toNat v) (by simp [ha]) h'
    obtain ⟨hl2, hg2⟩ := get_ok hB ha h'
    have h1 := (has_iff hB e).1 h
    have h2 := (has_iff hB e').1 h'
    rw [hg', hg2, List.getElem_set_ne (by omega)]

/-- **C56** Two arrays with equal elements at every enumerator are equal: the enumerators reach the whole array. -/
theorem C56_ext {E : Enum} {B : Bound} (hB : B.Declared E) {a a' : List V} (ha : a.length = valueCount B) (ha' : a'.length = valueCount B)
    (h : ∀ e, B.Has e → get a e = get a' e) : a = a' := by
  apply List.ext_getElem (by omega)
  intro i h1 h2
  have hi : B.Has (i : Int) := (has_iff hB _).2 ⟨by omega, by omega⟩
  obtain ⟨_, hg⟩ := get_ok hB ha hi
  obtain ⟨_, hg'⟩ := get_ok hB ha' hi
  have := h _ hi
  rw [hg, hg'] at this
  simpa using this

/-- Where the full claim fails: an enumeration of signed type may have negative values.  They have no element: using one is undefined. -/
theorem C56_negative_violated {a : List V} (hsize : a.length ≤ 2 ^ 63) {e : Int} (hneg : e < 0) (he : -2 ^ 63 ≤ e) (v : V) :
    get a e = .error .ub ∧ set a e v = .error .ub := by
  have : 2 ^ 63 ≤ toSizeT e := by unfold toSizeT; omega
  exact ⟨rd_ub (by omega), by unfold set wr; rw [if_neg (by omega)]⟩

/-! ### Iterators -/

theorem deref_ok {E : Enum} {B : Bound} (hB : B.Declared E) {a : List V} (ha : a.length = valueCount B) {it : Iter} (h : B.Has it.index) :
    ∃ v, get a it.index = .ok v ∧ it.deref E a = .ok (it.index, v) := by
  obtain ⟨hl, hg⟩ := get_ok hB ha h
  refine ⟨_, hg, ?_⟩
  have h0 := (has_iff hB _).1 h
  unfold Iter.deref
  rw [ofIndex_self hB.1 h0.1 (has_inRange hB h)]
  simp [hg]

/-- **C56** After any moves from the beginning, the iterator is at the sum of the moves.  If this is a value of the enumeration, `*it` is that
value with its element; `it[n]` is the value `n` further with its element.  A postfix move returns the iterator before the move, all others
the iterator after it. -/
theorem C56_iterator {E : Enum} {B : Bound} (hB : B.Declared E) {a : List V} (ha : a.length = valueCount B) (i : Nat) (ms : List Move) :
    runMoves ms (begin i) = ⟨i, (ms.map Move.delta).sum⟩ ∧
    (B.Has (ms.map Move.delta).sum → ∃ v, get a (ms.map Move.delta).sum = .ok v ∧ (runMoves ms (begin i)).deref E a = .ok ((ms.map Move.delta).sum, v)) ∧
    (∀ n, B.Has ((ms.map Move.delta).sum + n) → ∃ v, get a ((ms.map Move.delta).sum + n) = .ok v ∧
      (runMoves ms (begin i)).at' E a n = .ok ((ms.map Move.delta).sum + n, v)) ∧
    (∀ m : Move, (m.run (runMoves ms (begin i))).1 = if m.returnsOld then runMoves ms (begin i) else runMoves (ms ++ [m]) (begin i)) := by
  have key : ∀ (ms : List Move) (it : Iter), runMoves ms it = ⟨it.array, it.index + (ms.map Move.delta).sum⟩ := by
    intro ms
    induction ms with
    | nil => intro it; simp [runMoves]
    | cons m ms ih =>
      intro it
      rw [runMoves, ih]
      cases m <;> simp [Move.run, Move.delta, Iter.inc, Iter.dec, Iter.postInc, Iter.postDec, Iter.addAssign, Iter.subAssign] <;> omega
  have h0 : runMoves ms (begin i) = ⟨i, (ms.map Move.delta).sum⟩ := by rw [key]; simp [begin]
  refine ⟨h0, ?_, ?_, ?_⟩
  · intro h
    rw [h0]
    exact deref_ok hB ha (it := ⟨i, _⟩) h
  · intro n h
    rw [h0]
    obtain ⟨hl, hg⟩ := get_ok hB ha h
    refine ⟨_, hg, ?_⟩
    have h1 := (has_iff hB _).1 h
    unfold Iter.at'
    rw [ofIndex_self hB.1 h1.1 (has_inRange hB h)]
    simp [hg]
  · intro m
    rw [key (ms ++ [m]), h0]
    cases m <;> simp [Move.run, Move.delta, Move.returnsOld, Iter.inc, Iter.dec, Iter.postInc, Iter.postDec, Iter.addAssign, Iter.subAssign, begin] <;>
      omega

/-- **C56** Iterators of the same array compare like their positions; iterators of different arrays are reported. -/
theorem C56_compare (x y : Iter) :
    (x.array = y.array →
      x.eq y = .ok (decide (x.index = y.index)) ∧ x.ne y = .ok (decide (x.index ≠ y.index)) ∧ x.lt y = .ok (decide (x.index < y.index)) ∧
      x.le y = .ok (decide (x.index ≤ y.index)) ∧ x.gt y = .ok (decide (y.index < x.index)) ∧ x.ge y = .ok (decide (y.index ≤ x.index))) ∧
    (x.array ≠ y.array →
      x.eq y = .error .assert ∧ x.ne y = .error .assert ∧ x.lt y = .error .assert ∧
      x.le y = .error .assert ∧ x.gt y = .error .assert ∧ x.ge y = .error .assert) := by
  constructor
  · intro h
    simp only [Iter.eq, Iter.ne, Iter.lt, Iter.le, Iter.gt, Iter.ge, h, beq_self_eq_true, assert_true, ok_bind, pure_ok]
    refine ⟨?_, ?_, trivial, trivial, trivial, trivial⟩ <;> by_cases hi : x.index = y.index <;> simp [hi]
  · intro h
    have : (x.array == y.array) = false := by simpa using h
    simp only [Iter.eq, Iter.ne, Iter.lt, Iter.le, Iter.gt, Iter.ge, this, assert_false, err_bind, and_self]

theorem ne_end {a : List V} {i : Nat} {k : Nat} : (⟨i, k⟩ : Iter).ne (end' i a) = .ok (decide (k ≠ a.length)) := by
  rw [((C56_compare (⟨i, k⟩ : Iter) (end' i a)).1 rfl).2.1]; simp [end']

/-- The pairs an iteration has to visit from index `k` on: every value once, in order, with its element. -/
theorem visit_from {E : Enum} {B : Bound} (hB : B.Declared E) {a : List V} (ha : a.length = valueCount B) :
    ∀ (n k : Nat) (fuel : Nat), k + n = a.length → n < fuel →
      ∃ kvs, visit E a (end' 0 a) fuel ⟨0, k⟩ = .ok kvs ∧ kvs.map Prod.fst = (List.range' k n).map (Int.ofNat ·) ∧
        ∀ kv ∈ kvs, get a kv.1 = .ok kv.2 := by
  intro n
  induction n with
  | zero =>
    intro k fuel hk hf
    obtain ⟨fuel, rfl⟩ : ∃ f, fuel = f + 1 := ⟨fuel - 1, by omega⟩
    refine ⟨[], ?_, by simp, by simp⟩
    unfold visit
    rw [ne_end]
    simp [show k = a.length by omega]
  | succ n ih =>
    intro k fuel hk hf
    obtain ⟨fuel, rfl⟩ : ∃ f, fuel = f + 1 := ⟨fuel - 1, by omega⟩
    obtain ⟨kvs, h1, h2, h3⟩ := ih (k + 1) fuel (by omega) (by omega)
    have hh : B.Has (k : Int) := (has_iff hB _).2 ⟨by omega, by omega⟩
    obtain ⟨v, hv, hd⟩ := deref_ok hB ha (it := ⟨0, k⟩) hh
    refine ⟨((k : Int), v) :: kvs, ?_, ?_, ?_⟩
    · have h1' : visit E a (end' 0 a) fuel ⟨0, (k : Int) + 1⟩ = .ok kvs := by rw [← h1]; congr 1
      unfold visit
      rw [ne_end]
      simp [show k ≠ a.length by omega, hd, Iter.inc, h1']
    · simp [List.range'_succ, h2]
    · intro kv hkv
      rcases List.mem_cons.1 hkv with rfl | hkv
      · exact hv
      · exact h3 kv hkv

/-- **C56** Key-value iteration ends, and visits every value of the enumeration once, in increasing order, each with its element. -/
theorem C56_visit {E : Enum} {B : Bound} (hB : B.Declared E) {a : List V} (ha : a.length = valueCount B) {fuel : Nat} (hf : a.length < fuel) :
    ∃ kvs, visitAll E a fuel = .ok kvs ∧ (kvs.map Prod.fst).Pairwise (· < ·) ∧ (∀ e, e ∈ kvs.map Prod.fst ↔ B.Has e) ∧
      ∀ kv ∈ kvs, get a kv.1 = .ok kv.2 := by
  obtain ⟨kvs, h1, h2, h3⟩ := visit_from hB ha a.length 0 fuel (by omega) hf
  refine ⟨kvs, h1, ?_, ?_, h3⟩
  · rw [h2, List.pairwise_map]
    exact (List.pairwise_lt_range').imp (fun h => by simpa using h)
  · intro e
    rw [h2, has_iff hB, ← ha]
    simp only [List.mem_map, List.mem_range'_1]
    constructor
    · rintro ⟨i, hi, rfl⟩; simp; omega
    · rintro ⟨h, h'⟩; exact ⟨e.toNat, by omega, by simp; omega⟩

theorem update_from {E : Enum} {B : Bound} (hB : B.Declared E) (f : Int → V → V) {a0 : List V} (ha0 : a0.length = valueCount B) :
    ∀ (n k : Nat) (fuel : Nat) (a : List V), a.length = valueCount B → k + n = a.length → n < fuel →
      ∃ a', updateFrom E f (end' 0 a0) fuel ⟨0, k⟩ a = .ok a' ∧ a'.length = valueCount B ∧
        ∀ e, B.Has e → ∃ v, get a e = .ok v ∧ get a' e = .ok (if (k : Int) ≤ e then f e v else v) := by
  intro n
  induction n with
  | zero =>
    intro k fuel a ha hk hf
    obtain ⟨fuel, rfl⟩ : ∃ f, fuel = f + 1 := ⟨fuel - 1, by omega⟩
    refine ⟨a, ?_, ha, ?_⟩
    · unfold updateFrom
      rw [ne_end]
      simp [show k = a0.length by omega]
    · intro e he
      obtain ⟨_, hg⟩ := get_ok hB ha he
      have := (has_iff hB e).1 he
      exact ⟨_, hg, by rw [if_neg (by omega)]; exact hg⟩
  | succ n ih =>
    intro k fuel a ha hk hf
    obtain ⟨fuel, rfl⟩ : ∃ f, fuel = f + 1 := ⟨fuel - 1, by omega⟩
    have hh : B.Has (k : Int) := (has_iff hB _).2 ⟨by omega, by omega⟩
    obtain ⟨v, hv, hd⟩ := deref_ok hB ha (it := ⟨0, k⟩) hh
    obtain ⟨_, a1, hs, hl, hg1, hg2⟩ := C56_map hB ha hh (f k v)
    have hs' : (⟨0, k⟩ : Iter).assign E a (f k v) = .ok a1 := by
      unfold Iter.assign
      dsimp only
      rw [ofIndex_self hB.1 (by omega) (has_inRange hB hh), hs]
    obtain ⟨a', h1, h2, h3⟩ := ih (k + 1) fuel a1 hl (by omega) (by omega)
    refine ⟨a', ?_, h2, ?_⟩
    · have h1' : updateFrom E f (end' 0 a0) fuel ⟨0, (k : Int) + 1⟩ a1 = .ok a' := by rw [← h1]; congr 1
      unfold updateFrom
      rw [ne_end]
      simp [show k ≠ a0.length by omega, hd, hs', Iter.inc, h1']
    · intro e he
      obtain ⟨w, hw, hw'⟩ := h3 e he
      by_cases hek : e = k
      · subst hek
        refine ⟨v, hv, ?_⟩
        rw [hg1] at hw
        injection hw with hw
        rw [hw', if_neg (by push_cast; omega), if_pos (le_refl _), hw]
      · refine ⟨w, by rw [← hg2 e he hek, hw], ?_⟩
        rw [hw']
        by_cases hke : (k : Int) ≤ e
        · rw [if_pos (by push_cast; omega), if_pos hke]
        · rw [if_neg (by push_cast; omega), if_neg hke]

/-- **C56** Assigning to the element through key-value iteration changes every element, each once and with its own key. -/
theorem C56_update {E : Enum} {B : Bound} (hB : B.Declared E) {a : List V} (ha : a.length = valueCount B) (f : Int → V → V) {fuel : Nat}
    (hf : a.length < fuel) :
    ∃ a', updateAll E a f fuel = .ok a' ∧ a'.length = valueCount B ∧ ∀ e, B.Has e → ∃ v, get a e = .ok v ∧ get a' e = .ok (f e v) := by
  obtain ⟨a', h1, h2, h3⟩ := update_from hB f ha a.length 0 fuel a ha (by omega) hf
  refine ⟨a', h1, h2, ?_⟩
  intro e he
  obtain ⟨v, hv, hv'⟩ := h3 e he
  have := (has_iff hB e).1 he
  exact ⟨v, hv, by rw [hv', if_pos (by push_cast; omega)]⟩

/-! ### The hypotheses hold -/

/-- `enum class E : Int8 { A, B, C, Max = C };` -/
example : (Bound.max 2).Declared ⟨true, 8⟩ ∧ ["a", "b", "c"].length = valueCount (.max 2) ∧ (Bound.max 2).Has 2 := by
  refine ⟨⟨by decide, by decide, ?_⟩, by decide, by simp [Bound.Has]⟩
  simp [Enum.InRange]

/-- `enum class E : UInt8 { …, Max = 255 };`: the widest range of the type -/
example : (Bound.max 255).Declared ⟨false, 8⟩ ∧ (List.replicate 256 ()).length = valueCount (.max 255) := by
  refine ⟨⟨by decide, by decide, ?_⟩, by rw [List.length_replicate]; decide⟩
  simp [Enum.InRange]

example : visitAll ⟨true, 8⟩ ["a", "b", "c"] 4 = .ok [(0, "a"), (1, "b"), (2, "c")] := by rfl

end Verif.EnumArray
