import Verif.Bitset.PropsHistory

/-!
# C02-C06: observers
-/

namespace Verif.Bitset
open Verif.Cpp

variable {w : Nat}

/-- The reachable 8-bit-block bitset used to show that hypotheses can be met: 11 bits, bits 0, 2, 3 and 10 set. -/
def sample : M (Bitset 8) := ofString "10000001101".toList

theorem sample_reachable : ∃ b, sample = .ok b ∧ Reachable b ∧ Shows b (Seq.ofString "10000001101".toList) := by
  have hv : ValidHistory (w := 8) (fun _ => []) [.ofString 0 "10000001101".toList] := by
    simp only [ValidHistory, Op.Valid]; decide
  obtain ⟨σ, e, hσ⟩ := C01_history IsBlockWidth.std.1 _ hv
  refine ⟨σ 0, ?_, ⟨_, σ, 0, hv, e, rfl⟩, hσ 0⟩
  simp only [run, Op.exec, Op.result] at e
  unfold sample
  cases hs : (ofString "10000001101".toList : M (Bitset 8)) with
  | error x => rw [hs] at e; simp at e
  | ok b =>
    rw [hs] at e
    simp only [ok_bind, pure_ok] at e
    injection e with e
    rw [← e]
    rfl

/-! ### C02 -/

/-- C02: `Count` is the number of set bits. -/
theorem C02_count (h : IsBlockWidth w) {b : Bitset w} (hb : Reachable b) {l : List Bool} (hl : Shows b l) :
    count b = .ok (l.count true) := by
  have hL := hb.hasL h hl
  rw [count_ok h b hL.wf]
  congr 1
  rw [hL.size, List.count_eq_countP]
  have : l = (List.range l.length).map (fun i => l.getD i false) := by
    apply List.ext_getElem (by simp)
    intro i h1 h2
    rw [List.getElem_map, List.getElem_range, getD_lt h1]
  conv => rhs; rw [this, List.countP_map]
  apply List.countP_congr
  intro i _
  simp [hL.bit]

/-- C02: `TestAny`, `TestNone`, `TestAll`. -/
theorem C02_tests (h : IsBlockWidth w) {b : Bitset w} (hb : Reachable b) {l : List Bool} (hl : Shows b l) :
    testAny b = .ok (l.any id) ∧ testNone b = .ok (!l.any id) ∧ testAll b = .ok (l.all id) := by
  have hL := hb.hasL h hl
  obtain ⟨r, e, hr⟩ := testAny_ok h.pos b
  obtain ⟨s, e', hs⟩ := testAll_ok h b hL.wf
  have hany : r = l.any id := by
    rw [Bool.eq_iff_iff, hr, List.any_eq_true]
    constructor
    · rintro ⟨i, hi⟩
      rw [hL.bit] at hi
      have hlt : i < l.length := by
        by_contra hge
        rw [getD_ge (by omega)] at hi
        exact absurd hi (by simp)
      rw [getD_lt hlt] at hi
      exact ⟨l[i], List.getElem_mem hlt, hi⟩
    · rintro ⟨x, hx, hx'⟩
      obtain ⟨i, hi, rfl⟩ := List.getElem_of_mem hx
      exact ⟨i, by rw [hL.bit, getD_lt hi]; exact hx'⟩
  have hall : s = l.all id := by
    rw [Bool.eq_iff_iff, hs, List.all_eq_true, hL.size]
    constructor
    · intro ha x hx
      obtain ⟨i, hi, rfl⟩ := List.getElem_of_mem hx
      have := ha i hi
      rw [hL.bit, getD_lt hi] at this
      exact this
    · intro ha i hi
      rw [hL.bit, getD_lt hi]
      exact ha _ (List.getElem_mem hi)
  subst hany hall
  exact ⟨e, by simp [testNone, e], e'⟩

/-- C02: the block count is the size divided by the block width, rounded up. -/
theorem C02_blockCount (h : IsBlockWidth w) {b : Bitset w} (hb : Reachable b) : getBlockCount b = (getSize b + w - 1) / w := by
  rw [← nb_eq_ceil h.pos]
  exact (hb.wf h).len

/-- C02: `GetBlock` shows the bits of its block. -/
theorem C02_getBlock (h : IsBlockWidth w) {b : Bitset w} (hb : Reachable b) {l : List Bool} (hl : Shows b l) (k : Nat) (hk : k < getBlockCount b) :
    ∃ x, getBlock b k = .ok x ∧ ∀ j, j < w → x.getLsbD j = l.getD (w * k + j) false := by
  have hL := hb.hasL h hl
  refine ⟨_, getBlock_ok b hk, ?_⟩
  intro j hj
  rw [← hL.bit, bitAt_mk h.pos _ _ _ hj]

/-- C02: `Intersects` holds exactly when some index is set in both. -/
theorem C02_intersects (h : IsBlockWidth w) {a b : Bitset w} (ha : Reachable a) (hb : Reachable b) {l m : List Bool} (hl : Shows a l) (hm : Shows b m) :
    ∃ r, intersects a b = .ok r ∧ (r = true ↔ ∃ i, l.getD i false = true ∧ m.getD i false = true) := by
  obtain ⟨r, e, hr⟩ := intersects_ok h.pos a b
  refine ⟨r, e, ?_⟩
  rw [hr]
  simp only [(ha.hasL h hl).bit, (hb.hasL h hm).bit]

/-! ### C03 -/

/-- C03: `==` holds exactly when the two bitsets agree on every index, a bitset being false past its end. -/
theorem C03_equals (h : IsBlockWidth w) {a b : Bitset w} (ha : Reachable a) (hb : Reachable b) {l m : List Bool} (hl : Shows a l) (hm : Shows b m) :
    ∃ r, equals a b = .ok r ∧ (r = true ↔ ∀ i, l.getD i false = m.getD i false) := by
  obtain ⟨r, e, hr⟩ := equals_ok h.pos a b
  refine ⟨r, e, ?_⟩
  rw [hr]
  simp only [(ha.hasL h hl).bit, (hb.hasL h hm).bit]

/-- C03: `!=` is the negation of `==`. -/
theorem C03_notEquals (h : IsBlockWidth w) (a b : Bitset w) : ∃ r, equals a b = .ok r ∧ notEquals a b = .ok (!r) := by
  obtain ⟨r, e, _⟩ := equals_ok h.pos a b
  exact ⟨r, e, by simp [notEquals, e]⟩

/-- C03: `==` is reflexive, symmetric and transitive. -/
theorem C03_equivalence (h : IsBlockWidth w) (a b c : Bitset w) :
    equals a a = .ok true ∧ equals a b = equals b a ∧ (equals a b = .ok true → equals b c = .ok true → equals a c = .ok true) := by
  obtain ⟨r1, e1, h1⟩ := equals_ok h.pos a a
  obtain ⟨r2, e2, h2⟩ := equals_ok h.pos a b
  obtain ⟨r3, e3, h3⟩ := equals_ok h.pos b a
  obtain ⟨r4, e4, h4⟩ := equals_ok h.pos b c
  obtain ⟨r5, e5, h5⟩ := equals_ok h.pos a c
  refine ⟨?_, ?_, ?_⟩
  · rw [e1, h1.mpr (fun _ => rfl)]
  · rw [e2, e3]
    congr 1
    rw [Bool.eq_iff_iff, h2, h3]
    exact ⟨fun h i => (h i).symm, fun h i => (h i).symm⟩
  · rw [e2, e4, e5]
    intro a1 a2
    injection a1 with a1
    injection a2 with a2
    congr 1
    rw [h5]
    intro i
    rw [h2.mp a1 i, h4.mp a2 i]

/-- Equal bitsets of different sizes exist: 3 and 20 zero bits after the same bit. -/
example : ∃ a b : Bitset 8, ofString "001".toList = .ok a ∧ ofString "00000000000000000001".toList = .ok b ∧ equals a b = .ok true :=
  ⟨⟨[1#8], 3⟩, ⟨[1#8, 0#8, 0#8], 20⟩, by decide, by decide, by decide⟩

/-! ### C04 -/

/-- `r` is the least index from `k` on whose boolean is true, or none. -/
def IsFirstSet (l : List Bool) (k : Nat) (r : Option Nat) : Prop :=
  (r = none ∧ ∀ i, k ≤ i → l.getD i false = false) ∨
  ∃ i, r = some i ∧ k ≤ i ∧ l.getD i false = true ∧ ∀ j, k ≤ j → j < i → l.getD j false = false

/-- C04: `FindFirst` returns the least set index, or `npos`. -/
theorem C04_findFirst (h : MathUtils.IsWidth w) {b : Bitset w} (hb : Reachable b) {l : List Bool} (hl : Shows b l) :
    ∃ r, findFirst b = .ok r ∧ IsFirstSet l 0 r := by
  have hL := hb.hasL (.of_isWidth h) hl
  obtain ⟨r, e, h1, h2⟩ := findFirstFrom_ok h b 0
  refine ⟨r, e, ?_⟩
  simp only [Nat.mul_zero, hL.bit] at h1 h2
  cases r with
  | none => exact Or.inl ⟨rfl, h2 rfl⟩
  | some i => exact Or.inr ⟨i, rfl, h1 i rfl⟩

/-- C04: `FindNext(k)` returns the least set index greater than `k`, or `npos`. -/
theorem C04_findNext (h : MathUtils.IsWidth w) {b : Bitset w} (hb : Reachable b) {l : List Bool} (hl : Shows b l) (k : Nat) (hk : k < l.length) :
    ∃ r, findNext b k = .ok r ∧ IsFirstSet l (k + 1) r := by
  have hL := hb.hasL (.of_isWidth h) hl
  obtain ⟨r, e, h1, h2⟩ := findNext_ok h b hL.wf k (by rw [hL.size]; exact hk)
  refine ⟨r, e, ?_⟩
  simp only [hL.bit] at h1 h2
  cases r with
  | none => exact Or.inl ⟨rfl, h2 rfl⟩
  | some i => exact Or.inr ⟨i, rfl, h1 i rfl⟩

/-- C04: iteration over `IterBits()` ends and yields the set indices, each once, in increasing order. -/
theorem C04_iterBits (h : MathUtils.IsWidth w) {b : Bitset w} (hb : Reachable b) {l : List Bool} (hl : Shows b l) :
    ∃ steps, ∀ fuel, steps ≤ fuel → iterBits b fuel = .ok ((List.range l.length).filter (fun i => l.getD i false)) := by
  have hL := hb.hasL (.of_isWidth h) hl
  refine ⟨l.length + 1, fun fuel hf => ?_⟩
  have e : bitAt b.blocks = fun i => l.getD i false := funext hL.bit
  have := iterBits_ok h b hL.wf fuel (by
    have := List.length_filter_le (bitAt b.blocks) (List.range b.bitCount)
    rw [List.length_range, hL.size] at this
    rw [hL.size]
    omega)
  rwa [hL.size, e] at this

example : ∃ b, sample = .ok b ∧ iterBits b 5 = .ok [0, 2, 3, 10] := ⟨⟨[0x0D#8, 0x04#8], 11⟩, by decide, by decide +kernel⟩

/-! ### C05 -/

/-- C05: bit `i` of `Bitset(s)` is character `|s| - 1 - i`. -/
theorem C05_ofString (h : IsBlockWidth w) (s : List Char) (hs : ∀ c ∈ s, c = '0' ∨ c = '1') :
    ∃ b : Bitset w, ofString s = .ok b ∧ getSize b = s.length ∧ ∀ i (hi : i < s.length), test b i = .ok (s[s.length - 1 - i] == '1') := by
  obtain ⟨b, e, hb⟩ := ofString_ok (w := w) h s hs
  refine ⟨b, e, hb.size, ?_⟩
  intro i hi
  rw [test_ok h b hb.wf i (by rw [hb.size]; exact hi), hb.bits]
  simp [hi, List.getElem?_eq_getElem (show s.length - 1 - i < s.length by omega)]

/-- C05: `ToString` is the string of the sequence. -/
theorem C05_toString (h : IsBlockWidth w) {b : Bitset w} (hb : Reachable b) {l : List Bool} (hl : Shows b l) :
    toString b = .ok (Seq.toString l) := by
  have hL := hb.hasL h hl
  obtain ⟨s, e, h1, h2⟩ := toString_ok h b hL.wf
  rw [e]
  congr 1
  rw [hL.size] at h1 h2
  apply List.ext_getElem (by simp [Seq.toString, h1])
  intro i g1 g2
  have := h2 (l.length - 1 - i) (by omega)
  rw [show l.length - 1 - (l.length - 1 - i) = i by omega, List.getElem?_eq_getElem g1] at this
  injection this with this
  rw [this, hL.bit, getD_lt (by omega)]
  simp [Seq.toString]

/-- C05: `Bitset(s).ToString() == s`. -/
theorem C05_string_roundtrip (h : IsBlockWidth w) (s : List Char) (hs : ∀ c ∈ s, c = '0' ∨ c = '1') :
    ∃ b : Bitset w, ofString s = .ok b ∧ toString b = .ok s := by
  obtain ⟨b, e, hb⟩ := ofString_ok (w := w) h s hs
  obtain ⟨s', e', h1, h2⟩ := toString_ok h b hb.wf
  refine ⟨b, e, ?_⟩
  rw [e']
  congr 1
  rw [hb.size] at h1 h2
  apply List.ext_getElem h1
  intro i g1 g2
  have := h2 (s.length - 1 - i) (by omega)
  rw [show s.length - 1 - (s.length - 1 - i) = i by omega, List.getElem?_eq_getElem g1, hb.bits] at this
  injection this with this
  rw [this]
  rw [show s.length - 1 - (s.length - 1 - i) = i by omega, List.getElem?_eq_getElem g2]
  rcases hs s[i] (List.getElem_mem g2) with hc | hc
  · simp [hc]
  · simp [hc]; omega

/-- C05: `Bitset(b.ToString())` is `b`. -/
theorem C05_bitset_roundtrip (h : IsBlockWidth w) {b : Bitset w} (hb : Reachable b) :
    ∃ s, toString b = .ok s ∧ (ofString s : M (Bitset w)) = .ok b := by
  obtain ⟨l, hl⟩ := C01_reachable_shows h hb
  have hs := C05_toString h hb hl
  refine ⟨_, hs, ?_⟩
  have hv : ∀ c ∈ Seq.toString l, c = '0' ∨ c = '1' := by
    intro c hc
    simp only [Seq.toString, List.mem_reverse, List.mem_map] at hc
    obtain ⟨v, _, rfl⟩ := hc
    cases v <;> simp
  obtain ⟨b', e, hb'⟩ := ofString_ok (w := w) h _ hv
  rw [e]
  congr 1
  have hL := hb.hasL h hl
  have hlen : (Seq.toString l).length = l.length := by simp [Seq.toString]
  rw [hlen] at hb'
  refine Has.eq h.pos hb' hL ?_
  intro i hi
  rw [List.getElem?_eq_getElem (by omega), getD_lt hi]
  simp only [Seq.toString, List.getElem_reverse, List.getElem_map, List.length_map]
  have : l[l.length - 1 - (l.length - 1 - i)] = l[i] := by congr 1; omega
  rw [this]
  cases l[i] <;> simp

/-! ### C06 -/

theorem toNat_testBit (l : List Bool) (i : Nat) : (Seq.toNat l).testBit i = l.getD i false := by
  induction l generalizing i with
  | nil => simp [Seq.toNat]
  | cons v l ih =>
    have e : Seq.toNat (v :: l) = 2 * Seq.toNat l + v.toNat := rfl
    rw [e]
    cases i with
    | zero => cases v <;> simp [Nat.testBit_zero]
    | succ i =>
      rw [Nat.testBit_succ, show (2 * Seq.toNat l + v.toNat) / 2 = Seq.toNat l by cases v <;> (simp; try omega), ih]
      simp

/-- C06: `To<T>()` of a bitset that fits is the number whose binary digits are the bits. -/
theorem C06_toInt (h : IsBlockWidth w) {b : Bitset w} (hb : Reachable b) {l : List Bool} (hl : Shows b l) (t : Nat) (ht : l.length ≤ t) :
    ∃ v : BitVec t, toInt t b = .ok v ∧ v.toNat = Seq.toNat l := by
  have hL := hb.hasL h hl
  obtain ⟨v, e, hv⟩ := toInt_ok h t b hL.wf (by rw [hL.size]; exact ht)
  refine ⟨v, e, ?_⟩
  apply Nat.eq_of_testBit_eq
  intro i
  rw [toNat_testBit, BitVec.testBit_toNat, hv, hL.bit]

/-- C06: `To<T>()` of a bitset that does not fit fails an assertion. -/
theorem C06_toInt_assert (b : Bitset w) (t : Nat) (ht : t < getSize b) : toInt t b = .error .assert := by
  have : ¬ b.bitCount ≤ t := by unfold getSize at ht; omega
  simp [toInt, this]

/-- C06: the bits of a bitset constructed from an unsigned integer are its binary digits; the size is the width of the integer type if it
is not wider than a block, and ends with the highest set bit otherwise. -/
theorem C06_ofInt (h : IsBlockWidth w) {t : Nat} (ht : 0 < t) (v : BitVec t) :
    ∃ (b : Bitset w) (l : List Bool), ofInt false v = .ok b ∧ Reachable b ∧ Shows b l ∧ Seq.toNat l = v.toNat ∧
      (t ≤ w → l.length = t) ∧ (w < t → l.length ≤ t ∧ (l ≠ [] → l.getD (l.length - 1) false = true)) := by
  have hv : ValidHistory (w := w) (fun _ => []) [.ofInt 0 t v] := ⟨ht, trivial⟩
  obtain ⟨b, n, e, h1, h2, h3, h4, h5⟩ := ofInt_ok h ht v
  have hl : HasL b (Seq.lowBits v n) := by
    refine HasL.of h4 (by simp [Seq.lowBits]) ?_
    intro i hi
    unfold Seq.lowBits
    rw [getD_range_map]; simp [hi]
  have hlen : (Seq.lowBits v n).length = n := by simp [Seq.lowBits]
  refine ⟨b, Seq.lowBits v n, e, ?_, hl.shows h, ?_, ?_, ?_⟩
  · refine ⟨_, upd (fun _ => empty) 0 b, 0, hv, ?_, rfl⟩
    simp only [run, Op.exec, Op.result, e, ok_bind, pure_ok]
    rfl
  · apply Nat.eq_of_testBit_eq
    intro i
    rw [toNat_testBit, BitVec.testBit_toNat]
    unfold Seq.lowBits
    rw [getD_range_map]
    by_cases hi : i < n
    · simp [hi]
    · simp [hi, h5 i (by omega)]
  · intro htw; rw [hlen, h2 htw]
  · intro htw
    rw [hlen]
    refine ⟨h1, ?_⟩
    intro hne
    have hn : n ≠ 0 := by rintro rfl; exact hne rfl
    unfold Seq.lowBits
    rw [getD_range_map]
    rcases h3 htw with h3 | h3
    · exact absurd h3 hn
    · simp [h3]; omega

/-- C06: `Bitset(v).To<T>() == v`. -/
theorem C06_roundtrip (h : IsBlockWidth w) {t : Nat} (ht : 0 < t) (v : BitVec t) :
    ∃ b : Bitset w, ofInt false v = .ok b ∧ toInt t b = .ok v := by
  obtain ⟨b, l, e, hb, hl, hn, h1, h2⟩ := C06_ofInt (w := w) h ht v
  refine ⟨b, e, ?_⟩
  obtain ⟨v', e', hv'⟩ := C06_toInt h hb hl t (by
    by_cases htw : t ≤ w
    · rw [h1 htw]
    · exact (h2 (by omega)).1)
  rw [e']
  congr 1
  exact BitVec.eq_of_toNat_eq (hv'.trans hn)

end Verif.Bitset
