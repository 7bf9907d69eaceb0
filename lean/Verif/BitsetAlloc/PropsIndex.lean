import Verif.BitsetAlloc.ModelIndex
import Verif.BitsetAlloc.Props

/-!
# C146: the unbounded functions of `Bitset` take any index
-/

namespace Verif.BitsetAlloc
open Verif.Cpp Verif.Bitset

variable {w : Nat}

/-- No wrap below the greatest index. -/
theorem succ_toNat {bit : BitVec 64} (h : bit ≠ npos) : (bit + 1#64).toNat = bit.toNat + 1 := by
  have h1 := bit.isLt
  have h2 : bit.toNat ≠ 2 ^ 64 - 1 := by
    intro hc
    apply h
    apply BitVec.eq_of_toNat_eq
    rw [hc, npos, BitVec.toNat_allOnes]
  rw [BitVec.toNat_add]
  have : (1#64).toNat = 1 := rfl
  rw [this, Nat.mod_eq_of_lt (by omega)]

/-- For all indices but the greatest one `UnboundedSet` is that on natural numbers. -/
theorem unboundedSetIndex_eq (g : Grant) {bit : BitVec 64} (h : bit ≠ npos) (val : Bool) :
    (unboundedSetIndex g bit val : X (Bitset w) Unit) = unboundedSet g bit.toNat val := by
  unfold unboundedSetIndex unboundedSet
  rw [succ_toNat h]

/-- Specification (Bitset.inl:891, 907): the sequence is enlarged as needed with `false`, and position `i` has the value `v`. -/
def enlargeAndSet (l : List Bool) (i : Nat) (v : Bool) : List Bool :=
  (l ++ List.replicate (i + 1 - l.length) false).set i v

theorem enlargeAndSet_eq (l : List Bool) (i : Nat) (v : Bool) (h : i < l.length ∨ v = true) : enlargeAndSet l i v = Seq.unboundedSet l i v := by
  unfold enlargeAndSet Seq.unboundedSet
  by_cases hi : i < l.length
  · rw [if_pos hi, show i + 1 - l.length = 0 by omega]
    simp
  · obtain rfl : v = true := h.resolve_left hi
    rw [if_neg hi, if_pos rfl, show i + 1 - l.length = (i - l.length) + 1 by omega, List.set_append_right _ _ (by omega), List.append_assoc]
    congr 1
    rw [List.replicate_succ', List.set_append_right _ _ (by simp)]
    simp

/-- `UnboundedSet(i, v)` for an index in the bitset, or for the value true and any index but the greatest: the bitset is enlarged as needed and bit `i` has the value, or the memory
is refused and nothing has changed.  Missing: the value false beyond the size (`C146_false_violated`) and the greatest index (`C146_npos_violated`). -/
theorem C146_unboundedSet_partial (h : IsBlockWidth w) {b : Bitset w} (hb : Reachable b) {l : List Bool} (hl : Shows b l) (g : Grant) {i : BitVec 64} {v : Bool}
    (hi : i.toNat < l.length ∨ v = true) (hn : i.toNat < l.length ∨ i ≠ npos) :
    (∃ b', unboundedSetIndex g i v b = .done b' () ∧ Shows b' (enlargeAndSet l i.toNat v)) ∨
    (unboundedSetIndex g i v b = .thrown b ∧ l.length ≤ i.toNat ∧ g (getBlockCount b) ((i.toNat + 1 + w - 1) / w) = false) := by
  have hL := hb.hasL h hl
  rw [enlargeAndSet_eq l _ v hi]
  obtain ⟨b', e, hb'⟩ := result_ok h (fun _ => b) (fun _ => l) (fun _ => hL) (.unboundedSet 0 i.toNat v) trivial
  simp only [Op.result] at e
  by_cases hlt : i.toNat < l.length
  · left
    refine ⟨b', ?_, hb'.shows h⟩
    have : unboundedSetIndex g i v b = unboundedSet g i.toNat v b := by
      unfold unboundedSetIndex unboundedSet
      rw [X.bind_done (X.get_run b), X.bind_done (X.get_run b)]
      simp only [hL.size, hlt, if_true]
    rw [this, unboundedSet_same g i.toNat v b (Or.inl (by rw [hL.size]; exact hlt)), e]
    rfl
  · rw [unboundedSetIndex_eq g (hn.resolve_left hlt)]
    rcases unboundedSet_strong g i.toNat v b (WF.last h hL.wf) (by rw [hL.size]; omega) (hi.resolve_left hlt) with ⟨h1, h2, h3⟩ | ⟨h1, h2⟩
    · right
      rw [computeBlockCount_eq h, nb_eq_ceil h.pos] at h3
      exact ⟨h1, by omega, h3⟩
    · left
      exact ⟨b', by rw [h1, e]; rfl, hb'.shows h⟩

/-- `UnboundedReset(i)` and `UnboundedSet(i, false)` beyond the size do not enlarge the bitset, other than documented: bit `i` still does not exist. -/
theorem C146_false_violated (h : IsBlockWidth w) {b : Bitset w} (hb : Reachable b) {l : List Bool} (hl : Shows b l) (g : Grant) {i : BitVec 64} (hi : l.length ≤ i.toNat) :
    unboundedSetIndex g i false b = .done b () ∧ unboundedResetIndex g i b = .done b () ∧ ¬ Shows b (enlargeAndSet l i.toNat false) ∧ test b i.toNat = .error .assert := by
  have hL := hb.hasL h hl
  have h1 : unboundedSetIndex g i false b = .done b () := by
    unfold unboundedSetIndex
    rw [X.bind_done (X.get_run b)]
    simp only [hL.size, show ¬ i.toNat < l.length by omega, if_false, Bool.false_eq_true]
    rfl
  refine ⟨h1, h1, ?_, ?_⟩
  · intro hs
    have := hs.1
    rw [hl.1] at this
    simp [enlargeAndSet] at this
    omega
  · simp only [test, hL.size, show ¬ i.toNat < l.length by omega, decide_false, assert]
    rfl

/-- All the same, what `UnboundedTest` tells afterwards is as documented, for every index `j`. -/
theorem C146_unboundedReset_seen (h : IsBlockWidth w) {b : Bitset w} (hb : Reachable b) {l : List Bool} (hl : Shows b l) (g : Grant) (i j : BitVec 64) :
    ∃ b', unboundedResetIndex g i b = .done b' () ∧ unboundedTestIndex b' j = .ok ((enlargeAndSet l i.toNat false)[j.toNat]?.getD false) := by
  have hL := hb.hasL h hl
  have key : ∀ (b' : Bitset w) (l' : List Bool), HasL b' l' → unboundedTestIndex b' j = .ok (l'[j.toNat]?.getD false) := by
    intro b' l' hL'
    unfold unboundedTestIndex
    by_cases hj : j.toNat < l'.length
    · rw [hL'.size, if_pos hj, (hL'.shows h).2 _ hj]
      simp [hj]
    · rw [hL'.size, if_neg hj]
      simp [show l'.length ≤ j.toNat by omega]
  by_cases hi : i.toNat < l.length
  · obtain ⟨b', e, hb'⟩ := result_ok h (fun _ => b) (fun _ => l) (fun _ => hL) (.unboundedSet 0 i.toNat false) trivial
    simp only [Op.result] at e
    refine ⟨b', ?_, ?_⟩
    · have : unboundedResetIndex g i b = unboundedSet g i.toNat false b := by
        unfold unboundedResetIndex unboundedSetIndex unboundedSet
        rw [X.bind_done (X.get_run b), X.bind_done (X.get_run b)]
        simp only [hL.size, hi, if_true]
      rw [this, unboundedSet_same g i.toNat false b (Or.inr rfl), e]
      rfl
    · rw [enlargeAndSet_eq l _ false (Or.inl hi)]
      exact key b' _ hb'
  · refine ⟨b, (C146_false_violated h hb hl g (by omega)).2.1, ?_⟩
    rw [key b l hL]
    congr 1
    unfold enlargeAndSet
    rw [List.getElem?_set]
    by_cases hj : i.toNat = j.toNat
    · simp only [hj, if_true]
      rw [List.getElem?_eq_none (by omega)]
      split <;> rfl
    · rw [if_neg hj]
      by_cases hjl : j.toNat < l.length
      · rw [List.getElem?_append_left hjl]
      · rw [List.getElem?_eq_none (by omega), List.getElem?_append_right (by omega), List.getElem?_replicate]
        split <;> rfl

/-- `UnboundedSet(npos)`, for instance with a result of `FindFirst` that was not looked at, neither sets a bit nor throws: `bit + 1` is 0, the bitset is cleared, then the assertion of `Set` fails
(without assertions the write is out of bounds). -/
theorem C146_npos_violated (h : IsBlockWidth w) {b : Bitset w} (hb : Reachable b) (hsize : getSize b < 2 ^ 64) (g : Grant) :
    unboundedSetIndex g npos true b = .fail .assert ∧ ∃ b', resize g (npos + 1#64).toNat false b = .done b' () ∧ Shows b' [] := by
  obtain ⟨l, hl⟩ := C01_reachable_shows h hb
  have hL := hb.hasL h hl
  have h0 : (npos + 1#64).toNat = 0 := by decide
  obtain ⟨b', e, hb'⟩ := result_ok h (fun _ => b) (fun _ => l) (fun _ => hL) (.resize 0 0 false) trivial
  simp only [Op.result] at e
  have hr : resize g 0 false b = .done b' () := by
    rcases resize_strong g 0 false b (WF.last h hL.wf) with ⟨_, h2, _⟩ | ⟨h1, _⟩
    · rw [computeBlockCount_eq h] at h2
      simp [nb] at h2
    · rw [h1, e]; rfl
  have hs : Shows b' [] := by
    have := hb'.shows h
    simpa [Op.specResult, Seq.resize] using this
  refine ⟨?_, b', by rw [h0]; exact hr, hs⟩
  unfold unboundedSetIndex
  rw [X.bind_done (X.get_run b)]
  have hn : ¬ npos.toNat < b.bitCount := by
    have : npos.toNat = 2 ^ 64 - 1 := by rw [npos, BitVec.toNat_allOnes]
    unfold getSize at hsize
    omega
  simp only [hn, if_false, if_true]
  rw [h0, X.bind_done hr, lift_run]
  have hz : b'.bitCount = 0 := hs.1
  simp only [Verif.Bitset.set, hz, Nat.not_lt_zero, decide_false, assert]
  rfl

/-- The hypotheses are met: `UnboundedSet(npos)` on 10 bits, `UnboundedSet(40)` on 10 bits with and without memory. -/
example : unboundedSetIndex (fun _ _ => true) npos true (⟨[0x3FF#32], 10⟩ : Bitset 32) = .fail .assert ∧
    unboundedSetIndex (fun _ _ => true) 40#64 true (⟨[0x3FF#32], 10⟩ : Bitset 32) = .done ⟨[0x3FF#32, 0x100#32], 41⟩ () ∧
    unboundedSetIndex (fun _ _ => false) 40#64 true (⟨[0x3FF#32], 10⟩ : Bitset 32) = .thrown ⟨[0x3FF#32], 10⟩ ∧
    unboundedResetIndex (fun _ _ => true) 40#64 (⟨[0x3FF#32], 10⟩ : Bitset 32) = .done ⟨[0x3FF#32], 10⟩ () := by
  refine ⟨by decide, by decide, by decide, by decide⟩

example : ∃ b : Bitset 32, Reachable b ∧ Shows b [true, false] := C01_reachable_all ⟨5, rfl⟩ _

end Verif.BitsetAlloc
