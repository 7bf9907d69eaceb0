import Verif.Bitset.LemmasSeq

/-!
# C01, C11, C12: histories of operations
-/

namespace Verif.Bitset
open Verif.Cpp

variable {w : Nat}

/-- C01: in every allowed history over bitset variables no call fails, and afterwards `GetSize` and `Test` of every variable
are those of the sequence of booleans on which the same operations were done. -/
theorem C01_history (h : IsBlockWidth w) (ops : List (Op w)) (hv : ValidHistory (fun _ => []) ops) :
    ∃ σ, run (fun _ => empty) ops = .ok σ ∧ ∀ k, Shows (σ k) (specRun (fun _ => []) ops k) := by
  obtain ⟨σ, e, hσ⟩ := run_ok h ops _ _ (fun _ => HasL.empty w) hv
  exact ⟨σ, e, fun k => (hσ k).shows h⟩

/-- A history with growth, an aliased operand, a proxy and an unaligned append. -/
example : ValidHistory (w := 8) (fun _ => [])
    [.ofString 0 "1101".toList, .ofSize 1 11 true, .performsXOR 1 0 1, .shiftLeft 1 3, .proxy 1 4 .flip,
     .appendBits 1 8 0x35#8 7, .performsAND 1 1 1, .setBlock 1 2 0xFF#8, .swap 0 1] := by
  simp only [ValidHistory, Op.Valid, Op.spec, Op.specResult, Op.target, upd, AppendAllowed]
  decide

/-- C01: the bits past the size never show up: reading past the end gives false, as for the sequence. -/
theorem C01_unboundedTest (h : IsBlockWidth w) {b : Bitset w} (hb : Reachable b) {l : List Bool} (hl : Shows b l) (i : Nat) :
    unboundedTest b i = .ok (l.getD i false) := by
  rw [unboundedTest_ok h b (hb.wf h) i, (hb.hasL h hl).bit]

/-- C01: the result does not depend on the history: reachable bitsets showing the same sequence are equal, so every
later operation gives the same result on both. -/
theorem C01_history_independent (h : IsBlockWidth w) {a b : Bitset w} (ha : Reachable a) (hb : Reachable b) {l : List Bool}
    (hla : Shows a l) (hlb : Shows b l) : a = b :=
  Has.eq h.pos (ha.hasL h hla) (hb.hasL h hlb) (fun _ _ => rfl)

/-- Every sequence of booleans is shown by some reachable bitset, and every reachable bitset shows some sequence. -/
theorem C01_reachable_all (h : IsBlockWidth w) (l : List Bool) : ∃ b : Bitset w, Reachable b ∧ Shows b l := by
  have hv : ValidHistory (w := w) (fun _ => []) [.ofString 0 (l.map (fun v => if v then '1' else '0')).reverse] := by
    refine ⟨?_, trivial⟩
    intro c hc
    simp only [List.mem_reverse, List.mem_map] at hc
    obtain ⟨v, _, rfl⟩ := hc
    cases v <;> simp
  obtain ⟨σ, e, hσ⟩ := C01_history h _ hv
  refine ⟨σ 0, ⟨_, σ, 0, hv, e, rfl⟩, ?_⟩
  have := hσ 0
  simp only [specRun, Op.spec, Op.specResult, Op.target, upd, Seq.ofString, if_true, List.reverse_reverse, List.map_map] at this
  convert this
  conv => lhs; rw [← List.map_id l]
  apply List.map_congr_left
  intro v _
  cases v <;> simp

theorem C01_reachable_shows (h : IsBlockWidth w) {b : Bitset w} (hb : Reachable b) : ∃ l, Shows b l :=
  ⟨_, ((hb.wf h).hasL).shows h⟩

/-! ### Index checks -/

/-- C11: `Test` and `Set`/`Reset` succeed in range and fail their assertion out of range. -/
theorem C11_bit_access (h : IsBlockWidth w) {b : Bitset w} (hb : Reachable b) (i : Nat) (v : Bool) :
    (i < getSize b → (∃ r, test b i = .ok r) ∧ (∃ b', set b i v = .ok b') ∧ (∃ b', reset b i = .ok b')) ∧
    (getSize b ≤ i → test b i = .error .assert ∧ set b i v = .error .assert ∧ reset b i = .error .assert) := by
  constructor
  · intro hi
    obtain ⟨b1, e1, _⟩ := set_ok h b (hb.wf h) i hi v
    obtain ⟨b2, e2, _⟩ := set_ok h b (hb.wf h) i hi false
    exact ⟨⟨_, test_ok h b (hb.wf h) i hi⟩, ⟨b1, e1⟩, ⟨b2, e2⟩⟩
  · intro hi
    have : ¬ i < b.bitCount := by unfold getSize at hi; omega
    simp [test, set, reset, this]

/-- C11: `GetBlock` and `SetBlock`. -/
theorem C11_block_access (h : IsBlockWidth w) {b : Bitset w} (hb : Reachable b) (i : Nat) (x : BitVec w) :
    (i < getBlockCount b → (∃ r, getBlock b i = .ok r) ∧ (∃ b', setBlock b i x = .ok b')) ∧
    (getBlockCount b ≤ i → getBlock b i = .error .assert ∧ setBlock b i x = .error .assert) := by
  constructor
  · intro hi
    obtain ⟨b1, e1, _⟩ := setBlock_ok h b (hb.wf h) i x hi
    exact ⟨⟨_, getBlock_ok b hi⟩, ⟨b1, e1⟩⟩
  · intro hi
    have : ¬ i < b.blocks.length := by unfold getBlockCount at hi; omega
    simp [getBlock, setBlock, this]

/-- C11: `FindNext`. -/
theorem C11_findNext (h : MathUtils.IsWidth w) {b : Bitset w} (hb : Reachable b) (i : Nat) :
    (i < getSize b → ∃ r, findNext b i = .ok r) ∧ (getSize b ≤ i → findNext b i = .error .assert) := by
  constructor
  · intro hi
    obtain ⟨r, e, _⟩ := findNext_ok h b (hb.wf (.of_isWidth h)) i hi
    exact ⟨r, e⟩
  · intro hi
    have : ¬ i < b.bitCount := by unfold getSize at hi; omega
    simp [findNext, this]

/-- C11: a string with another character than 0 and 1 fails an assertion of the constructor. -/
theorem C11_string (h : IsBlockWidth w) (s : List Char) (hs : ¬ ∀ c ∈ s, c = '0' ∨ c = '1') :
    (ofString s : M (Bitset w)) = .error .assert := by
  simp only [not_forall] at hs
  obtain ⟨c, hc, hbad⟩ := hs
  obtain ⟨k, hk, rfl⟩ := List.getElem_of_mem hc
  exact ofString_bad h s k hk (by simpa using hbad)

example : ¬ ∀ c ∈ "10a".toList, c = '0' ∨ c = '1' := by decide

/-- `b[i]` of the non-const `operator[]` has no assertion: out of range of the blocks it is undefined. -/
theorem C11_proxy_unchecked (h : IsBlockWidth w) {b : Bitset w} (hb : Reachable b) (i : Nat) (hi : getBlockCount b ≤ i / w) :
    index b i = .error .ub := by
  have _ := hb.wf h
  simp only [index, getBlockIndex]
  rw [rd_ub hi]; rfl

/-! ### Proxies -/

/-- C12: every use of the proxy `b[i]` changes bit `i` as the boolean operation says, no other bit and not the size. -/
theorem C12_proxy (h : IsBlockWidth w) {b : Bitset w} (hb : Reachable b) {l : List Bool} (hl : Shows b l) (i : Nat) (hi : i < l.length)
    (u : ProxyUse) : ∃ (p : Bit w) (b' : Bitset w), index b i = .ok p ∧ u.exec p b = .ok b' ∧ Shows b' (l.set i (u.spec l[i])) := by
  have hL := hb.hasL h hl
  obtain ⟨b', e, hb'⟩ := proxy_ok h b l hL i hi u
  refine ⟨_, b', index_ok h b hL.wf i (by rw [hL.size]; exact hi), e, ?_⟩
  rw [getD_lt hi] at hb'
  exact hb'.shows h

/-- C12: `b[i] = a[j]`, also for `a` the same bitset as `b`. -/
theorem C12_proxy_assign_bit (h : IsBlockWidth w) {a b : Bitset w} (ha : Reachable a) (hb : Reachable b) {l m : List Bool}
    (hl : Shows b l) (hm : Shows a m) (i j : Nat) (hi : i < l.length) (hj : j < m.length) :
    ∃ (p q : Bit w) (b' : Bitset w), index b i = .ok p ∧ index a j = .ok q ∧ p.assignBit b q a = .ok b' ∧ Shows b' (l.set i m[j]) := by
  have hL := hb.hasL h hl
  have hM := ha.hasL h hm
  have hi' : i < b.bitCount := by rw [hL.size]; exact hi
  have hj' : j < a.bitCount := by rw [hM.size]; exact hj
  obtain ⟨b', e, hb'⟩ := set_ok h b hL.wf i hi' m[j]
  refine ⟨_, _, b', index_ok h b hL.wf i hi', index_ok h a hM.wf j hj', ?_, (setL_ok hL i hi _ hb').shows h⟩
  simp only [Bit.assignBit, bit_test_ok h a hM.wf j hj', ok_bind, bit_set_ok h b hL.wf i hi', hM.bit, getD_lt hj, e]

/-- C12: reading through a proxy. -/
theorem C12_proxy_test (h : IsBlockWidth w) {b : Bitset w} (hb : Reachable b) {l : List Bool} (hl : Shows b l) (i : Nat) (hi : i < l.length) :
    ∃ p : Bit w, index b i = .ok p ∧ p.test b = .ok l[i] := by
  have hL := hb.hasL h hl
  have hi' : i < b.bitCount := by rw [hL.size]; exact hi
  refine ⟨_, index_ok h b hL.wf i hi', ?_⟩
  rw [bit_test_ok h b hL.wf i hi', hL.bit, getD_lt hi]

end Verif.Bitset
