import Verif.Bitset.Lemmas

/-!
# The operations of a bitset, bit by bit

For each operation: on a well formed bitset (and an index in range) it succeeds, and its result has
the stated size and bits.
-/

namespace Verif.Bitset
open Verif.Cpp

variable {w : Nat}

theorem bitAt_mk (hw : 0 < w) (l : List (BitVec w)) (j m : Nat) (hm : m < w) : bitAt l (w * j + m) = (blk l j).getLsbD m := by
  unfold bitAt
  rw [Nat.mul_add_div hw, Nat.div_eq_of_lt hm, Nat.add_zero, Nat.mul_add_mod, Nat.mod_eq_of_lt hm]

theorem nb_mono (hw : 0 < w) {m n : Nat} (h : m ≤ n) : nb w m ≤ nb w n := by
  rw [nb_eq_ceil hw, nb_eq_ceil hw]
  exact Nat.div_le_div_right (by omega)

theorem nb_mul_add (hw : 0 < w) (a c : Nat) : nb w (w * a + c) = a + nb w c := by
  unfold nb
  rw [Nat.mul_add_div hw, Nat.mul_add_mod]
  omega

/-! ### Strings -/

theorem ofString_ok (h : IsBlockWidth w) (s : List Char) (hs : ∀ c ∈ s, c = '0' ∨ c = '1') :
    ∃ b : Bitset w, ofString s = .ok b ∧ Has b s.length (fun i => s[s.length - 1 - i]? == some '1') := by
  have hw := h.pos
  unfold ofString
  simp only
  rw [computeBlockCount_eq h]
  obtain ⟨b, e, hb⟩ := forUp_ok (σ := Bitset w) (fun k b => Has b s.length (fun i => decide (s.length - k ≤ i) && (s[s.length - 1 - i]? == some '1')))
    (lo := 0) (n := s.length) (s := ⟨vresize [] (nb w s.length) 0#w, s.length⟩)
    (f := fun i b => do
      let c ← rd s i
      if c = '1' then set b (b.bitCount - i - 1) true
      else if c = '0' then pure b
      else .error .assert) (by
      refine ⟨rfl, vresize_length _ _ _, ?_⟩
      intro i
      simp only
      unfold bitAt
      rw [blk_vresize]
      by_cases hi : i < s.length
      · rw [show decide (s.length - 0 ≤ i) = false by simp; omega]; simp
      · simp [hi]) (by
      intro k b hk hI
      have hn := hI.size
      have step : ∀ b' : Bitset w, Has b' s.length (fun i => if i = s.length - k - 1 then (s[s.length - 1 - i]? == some '1') else
          (decide (s.length - k ≤ i) && (s[s.length - 1 - i]? == some '1'))) →
          Has b' s.length (fun i => decide (s.length - (k + 1) ≤ i) && (s[s.length - 1 - i]? == some '1')) := by
        intro b' hb'
        apply hb'.congr
        intro i hi
        by_cases e : i = s.length - k - 1
        · rw [if_pos e, show decide (s.length - (k + 1) ≤ i) = true by simp; omega]; simp
        · rw [if_neg e]
          congr 1
          rw [decide_eq_decide]; omega
      have hidx : s.length - 1 - (s.length - k - 1) = k := by omega
      simp only [Nat.zero_add]
      rw [rd_ok hk, ok_bind]
      rcases hs s[k] (List.getElem_mem hk) with hc | hc
      · refine ⟨b, by simp [hc], step b (hI.congr ?_)⟩
        intro i hi
        by_cases e : i = s.length - k - 1
        · rw [if_pos e, e, hidx, List.getElem?_eq_getElem hk, hc]
          simp
        · rw [if_neg e]
      · rw [hc, if_pos rfl, hn]
        obtain ⟨b', e', hb'⟩ := set_ok h b hI.wf (s.length - k - 1) (by omega) true
        refine ⟨b', e', step b' ?_⟩
        rw [hn] at hb'
        apply hb'.congr
        intro i hi
        by_cases e : i = s.length - k - 1
        · rw [if_pos e, if_pos e, e, hidx, List.getElem?_eq_getElem hk, hc]; simp
        · rw [if_neg e, if_neg e, hI.bits i]; simp [hi])
  refine ⟨b, e, hb.congr ?_⟩
  intro i hi
  simp

theorem ofString_bad (h : IsBlockWidth w) (s : List Char) (k : Nat) (hk : k < s.length) (hbad : s[k] ≠ '0' ∧ s[k] ≠ '1') :
    (ofString s : M (Bitset w)) = .error .assert := by
  -- find the first bad character: the loop up to it succeeds
  have hw := h.pos
  unfold ofString
  simp only
  rw [computeBlockCount_eq h]
  have gen : ∀ (n lo : Nat) (b : Bitset w), WF b → b.bitCount = s.length → lo + n = s.length → (∃ k, lo ≤ k ∧ ∃ hk : k < s.length, s[k] ≠ '0' ∧ s[k] ≠ '1') →
      forUp lo n (fun i b => do
      let c ← rd s i
      if c = '1' then set b (b.bitCount - i - 1) true
      else if c = '0' then pure b
      else .error .assert) b = .error .assert := by
    intro n
    induction n with
    | zero => rintro lo b _ _ hn ⟨k, h1, h2, _⟩; omega
    | succ n ih =>
      rintro lo b wf hb hn ⟨k, h1, h2, h3⟩
      have hlo : lo < s.length := by omega
      simp only [forUp, rd_ok hlo, ok_bind]
      by_cases hc : s[lo] = '1'
      · rw [if_pos hc]
        obtain ⟨b', e', hb'⟩ := set_ok h b wf (b.bitCount - lo - 1) (by omega) true
        rw [e']
        refine ih (lo + 1) b' hb'.wf (hb'.size.trans hb) (by omega) ⟨k, ?_, h2, h3⟩
        rcases Nat.eq_or_lt_of_le h1 with rfl | hlt
        · exact absurd hc h3.2
        · exact hlt
      · rw [if_neg hc]
        by_cases hc0 : s[lo] = '0'
        · rw [if_pos hc0]
          refine ih (lo + 1) b wf hb (by omega) ⟨k, ?_, h2, h3⟩
          rcases Nat.eq_or_lt_of_le h1 with rfl | hlt
          · exact absurd hc0 h3.1
          · exact hlt
        · rw [if_neg hc0]
  refine gen s.length 0 _ ?_ rfl (by omega) ⟨k, Nat.zero_le _, hk, hbad⟩
  have : Has (⟨vresize [] (nb w s.length) 0#w, s.length⟩ : Bitset w) s.length (fun _ => false) := by
    refine ⟨rfl, vresize_length _ _ _, ?_⟩
    intro i
    simp only
    unfold bitAt
    rw [blk_vresize]
    simp
  exact this.wf

/-! ### Unbounded access -/

theorem unboundedSet_ok (h : IsBlockWidth w) (b : Bitset w) (wf : WF b) (k : Nat) (v : Bool) :
    ∃ b', unboundedSet b k v = .ok b' ∧
      Has b' (if k < b.bitCount ∨ v = false then b.bitCount else k + 1)
        (fun i => if i = k then v else if i < b.bitCount then bitAt b.blocks i else false) := by
  unfold unboundedSet
  by_cases hk : k < b.bitCount
  · obtain ⟨b', e, hb⟩ := set_ok h b wf k hk v
    refine ⟨b', by simp [hk, e], ?_⟩
    rw [if_pos (Or.inl hk)]
    apply hb.congr
    intro i hi
    simp [hi]
  · cases v with
    | false =>
      refine ⟨b, by simp [hk], ?_⟩
      rw [if_pos (Or.inr rfl)]
      apply Has.congr wf
      intro i hi
      rw [if_neg (by omega), if_pos hi]
    | true =>
      obtain ⟨b1, e1, hb1⟩ := resize_ok h b wf (k + 1) false
      obtain ⟨b2, e2, hb2⟩ := set_ok h b1 hb1.wf k (by rw [hb1.size]; omega) true
      refine ⟨b2, by simp [hk, e1, e2], ?_⟩
      rw [if_neg (by simp [hk])]
      rw [hb1.size] at hb2
      apply hb2.congr
      intro i hi
      by_cases hik : i = k
      · simp [hik]
      · rw [if_neg hik, if_neg hik, hb1.bits]
        simp [hi]

theorem unboundedTest_ok (h : IsBlockWidth w) (b : Bitset w) (wf : WF b) (k : Nat) : unboundedTest b k = .ok (bitAt b.blocks k) := by
  unfold unboundedTest
  by_cases hk : k < b.bitCount
  · rw [if_pos hk, test_ok h b wf k hk]
  · rw [if_neg hk, wf.bit_ge (by omega)]; rfl

/-! ### Block access -/

theorem setBlock_ok (h : IsBlockWidth w) (b : Bitset w) (wf : WF b) (k : Nat) (x : BitVec w) (hk : k < b.blocks.length) :
    ∃ b', setBlock b k x = .ok b' ∧ Has b' b.bitCount (fun i => if i / w = k then x.getLsbD (i % w) else bitAt b.blocks i) := by
  have hw := h.pos
  unfold setBlock
  simp only [hk, decide_true, assert_true, ok_bind, setBlockRaw_ok b x hk, List.length_set]
  have bits : ∀ i, bitAt (b.blocks.set k x) i = if i / w = k then x.getLsbD (i % w) else bitAt b.blocks i := by
    intro i
    unfold bitAt
    rw [blk_set _ _ _ _ hk]
    split <;> rfl
  by_cases he : k = b.blocks.length - 1
  · rw [if_pos he]
    obtain ⟨b', e, hb⟩ := resetExtraBits_ok h { b with blocks := b.blocks.set k x } (by simpa using wf.len)
    exact ⟨b', e, hb.congr (fun i _ => bits i)⟩
  · rw [if_neg he]
    refine ⟨_, rfl, rfl, by simpa using wf.len, ?_⟩
    intro i
    simp only
    rw [bits]
    by_cases hik : i / w = k
    · have : i < b.bitCount := lt_of_div_lt_pred hw (by rw [hik, ← wf.len]; omega)
      simp [hik, this]
    · rw [if_neg hik]; exact wf.bits i

/-! ### Bitwise operators -/

/-- Reading block `i` of an operand while the target is being overwritten from block 0 up to `i`. -/
theorem operand_read (x : Operand w) (b0 s : Bitset w) (i : Nat) (hi : i < (x.get b0).blocks.length)
    (hs : i < s.blocks.length ∧ (i < b0.blocks.length → blk s.blocks i = blk b0.blocks i)) :
    getBlock (x.get s) i = .ok (blk (x.get b0).blocks i) := by
  cases x with
  | self =>
    simp only [Operand.get] at hi ⊢
    rw [getBlock_ok s hs.1, hs.2 hi]
  | other c =>
    simp only [Operand.get] at hi ⊢
    rw [getBlock_ok c hi]

theorem operand_size (x : Operand w) (b : Bitset w) (l : List (BitVec w)) :
    getSize (x.get { b with blocks := l }) = getSize (x.get b) := by
  cases x <;> rfl

theorem operand_size' (x : Operand w) (b : Bitset w) (l : List (BitVec w)) :
    (x.get { b with blocks := l }).bitCount = (x.get b).bitCount := by
  cases x <;> rfl

theorem performsAND_ok (h : IsBlockWidth w) (b : Bitset w) (x y : Operand w) (hx : WF (x.get b)) (hy : WF (y.get b)) :
    ∃ b', performsAND b x y = .ok b' ∧ Has b' (max (x.get b).bitCount (y.get b).bitCount)
      (fun i => bitAt (x.get b).blocks i && bitAt (y.get b).blocks i) := by
  have hw := h.pos
  unfold performsAND
  simp only [getBlockCount, getSize]
  generalize hlo : min (x.get b).blocks.length (y.get b).blocks.length = lo
  generalize hhi : max (x.get b).blocks.length (y.get b).blocks.length = hi
  simp only [operand_size']
  generalize hN : max (x.get b).bitCount (y.get b).bitCount = N
  -- first loop
  obtain ⟨b1, e1, hb1⟩ := forUp_ok (σ := Bitset w) (fun k s => s.bitCount = N ∧ s.blocks.length = hi ∧
      ∀ j, blk s.blocks j = if j < k then blk (x.get b).blocks j &&& blk (y.get b).blocks j else blk (vresize b.blocks hi 0#w) j)
    (lo := 0) (n := lo) (s := ⟨vresize b.blocks hi 0#w, N⟩)
    (f := fun i b => do
      let p ← getBlock (x.get b) i
      let q ← getBlock (y.get b) i
      setBlockRaw b i (p &&& q))
    ⟨rfl, vresize_length _ _ _, by intro j; simp⟩ (by
      rintro k s hk ⟨h1, h2, h3⟩
      have hks : k < s.blocks.length ∧ (k < b.blocks.length → blk s.blocks k = blk b.blocks k) := by
        refine ⟨by omega, ?_⟩
        intro hkb
        rw [h3, if_neg (by omega), blk_vresize, if_pos (by omega), if_pos hkb]
      simp only [Nat.zero_add]
      rw [operand_read x b s k (by omega) hks, ok_bind, operand_read y b s k (by omega) hks, ok_bind, setBlockRaw_ok s _ hks.1]
      refine ⟨_, rfl, h1, by simpa using h2, ?_⟩
      intro j
      simp only
      rw [blk_set _ _ _ _ hks.1, h3]
      by_cases e : j = k
      · subst e; simp
      · rw [if_neg e]
        by_cases hj : j < k
        · rw [if_pos hj, if_pos (by omega)]
        · rw [if_neg hj, if_neg (by omega)])
  rw [e1, ok_bind]
  -- second loop
  obtain ⟨b2, e2, hb2⟩ := forUp_ok (σ := Bitset w) (fun k s => s.bitCount = N ∧ s.blocks.length = hi ∧
      ∀ j, j < lo + k → blk s.blocks j = if j < lo then blk (x.get b).blocks j &&& blk (y.get b).blocks j else 0#w)
    (lo := lo) (n := hi - lo) (s := b1) (f := fun i b => setBlockRaw b i 0#w)
    ⟨hb1.1, hb1.2.1, by intro j hj; rw [hb1.2.2]; simp [show j < lo by omega]⟩ (by
      rintro k s hk ⟨h1, h2, h3⟩
      have hks : lo + k < s.blocks.length := by omega
      rw [setBlockRaw_ok s _ hks]
      refine ⟨_, rfl, h1, by simpa using h2, ?_⟩
      intro j hj
      simp only
      rw [blk_set _ _ _ _ hks]
      by_cases e : j = lo + k
      · subst e; simp
      · rw [if_neg e]
        exact h3 j (by omega))
  rw [e2, ok_bind]
  obtain ⟨h1, h2, h3⟩ := hb2
  obtain ⟨b', e, hb⟩ := resetExtraBits_ok h b2 (by
    rw [h2, h1, ← hhi, ← hN, hx.len, hy.len]
    rcases Nat.le_total (x.get b).bitCount (y.get b).bitCount with hle | hle
    · rw [Nat.max_eq_right hle, Nat.max_eq_right (nb_mono hw hle)]
    · rw [Nat.max_eq_left hle, Nat.max_eq_left (nb_mono hw hle)])
  refine ⟨b', e, ?_⟩
  rw [h1] at hb
  apply hb.congr
  intro i hi'
  have hik : i / w < hi := by
    have := div_lt_nb hw hi'
    rw [← hN] at this
    rw [← hhi, hx.len, hy.len]
    rcases Nat.le_total (x.get b).bitCount (y.get b).bitCount with hle | hle
    · rw [Nat.max_eq_right hle] at this; omega
    · rw [Nat.max_eq_left hle] at this; omega
  have hiq := Nat.zero_le (i / w)
  unfold bitAt
  rw [h3 _ (by omega)]
  split
  · rw [BitVec.getLsbD_and]
  · rcases Nat.lt_or_ge (i / w) (x.get b).blocks.length with hlx | hlx
    · rw [blk_ge (l := (y.get b).blocks) (by omega)]; simp
    · rw [blk_ge (l := (x.get b).blocks) hlx]; simp

theorem performsNOT_ok (h : IsBlockWidth w) (b : Bitset w) (x : Operand w) (hx : WF (x.get b)) :
    ∃ b', performsNOT b x = .ok b' ∧ Has b' (x.get b).bitCount (fun i => !(bitAt (x.get b).blocks i)) := by
  have hw := h.pos
  unfold performsNOT
  simp only [getBlockCount, getSize, operand_size']
  generalize hhi : (x.get b).blocks.length = hi
  generalize hN : (x.get b).bitCount = N
  rw [vresize_length]
  obtain ⟨b1, e1, hb1⟩ := forUp_ok (σ := Bitset w) (fun k s => s.bitCount = N ∧ s.blocks.length = hi ∧
      ∀ j, blk s.blocks j = if j < k then ~~~(blk (x.get b).blocks j) else blk (vresize b.blocks hi 0#w) j)
    (lo := 0) (n := hi) (s := ⟨vresize b.blocks hi 0#w, N⟩)
    (f := fun i b => do
      let p ← getBlock (x.get b) i
      setBlockRaw b i (~~~p))
    ⟨rfl, vresize_length _ _ _, by intro j; simp⟩ (by
      rintro k s hk ⟨h1, h2, h3⟩
      have hks : k < s.blocks.length ∧ (k < b.blocks.length → blk s.blocks k = blk b.blocks k) := by
        refine ⟨by omega, ?_⟩
        intro hkb
        rw [h3, if_neg (by omega), blk_vresize, if_pos (by omega), if_pos hkb]
      simp only [Nat.zero_add]
      rw [operand_read x b s k (by omega) hks, ok_bind, setBlockRaw_ok s _ hks.1]
      refine ⟨_, rfl, h1, by simpa using h2, ?_⟩
      intro j
      simp only
      rw [blk_set _ _ _ _ hks.1, h3]
      by_cases e : j = k
      · subst e; simp
      · rw [if_neg e]
        by_cases hj : j < k
        · rw [if_pos hj, if_pos (by omega)]
        · rw [if_neg hj, if_neg (by omega)])
  rw [e1, ok_bind]
  obtain ⟨h1, h2, h3⟩ := hb1
  obtain ⟨b', e, hb⟩ := resetExtraBits_ok h b1 (by rw [h2, h1, ← hhi, ← hN, hx.len])
  refine ⟨b', e, ?_⟩
  rw [h1] at hb
  apply hb.congr
  intro i hi'
  have him := Nat.mod_lt i hw
  have hik : i / w < hi := by
    rw [← hhi, hx.len, hN]; exact div_lt_nb hw hi'
  unfold bitAt
  rw [h3, if_pos hik, BitVec.getLsbD_not]
  simp [him]

theorem performsMerge_ok (h : IsBlockWidth w) (op : BitVec w → BitVec w → BitVec w) (f : Bool → Bool → Bool)
    (hop : ∀ p q i, (op p q).getLsbD i = f (p.getLsbD i) (q.getLsbD i)) (hf0 : ∀ v, f v false = v) (hf0' : ∀ v, f false v = v)
    (b : Bitset w) (x y : Operand w) (hx : WF (x.get b)) (hy : WF (y.get b)) :
    ∃ b', performsMerge op b x y = .ok b' ∧ Has b' (max (x.get b).bitCount (y.get b).bitCount)
      (fun i => f (bitAt (x.get b).blocks i) (bitAt (y.get b).blocks i)) := by
  have hw := h.pos
  unfold performsMerge
  simp only
  generalize hG : (if getSize (x.get b) > getSize (y.get b) then x else y) = G
  generalize hL : (if getSize (x.get b) > getSize (y.get b) then y else x) = L
  simp only [getBlockCount, getSize]
  have hGL : (G = x ∧ L = y ∨ G = y ∧ L = x) ∧ (L.get b).bitCount ≤ (G.get b).bitCount := by
    by_cases hlt : getSize (x.get b) > getSize (y.get b)
    · rw [if_pos hlt] at hG hL
      subst hG hL
      exact ⟨Or.inl ⟨rfl, rfl⟩, by unfold getSize at hlt; omega⟩
    · rw [if_neg hlt] at hG hL
      subst hG hL
      exact ⟨Or.inr ⟨rfl, rfl⟩, by unfold getSize at hlt; omega⟩
  have hGw : WF (G.get b) := by rcases hGL.1 with ⟨e, _⟩ | ⟨e, _⟩ <;> rw [e] <;> assumption
  have hLw : WF (L.get b) := by rcases hGL.1 with ⟨_, e⟩ | ⟨_, e⟩ <;> rw [e] <;> assumption
  have hN : max (x.get b).bitCount (y.get b).bitCount = (G.get b).bitCount := by
    rcases hGL.1 with ⟨e1, e2⟩ | ⟨e1, e2⟩ <;> rw [e1, e2] at hGL <;> rw [e1]
    · exact Nat.max_eq_left hGL.2
    · exact Nat.max_eq_right hGL.2
  rw [hN]
  simp only [operand_size']
  generalize hhi : (G.get b).blocks.length = hi
  generalize hlo : (L.get b).blocks.length = lo
  generalize hNN : (G.get b).bitCount = N
  have hlohi : lo ≤ hi := by rw [← hlo, ← hhi, hGw.len, hLw.len]; exact nb_mono hw hGL.2
  have hlox : lo ≤ (x.get b).blocks.length ∧ lo ≤ (y.get b).blocks.length := by
    rcases hGL.1 with ⟨e1, e2⟩ | ⟨e1, e2⟩ <;> rw [e1] at hhi <;> rw [e2] at hlo <;> omega
  obtain ⟨b1, e1, hb1⟩ := forUp_ok (σ := Bitset w) (fun k s => s.bitCount = N ∧ s.blocks.length = hi ∧
      ∀ j, blk s.blocks j = if j < k then op (blk (x.get b).blocks j) (blk (y.get b).blocks j) else blk (vresize b.blocks hi 0#w) j)
    (lo := 0) (n := lo) (s := ⟨vresize b.blocks hi 0#w, N⟩)
    (f := fun i b => do
      let p ← getBlock (x.get b) i
      let q ← getBlock (y.get b) i
      setBlockRaw b i (op p q))
    ⟨rfl, vresize_length _ _ _, by intro j; simp⟩ (by
      rintro k s hk ⟨h1, h2, h3⟩
      have hks : k < s.blocks.length ∧ (k < b.blocks.length → blk s.blocks k = blk b.blocks k) := by
        refine ⟨by omega, ?_⟩
        intro hkb
        rw [h3, if_neg (by omega), blk_vresize, if_pos (by omega), if_pos hkb]
      simp only [Nat.zero_add]
      rw [operand_read x b s k (by omega) hks, ok_bind, operand_read y b s k (by omega) hks, ok_bind, setBlockRaw_ok s _ hks.1]
      refine ⟨_, rfl, h1, by simpa using h2, ?_⟩
      intro j
      simp only
      rw [blk_set _ _ _ _ hks.1, h3]
      by_cases e : j = k
      · subst e; simp
      · rw [if_neg e]
        by_cases hj : j < k
        · rw [if_pos hj, if_pos (by omega)]
        · rw [if_neg hj, if_neg (by omega)])
  rw [e1, ok_bind]
  obtain ⟨b2, e2, hb2⟩ := forUp_ok (σ := Bitset w) (fun k s => s.bitCount = N ∧ s.blocks.length = hi ∧
      ∀ j, blk s.blocks j = if j < lo then op (blk (x.get b).blocks j) (blk (y.get b).blocks j)
        else if j < lo + k then blk (G.get b).blocks j else blk (vresize b.blocks hi 0#w) j)
    (lo := lo) (n := hi - lo) (s := b1) (f := fun i b => do
      let p ← getBlock (G.get b) i
      setBlockRaw b i p)
    ⟨hb1.1, hb1.2.1, by intro j; rw [hb1.2.2]; by_cases hj : j < lo <;> simp [hj]⟩ (by
      rintro k s hk ⟨h1, h2, h3⟩
      have hks : lo + k < s.blocks.length ∧ (lo + k < b.blocks.length → blk s.blocks (lo + k) = blk b.blocks (lo + k)) := by
        refine ⟨by omega, ?_⟩
        intro hkb
        rw [h3, if_neg (by omega), if_neg (by omega), blk_vresize, if_pos (by omega), if_pos hkb]
      rw [operand_read G b s (lo + k) (by omega) hks, ok_bind, setBlockRaw_ok s _ hks.1]
      refine ⟨_, rfl, h1, by simpa using h2, ?_⟩
      intro j
      simp only
      rw [blk_set _ _ _ _ hks.1, h3]
      by_cases e : j = lo + k
      · subst e; simp
      · rw [if_neg e]
        by_cases hj : j < lo
        · rw [if_pos hj, if_pos hj]
        · rw [if_neg hj, if_neg hj]
          by_cases hj' : j < lo + k
          · rw [if_pos hj', if_pos (by omega)]
          · rw [if_neg hj', if_neg (by omega)])
  rw [e2, ok_bind]
  obtain ⟨h1, h2, h3⟩ := hb2
  obtain ⟨b', e, hb⟩ := resetExtraBits_ok h b2 (by rw [h2, h1, ← hhi, ← hNN, hGw.len])
  refine ⟨b', e, ?_⟩
  rw [h1] at hb
  apply hb.congr
  intro i hi'
  have hik : i / w < hi := by rw [← hhi, hGw.len, hNN]; exact div_lt_nb hw hi'
  have hiq := Nat.zero_le (i / w)
  unfold bitAt
  rw [h3]
  split
  · rw [hop]
  · rw [if_pos (by omega)]
    rcases hGL.1 with ⟨e1, e2⟩ | ⟨e1, e2⟩
    · subst e1 e2
      rw [blk_ge (l := (L.get b).blocks) (by omega), BitVec.getLsbD_zero, hf0]
    · subst e1 e2
      rw [blk_ge (l := (L.get b).blocks) (by omega), BitVec.getLsbD_zero, hf0']

theorem performsOR_ok (h : IsBlockWidth w) (b : Bitset w) (x y : Operand w) (hx : WF (x.get b)) (hy : WF (y.get b)) :
    ∃ b', performsOR b x y = .ok b' ∧ Has b' (max (x.get b).bitCount (y.get b).bitCount)
      (fun i => bitAt (x.get b).blocks i || bitAt (y.get b).blocks i) :=
  performsMerge_ok h _ (· || ·) (fun p q i => BitVec.getLsbD_or ..) (by simp) (by simp) b x y hx hy

theorem performsXOR_ok (h : IsBlockWidth w) (b : Bitset w) (x y : Operand w) (hx : WF (x.get b)) (hy : WF (y.get b)) :
    ∃ b', performsXOR b x y = .ok b' ∧ Has b' (max (x.get b).bitCount (y.get b).bitCount)
      (fun i => bitAt (x.get b).blocks i ^^ bitAt (y.get b).blocks i) :=
  performsMerge_ok h _ (· ^^ ·) (fun p q i => BitVec.getLsbD_xor ..) (by simp) (by simp) b x y hx hy

/-! ### Reverse -/

theorem reverseLoop_ok (h : IsBlockWidth w) (n : Nat) (f : Nat → Bool) (b : Bitset w) (i j : Nat) (hij : i + j + 1 = n)
    (hb : Has b n (fun p => if i ≤ p ∧ p ≤ j then f p else f (n - 1 - p))) :
    ∃ b', reverseLoop b i j = .ok b' ∧ Has b' n (fun p => f (n - 1 - p)) := by
  induction d : j - i using Nat.strongRecOn generalizing b i j with
  | _ d ih =>
    unfold reverseLoop
    by_cases hlt : i < j
    · rw [if_pos hlt]
      have hs := hb.size
      rw [test_ok h b hb.wf i (by omega), ok_bind, test_ok h b hb.wf j (by omega), ok_bind]
      obtain ⟨b1, e1, hb1⟩ := set_ok h b hb.wf i (by omega) (bitAt b.blocks j)
      rw [e1, ok_bind]
      obtain ⟨b2, e2, hb2⟩ := set_ok h b1 hb1.wf j (by rw [hb1.size]; omega) (bitAt b.blocks i)
      rw [e2, ok_bind]
      apply ih (j - 1 - (i + 1)) (by omega) b2 (i + 1) (j - 1) (by omega) _ rfl
      rw [hb1.size, hs] at hb2
      apply hb2.congr
      intro p hp
      have bi : bitAt b.blocks i = f i := by rw [hb.bits]; simp [show i < n by omega, show i ≤ j by omega]
      have bj : bitAt b.blocks j = f j := by rw [hb.bits]; simp [show j < n by omega, show i ≤ j by omega]
      by_cases h1 : p = j
      · rw [if_pos h1, if_neg (by omega), bi, h1]; congr 1; omega
      · rw [if_neg h1, hb1.bits, hs]
        simp only [hp, decide_true, Bool.true_and]
        by_cases h2 : p = i
        · rw [if_pos h2, if_neg (by omega), bj, h2]; congr 1; omega
        · rw [if_neg h2, hb.bits]
          simp only [hp, decide_true, Bool.true_and]
          by_cases h3 : i + 1 ≤ p ∧ p ≤ j - 1
          · rw [if_pos (by omega), if_pos h3]
          · rw [if_neg (by omega), if_neg h3]
    · rw [if_neg hlt]
      refine ⟨b, rfl, hb.congr ?_⟩
      intro p hp
      split
      · congr 1; omega
      · rfl

theorem reverse_ok (h : IsBlockWidth w) (b : Bitset w) (wf : WF b) :
    ∃ b', reverse b = .ok b' ∧ Has b' b.bitCount (fun p => bitAt b.blocks (b.bitCount - 1 - p)) := by
  unfold reverse
  by_cases h0 : b.bitCount = 0
  · refine ⟨b, by simp [h0], Has.congr wf ?_⟩
    intro i hi; omega
  · rw [if_neg h0]
    apply reverseLoop_ok h _ (bitAt b.blocks) b 0 (b.bitCount - 1) (by omega)
    apply Has.congr wf
    intro p hp
    rw [if_pos (by omega)]

/-! ### Shifts -/

theorem resetAll_ok (h : IsBlockWidth w) (b : Bitset w) (wf : WF b) :
    ∃ b', resetAll b = .ok b' ∧ Has b' b.bitCount (fun _ => false) := setAll_ok h b wf false

/-- Fill loop `std::fill_n`. -/
theorem fill_ok (l : List (BitVec w)) (lo n : Nat) (hn : lo + n ≤ l.length) :
    ∃ l', forUp lo n (fun i l => wr l i 0#w) l = .ok l' ∧ l'.length = l.length ∧
      ∀ j, blk l' j = if lo ≤ j ∧ j < lo + n then 0#w else blk l j := by
  obtain ⟨l', e, h1, h2⟩ := forUp_ok (σ := List (BitVec w)) (fun k s => s.length = l.length ∧
      ∀ j, blk s j = if lo ≤ j ∧ j < lo + k then 0#w else blk l j)
    (lo := lo) (n := n) (s := l) (f := fun i l => wr l i 0#w)
    ⟨rfl, by intro j; rw [if_neg (by omega)]⟩ (by
      rintro k s hk ⟨h1, h2⟩
      have hks : lo + k < s.length := by omega
      refine ⟨_, wr_ok hks, by simpa using h1, ?_⟩
      intro j
      rw [blk_set _ _ _ _ hks, h2]
      by_cases e : j = lo + k
      · rw [if_pos e, if_pos (by omega)]
      · rw [if_neg e]
        by_cases hj : lo ≤ j ∧ j < lo + k
        · rw [if_pos hj, if_pos (by omega)]
        · rw [if_neg hj, if_neg (by omega)])
  exact ⟨l', e, h1, h2⟩

theorem shiftLeft_ok (h : IsBlockWidth w) (b : Bitset w) (wf : WF b) (pos : Nat) :
    ∃ b', shiftLeft b pos = .ok b' ∧ Has b' b.bitCount (fun i => if i < pos then false else bitAt b.blocks (i - pos)) := by
  have hw := h.pos
  unfold shiftLeft
  by_cases h0 : pos = 0
  · refine ⟨b, by simp [h0], Has.congr wf ?_⟩
    intro i hi; simp [h0]
  rw [if_neg h0]
  by_cases h1 : pos ≥ b.bitCount
  · rw [if_pos h1]
    obtain ⟨b', e, hb⟩ := resetAll_ok h b wf
    refine ⟨b', e, hb.congr ?_⟩
    intro i hi; rw [if_pos (by omega)]
  rw [if_neg h1]
  have hbs : pos / w < b.blocks.length := by rw [wf.len]; exact div_lt_nb hw (by omega)
  have hr := Nat.mod_lt pos hw
  have hpd := Nat.div_add_mod pos w
  have hbs0 := Nat.zero_le (pos / w)
  generalize hS : b.blocks.length = S at hbs ⊢
  generalize pos / w = bs at hbs hpd hbs0 ⊢
  generalize hrr : pos % w = r at hr hpd ⊢
  simp only [hbs, decide_true, guardUB_true, ok_bind]
  suffices hmain : ∃ l', shiftLeftBlocks b.blocks bs r = .ok l' ∧ l'.length = S ∧
      ∀ j m, j < S → m < w → (blk l' j).getLsbD m = if w * j + m < pos then false else bitAt b.blocks (w * j + m - pos) by
    obtain ⟨l', e, hl', hbits⟩ := hmain
    rw [e, ok_bind]
    obtain ⟨b', e', hb'⟩ := resetExtraBits_ok h { b with blocks := l' } (by simp only; rw [hl', ← hS, wf.len])
    refine ⟨b', e', hb'.congr ?_⟩
    intro i hi
    simp only at hi ⊢
    have him := Nat.mod_lt i hw
    have hik : i / w < S := by rw [← hS, wf.len]; exact div_lt_nb hw hi
    have := hbits (i / w) (i % w) hik him
    rw [Nat.div_add_mod] at this
    exact this
  unfold shiftLeftBlocks
  simp only [hS]
  by_cases hr0 : r = 0
  · -- whole blocks
    subst hr0
    simp only [bne_self_eq_false, Bool.false_eq_true, if_false]
    obtain ⟨l', e, hl', hblk⟩ := forDown_ok (σ := List (BitVec w)) (fun k s => s.length = S ∧
        ∀ j, blk s j = if S - k ≤ j ∧ j < S then (if bs ≤ j then blk b.blocks (j - bs) else 0#w) else blk b.blocks j)
      (lo := 0) (n := S) (s := b.blocks) (f := fun k l =>
          if S - k + bs < S then do
            let x ← rd l (k - 1 - bs)
            wr l (k - 1) x
          else wr l (k - 1) 0#w)
      ⟨hS, by intro j; rw [if_neg (by omega)]⟩ (by
        rintro k s hk ⟨g1, g2⟩
        have hidx : 0 + S - k - 1 < s.length := by omega
        by_cases hc : S - (0 + S - k) + bs < S
        · rw [if_pos hc, rd_blk (by omega), ok_bind, wr_ok hidx]
          refine ⟨_, rfl, by simpa using g1, ?_⟩
          intro j
          rw [blk_set _ _ _ _ hidx, g2, g2]
          by_cases e : j = 0 + S - k - 1
          · rw [if_pos e, if_neg (by omega), if_pos (by omega), if_pos (by omega)]
            congr 1; omega
          · rw [if_neg e]
            by_cases hj : S - k ≤ j ∧ j < S
            · rw [if_pos hj, if_pos (show S - (k + 1) ≤ j ∧ j < S by omega)]
            · rw [if_neg hj, if_neg (by omega)]
        · rw [if_neg hc, wr_ok hidx]
          refine ⟨_, rfl, by simpa using g1, ?_⟩
          intro j
          rw [blk_set _ _ _ _ hidx, g2]
          by_cases e : j = 0 + S - k - 1
          · rw [if_pos e, if_pos (by omega), if_neg (by omega)]
          · rw [if_neg e]
            by_cases hj : S - k ≤ j ∧ j < S
            · rw [if_pos hj, if_pos (show S - (k + 1) ≤ j ∧ j < S by omega)]
            · rw [if_neg hj, if_neg (by omega)])
    refine ⟨l', e, hl', ?_⟩
    intro j m hj hm
    rw [hblk, if_pos (by omega)]
    by_cases hbj : bs ≤ j
    · have hmul := Nat.mul_le_mul_left w hbj
      rw [if_pos hbj, if_neg (by omega)]
      rw [show w * j + m - pos = w * (j - bs) + m by rw [Nat.mul_sub]; omega, bitAt_mk hw _ _ _ hm]
    · have hmul := Nat.mul_le_mul_left w (Nat.succ_le_of_lt (Nat.lt_of_not_le hbj))
      rw [Nat.mul_succ] at hmul
      rw [if_neg hbj, if_pos (by omega)]
      simp
  · -- within blocks
    have hne : (r != 0) = true := by simpa using hr0
    rw [if_pos hne]
    obtain ⟨l1, e1, hl1, hblk1⟩ := forDown_ok (σ := List (BitVec w)) (fun k s => s.length = S ∧
        ∀ j, blk s j = if S - 1 - k < j ∧ j < S then (blk b.blocks (j - bs) <<< r ||| blk b.blocks (j - bs - 1) >>> (w - r)) else blk b.blocks j)
      (lo := 0) (n := S - 1 - bs) (s := b.blocks) (f := fun i l => do
          let p ← rd l i
          let q ← rd l (i - 1)
          let p ← shl p r
          let q ← shr q (w - r)
          wr l (i + bs) (p ||| q))
      ⟨hS, by intro j; rw [if_neg (by omega)]⟩ (by
        rintro k s hk ⟨g1, g2⟩
        have hidx : 0 + (S - 1 - bs) - k + bs < s.length := by omega
        rw [rd_blk (by omega), ok_bind, rd_blk (by omega), ok_bind, shl_ok _ hr, ok_bind, shr_ok _ (by omega), ok_bind, wr_ok hidx]
        refine ⟨_, rfl, by simpa using g1, ?_⟩
        intro j
        rw [blk_set _ _ _ _ hidx, g2, g2, g2]
        by_cases e : j = 0 + (S - 1 - bs) - k + bs
        · rw [if_pos e, if_neg (by omega), if_neg (by omega), if_pos (by omega)]
          congr 3 <;> omega
        · rw [if_neg e]
          by_cases hj : S - 1 - k < j ∧ j < S
          · rw [if_pos hj, if_pos (by omega)]
          · rw [if_neg hj, if_neg (by omega)])
    rw [e1, ok_bind, rd_blk (by omega), ok_bind, shl_ok _ hr, ok_bind, wr_ok (by omega), ok_bind]
    obtain ⟨l2, e2, hl2, hblk2⟩ := fill_ok (l1.set bs (blk l1 0 <<< r)) 0 bs (by simp; omega)
    refine ⟨l2, e2, by rw [hl2]; simpa using hl1, ?_⟩
    intro j m hj hm
    rw [hblk2, blk_set _ _ _ _ (by omega), hblk1, hblk1]
    by_cases hjb : j < bs
    · have hmul := Nat.mul_le_mul_left w (Nat.succ_le_of_lt hjb)
      rw [Nat.mul_succ] at hmul
      rw [if_pos (by omega), if_pos (by omega)]
      simp
    · rw [if_neg (by omega)]
      have hmul := Nat.mul_le_mul_left w (Nat.le_of_not_lt hjb)
      by_cases he : j = bs
      · subst he
        rw [if_pos rfl, if_neg (by omega), BitVec.getLsbD_shiftLeft]
        by_cases hmr : m < r
        · rw [if_pos (by omega)]; simp [hmr]
        · rw [if_neg (by omega), show w * j + m - pos = w * 0 + (m - r) by omega, bitAt_mk hw _ _ _ (by omega)]
          simp [hm, hmr]
      · rw [if_neg he, if_pos (by omega)]
        have hmul' := Nat.mul_le_mul_left w (Nat.succ_le_of_lt (Nat.lt_of_le_of_ne (Nat.le_of_not_lt hjb) (Ne.symm he)))
        rw [Nat.mul_succ] at hmul'
        rw [if_neg (by omega), BitVec.getLsbD_or, BitVec.getLsbD_shiftLeft, BitVec.getLsbD_ushiftRight]
        by_cases hmr : m < r
        · rw [show w * j + m - pos = w * (j - bs - 1) + (w - r + m) by
            rw [Nat.sub_sub, Nat.mul_sub, Nat.mul_add]; omega, bitAt_mk hw _ _ _ (by omega)]
          simp [hmr]
        · rw [show w * j + m - pos = w * (j - bs) + (m - r) by rw [Nat.mul_sub]; omega, bitAt_mk hw _ _ _ (by omega)]
          have : (blk b.blocks (j - bs - 1)).getLsbD (w - r + m) = false := BitVec.getLsbD_of_ge _ _ (by omega)
          simp [hm, hmr, this]

theorem shiftRight_ok (h : IsBlockWidth w) (b : Bitset w) (wf : WF b) (pos : Nat) :
    ∃ b', shiftRight b pos = .ok b' ∧ Has b' b.bitCount (fun i => bitAt b.blocks (i + pos)) := by
  have hw := h.pos
  unfold shiftRight
  by_cases h0 : pos = 0
  · refine ⟨b, by simp [h0], Has.congr wf ?_⟩
    intro i hi; simp [h0]
  rw [if_neg h0]
  by_cases h1 : pos ≥ b.bitCount
  · rw [if_pos h1]
    obtain ⟨b', e, hb⟩ := resetAll_ok h b wf
    refine ⟨b', e, hb.congr ?_⟩
    intro i hi; rw [wf.bit_ge (by omega)]
  rw [if_neg h1]
  have hbs : pos / w < b.blocks.length := by rw [wf.len]; exact div_lt_nb hw (by omega)
  have hr := Nat.mod_lt pos hw
  have hpd := Nat.div_add_mod pos w
  have hbs0 := Nat.zero_le (pos / w)
  generalize hS : b.blocks.length = S at hbs ⊢
  generalize pos / w = bs at hbs hpd hbs0 ⊢
  generalize hrr : pos % w = r at hr hpd ⊢
  simp only [hbs, decide_true, guardUB_true, ok_bind]
  suffices hmain : ∃ l', shiftRightBlocks b.blocks bs r = .ok l' ∧ l'.length = S ∧
      ∀ j m, j < S → m < w → (blk l' j).getLsbD m = bitAt b.blocks (w * j + m + pos) by
    obtain ⟨l', e, hl', hbits⟩ := hmain
    rw [e, ok_bind]
    obtain ⟨b', e', hb'⟩ := resetExtraBits_ok h { b with blocks := l' } (by simp only; rw [hl', ← hS, wf.len])
    refine ⟨b', e', hb'.congr ?_⟩
    intro i hi
    simp only at hi ⊢
    have him := Nat.mod_lt i hw
    have hik : i / w < S := by rw [← hS, wf.len]; exact div_lt_nb hw hi
    have := hbits (i / w) (i % w) hik him
    rw [Nat.div_add_mod] at this
    exact this
  unfold shiftRightBlocks
  simp only [hS]
  by_cases hr0 : r = 0
  · subst hr0
    simp only [bne_self_eq_false, Bool.false_eq_true, if_false]
    obtain ⟨l', e, hl', hblk⟩ := forUp_ok (σ := List (BitVec w)) (fun k s => s.length = S ∧
        ∀ j, blk s j = if j < k then blk b.blocks (j + bs) else blk b.blocks j)
      (lo := 0) (n := S) (s := b.blocks) (f := fun i l =>
          if i + bs < S then do
            let x ← rd l (i + bs)
            wr l i x
          else wr l i 0#w)
      ⟨hS, by intro j; rw [if_neg (by omega)]⟩ (by
        rintro k s hk ⟨g1, g2⟩
        have hidx : 0 + k < s.length := by omega
        by_cases hc : 0 + k + bs < S
        · rw [if_pos hc, rd_blk (by omega), ok_bind, wr_ok hidx]
          refine ⟨_, rfl, by simpa using g1, ?_⟩
          intro j
          rw [blk_set _ _ _ _ hidx, g2, g2]
          by_cases e : j = 0 + k
          · rw [if_pos e, if_neg (by omega), if_pos (by omega)]
            congr 1; omega
          · rw [if_neg e]
            by_cases hj : j < k
            · rw [if_pos hj, if_pos (by omega)]
            · rw [if_neg hj, if_neg (by omega)]
        · rw [if_neg hc, wr_ok hidx]
          refine ⟨_, rfl, by simpa using g1, ?_⟩
          intro j
          rw [blk_set _ _ _ _ hidx, g2]
          by_cases e : j = 0 + k
          · rw [if_pos e, if_pos (by omega), blk_ge (by omega)]
          · rw [if_neg e]
            by_cases hj : j < k
            · rw [if_pos hj, if_pos (by omega)]
            · rw [if_neg hj, if_neg (by omega)])
    refine ⟨l', e, hl', ?_⟩
    intro j m hj hm
    rw [hblk, if_pos hj]
    rw [show w * j + m + pos = w * (j + bs) + m by rw [Nat.mul_add]; omega, bitAt_mk hw _ _ _ hm]
  · have hne : (r != 0) = true := by simpa using hr0
    rw [if_pos hne]
    obtain ⟨l1, e1, hl1, hblk1⟩ := forUp_ok (σ := List (BitVec w)) (fun k s => s.length = S ∧
        ∀ j, blk s j = if j < k then (blk b.blocks (j + bs) >>> r ||| blk b.blocks (j + bs + 1) <<< (w - r)) else blk b.blocks j)
      (lo := bs) (n := S - 1 - bs) (s := b.blocks) (f := fun i l => do
          let p ← rd l i
          let q ← rd l (i + 1)
          let p ← shr p r
          let q ← shl q (w - r)
          wr l (i - bs) (p ||| q))
      ⟨hS, by intro j; rw [if_neg (by omega)]⟩ (by
        rintro k s hk ⟨g1, g2⟩
        have hidx : bs + k - bs < s.length := by omega
        rw [rd_blk (by omega), ok_bind, rd_blk (by omega), ok_bind, shr_ok _ hr, ok_bind, shl_ok _ (by omega), ok_bind, wr_ok hidx]
        refine ⟨_, rfl, by simpa using g1, ?_⟩
        intro j
        rw [blk_set _ _ _ _ hidx, g2, g2, g2]
        by_cases e : j = bs + k - bs
        · rw [if_pos e, if_neg (by omega), if_neg (by omega), if_pos (by omega)]
          congr 3 <;> omega
        · rw [if_neg e]
          by_cases hj : j < k
          · rw [if_pos hj, if_pos (by omega)]
          · rw [if_neg hj, if_neg (by omega)])
    rw [e1, ok_bind, rd_blk (by omega), ok_bind, shr_ok _ hr, ok_bind, wr_ok (by omega), ok_bind]
    obtain ⟨l2, e2, hl2, hblk2⟩ := fill_ok (l1.set (S - 1 - bs) (blk l1 (S - 1) >>> r)) (S - bs) bs (by simp; omega)
    refine ⟨l2, e2, by rw [hl2]; simpa using hl1, ?_⟩
    intro j m hj hm
    rw [hblk2, blk_set _ _ _ _ (by omega), hblk1, hblk1]
    -- in all cases, the block is the combination of the source blocks (zero past the end)
    have hcomb : (if S - bs ≤ j ∧ j < S - bs + bs then 0#w
        else if j = S - 1 - bs then (if S - 1 < S - 1 - bs then blk b.blocks (S - 1 + bs) >>> r ||| blk b.blocks (S - 1 + bs + 1) <<< (w - r) else blk b.blocks (S - 1)) >>> r
        else if j < S - 1 - bs then blk b.blocks (j + bs) >>> r ||| blk b.blocks (j + bs + 1) <<< (w - r) else blk b.blocks j)
        = blk b.blocks (j + bs) >>> r ||| blk b.blocks (j + bs + 1) <<< (w - r) := by
      by_cases c1 : S - bs ≤ j
      · rw [if_pos (by omega), blk_ge (k := j + bs) (by omega), blk_ge (k := j + bs + 1) (by omega)]; simp
      · rw [if_neg (by omega)]
        by_cases c2 : j = S - 1 - bs
        · rw [if_pos c2, if_neg (by omega), blk_ge (k := j + bs + 1) (by omega), show j + bs = S - 1 by omega]; simp
        · rw [if_neg c2, if_pos (by omega)]
    rw [hcomb, BitVec.getLsbD_or, BitVec.getLsbD_shiftLeft, BitVec.getLsbD_ushiftRight]
    by_cases hmr : r + m < w
    · rw [show w * j + m + pos = w * (j + bs) + (r + m) by rw [Nat.mul_add]; omega, bitAt_mk hw _ _ _ hmr]
      simp [show m < w - r by omega]
    · rw [show w * j + m + pos = w * (j + bs + 1) + (m - (w - r)) by rw [Nat.mul_add, Nat.mul_add]; omega, bitAt_mk hw _ _ _ (by omega)]
      have : (blk b.blocks (j + bs)).getLsbD (r + m) = false := BitVec.getLsbD_of_ge _ _ (by omega)
      simp [this, hm, show ¬ m < w - r by omega]

end Verif.Bitset
