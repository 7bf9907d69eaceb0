import Verif.Bitset.PropsAppend

/-!
# C06-C09: exactly where the code departs from the properties

The partial theorems of `PropsObs.lean` and `PropsAppend.lean` have hypotheses.  Here: what the code does, for every input, when they do not hold.
-/

namespace Verif.Bitset
open Verif.Cpp

variable {w : Nat}

/-! ### Bitsets with set bits past their size -/

theorem test_loose (h : IsBlockWidth w) (b : Bitset w) (hl : b.blocks.length = nb w b.bitCount) (k : Nat) (hk : k < b.bitCount) :
    test b k = .ok (bitAt b.blocks k) := by
  have hw := h.pos
  have hmod := Nat.mod_lt k hw
  have hidx : k / w < b.blocks.length := by rw [hl]; exact div_lt_nb hw hk
  simp only [test, hk, decide_true, assert_true, ok_bind, getBlockIndex, getBitIndex_eq h, rd_blk hidx, shl_ok _ hmod, pure_ok,
    and_mask_ne _ _ hmod]
  rfl

theorem count_loose (h : IsBlockWidth w) (b : Bitset w) : count b = .ok ((List.range (w * b.blocks.length)).countP (bitAt b.blocks)) := by
  have hw := h.pos
  unfold count
  obtain ⟨c, e, hc⟩ := forUp_ok (σ := Nat) (fun k c => c = (List.range (w * k)).countP (bitAt b.blocks))
    (lo := 0) (n := b.blocks.length) (s := 0) (f := fun i c => do
      let x ← rd b.blocks i
      pure (c + MathUtils.countBits x)) (by simp) (by
      rintro k c hk rfl
      rw [Nat.zero_add, rd_blk hk, ok_bind]
      refine ⟨_, rfl, ?_⟩
      rw [Nat.mul_succ, countP_range_add, MathUtils.C13_countBits]
      congr 1
      unfold MathUtils.popcount
      apply List.countP_congr
      intro i hi
      rw [List.mem_range] at hi
      rw [bitAt_mk hw _ _ _ hi])
  rw [e, hc]

/-- Enlarging with `false` uncovers the bits past the size. -/
theorem resize_loose (h : IsBlockWidth w) (b : Bitset w) (hl : b.blocks.length = nb w b.bitCount) (n : Nat) :
    ∃ b', resize b n false = .ok b' ∧ Has b' n (bitAt b.blocks) := by
  have hw := h.pos
  unfold resize
  simp only [Bool.and_false, Bool.false_eq_true, if_false, pure_ok, ok_bind]
  obtain ⟨b', e, hb'⟩ := resetExtraBits_ok h ⟨vresize b.blocks (computeBlockCount w n) 0#w, n⟩
    (by simp only; rw [vresize_length, computeBlockCount_eq h])
  refine ⟨b', e, hb'.congr ?_⟩
  intro i hi
  simp only at hi ⊢
  unfold bitAt
  rw [blk_vresize, computeBlockCount_eq h, if_pos (div_lt_nb hw hi)]
  split
  · rfl
  · rw [blk_ge (by omega)]

/-- A bitset of the bits of `l`, then the bits `stray` up to the end of the last block. -/
theorem loose_shows (h : IsBlockWidth w) {b : Bitset w} {l : List Bool} {stray : Nat → Bool} (h1 : b.bitCount = l.length)
    (h2 : b.blocks.length = nb w l.length) (h3 : ∀ i, bitAt b.blocks i = if i < l.length then l.getD i false else stray (i - l.length)) :
    Shows b l ∧ count b = .ok (l.count true + (List.range (w * nb w l.length - l.length)).countP stray) ∧
    ∀ i, stray i = true → ∃ b', resize b (l.length + i + 1) false = .ok b' ∧ test b' (l.length + i) = .ok true := by
  have hw := h.pos
  have hle := le_mul_nb hw l.length
  refine ⟨⟨h1, ?_⟩, ?_, ?_⟩
  · intro i hi
    rw [test_loose h b (by rw [h1]; exact h2) i (by rw [h1]; exact hi), h3, if_pos hi, getD_lt hi]
  · rw [count_loose h]
    congr 1
    rw [h2, show w * nb w l.length = l.length + (w * nb w l.length - l.length) by omega, countP_range_add]
    congr 1
    · rw [List.count_eq_countP]
      have : l = (List.range l.length).map (fun i => l.getD i false) := by
        apply List.ext_getElem (by simp)
        intro i h1 h2
        rw [List.getElem_map, List.getElem_range, getD_lt h1]
      conv_rhs => rw [this]
      rw [List.countP_map]
      apply List.countP_congr
      intro i hi
      rw [List.mem_range] at hi
      rw [h3, if_pos hi]
      simp
    · rw [show l.length + (w * nb w l.length - l.length) - l.length = w * nb w l.length - l.length by omega]
      apply List.countP_congr
      intro i _
      rw [h3, if_neg (by omega), Nat.add_sub_cancel_left]
  · intro i hi
    obtain ⟨b', e, hb'⟩ := resize_loose h b (by rw [h1]; exact h2) (l.length + i + 1)
    refine ⟨b', e, ?_⟩
    rw [test_ok h b' hb'.wf _ (by rw [hb'.size]; omega), hb'.bits, h3, if_neg (by omega), Nat.add_sub_cancel_left, hi]
    simp

/-! ### C06 -/

/-- C06 fails for every negative integer of a signed type narrower than the block (the class comment says "unsigned integral number" but the
constructor accepts it): all bits of the block past the size are set, `Count` counts them, and enlarging uncovers them. -/
theorem C06_signed_violated (h : IsBlockWidth w) {t : Nat} (htw : t < w) (v : BitVec t) (hv : v.toInt < 0) :
    ∃ b : Bitset w, ofInt true v = .ok b ∧ Shows b (Seq.lowBits v t) ∧ count b = .ok ((Seq.lowBits v t).count true + (w - t)) ∧
      ∀ i, t + i < w → ∃ b', resize b (t + i + 1) false = .ok b' ∧ test b' (t + i) = .ok true := by
  have hw := h.pos
  have hm : v.msb = true := by rw [BitVec.msb_eq_toInt]; simpa using hv
  have ht : 0 < t := by
    rcases Nat.eq_zero_or_pos t with rfl | h
    · rw [BitVec.eq_nil v] at hv; simp at hv
    · exact h
  have hlen : (Seq.lowBits v t).length = t := by simp [Seq.lowBits]
  have hnb : nb w t = 1 := nb_le_width ht (by omega)
  refine ⟨⟨[v.signExtend w], t⟩, by simp [ofInt, Nat.le_of_lt htw], ?_⟩
  have key := loose_shows h (b := ⟨[v.signExtend w], t⟩) (l := Seq.lowBits v t) (stray := fun i => decide (t + i < w)) hlen.symm
    (by rw [hlen, hnb]; rfl) (by
      intro i
      rw [hlen]
      simp only
      by_cases hiw : i < w
      · have : bitAt [v.signExtend w] i = (v.signExtend w).getLsbD i := by
          unfold bitAt blk
          rw [Nat.div_eq_of_lt hiw, Nat.mod_eq_of_lt hiw]; rfl
        rw [this, BitVec.getLsbD_signExtend]
        by_cases hit : i < t
        · rw [if_pos hit, if_pos hit]
          unfold Seq.lowBits
          rw [getD_range_map]; simp [hit, hiw]
        · rw [if_neg hit, if_neg hit, hm]
          simp [hiw]; omega
      · rw [if_neg (by omega)]
        have : bitAt [v.signExtend w] i = false := by
          unfold bitAt
          rw [blk_ge (by have := (Nat.le_div_iff_mul_le hw).2 (show 1 * w ≤ i by omega); simpa using this)]
          simp
        rw [this]
        simp; omega)
  rw [hlen, hnb] at key
  refine ⟨key.1, ?_, fun i hi => key.2.2 i (by simpa using hi)⟩
  rw [key.2.1]
  congr 2
  rw [List.countP_eq_length.2 (by intro i hi; rw [List.mem_range] at hi; simp; omega), List.length_range]
  omega

/-- C06: the constructor from a signed integer that is not negative, or not narrower than the block, gives the bitset of its bits, as for
unsigned integers. -/
theorem C06_signed_partial (h : IsBlockWidth w) {t : Nat} (ht : 0 < t) (v : BitVec t) (hv : 0 ≤ v.toInt ∨ w ≤ t) :
    ∃ (b : Bitset w) (l : List Bool), ofInt true v = .ok b ∧ Reachable b ∧ Shows b l ∧ Seq.toNat l = v.toNat ∧
      (t ≤ w → l.length = t) ∧ (w < t → l.length ≤ t ∧ (l ≠ [] → l.getD (l.length - 1) false = true)) := by
  have e : (ofInt true v : M (Bitset w)) = ofInt false v := by
    unfold ofInt
    by_cases htw : t ≤ w
    · simp only [if_pos htw, if_true, Bool.false_eq_true, if_false]
      have : v.signExtend w = v.setWidth w := by
        rcases hv with hv | hv
        · apply BitVec.signExtend_eq_setWidth_of_msb_false
          rw [BitVec.msb_eq_toInt]
          simpa using hv
        · obtain rfl : t = w := by omega
          simp
      rw [this]
    · simp only [if_neg htw]
  obtain ⟨b, l, e', h1, h2, h3, h4⟩ := C06_ofInt (w := w) h ht v
  exact ⟨b, l, by rw [e, e'], h1, h2, h3, h4⟩

/-- A signed integer that is not negative. -/
example : 0 ≤ (0x35#8).toInt := by decide

/-- An instance: the "8-bit" bitset of `-1` has 32 bits set. -/
example : ∃ b : Bitset 32, ofInt true (0xFF#8) = .ok b ∧ getSize b = 8 ∧ count b = .ok 32 ∧ equals b ⟨[0xFF#32], 8⟩ = .ok false :=
  ⟨⟨[0xFFFFFFFF#32], 8⟩, by decide, rfl, by decide +kernel, by decide⟩

/-! ### C07 -/

/-- The second condition of `AppendAllowed`, in the form used by the lemmas. -/
theorem shift_nb (hw : 0 < w) {size n : Nat} (hs : w < 32 ∨ (size + n) % w ≠ 0 ∨ (size + n + w - 1) / w = (size + w - 1) / w) :
    w < 32 ∨ (size + n) % w ≠ 0 ∨ nb w (size + n) = nb w size := by
  rwa [nb_eq_ceil hw, nb_eq_ceil hw]

/-- C07, whatever the value: `AppendBits` shows the concatenation, but `Count` also counts the bits of the value from `n` on that fall in the
former last block, and enlarging the bitset uncovers them. -/
theorem C07_appendBits_exact (h : IsBlockWidth w) {b : Bitset w} (hb : Reachable b) {l : List Bool} (hl : Shows b l) {t : Nat} (v : BitVec t)
    (n : Nat) (hs : w < 32 ∨ (l.length + n) % w ≠ 0 ∨ (l.length + n + w - 1) / w = (l.length + w - 1) / w) :
    ∃ b', appendBits b v n = .ok b' ∧ Shows b' (l ++ Seq.lowBits v n) ∧
      count b' = .ok ((l ++ Seq.lowBits v n).count true +
        if l.length % w = 0 then 0 else (List.range (w - l.length % w - n)).countP (fun i => v.getLsbD (n + i))) ∧
      ∀ i, l.length % w ≠ 0 → n ≤ i → i < w - l.length % w → v.getLsbD i = true →
        ∃ b'', resize b' (l.length + i + 1) false = .ok b'' ∧ test b'' (l.length + i) = .ok true := by
  have hw := h.pos
  have hL := hb.hasL h hl
  have hle := le_mul_nb hw l.length
  have hgap := gap_eq hw l.length
  have hlen : (l ++ Seq.lowBits v n).length = l.length + n := by simp [Seq.lowBits]
  obtain ⟨b', e, f1, f2, f3⟩ := appendBits_gen h b hL.wf v n (by rw [hL.size]; exact shift_nb hw hs)
  rw [hL.size] at f1 f2 f3
  have key := loose_shows h (b := b') (l := l ++ Seq.lowBits v n) (stray := fun j => decide (l.length + n + j < w * nb w l.length) && v.getLsbD (n + j))
    (by rw [f1, hlen]) (by rw [f2, hlen]) (by
      intro i
      rw [f3, hlen, getD_append']
      by_cases c1 : i < l.length
      · rw [if_pos c1, if_pos (by omega), if_pos c1, hL.bit]
      · rw [if_neg c1, if_neg c1]
        by_cases c2 : i < l.length + n
        · rw [if_pos c2]
          unfold Seq.lowBits
          rw [getD_range_map]
          simp [c2, show i - l.length < n by omega]
        · rw [if_neg c2]
          simp only [c2, decide_false, Bool.false_or]
          rw [show l.length + n + (i - (l.length + n)) = i by omega, show n + (i - (l.length + n)) = i - l.length by omega])
  rw [hlen] at key
  refine ⟨b', e, key.1, ?_, ?_⟩
  · rw [key.2.1]
    congr 2
    have hle2 := le_mul_nb hw (l.length + n)
    have hmono := Nat.mul_le_mul_left w (nb_mono hw (show l.length ≤ l.length + n by omega))
    split
    · rename_i h0
      rw [if_pos h0] at hgap
      rw [List.countP_eq_zero]
      intro j _
      simp; omega
    · rename_i h0
      rw [if_neg h0] at hgap
      obtain ⟨c, hc⟩ := Nat.exists_eq_add_of_le (show w - l.length % w - n ≤ w * nb w (l.length + n) - (l.length + n) by omega)
      rw [hc, countP_range_add]
      have : (List.range c).countP (fun i => (fun j => decide (l.length + n + j < w * nb w l.length) && v.getLsbD (n + j)) (w - l.length % w - n + i)) = 0 := by
        rw [List.countP_eq_zero]
        intro j _
        simp; omega
      rw [this, Nat.add_zero]
      apply List.countP_congr
      intro j hj
      rw [List.mem_range] at hj
      rw [show decide (l.length + n + j < w * nb w l.length) = true by simp; omega, Bool.true_and]
  · intro i h0 h1 h2 h3
    rw [if_neg h0] at hgap
    obtain ⟨b'', e'', t''⟩ := key.2.2 (i - n) (by
      rw [show n + (i - n) = i by omega, h3, Bool.and_true]
      simp; omega)
    rw [show l.length + n + (i - n) = l.length + i by omega] at e'' t''
    exact ⟨b'', e'', t''⟩

/-- C07 fails exactly when the value has a set bit from `n` on that falls in the former last block: `Count` is too large. -/
theorem C07_stray_bits_violated (h : IsBlockWidth w) {b : Bitset w} (hb : Reachable b) {l : List Bool} (hl : Shows b l) {t : Nat} (v : BitVec t)
    (n : Nat) (hs : w < 32 ∨ (l.length + n) % w ≠ 0 ∨ (l.length + n + w - 1) / w = (l.length + w - 1) / w)
    (i : Nat) (h0 : l.length % w ≠ 0) (h1 : n ≤ i) (h2 : i < w - l.length % w) (h3 : v.getLsbD i = true) :
    ∃ b' c, appendBits b v n = .ok b' ∧ Shows b' (l ++ Seq.lowBits v n) ∧ count b' = .ok c ∧ (l ++ Seq.lowBits v n).count true < c := by
  obtain ⟨b', e, hsh, hc, _⟩ := C07_appendBits_exact h hb hl v n hs
  refine ⟨b', _, e, hsh, hc, ?_⟩
  rw [if_neg h0]
  have : 0 < (List.range (w - l.length % w - n)).countP (fun i => v.getLsbD (n + i)) := by
    rw [List.countP_pos_iff]
    exact ⟨i - n, by rw [List.mem_range]; omega, by rw [show n + (i - n) = i by omega]; exact h3⟩
  omega

/-- An instance: a bitset of 3 zeros in 8-bit blocks, `AppendBits(0xFF, 1)`. -/
example : ∃ b b' b'' : Bitset 8, ofSize 3 false = .ok b ∧ Reachable b ∧ appendBits b (0xFF#8) 1 = .ok b' ∧ getSize b' = 4 ∧ count b' = .ok 5 ∧
      resize b' 8 false = .ok b'' ∧ test b'' 7 = .ok true := by
  refine ⟨⟨[0#8], 3⟩, ⟨[0xF8#8], 4⟩, ⟨[0xF8#8], 8⟩, by decide, ?_, by decide, rfl, by decide +kernel, by decide, by decide⟩
  refine ⟨[.ofSize 0 3 false], upd (fun _ => empty) 0 ⟨[0#8], 3⟩, 0, ⟨trivial, trivial⟩, ?_, rfl⟩
  have e : (ofSize 3 false : M (Bitset 8)) = .ok ⟨[0#8], 3⟩ := by decide
  simp only [run, Op.exec, Op.result, e, ok_bind, pure_ok]
  rfl

/-- C07 fails with undefined behaviour whenever new blocks of 32 bits or more are needed and the last one is filled completely: the mask is
computed with `1 << 32` (or `1 << 64`). -/
theorem C07_shift_ub_violated (h : IsBlockWidth w) (hw32 : 32 ≤ w) {b : Bitset w} (hb : Reachable b) {l : List Bool} (hl : Shows b l) {t : Nat}
    (v : BitVec t) (n : Nat) (hfull : (l.length + n) % w = 0) (hnew : (l.length + w - 1) / w < (l.length + n + w - 1) / w) :
    appendBits b v n = .error .ub := by
  have hw := h.pos
  have hL := hb.hasL h hl
  have hle := le_mul_nb hw l.length
  unfold appendBits
  obtain ⟨st, e, -, h2, -, -⟩ := appendHead_ok h b hL.wf v n
  rw [e, ok_bind]
  rw [hL.size] at h2
  rw [← nb_eq_ceil hw, ← nb_eq_ceil hw] at hnew
  have hpos : w * nb w l.length < l.length + n := by
    by_contra hc
    have := nb_of_bounds hw (n := l.length + n) (q := nb w l.length) (by omega) (by have := mul_nb_lt hw l.length; omega)
    omega
  have hk : ∃ k, 0 < k ∧ st.bitCount = w * k := by
    have hd := Nat.div_add_mod (l.length + n) w
    refine ⟨(l.length + n) / w - nb w l.length, ?_, ?_⟩
    · rw [Nat.sub_pos_iff_lt]
      exact Nat.lt_of_mul_lt_mul_left (a := w) (by omega)
    · rw [Nat.mul_sub]; omega
  obtain ⟨k, hk0, hk⟩ := hk
  have hnb : computeBlockCount w st.bitCount = k := by
    rw [computeBlockCount_eq h, hk]
    exact nb_of_bounds hw (Nat.le_refl _) (by omega)
  obtain ⟨s, e', hs⟩ := forUp_ok (σ := AppendState w t) (fun i s => s.bitCount = w * k - w * i) (lo := 0) (n := k - 1)
    (f := fun _ (s : AppendState w t) => pure ⟨s.blocks ++ [s.bits.setWidth w], if w < t then s.bits >>> w else 0#t, s.bitCount - w⟩)
    (s := st) (by simpa using hk) (by
      intro i s hi hI
      refine ⟨_, rfl, ?_⟩
      simp only [hI, Nat.mul_succ]
      omega)
  have hlast : s.bitCount = w := by
    rw [hs]
    obtain ⟨j, rfl⟩ : ∃ j, k = j + 1 := ⟨k - 1, by omega⟩
    rw [Nat.add_sub_cancel, Nat.mul_succ]; omega
  have hp : st.bitCount > 0 := by rw [hk]; exact Nat.mul_pos hw hk0
  unfold appendTail
  simp only [hp, if_true, hnb, shiftOut_ok, ok_bind]
  rw [e', ok_bind]
  have : ¬ (s.bitCount < promoted w) := by rw [hlast]; unfold promoted; omega
  simp [this]

/-- The hypotheses hold e.g. of 5 bits followed by 59 bits, in blocks of 32 bits. -/
example : (5 + 59) % 32 = 0 ∧ (5 + 32 - 1) / 32 < (5 + 59 + 32 - 1) / 32 := by decide

/-! ### C08 -/

/-- The bits of the last byte past the `n`-th that fall in the block that was the last one before that byte (relative to the end). -/
def strayStream (w size : Nat) (mem : List (BitVec 8)) (seq : Sequence) (n j : Nat) : Bool :=
  decide ((seq.bit + n + j) / 8 = (seq.bit + n - 1) / 8) &&
  decide ((size + (8 * ((seq.bit + n - 1) / 8) - seq.bit)) % w ≠ 0 ∧
    (size + n + j) / w = (size + (8 * ((seq.bit + n - 1) / 8) - seq.bit)) / w) &&
  Seq.streamBit mem seq.ptr (seq.bit + n + j)

/-- C08, whatever the unread bits: `Write` shows the next `n` bits and returns the position after them, but `Count` also counts the unread bits
of the last byte that fall in the block that was the last one before that byte, and enlarging the bitset uncovers them. -/
theorem C08_write_exact (h : IsBlockWidth w) {b : Bitset w} (hb : Reachable b) {l : List Bool} (hl : Shows b l) (mem : List (BitVec 8))
    (seq : Sequence) (n : Nat) (hbit : seq.bit < 8) (hn : 0 < n) (hmem : seq.ptr + (seq.bit + n - 1) / 8 < mem.length) :
    ∃ b' seq', write b mem seq n = .ok (b', seq') ∧ Shows b' (l ++ Seq.stream mem seq.ptr seq.bit n) ∧
      seq'.bit < 8 ∧ 8 * seq'.ptr + seq'.bit = 8 * seq.ptr + seq.bit + n ∧
      count b' = .ok ((l ++ Seq.stream mem seq.ptr seq.bit n).count true + (List.range 8).countP (strayStream w l.length mem seq n)) ∧
      ∀ j, strayStream w l.length mem seq n j = true →
        ∃ b'', resize b' (l.length + n + j + 1) false = .ok b'' ∧ test b'' (l.length + n + j) = .ok true := by
  have hw := h.pos
  have hL := hb.hasL h hl
  have hlen : (l ++ Seq.stream mem seq.ptr seq.bit n).length = l.length + n := by simp [Seq.stream]
  obtain ⟨b', e, f1, f2, f3⟩ := write_gen h b hL.wf mem seq n hbit hn hmem
  rw [hL.size] at f1 f2 f3
  have hstray : ∀ j, strayStream w l.length mem seq n j = (decide (seq.bit + (n + j) < 8 * ((seq.bit + n - 1) / 8 + 1)) &&
      decide (l.length + n + j < w * nb w (l.length + (8 * ((seq.bit + n - 1) / 8) - seq.bit))) && Seq.streamBit mem seq.ptr (seq.bit + (n + j))) := by
    intro j
    unfold strayStream
    rw [← Nat.add_assoc]
    congr 2
    · rw [decide_eq_decide]; omega
    · rw [decide_eq_decide]
      exact (lt_mul_nb_iff hw (by omega)).symm
  have key := loose_shows h (b := b') (l := l ++ Seq.stream mem seq.ptr seq.bit n) (stray := strayStream w l.length mem seq n)
    (by rw [f1, hlen]) (by rw [f2, hlen]) (by
      intro i
      rw [f3, hlen, getD_append']
      by_cases c1 : i < l.length
      · rw [if_pos c1, if_pos (by omega), if_pos c1, hL.bit]
      · rw [if_neg c1, if_neg c1]
        by_cases c2 : i < l.length + n
        · rw [if_pos c2]
          unfold Seq.stream
          rw [getD_range_map]
          simp [c2, show i - l.length < n by omega]
        · rw [if_neg c2, hstray]
          simp only [c2, decide_false, Bool.false_or]
          rw [show l.length + n + (i - (l.length + n)) = i by omega, show n + (i - (l.length + n)) = i - l.length by omega])
  rw [hlen] at key
  refine ⟨b', _, e, key.1, Nat.mod_lt _ (by omega), by simp only; omega, ?_, key.2.2⟩
  rw [key.2.1]
  congr 2
  -- both counts run over all the stray bits
  have hext : ∀ a c : Nat, (∀ j, a ≤ j → strayStream w l.length mem seq n j = false) → (∀ j, c ≤ j → strayStream w l.length mem seq n j = false) →
      (List.range a).countP (strayStream w l.length mem seq n) = (List.range c).countP (strayStream w l.length mem seq n) := by
    have step : ∀ a d : Nat, (∀ j, a ≤ j → strayStream w l.length mem seq n j = false) →
        (List.range (a + d)).countP (strayStream w l.length mem seq n) = (List.range a).countP (strayStream w l.length mem seq n) := by
      intro a d ha
      rw [countP_range_add]
      have : (List.range d).countP (fun i => strayStream w l.length mem seq n (a + i)) = 0 := by
        rw [List.countP_eq_zero]
        intro j _
        rw [ha _ (by omega)]; simp
      omega
    intro a c ha hc
    rcases Nat.le_total a c with hac | hac
    · obtain ⟨d, rfl⟩ := Nat.exists_eq_add_of_le hac; exact (step a d ha).symm
    · obtain ⟨d, rfl⟩ := Nat.exists_eq_add_of_le hac; exact step c d hc
  apply hext
  · intro j hj
    rw [hstray]
    have hm := Nat.mul_le_mul_left w (nb_mono hw (show l.length + (8 * ((seq.bit + n - 1) / 8) - seq.bit) ≤ l.length + n by omega))
    rw [show decide (l.length + n + j < w * nb w (l.length + (8 * ((seq.bit + n - 1) / 8) - seq.bit))) = false by simp; omega]
    simp
  · intro j hj
    rw [hstray, show decide (seq.bit + (n + j) < 8 * ((seq.bit + n - 1) / 8 + 1)) = false by simp; omega]
    simp

/-- C08 fails exactly when such a bit is set: `Count` is too large. -/
theorem C08_stray_bits_violated (h : IsBlockWidth w) {b : Bitset w} (hb : Reachable b) {l : List Bool} (hl : Shows b l) (mem : List (BitVec 8))
    (seq : Sequence) (n : Nat) (hbit : seq.bit < 8) (hn : 0 < n) (hmem : seq.ptr + (seq.bit + n - 1) / 8 < mem.length)
    (j : Nat) (hj : strayStream w l.length mem seq n j = true) :
    ∃ b' seq' c, write b mem seq n = .ok (b', seq') ∧ Shows b' (l ++ Seq.stream mem seq.ptr seq.bit n) ∧ count b' = .ok c ∧
      (l ++ Seq.stream mem seq.ptr seq.bit n).count true < c := by
  obtain ⟨b', s', e, hsh, -, -, hc, -⟩ := C08_write_exact h hb hl mem seq n hbit hn hmem
  refine ⟨b', s', _, e, hsh, hc, ?_⟩
  have : 0 < (List.range 8).countP (strayStream w l.length mem seq n) := by
    rw [List.countP_pos_iff]
    refine ⟨j, ?_, hj⟩
    rw [List.mem_range]
    unfold strayStream at hj
    simp only [Bool.and_eq_true, decide_eq_true_eq] at hj
    omega
  omega

/-- An instance: with 32-bit blocks, `FromPointer` of 12 bits of `FF FF` keeps 4 bits beyond the size, which `Count` counts. -/
example : ∃ (b : Bitset 32) (s : Sequence), fromPointer [0xFF#8, 0xFF#8] 0 12 = .ok (b, s) ∧ getSize b = 12 ∧ count b = .ok 16 ∧
    strayStream 32 0 [0xFF#8, 0xFF#8] ⟨0, 0⟩ 12 3 = true ∧ strayStream 32 0 [0xFF#8, 0xFF#8] ⟨0, 0⟩ 12 4 = false :=
  ⟨⟨[0xFFFF#32], 12⟩, ⟨1, 4⟩, by decide, rfl, by decide +kernel, by decide, by decide⟩

/-! ### C09 -/

/-- The number made of the booleans of block `k` of a sequence. -/
def chunk (w : Nat) (l : List Bool) (k : Nat) : Nat := Seq.toNat ((l.drop (w * k)).take w)

theorem chunk_eq (h : IsBlockWidth w) {b : Bitset w} {l : List Bool} (hL : HasL b l) (k : Nat) : chunk w l k = (blk b.blocks k).toNat := by
  apply Nat.eq_of_testBit_eq
  intro i
  unfold chunk
  rw [toNat_testBit, BitVec.testBit_toNat]
  by_cases hi : i < w
  · rw [← bitAt_mk h.pos _ _ _ hi, hL.bit]
    simp [List.getD, hi, List.getElem?_drop]
  · rw [BitVec.getLsbD_of_ge _ _ (by omega)]
    simp [List.getD, hi]

/-- C09, what `operator<` computes for equal numbers of blocks: whether *some* block of the left operand is smaller than that of the right
operand. -/
theorem C09_less_exact (h : IsBlockWidth w) {a b : Bitset w} (ha : Reachable a) (hb : Reachable b) {l m : List Bool}
    (hl : Shows a l) (hm : Shows b m) (hc : getBlockCount a = getBlockCount b) :
    ∃ r, less a b = .ok r ∧ (r = true ↔ ∃ k, chunk w l k < chunk w m k) := by
  obtain ⟨r, e, hr⟩ := less_ok a b hc
  refine ⟨r, e, ?_⟩
  rw [hr]
  constructor <;> rintro ⟨k, hk⟩ <;> refine ⟨k, ?_⟩ <;>
    simpa only [chunk_eq h (ha.hasL h hl), chunk_eq h (hb.hasL h hm)] using hk

theorem chunk_congr {l m : List Bool} (he : Seq.toNat l = Seq.toNat m) (j : Nat) : chunk w l j = chunk w m j := by
  have hbits : ∀ i, l.getD i false = m.getD i false := by intro i; rw [← toNat_testBit, ← toNat_testBit, he]
  apply Nat.eq_of_testBit_eq
  intro i
  unfold chunk
  rw [toNat_testBit, toNat_testBit]
  by_cases hi : i < w
  · have := hbits (w * j + i)
    simpa [List.getD, List.getElem?_take, hi, List.getElem?_drop] using this
  · simp [List.getD, hi]

/-- C09, what the other operators compute for equal numbers of blocks. -/
theorem C09_others_exact (h : IsBlockWidth w) {a b : Bitset w} (ha : Reachable a) (hb : Reachable b) {l m : List Bool}
    (hl : Shows a l) (hm : Shows b m) (hc : getBlockCount a = getBlockCount b) :
    (∃ r, greater a b = .ok r ∧ (r = true ↔ ∃ k, chunk w m k < chunk w l k)) ∧
    (∃ r, lessEq a b = .ok r ∧ (r = true ↔ (∃ k, chunk w l k < chunk w m k) ∨ Seq.toNat l = Seq.toNat m)) ∧
    (∃ r, greaterEq a b = .ok r ∧ (r = true ↔ (∃ k, chunk w m k < chunk w l k) ∨ Seq.toNat l = Seq.toNat m)) := by
  have key : ∀ {a b : Bitset w} {l m : List Bool}, Reachable a → Reachable b → Shows a l → Shows b m → getBlockCount a = getBlockCount b →
      ∃ r, lessEq a b = .ok r ∧ (r = true ↔ (∃ k, chunk w l k < chunk w m k) ∨ Seq.toNat l = Seq.toNat m) := by
    intro a b l m ha hb hl hm hc
    obtain ⟨r, e, hr⟩ := C09_less_exact h ha hb hl hm hc
    obtain ⟨q, e', hq⟩ := C03_equals h ha hb hl hm
    have hq' : q = true ↔ Seq.toNat l = Seq.toNat m := by
      rw [hq]
      constructor
      · intro h; apply Nat.eq_of_testBit_eq; intro i; rw [toNat_testBit, toNat_testBit, h]
      · intro h i; rw [← toNat_testBit, ← toNat_testBit, h]
    refine ⟨r || q, ?_, by rw [Bool.or_eq_true, hr, hq']⟩
    cases r <;> simp [lessEq, e, e']
  refine ⟨C09_less_exact h hb ha hm hl hc.symm, key ha hb hl hm hc, ?_⟩
  obtain ⟨r, e, hr⟩ := key hb ha hm hl hc.symm
  exact ⟨r, e, by rw [hr, eq_comm (a := Seq.toNat m)]⟩

/-- C09 for bitsets with any equal numbers of blocks that do not disagree (no block is smaller while another one is larger): the operators compare the numbers.  The
condition is exact, see `C09_two_blocks_violated`. -/
theorem C09_agreeing_partial (h : IsBlockWidth w) {a b : Bitset w} (ha : Reachable a) (hb : Reachable b) {l m : List Bool}
    (hl : Shows a l) (hm : Shows b m) (hc : getBlockCount a = getBlockCount b)
    (hag : (∀ k, chunk w l k ≤ chunk w m k) ∨ ∀ k, chunk w m k ≤ chunk w l k) :
    less a b = .ok (decide (Seq.toNat l < Seq.toNat m)) ∧ lessEq a b = .ok (decide (Seq.toNat l ≤ Seq.toNat m)) ∧
    greater a b = .ok (decide (Seq.toNat m < Seq.toNat l)) ∧ greaterEq a b = .ok (decide (Seq.toNat m ≤ Seq.toNat l)) := by
  have key : ∀ {a b : Bitset w} {l m : List Bool}, Reachable a → Reachable b → Shows a l → Shows b m → getBlockCount a = getBlockCount b →
      ((∀ k, chunk w l k ≤ chunk w m k) ∨ ∀ k, chunk w m k ≤ chunk w l k) → ((∃ k, chunk w l k < chunk w m k) ↔ Seq.toNat l < Seq.toNat m) := by
    intro a b l m ha hb hl hm hc hag
    obtain ⟨r, e, hr⟩ := C09_less_exact h ha hb hl hm hc
    obtain ⟨r', e', hr'⟩ := C09_less_exact h hb ha hm hl hc.symm
    constructor
    · rintro ⟨k, hk⟩
      rcases Nat.lt_trichotomy (Seq.toNat l) (Seq.toNat m) with h1 | h1 | h1
      · exact h1
      · have := chunk_congr (w := w) h1 k; omega
      · have := C09_complete_partial h hb ha hm hl hc.symm h1
        rw [e'] at this
        obtain ⟨j, hj⟩ := hr'.1 (by cases this; rfl)
        rcases hag with hag | hag
        · have := hag j; omega
        · have := hag k; omega
    · intro h1
      have := C09_complete_partial h ha hb hl hm hc h1
      rw [e] at this
      exact hr.1 (by cases this; rfl)
  have k1 := key ha hb hl hm hc hag
  have k2 := key hb ha hm hl hc.symm hag.symm
  obtain ⟨r, e, hr⟩ := C09_less_exact h ha hb hl hm hc
  obtain ⟨⟨r1, e1, hr1⟩, ⟨r2, e2, hr2⟩, ⟨r3, e3, hr3⟩⟩ := C09_others_exact h ha hb hl hm hc
  rw [e, e1, e2, e3]
  refine ⟨?_, ?_, ?_, ?_⟩ <;> congr 1 <;> rw [Bool.eq_iff_iff, decide_eq_true_iff]
  · rw [hr, k1]
  · rw [hr2, k1]; omega
  · rw [hr1, k2]
  · rw [hr3, k2]; omega

/-- An instance: 0x0102 and 0x0103, with two blocks each. -/
example : ∃ a b : Bitset 8, ofString "0000000100000010".toList = .ok a ∧ ofString "0000000100000011".toList = .ok b ∧ getBlockCount a = getBlockCount b ∧
      less a b = .ok true ∧ less b a = .ok false :=
  ⟨⟨[0x02#8, 0x01#8], 16⟩, ⟨[0x03#8, 0x01#8], 16⟩, by decide, by decide, by decide, by decide, by decide⟩

/-- C09 is false whenever one block is smaller and another one larger: each operand is smaller than the other. -/
theorem C09_two_blocks_violated (h : IsBlockWidth w) {a b : Bitset w} (ha : Reachable a) (hb : Reachable b) {l m : List Bool}
    (hl : Shows a l) (hm : Shows b m) (hc : getBlockCount a = getBlockCount b) (j k : Nat) (h1 : chunk w l j < chunk w m j)
    (h2 : chunk w m k < chunk w l k) :
    less a b = .ok true ∧ less b a = .ok true ∧ lessEq a b = .ok true ∧ lessEq b a = .ok true ∧ Seq.toNat l ≠ Seq.toNat m := by
  obtain ⟨r, e, hr⟩ := C09_less_exact h ha hb hl hm hc
  obtain ⟨r', e', hr'⟩ := C09_less_exact h hb ha hm hl hc.symm
  rw [hr.2 ⟨j, h1⟩] at e
  rw [hr'.2 ⟨k, h2⟩] at e'
  refine ⟨e, e', by simp [lessEq, e], by simp [lessEq, e'], ?_⟩
  intro he
  have := chunk_congr (w := w) he j
  omega

/-- An instance: of 0x0201 and 0x0102 each one is smaller than the other. -/
example : ∃ a b : Bitset 8, ofString "0000001000000001".toList = .ok a ∧ ofString "0000000100000010".toList = .ok b ∧
      less a b = .ok true ∧ less b a = .ok true :=
  ⟨⟨[0x01#8, 0x02#8], 16⟩, ⟨[0x02#8, 0x01#8], 16⟩, by decide, by decide, by decide, by decide⟩

end Verif.Bitset
