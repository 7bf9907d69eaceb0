import Verif.Bitset.PropsSigned

/-!
# C139: `AppendBits` of a negative value with more bits than its type has

The documentation (Bitset.inl:147-148) says that zeros are appended after the bits of the type.
-/

namespace Verif.Bitset
open Verif.Cpp

variable {w : Nat}

/-- The completion of the last block, with the sign. -/
theorem appendHeadSigned_eq (h : IsBlockWidth w) {t : Nat} (b : Bitset w) (wf : WF b) (v : BitVec t) (n : Nat) (ht : 0 < t) :
    ∃ st : AppendState w (max t w), appendHead b (v.signExtend (max t w)) n = .ok st ∧
      appendHeadSigned b v n = .ok ⟨st.blocks, shiftOutSigned v (w * nb w b.bitCount - b.bitCount), st.bitCount⟩ := by
  have hw := h.pos
  have hgap := gap_eq hw b.bitCount
  unfold appendHead appendHeadSigned
  by_cases h0 : b.bitCount % w = 0
  · rw [if_pos h0] at hgap
    refine ⟨⟨b.blocks, v.signExtend (max t w), n⟩, by simp [h0], ?_⟩
    have : shiftOutSigned v 0 = v := by
      unfold shiftOutSigned
      rw [if_pos ht, BitVec.sshiftRight_zero]
    simp [h0, hgap, this]
  · rw [if_neg h0] at hgap
    have hb : (b.bitCount % w != 0) = true := by simpa using h0
    have hpos : 0 < b.blocks.length := by
      rw [wf.len]
      unfold nb
      rw [if_neg h0]
      exact Nat.succ_pos _
    have hmod := Nat.mod_lt b.bitCount hw
    have hex : (v.signExtend (max t w)).setWidth w = v.signExtend w := by
      apply BitVec.eq_of_getLsbD_eq
      intro i hi
      have hm : i < max t w := by omega
      simp only [BitVec.getLsbD_setWidth, BitVec.getLsbD_signExtend, hi, hm, decide_true, Bool.true_and]
    simp only [hb, if_true, hpos, decide_true, guardUB_true, ok_bind, hex]
    rw [rd_blk (by omega), ok_bind, ok_bind, shl_ok _ hmod, ok_bind, ok_bind, wr_ok (by omega), ok_bind, ok_bind, shiftOut_ok, ok_bind]
    refine ⟨_, rfl, ?_⟩
    rw [hgap]
    rfl

/-- What remains of the value after some blocks. -/
def shiftN (w : Nat) {t : Nat} (x : BitVec t) : Nat → BitVec t
  | 0 => x
  | k + 1 => shiftOutSigned (shiftN w x k) w

/-- The new blocks. -/
theorem appendTailSigned_eq (h : IsBlockWidth w) {t : Nat} (l : List (BitVec w)) (x : BitVec t) (m : Nat) (hm : 0 < m)
    (hg : m - w * (nb w m - 1) < promoted w) :
    appendTailSigned ⟨l, x, m⟩ = .ok (l ++ (List.range (nb w m - 1)).map (fun k => (shiftN w x k).signExtend w) ++
      [(shiftN w x (nb w m - 1) &&& (((1#(promoted w) <<< (m - w * (nb w m - 1))) - 1#(promoted w)).setWidth t)).signExtend w]) := by
  unfold appendTailSigned
  rw [if_pos hm]
  simp only
  rw [computeBlockCount_eq h]
  obtain ⟨s', e, rfl⟩ := forUp_ok (σ := AppendState w t)
    (fun k s => s = ⟨l ++ (List.range k).map (fun k => (shiftN w x k).signExtend w), shiftN w x k, m - w * k⟩) (lo := 0) (n := nb w m - 1)
    (f := fun _ (s : AppendState w t) => pure ⟨s.blocks ++ [s.bits.signExtend w], shiftOutSigned s.bits w, s.bitCount - w⟩)
    (s := ⟨l, x, m⟩) (by simp [shiftN]) (by
      rintro k s hk rfl
      refine ⟨_, rfl, ?_⟩
      simp only [List.range_succ, List.map_append, List.map_cons, List.map_nil, List.append_assoc, shiftN, Nat.mul_succ, Nat.sub_sub])
  rw [e, ok_bind]
  simp only [hg, decide_true, guardUB_true, ok_bind]
  rfl

theorem signExtend_bit {t : Nat} (x : BitVec t) {j : Nat} (hj : j < w) : (x.signExtend w).getLsbD j = Seq.signedBit x j := by
  rw [BitVec.getLsbD_signExtend]
  simp [hj, Seq.signedBit]

theorem shiftOutSigned_signedBit {t : Nat} (x : BitVec t) {k : Nat} (hk : k < t) (i : Nat) : Seq.signedBit (shiftOutSigned x k) i = Seq.signedBit x (k + i) := by
  unfold Seq.signedBit shiftOutSigned
  rw [if_pos hk, BitVec.getLsbD_sshiftRight, BitVec.msb_sshiftRight]
  by_cases h1 : k + i < t
  · simp [h1, show i < t by omega]
  · simp only [h1, if_false]
    split
    · rename_i h2
      simp [show ¬ t ≤ i by omega]
    · rfl

theorem shiftOutSigned_zero {t : Nat} (x : BitVec t) {k : Nat} (hk : t ≤ k) : shiftOutSigned x k = 0#t := by
  unfold shiftOutSigned
  rw [if_neg (by omega)]

/-- Types wider than a block: the sign never ends. -/
theorem shiftN_wide {t : Nat} (hwt : w < t) (x : BitVec t) (k i : Nat) : Seq.signedBit (shiftN w x k) i = Seq.signedBit x (w * k + i) := by
  induction k generalizing i with
  | zero => simp [shiftN]
  | succ k ih =>
    rw [shiftN, shiftOutSigned_signedBit _ hwt, ih, Nat.mul_succ]
    congr 1
    omega

/-- Types not wider than a block: one block, then zeros. -/
theorem shiftN_narrow {t : Nat} (hwt : t ≤ w) (x : BitVec t) {k : Nat} (hk : 0 < k) : shiftN w x k = 0#t := by
  obtain ⟨k, rfl⟩ := Nat.exists_eq_succ_of_ne_zero (Nat.pos_iff_ne_zero.mp hk)
  exact shiftOutSigned_zero _ hwt

theorem signedBit_zero (t i : Nat) : Seq.signedBit (0#t) i = false := by simp [Seq.signedBit]

/-- The last block. -/
theorem signedBit_mask {t p : Nat} (x : BitVec t) {r : Nat} (hr : r < p) (ht : 0 < t) (j : Nat) :
    Seq.signedBit (x &&& ((1#p <<< r) - 1#p).setWidth t) j = (Seq.signedBit x j && (decide (j < r) || decide (t ≤ r))) := by
  unfold Seq.signedBit
  simp only [BitVec.getLsbD_and, BitVec.getLsbD_setWidth, low_mask_bit _ _ hr, BitVec.msb_and, BitVec.msb_eq_getLsbD_last (x := BitVec.setWidth _ _)]
  by_cases h1 : j < t
  · simp only [h1, if_true, decide_true, Bool.true_and]
    by_cases h2 : j < r
    · simp [h2]
    · simp [h2, show ¬ t ≤ r by omega]
  · simp only [h1, if_false]
    by_cases h2 : t ≤ r
    · simp [h2, show t - 1 < r by omega, show t - 1 < t by omega]
    · simp [h2, show ¬ t - 1 < r by omega, show ¬ j < r by omega]

/-- Bits of the new blocks. -/
theorem appendTailSigned_bits (h : IsBlockWidth w) {t : Nat} (ht : 0 < t) (l : List (BitVec w)) (x : BitVec t) (m : Nat)
    (hg : w < 32 ∨ m % w ≠ 0 ∨ m = 0) :
    ∃ l', appendTailSigned ⟨l, x, m⟩ = .ok l' ∧ l'.length = l.length + nb w m ∧
      ∀ i, bitAt l' i = if i < w * l.length then bitAt l i else
        (decide (i - w * l.length < w * nb w m) &&
          if w < t then decide (i - w * l.length < m) && Seq.signedBit x (i - w * l.length)
          else decide (i - w * l.length < w) && Seq.signedBit x (i - w * l.length) && (decide (i - w * l.length < m) || decide (t ≤ m))) := by
  have hw := h.pos
  by_cases h0 : m = 0
  · subst h0
    refine ⟨l, by simp [appendTailSigned], by rw [nb_zero, Nat.add_zero], ?_⟩
    intro i
    split
    · rfl
    · rw [nb_zero, bitAt_false_of_blk (blk_ge (by rw [Nat.le_div_iff_mul_le hw, Nat.mul_comm]; omega))]
      simp
  have hle := le_mul_nb hw m
  have hlt := mul_nb_lt hw m
  have hnpos := nb_pos hw (Nat.pos_of_ne_zero h0)
  obtain ⟨B, hB⟩ : ∃ B, nb w m = B + 1 := ⟨nb w m - 1, by omega⟩
  have hguard : m - w * (nb w m - 1) < promoted w := by
    rw [hB] at hle hlt ⊢
    rw [Nat.mul_succ] at hle hlt
    rw [Nat.add_sub_cancel]
    by_cases hr : m - w * B < w
    · exact lt_promoted hr
    · have hmB : m = w * (B + 1) := by rw [Nat.mul_succ]; omega
      rcases hg with hg | hg | hg
      · unfold promoted; omega
      · exact absurd (by rw [hmB, Nat.mul_mod_right]) hg
      · exact absurd hg h0
  refine ⟨_, appendTailSigned_eq h l x m (Nat.pos_of_ne_zero h0) hguard, by simp [hB], ?_⟩
  rw [hB] at hguard hle hlt ⊢
  rw [Nat.mul_succ] at hle hlt
  rw [Nat.add_sub_cancel] at hguard ⊢
  intro i
  have hid := Nat.div_add_mod i w
  have him := Nat.mod_lt i hw
  by_cases hi : i < w * l.length
  · rw [if_pos hi, List.append_assoc]
    unfold bitAt
    rw [blk_append, if_pos (by rw [Nat.div_lt_iff_lt_mul hw, Nat.mul_comm]; exact hi)]
  rw [if_neg hi]
  obtain ⟨j, rfl⟩ : ∃ j, i = w * l.length + j := ⟨i - w * l.length, by omega⟩
  rw [Nat.add_sub_cancel_left]
  have hjd := Nat.div_add_mod j w
  have hjm := Nat.mod_lt j hw
  have hbit : bitAt (l ++ (List.range B).map (fun k => (shiftN w x k).signExtend w) ++
      [(shiftN w x B &&& (((1#(promoted w) <<< (m - w * B)) - 1#(promoted w)).setWidth t)).signExtend w]) (w * l.length + j) =
      if j / w < B then Seq.signedBit (shiftN w x (j / w)) (j % w)
      else if j / w = B then (Seq.signedBit (shiftN w x B) (j % w) && (decide (j % w < m - w * B) || decide (t ≤ m - w * B))) else false := by
    unfold bitAt
    rw [Nat.mul_add_div hw, Nat.mul_add_mod, List.append_assoc, blk_append, if_neg (Nat.not_lt.mpr (Nat.le_add_right _ _)), Nat.add_sub_cancel_left, blk_append]
    simp only [List.length_map, List.length_range]
    split
    · rename_i hlt'
      rw [blk_lt (by simpa using hlt'), List.getElem_map, List.getElem_range, signExtend_bit _ hjm]
    · split
      · rename_i he
        rw [he, Nat.sub_self]
        show (BitVec.signExtend w _).getLsbD (j % w) = _
        rw [signExtend_bit _ hjm, signedBit_mask _ hguard ht]
      · rw [blk_ge (by simp; omega)]
        simp
  rw [hbit, Nat.mul_succ]
  have hBj : j / w < B ↔ j < w * B := by rw [Nat.div_lt_iff_lt_mul hw, Nat.mul_comm]
  have hBj1 : j / w < B + 1 ↔ j < w * B + w := by rw [Nat.div_lt_iff_lt_mul hw, Nat.mul_comm, Nat.mul_succ]
  by_cases hwt : w < t
  · simp only [hwt, if_true, shiftN_wide hwt]
    by_cases c1 : j / w < B
    · rw [if_pos c1, hjd]
      rw [hBj] at c1
      simp [show j < m by omega, show j < w * B + w by omega]
    · rw [if_neg c1]
      by_cases c2 : j / w = B
      · rw [if_pos c2]
        rw [c2] at hjd
        rw [hjd]
        have : ¬ t ≤ m - w * B := by omega
        simp only [this, decide_false, Bool.or_false]
        rw [show decide (j < w * B + w) = true by simp; omega, Bool.true_and, Bool.and_comm]
        congr 1
        simp only [decide_eq_decide]
        omega
      · rw [if_neg c2]
        have : ¬ j < w * B + w := by rw [← hBj1]; omega
        simp [this]
  · simp only [hwt, if_false]
    by_cases hjw : j < w
    · have hj0 : j / w = 0 := Nat.div_eq_of_lt hjw
      have hjj : j % w = j := Nat.mod_eq_of_lt hjw
      rw [hj0, hjj]
      by_cases c1 : 0 < B
      · rw [if_pos c1]
        have : w * 1 ≤ w * B := Nat.mul_le_mul_left w c1
        simp [shiftN, show j < w * B + w by omega, hjw, show j < m by omega]
      · obtain rfl : B = 0 := by omega
        simp [shiftN, hjw]
    · have hj1 : 0 < j / w := Nat.div_pos (by omega) hw
      have h0' : (if j / w < B then Seq.signedBit (shiftN w x (j / w)) (j % w)
          else if j / w = B then (Seq.signedBit (shiftN w x B) (j % w) && (decide (j % w < m - w * B) || decide (t ≤ m - w * B))) else false) = false := by
        split
        · rw [shiftN_narrow (by omega) x hj1, signedBit_zero]
        · split
          · rw [shiftN_narrow (by omega) x (by omega), signedBit_zero]; rfl
          · rfl
      rw [h0']
      simp [hjw]

/-! ### C139, more bits than the type has -/

/-- What is appended for a negative value: the bits of the type; then, if the type is wider than a block, ones without end; otherwise ones up to the end of the block in which the last bit of the
type has fallen, and zeros after it.  `m` is the size before. -/
def Seq.wideBit (w m : Nat) {t : Nat} (v : BitVec t) (i : Nat) : Bool :=
  if i < t then v.getLsbD i else decide (w < t) || decide ((m + i) / w = (m + t - 1) / w)

/-- How many bits past the end are set: all the rest of the former last block, if the bits all fall in it; all the rest of the first new block, if they end in it, the bits of the type do not end before it
and are not more than those appended to it, and the type is not wider than a block. -/
def Seq.wideStray (w m t n : Nat) : Nat :=
  let free := (w - m % w) % w
  if n ≤ free then free - n
  else if t ≤ w ∧ free < t ∧ t ≤ n - free then w - (n - free)
  else 0

/-- C139, exactly, for a negative value and more bits than its type has (the documented result is zeros after the bits of the type), and what `Count` tells. -/
theorem C139_wide_exact (h : IsBlockWidth w) {b : Bitset w} (hb : Reachable b) {l : List Bool} (hl : Shows b l) {t : Nat} (v : BitVec t) (hv : v.toInt < 0)
    (n : Nat) (hn : t < n) (hs : w < 32 ∨ (l.length + n) % w ≠ 0 ∨ (l.length + n + w - 1) / w = (l.length + w - 1) / w) :
    ∃ b', appendBitsSigned b v n = .ok b' ∧ Shows b' (l ++ (List.range n).map (Seq.wideBit w l.length v)) ∧
      count b' = .ok ((l ++ (List.range n).map (Seq.wideBit w l.length v)).count true + Seq.wideStray w l.length t n) := by
  have hw := h.pos
  have hL := hb.hasL h hl
  have hm : v.msb = true := by
    cases hm : v.msb with
    | true => rfl
    | false => have := BitVec.toInt_nonneg_of_msb_false hm; omega
  have ht : 0 < t := by
    rcases Nat.eq_zero_or_pos t with rfl | h
    · rw [BitVec.msb_eq_getLsbD_last, BitVec.getLsbD_of_ge _ _ (by omega)] at hm
      cases hm
    · exact h
  have hsb : ∀ i, Seq.signedBit v i = if i < t then v.getLsbD i else true := by
    intro i
    unfold Seq.signedBit
    rw [hm]
  have hblen : b.blocks.length = nb w l.length := by rw [hL.wf.len, hL.size]
  obtain ⟨st, e1, e2⟩ := appendHeadSigned_eq h b hL.wf v n ht
  obtain ⟨st', e1', s1, s2, -, s4⟩ := appendHead_ok h b hL.wf (v.signExtend (max t w)) n
  rw [e1] at e1'
  injection e1' with e1'
  subst e1'
  rw [hL.size] at e2 s1 s2 s4
  have hle := le_mul_nb hw l.length
  have hltn := mul_nb_lt hw l.length
  -- the guard of the new blocks
  have hg : w < 32 ∨ st.bitCount % w ≠ 0 ∨ st.bitCount = 0 := by
    rcases hs with hs | hs | hs
    · exact Or.inl hs
    · by_cases hz : st.bitCount = 0
      · exact Or.inr (Or.inr hz)
      · refine Or.inr (Or.inl ?_)
        rw [show l.length + n = w * nb w l.length + st.bitCount by omega, Nat.mul_add_mod] at hs
        exact hs
    · refine Or.inr (Or.inr ?_)
      by_contra hz
      rw [← nb_eq_ceil hw, ← nb_eq_ceil hw, show l.length + n = w * nb w l.length + st.bitCount by omega, nb_mul_add hw] at hs
      have := nb_pos hw (Nat.pos_of_ne_zero hz)
      omega
  obtain ⟨l', e3, t1, t2⟩ := appendTailSigned_bits h ht st.blocks (shiftOutSigned v (w * nb w l.length - l.length)) st.bitCount hg
  rw [s1] at t1 t2
  refine ⟨⟨l', b.bitCount + n⟩, by simp only [appendBitsSigned, e2, ok_bind, e3]; rfl, ?_⟩
  have hlen : (l ++ (List.range n).map (Seq.wideBit w l.length v)).length = l.length + n := by simp
  have hnb : nb w (l.length + n) = nb w l.length + nb w st.bitCount := by
    by_cases hz : st.bitCount = 0
    · rw [hz, nb_zero, Nat.add_zero]
      refine nb_of_bounds hw (by omega) (by omega)
    · rw [show l.length + n = w * nb w l.length + st.bitCount by omega, nb_mul_add hw]
  -- the end of the former last block
  obtain ⟨g, hgap⟩ : ∃ g, w * nb w l.length = l.length + g := ⟨w * nb w l.length - l.length, by omega⟩
  have hgw : g < w := by omega
  have hfree : (w - l.length % w) % w = g := by
    have := gap_eq hw l.length
    rw [hgap, Nat.add_sub_cancel_left] at this
    have hmod := Nat.mod_lt l.length hw
    rw [this]
    split
    · rename_i h0
      rw [h0, Nat.sub_zero, Nat.mod_self]
    · rw [Nat.mod_eq_of_lt (by omega)]
  have key := loose_shows h (b := ⟨l', b.bitCount + n⟩) (l := l ++ (List.range n).map (Seq.wideBit w l.length v))
    (stray := fun j => bitAt l' (l.length + n + j)) (by simp only; rw [hlen, hL.size]) (by rw [hlen, hnb]; exact t1) ?_
  · refine ⟨key.1, ?_⟩
    rw [key.2.1, hlen, hnb, Nat.mul_add, hgap]
    congr 2
    unfold Seq.wideStray
    simp only [hfree]
    have hall : ∀ (N : Nat) (p : Nat → Bool) (K : Nat), K ≤ N → (∀ j, j < N → p j = decide (j < K)) → (List.range N).countP p = K := by
      intro N p K hK hp
      rw [show N = K + (N - K) by omega, countP_range_add]
      have a1 : (List.range K).countP p = (List.range K).length := by
        rw [List.countP_eq_length]
        intro j hj
        rw [List.mem_range] at hj
        rw [hp j (by omega)]
        simp [hj]
      have a2 : (List.range (N - K)).countP (fun j => p (K + j)) = 0 := by
        rw [List.countP_eq_zero]
        intro j hj
        rw [List.mem_range] at hj
        rw [hp (K + j) (by omega)]
        simp
      rw [a1, a2, List.length_range]
      rfl
    rw [hgap, Nat.add_sub_cancel_left] at s2
    by_cases hz : n ≤ g
    · rw [if_pos hz]
      have hz' : st.bitCount = 0 := by omega
      rw [hz', nb_zero, Nat.mul_zero, Nat.add_zero, show l.length + g - (l.length + n) = g - n by omega]
      apply hall _ _ _ (Nat.le_refl _)
      intro j hj
      rw [t2, if_pos (by omega), s4, if_neg (by omega), hgap]
      rw [show decide (l.length + n + j < l.length + g) = true by simp; omega, BitVec.getLsbD_signExtend,
        show l.length + n + j - l.length = n + j by omega, show decide (n + j < max t w) = true by simp; omega, if_neg (by omega), hm]
      simp [hj]
    · rw [if_neg hz]
      have hmpos : 0 < st.bitCount := by omega
      have hnm : n - g = st.bitCount := by omega
      have hmle := le_mul_nb hw st.bitCount
      rw [hnm, show l.length + g + w * nb w st.bitCount - (l.length + n) = w * nb w st.bitCount - st.bitCount by omega]
      have hval : ∀ j, j < w * nb w st.bitCount - st.bitCount → bitAt l' (l.length + n + j) =
          decide (j < if t ≤ w ∧ g < t ∧ t ≤ st.bitCount then w - st.bitCount else 0) := by
        intro j hj
        rw [t2, if_neg (by omega), hgap, Nat.add_sub_cancel_left, show l.length + n + j - (l.length + g) = st.bitCount + j by omega]
        rw [show decide (st.bitCount + j < w * nb w st.bitCount) = true by simp; omega, show decide (st.bitCount + j < st.bitCount) = false by simp]
        by_cases c1 : t ≤ w
        · rw [if_neg (by omega)]
          by_cases c2 : g < t
          · rw [shiftOutSigned_signedBit v c2, hsb, if_neg (by omega)]
            by_cases c3 : t ≤ st.bitCount
            · rw [if_pos ⟨c1, c2, c3⟩]
              simp only [c3, decide_true, Bool.true_and, Bool.and_true, Bool.or_true, decide_eq_decide]
              omega
            · simp [c3]
          · rw [shiftOutSigned_zero v (by omega), signedBit_zero]
            simp [c2]
        · rw [if_pos (by omega)]
          simp [c1]
      apply hall _ _ _ _ hval
      split
      · have hnb1 := nb_pos hw hmpos
        have : w * 1 ≤ w * nb w st.bitCount := Nat.mul_le_mul_left w hnb1
        omega
      · omega
  intro i
  simp only
  rw [hlen]
  by_cases hi : i < l.length + n
  swap
  · rw [if_neg hi, show l.length + n + (i - (l.length + n)) = i by omega]
  rw [if_pos hi, getD_append', t2]
  by_cases c1 : i < l.length
  · rw [if_pos c1, if_pos (by omega), s4, if_pos c1, hL.bit]
  rw [if_neg c1, getD_range_map, show decide (i - l.length < n) = true by simp; omega, Bool.true_and]
  obtain ⟨k, rfl⟩ : ∃ k, i = l.length + k := ⟨i - l.length, by omega⟩
  rw [Nat.add_sub_cancel_left]
  rw [hgap, Nat.add_sub_cancel_left] at s2 ⊢
  by_cases c2 : l.length + k < l.length + g
  · rw [if_pos c2, s4, if_neg c1, Nat.add_sub_cancel_left, hgap]
    simp only [c2, decide_true, Bool.true_and]
    rw [BitVec.getLsbD_signExtend, show decide (k < max t w) = true by simp; omega, Bool.true_and, hm]
    unfold Seq.wideBit
    split
    · rfl
    · rename_i hk
      have hdiv : ∀ x, x < g → (l.length + x) / w = nb w l.length - 1 := by
        intro x hx
        have hq : nb w l.length = nb w l.length - 1 + 1 := by
          have : 0 < nb w l.length := by
            rcases Nat.eq_zero_or_pos (nb w l.length) with h0 | h0
            · rw [h0] at hgap; omega
            · exact h0
          omega
        rw [hq, Nat.mul_succ] at hgap
        rw [Nat.div_eq_iff hw]
        rw [Nat.mul_comm] at hgap
        omega
      have : (l.length + k) / w = (l.length + t - 1) / w := by
        rw [hdiv k (by omega), show l.length + t - 1 = l.length + (t - 1) by omega, hdiv _ (by omega)]
      simp [this]
  rw [if_neg c2]
  obtain ⟨x, rfl⟩ : ∃ x, k = g + x := ⟨k - g, by omega⟩
  rw [show l.length + (g + x) - (l.length + g) = x by omega]
  have hxm : x < st.bitCount := by omega
  have hxw : x < w * nb w st.bitCount := Nat.lt_of_lt_of_le hxm (le_mul_nb hw _)
  simp only [hxm, hxw, decide_true, Bool.true_and, Bool.true_or, Bool.and_true]
  have hdk : (l.length + (g + x)) / w = nb w l.length + x / w := by
    rw [show l.length + (g + x) = w * nb w l.length + x by omega, Nat.mul_add_div hw]
  unfold Seq.wideBit
  by_cases c3 : g < t
  · rw [shiftOutSigned_signedBit v c3, hsb]
    by_cases c4 : g + x < t
    · simp only [c4, if_true]
      split
      · rfl
      · simp [show x < w by omega]
    · simp only [c4, if_false]
      split
      · rename_i hwt; simp [hwt]
      · rename_i hwt
        rw [hdk, show l.length + t - 1 = w * nb w l.length + (t - 1 - g) by omega, Nat.mul_add_div hw, Nat.div_eq_of_lt (show t - 1 - g < w by omega)]
        simp only [hwt, decide_false, Bool.false_or, Bool.and_true, Nat.add_zero, Nat.add_eq_left, Nat.div_eq_zero_iff, decide_eq_decide]
        omega
  · rw [shiftOutSigned_zero v (by omega), signedBit_zero]
    have hwt : ¬ w < t := by omega
    have hne : ¬ (l.length + (g + x)) / w = (l.length + t - 1) / w := by
      rw [hdk]
      have : (l.length + t - 1) / w < nb w l.length := by
        rw [Nat.div_lt_iff_lt_mul hw, Nat.mul_comm]; omega
      have := Nat.zero_le (x / w)
      generalize x / w = q at *
      omega
    simp [hwt, hne, show ¬ g + x < t by omega]

/-- C139 for more bits than the type has, a negative value, and a bitset in which the bits of the type fill a block exactly: zeros follow, as documented, for all observers.
(Missing: all other sizes, see `C139_wide_violated`.) -/
theorem C139_wide_partial (h : IsBlockWidth w) {b : Bitset w} (hb : Reachable b) {l : List Bool} (hl : Shows b l) {t : Nat} (v : BitVec t) (hv : v.toInt < 0)
    (n : Nat) (hn : t < n) (hs : w < 32 ∨ (l.length + n) % w ≠ 0 ∨ (l.length + n + w - 1) / w = (l.length + w - 1) / w)
    (ht : t ≤ w) (hfill : (l.length + t) % w = 0) :
    ∃ b', appendBitsSigned b v n = .ok b' ∧ Shows b' (l ++ Seq.lowBits v t ++ List.replicate (n - t) false) ∧
      count b' = .ok ((l ++ Seq.lowBits v t ++ List.replicate (n - t) false).count true) := by
  have hw := h.pos
  have ht0 : 0 < t := by
    rcases Nat.eq_zero_or_pos t with rfl | h
    · have := BitVec.eq_nil v
      subst this
      simp at hv
    · exact h
  obtain ⟨b', e, hsh, hc⟩ := C139_wide_exact h hb hl v hv n hn hs
  have hdvd : w * ((l.length + t) / w) = l.length + t := by have := Nat.div_add_mod (l.length + t) w; omega
  have hlist : (List.range n).map (Seq.wideBit w l.length v) = Seq.lowBits v t ++ List.replicate (n - t) false := by
    rw [show n = t + (n - t) by omega, List.range_add, List.map_append, Nat.add_sub_cancel_left]
    congr 1
    · unfold Seq.lowBits
      apply List.map_congr_left
      intro i hi
      rw [List.mem_range] at hi
      simp [Seq.wideBit, hi]
    · rw [List.map_map]
      apply List.ext_getElem (by simp)
      intro i h1 h2
      simp only [List.getElem_map, List.getElem_range, Function.comp, List.getElem_replicate, Seq.wideBit]
      rw [if_neg (by omega)]
      have : ¬ (l.length + (t + i)) / w = (l.length + t - 1) / w := by
        have a1 : (l.length + t) / w ≤ (l.length + (t + i)) / w := Nat.div_le_div_right (by omega)
        have a2 : (l.length + t - 1) / w < (l.length + t) / w := by
          rw [Nat.div_lt_iff_lt_mul hw, Nat.mul_comm, hdvd]
          omega
        omega
      simp [this, show ¬ w < t by omega]
  have hstray : Seq.wideStray w l.length t n = 0 := by
    have hmod := Nat.mod_lt l.length hw
    have hdm := Nat.div_add_mod l.length w
    have hsum : (l.length % w + t) % w = 0 := by rw [← hfill, Nat.add_mod, Nat.add_mod l.length t, Nat.mod_mod]
    have hcase : l.length % w + t = w := by
      rcases Nat.lt_trichotomy (l.length % w + t) w with hlt | he | hgt
      · rw [Nat.mod_eq_of_lt hlt] at hsum; omega
      · exact he
      · rw [Nat.mod_eq_sub_mod (by omega), Nat.mod_eq_of_lt (by omega)] at hsum; omega
    unfold Seq.wideStray
    simp only
    by_cases h0 : l.length % w = 0
    · rw [h0, Nat.sub_zero, Nat.mod_self, if_neg (by omega)]
      split
      · omega
      · rfl
    · rw [Nat.mod_eq_of_lt (show w - l.length % w < w by omega), if_neg (by omega), if_neg (by omega)]
  rw [hlist, ← List.append_assoc] at hsh hc
  rw [hstray, Nat.add_zero] at hc
  exact ⟨b', e, hsh, hc⟩

/-- C139 fails in all other cases: the bit after those of the type is a one. -/
theorem C139_wide_violated (h : IsBlockWidth w) {b : Bitset w} (hb : Reachable b) {l : List Bool} (hl : Shows b l) {t : Nat} (v : BitVec t) (hv : v.toInt < 0)
    (n : Nat) (hn : t < n) (hs : w < 32 ∨ (l.length + n) % w ≠ 0 ∨ (l.length + n + w - 1) / w = (l.length + w - 1) / w)
    (hc : w < t ∨ (l.length + t) % w ≠ 0) :
    ∃ b', appendBitsSigned b v n = .ok b' ∧ getSize b' = l.length + n ∧ test b' (l.length + t) = .ok true := by
  have hw := h.pos
  obtain ⟨b', e, hsh, -⟩ := C139_wide_exact h hb hl v hv n hn hs
  refine ⟨b', e, by rw [hsh.1]; simp, ?_⟩
  rw [hsh.2 (l.length + t) (by simp; omega)]
  congr 1
  rw [List.getElem_append_right (by omega)]
  simp only [List.getElem_map, List.getElem_range, Nat.add_sub_cancel_left, Seq.wideBit, Nat.lt_irrefl, if_false]
  rcases hc with hc | hc
  · simp [hc]
  · have : (l.length + t) / w = (l.length + t - 1) / w := by
      have hdm := Nat.div_add_mod (l.length + t) w
      have hm := Nat.mod_lt (l.length + t) hw
      symm
      rw [Nat.div_eq_iff hw]
      rw [Nat.mul_comm] at hdm
      omega
    simp [this]

/-- The hypotheses are met: `AppendBits(int8_t(-3), 32)` (the documentation says 24 zeros) on a bitset of 8-bit blocks, empty or of 3 bits, and on one of 16-bit blocks; `AppendBits(int16_t(-3), 20)` on
8-bit blocks. -/
example : appendBitsSigned (empty : Bitset 8) (0xFD#8) 32 = .ok ⟨[0xFD#8, 0#8, 0#8, 0#8], 32⟩ ∧
    appendBitsSigned (⟨[0#8], 3⟩ : Bitset 8) (0xFD#8) 32 = .ok ⟨[0xE8#8, 0xFF#8, 0#8, 0#8, 0#8], 35⟩ ∧
    appendBitsSigned (empty : Bitset 16) (0xFD#8) 32 = .ok ⟨[0xFFFD#16, 0#16], 32⟩ ∧
    appendBitsSigned (empty : Bitset 8) (0xFFFD#16) 20 = .ok ⟨[0xFD#8, 0xFF#8, 0xF#8], 20⟩ ∧
    appendBitsSigned (empty : Bitset 64) (0xFD#8) 10 = .ok ⟨[0xFFFFFFFFFFFFFFFD#64], 10⟩ ∧ Seq.wideStray 64 0 8 10 = 54 ∧ (0xFD#8).toInt = -3 := by
  refine ⟨by decide, by decide, by decide, by decide, by decide, by decide, by decide⟩

end Verif.Bitset
