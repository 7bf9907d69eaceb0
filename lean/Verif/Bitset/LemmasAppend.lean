import Verif.Bitset.LemmasObs

/-!
# Appending bits, integer constructor, byte streams, proxies
-/

namespace Verif.Bitset
open Verif.Cpp
open Verif.Bitset.Seq (streamBit)

variable {w : Nat}

theorem mul_nb_lt (hw : 0 < w) (n : Nat) : w * nb w n < n + w := by
  have h1 := Nat.div_add_mod n w
  unfold nb
  rw [Nat.mul_add]
  split
  · omega
  · rw [Nat.mul_one]
    have : 0 < n % w := by omega
    omega

theorem nb_of_bounds (hw : 0 < w) {n q : Nat} (h1 : n ≤ w * q) (h2 : w * q < n + w) : nb w n = q := by
  have a := le_mul_nb hw n
  have b := mul_nb_lt hw n
  rcases Nat.lt_trichotomy (nb w n) q with h | h | h
  · have := Nat.mul_le_mul_left w (Nat.succ_le_of_lt h)
    rw [Nat.mul_succ] at this
    omega
  · exact h
  · have := Nat.mul_le_mul_left w (Nat.succ_le_of_lt h)
    rw [Nat.mul_succ] at this
    omega

/-- Number of free bits in the last block. -/
theorem gap_eq (hw : 0 < w) (n : Nat) : w * nb w n - n = if n % w = 0 then 0 else w - n % w := by
  have h1 := Nat.div_add_mod n w
  have h2 := Nat.mod_lt n hw
  unfold nb
  rw [Nat.mul_add]
  split
  · omega
  · rw [Nat.mul_one]; omega

theorem appendHead_ok (h : IsBlockWidth w) {t : Nat} (b : Bitset w) (wf : WF b) (v : BitVec t) (n : Nat) :
    ∃ st, appendHead b v n = .ok st ∧ st.blocks.length = nb w b.bitCount ∧
      st.bitCount = n - (w * nb w b.bitCount - b.bitCount) ∧
      (∀ i, st.bits.getLsbD i = v.getLsbD (w * nb w b.bitCount - b.bitCount + i)) ∧
      ∀ i, bitAt st.blocks i = if i < b.bitCount then bitAt b.blocks i
        else (decide (i < w * nb w b.bitCount) && v.getLsbD (i - b.bitCount)) := by
  have hw := h.pos
  have hgap := gap_eq hw b.bitCount
  have hle := le_mul_nb hw b.bitCount
  have hmod := Nat.mod_lt b.bitCount hw
  have hdm := Nat.div_add_mod b.bitCount w
  unfold appendHead
  simp only
  by_cases h0 : b.bitCount % w = 0
  · rw [if_pos h0] at hgap
    refine ⟨⟨b.blocks, v, n⟩, by simp [h0], wf.len, by simp only; omega, by intro i; rw [hgap, Nat.zero_add], ?_⟩
    intro i
    simp only
    by_cases hi : i < b.bitCount
    · rw [if_pos hi]
    · rw [if_neg hi, wf.bit_ge (by omega), show decide (i < w * nb w b.bitCount) = false by simp; omega]
      simp
  · rw [if_neg h0] at hgap
    have hL : nb w b.bitCount = b.bitCount / w + 1 := by unfold nb; rw [if_neg h0]
    have hpos : 0 < b.blocks.length := by rw [wf.len, hL]; exact Nat.succ_pos _
    have hidx : b.blocks.length - 1 < b.blocks.length := by omega
    rw [if_pos (by simpa using h0)]
    simp only [hpos, decide_true, guardUB_true, ok_bind]
    rw [rd_blk hidx, ok_bind, shl_ok _ hmod, ok_bind, wr_ok hidx, ok_bind, shiftOut_ok, ok_bind]
    refine ⟨_, rfl, by simpa using wf.len, ?_, ?_, ?_⟩
    · simp only; omega
    · intro i
      simp only
      rw [hgap]
      split
      · rw [BitVec.getLsbD_ushiftRight]
      · rw [BitVec.getLsbD_zero, BitVec.getLsbD_of_ge _ _ (by omega)]
    · intro i
      simp only
      have him := Nat.mod_lt i hw
      have hid := Nat.div_add_mod i w
      have hiq := Nat.zero_le (i / w)
      have hbit : bitAt (b.blocks.set (b.blocks.length - 1) (blk b.blocks (b.blocks.length - 1) ||| BitVec.setWidth w v <<< (b.bitCount % w))) i
          = if i / w = b.bitCount / w then (bitAt b.blocks i || (BitVec.setWidth w v <<< (b.bitCount % w)).getLsbD (i % w)) else bitAt b.blocks i := by
        unfold bitAt
        rw [blk_set _ _ _ _ hidx, wf.len, hL, Nat.add_sub_cancel]
        split
        · rename_i he; rw [BitVec.getLsbD_or, he]
        · rfl
      rw [hbit]
      by_cases hi : i < b.bitCount
      · rw [if_pos hi]
        split
        · rename_i he
          have : i % w < b.bitCount % w := by rw [he] at hid; omega
          rw [BitVec.getLsbD_shiftLeft]
          simp [this]
        · rfl
      · rw [if_neg hi, wf.bit_ge (by omega)]
        by_cases he : i / w = b.bitCount / w
        · rw [if_pos he]
          rw [he] at hid
          have h1 : ¬ i % w < b.bitCount % w := by omega
          have h2 : i < w * nb w b.bitCount := by rw [hL, Nat.mul_succ]; omega
          rw [BitVec.getLsbD_shiftLeft, BitVec.getLsbD_setWidth]
          simp only [him, h1, h2, decide_true, Bool.true_and, Bool.false_or, decide_false, Bool.not_false]
          rw [show i % w - b.bitCount % w = i - b.bitCount by omega, show decide (i - b.bitCount < w) = true by simp; omega, Bool.true_and]
        · rw [if_neg he]
          have : ¬ i < w * nb w b.bitCount := by
            rw [hL]
            intro hlt
            have h3 : i / w < b.bitCount / w + 1 := by
              rw [Nat.div_lt_iff_lt_mul hw, Nat.mul_comm]; exact hlt
            have h4 := Nat.div_le_div_right (c := w) (Nat.le_of_not_lt hi)
            omega
          simp [this]

theorem appendTail_ok (h : IsBlockWidth w) {t : Nat} (st : AppendState w t)
    (hr : w < 32 ∨ st.bitCount % w ≠ 0 ∨ st.bitCount = 0) :
    ∃ l, appendTail st = .ok l ∧ l.length = st.blocks.length + nb w st.bitCount ∧
      ∀ i, bitAt l i = if i < w * st.blocks.length then bitAt st.blocks i
        else (decide (i < w * st.blocks.length + st.bitCount) && st.bits.getLsbD (i - w * st.blocks.length)) := by
  have hw := h.pos
  unfold appendTail
  by_cases h0 : st.bitCount = 0
  · refine ⟨st.blocks, by simp [h0], by rw [h0, nb_zero, Nat.add_zero], ?_⟩
    intro i
    by_cases hi : i < w * st.blocks.length
    · rw [if_pos hi]
    · rw [if_neg hi, bitAt_false_of_blk (blk_ge ?_)]
      · rw [show decide (i < w * st.blocks.length + st.bitCount) = false by simp; omega]; simp
      · rw [Nat.le_div_iff_mul_le hw, Nat.mul_comm]; omega
  · rw [if_pos (by omega)]
    simp only
    rw [computeBlockCount_eq h]
    have hle := le_mul_nb hw st.bitCount
    have hlt := mul_nb_lt hw st.bitCount
    have hnpos := nb_pos hw (Nat.pos_of_ne_zero h0)
    obtain ⟨B, hB⟩ : ∃ B, nb w st.bitCount = B + 1 := ⟨nb w st.bitCount - 1, by omega⟩
    rw [hB, Nat.mul_succ] at hle hlt
    rw [hB, Nat.add_sub_cancel]
    simp only [shiftOut_ok, ok_bind]
    obtain ⟨s, e, h1, h2, h3, h4⟩ := forUp_ok (σ := AppendState w t) (fun k s => s.blocks.length = st.blocks.length + k ∧
        (∀ i, s.bits.getLsbD i = st.bits.getLsbD (w * k + i)) ∧ s.bitCount = st.bitCount - w * k ∧
        ∀ i, bitAt s.blocks i = if i < w * st.blocks.length then bitAt st.blocks i
          else (decide (i < w * st.blocks.length + w * k) && st.bits.getLsbD (i - w * st.blocks.length)))
      (lo := 0) (n := B) (s := st) (f := fun _ s =>
        pure ⟨s.blocks ++ [s.bits.setWidth w], if w < t then s.bits >>> w else 0#t, s.bitCount - w⟩)
      (by
        refine ⟨rfl, by simp, by simp, ?_⟩
        intro i
        by_cases hi : i < w * st.blocks.length
        · rw [if_pos hi]
        · rw [if_neg hi, bitAt_false_of_blk (blk_ge ?_)]
          · simp; omega
          · rw [Nat.le_div_iff_mul_le hw, Nat.mul_comm]; omega)
      (by
        rintro k s hk ⟨g1, g2, g3, g4⟩
        refine ⟨_, rfl, by simp only [List.length_append, List.length_singleton]; omega, ?_, ?_, ?_⟩
        · intro i
          simp only
          rw [Nat.mul_succ]
          split
          · rw [BitVec.getLsbD_ushiftRight, g2, Nat.add_assoc]
          · rw [BitVec.getLsbD_zero, BitVec.getLsbD_of_ge _ _ (by omega)]
        · simp only; rw [Nat.mul_succ]; omega
        · intro i
          simp only
          have hid := Nat.div_add_mod i w
          have him := Nat.mod_lt i hw
          have hiq := Nat.zero_le (i / w)
          have hm1 : w * (st.blocks.length + k) = w * st.blocks.length + w * k := Nat.mul_add ..
          have hb : bitAt (s.blocks ++ [s.bits.setWidth w]) i = if i / w < s.blocks.length then bitAt s.blocks i
              else if i / w = s.blocks.length then (s.bits.setWidth w).getLsbD (i % w) else false := by
            unfold bitAt
            rw [blk_append]
            split
            · rfl
            · rename_i hge
              split
              · rename_i he; rw [he, Nat.sub_self]; rfl
              · rw [blk_ge (by simp; omega)]; simp
          rw [hb, g1]
          by_cases c1 : i / w < st.blocks.length + k
          · have hlt' : i < w * (st.blocks.length + k) := by rwa [Nat.div_lt_iff_lt_mul hw, Nat.mul_comm] at c1
            rw [if_pos c1, g4]
            split
            · rfl
            · rw [show decide (i < w * st.blocks.length + w * k) = true by simp; omega,
                show decide (i < w * st.blocks.length + w * (k + 1)) = true by simp [Nat.mul_succ]; omega]
          · have hge' : w * (st.blocks.length + k) ≤ i := by
              have := Nat.mul_le_mul_left w (Nat.le_of_not_lt c1); omega
            rw [if_neg c1, if_neg (show ¬ i < w * st.blocks.length by omega)]
            by_cases c2 : i / w = st.blocks.length + k
            · rw [if_pos c2, BitVec.getLsbD_setWidth, g2]
              rw [c2] at hid
              rw [show decide (i < w * st.blocks.length + w * (k + 1)) = true by simp [Nat.mul_succ]; omega]
              simp only [him, decide_true, Bool.true_and]
              congr 1; omega
            · rw [if_neg c2]
              have : w * (st.blocks.length + k) + w ≤ i := by
                have := Nat.mul_le_mul_left w (show st.blocks.length + k + 1 ≤ i / w by omega)
                rw [Nat.mul_succ] at this
                omega
              rw [show decide (i < w * st.blocks.length + w * (k + 1)) = false by simp [Nat.mul_succ]; omega]
              simp)
    rw [e, ok_bind]
    have hrem : s.bitCount ≤ w := by omega
    have hrem' : s.bitCount < promoted w := by
      rcases hr with hr | hr | hr
      · unfold promoted; omega
      · apply lt_promoted
        rcases Nat.lt_or_eq_of_le hrem with hl | hl
        · exact hl
        · exfalso
          apply hr
          rw [h3] at hl
          rw [show st.bitCount = w * B + w by omega, Nat.mul_add_mod, Nat.mod_self]
      · exact absurd hr h0
    rw [show guardUB (decide (s.bitCount < promoted w)) = .ok () by simp [hrem'], ok_bind]
    refine ⟨_, rfl, by simp only [List.length_append, List.length_singleton]; omega, ?_⟩
    intro i
    have hid := Nat.div_add_mod i w
    have him := Nat.mod_lt i hw
    have hiq := Nat.zero_le (i / w)
    have hm1 : w * (st.blocks.length + B) = w * st.blocks.length + w * B := Nat.mul_add ..
    have hb : ∀ x : BitVec w, bitAt (s.blocks ++ [x]) i = if i / w < s.blocks.length then bitAt s.blocks i
        else if i / w = s.blocks.length then x.getLsbD (i % w) else false := by
      intro x
      unfold bitAt
      rw [blk_append]
      split
      · rfl
      · rename_i hge
        split
        · rename_i he; rw [he, Nat.sub_self]; rfl
        · rw [blk_ge (by simp; omega)]; simp
    rw [hb, h1]
    by_cases c1 : i / w < st.blocks.length + B
    · have hlt' : i < w * (st.blocks.length + B) := by rwa [Nat.div_lt_iff_lt_mul hw, Nat.mul_comm] at c1
      rw [if_pos c1, h4]
      split
      · rfl
      · rw [show decide (i < w * st.blocks.length + w * B) = true by simp; omega,
          show decide (i < w * st.blocks.length + st.bitCount) = true by simp; omega]
    · have hge' : w * (st.blocks.length + B) ≤ i := by
        have := Nat.mul_le_mul_left w (Nat.le_of_not_lt c1); omega
      rw [if_neg c1, if_neg (show ¬ i < w * st.blocks.length by omega)]
      by_cases c2 : i / w = st.blocks.length + B
      · rw [c2] at hid
        rw [if_pos c2, BitVec.getLsbD_setWidth, BitVec.getLsbD_and, BitVec.getLsbD_setWidth, low_mask_bit _ _ hrem', h2]
        have hk : i - w * st.blocks.length = w * B + i % w := by omega
        rw [← hk]
        have hmi : decide (i % w < s.bitCount) = decide (i < w * st.blocks.length + st.bitCount) := by
          rw [decide_eq_decide]; omega
        rw [hmi]
        by_cases hit : i % w < t
        · simp [him, hit, Bool.and_comm]
        · have : st.bits.getLsbD (i - w * st.blocks.length) = false := BitVec.getLsbD_of_ge _ _ (by omega)
          simp [this]
      · rw [if_neg c2]
        have : w * (st.blocks.length + B) + w ≤ i := by
          have := Nat.mul_le_mul_left w (show st.blocks.length + B + 1 ≤ i / w by omega)
          rw [Nat.mul_succ] at this
          omega
        rw [show decide (i < w * st.blocks.length + st.bitCount) = false by simp; omega]
        simp

/-- What `AppendBits` leaves: the bits from `n` on of the value are in the free part of the former last block. -/
theorem appendBits_gen (h : IsBlockWidth w) {t : Nat} (b : Bitset w) (wf : WF b) (v : BitVec t) (n : Nat)
    (hshift : w < 32 ∨ (b.bitCount + n) % w ≠ 0 ∨ nb w (b.bitCount + n) = nb w b.bitCount) :
    ∃ b', appendBits b v n = .ok b' ∧ b'.bitCount = b.bitCount + n ∧ b'.blocks.length = nb w (b.bitCount + n) ∧
      ∀ i, bitAt b'.blocks i = if i < b.bitCount then bitAt b.blocks i
        else ((decide (i < b.bitCount + n) || decide (i < w * nb w b.bitCount)) && v.getLsbD (i - b.bitCount)) := by
  have hw := h.pos
  have hle := le_mul_nb hw b.bitCount
  have hgap := gap_eq hw b.bitCount
  unfold appendBits
  obtain ⟨st, e, h1, h2, h3, h4⟩ := appendHead_ok h b wf v n
  rw [e, ok_bind]
  have hsum : n - (w * nb w b.bitCount - b.bitCount) ≠ 0 → b.bitCount + n = w * nb w b.bitCount + (n - (w * nb w b.bitCount - b.bitCount)) := by
    intro _; omega
  obtain ⟨l, e', g1, g2⟩ := appendTail_ok h st (by
    rcases hshift with hs | hs | hs
    · exact Or.inl hs
    · by_cases hz : st.bitCount = 0
      · exact Or.inr (Or.inr hz)
      · refine Or.inr (Or.inl ?_)
        rw [h2] at hz ⊢
        rw [hsum hz, Nat.mul_add_mod] at hs
        exact hs
    · refine Or.inr (Or.inr ?_)
      by_contra hz
      rw [h2] at hz
      rw [hsum hz, nb_mul_add hw] at hs
      have := nb_pos hw (Nat.pos_of_ne_zero hz)
      omega)
  rw [e', ok_bind]
  refine ⟨_, rfl, rfl, ?_, ?_⟩
  · simp only
    rw [g1, h1, h2]
    by_cases hz : n - (w * nb w b.bitCount - b.bitCount) = 0
    · rw [hz, nb_zero, Nat.add_zero]
      exact (nb_of_bounds hw (by omega) (by have := mul_nb_lt hw b.bitCount; omega)).symm
    · rw [hsum hz, nb_mul_add hw]
  · intro i
    simp only
    rw [g2, h1, h2]
    by_cases c1 : i < w * nb w b.bitCount
    · rw [if_pos c1, h4]
      by_cases c2 : i < b.bitCount
      · rw [if_pos c2, if_pos c2]
      · rw [if_neg c2, if_neg c2]
        simp [c1]
    · rw [if_neg c1, if_neg (by omega), h3]
      rw [show w * nb w b.bitCount - b.bitCount + (i - w * nb w b.bitCount) = i - b.bitCount by omega]
      simp only [c1, decide_false, Bool.or_false]
      congr 1
      rw [decide_eq_decide]; omega

theorem appendBits_ok (h : IsBlockWidth w) {t : Nat} (b : Bitset w) (wf : WF b) (v : BitVec t) (n : Nat)
    (hstray : b.bitCount % w = 0 ∨ ∀ i, n ≤ i → i < w - b.bitCount % w → v.getLsbD i = false)
    (hshift : w < 32 ∨ (b.bitCount + n) % w ≠ 0 ∨ nb w (b.bitCount + n) = nb w b.bitCount) :
    ∃ b', appendBits b v n = .ok b' ∧
      Has b' (b.bitCount + n) (fun i => if i < b.bitCount then bitAt b.blocks i else v.getLsbD (i - b.bitCount)) := by
  have hw := h.pos
  have hle := le_mul_nb hw b.bitCount
  have hgap := gap_eq hw b.bitCount
  have hm := Nat.mod_lt b.bitCount hw
  obtain ⟨b', e, h1, h2, h3⟩ := appendBits_gen h b wf v n hshift
  refine ⟨b', e, h1, h2, ?_⟩
  intro i
  rw [h3]
  by_cases c2 : i < b.bitCount
  · rw [if_pos c2, if_pos c2]; simp; omega
  · rw [if_neg c2, if_neg c2]
    by_cases c3 : i < b.bitCount + n
    · simp [c3]
    · by_cases c1 : i < w * nb w b.bitCount
      · simp only [c1, c3, decide_true, decide_false, Bool.or_true, Bool.true_and, Bool.false_and]
        rcases hstray with hs | hs
        · rw [if_pos hs] at hgap; omega
        · by_cases h0 : b.bitCount % w = 0
          · rw [if_pos h0] at hgap; omega
          · rw [if_neg h0] at hgap
            exact hs _ (by omega) (by omega)
      · simp [c1, c3]

/-! ### Integer constructor -/

theorem nb_le_width (ht : 0 < t) (hle : t ≤ w) : nb w t = 1 :=
  nb_of_bounds (by omega) (by omega) (by omega)

theorem ofInt_ok (h : IsBlockWidth w) {t : Nat} (ht : 0 < t) (v : BitVec t) :
    ∃ (b : Bitset w) (n : Nat), ofInt false v = .ok b ∧ n ≤ t ∧ (t ≤ w → n = t) ∧
      (w < t → n = 0 ∨ v.getLsbD (n - 1) = true) ∧ Has b n v.getLsbD ∧ ∀ i, n ≤ i → v.getLsbD i = false := by
  have hw := h.pos
  unfold ofInt
  by_cases htw : t ≤ w
  · refine ⟨⟨[v.setWidth w], t⟩, t, by simp [htw], Nat.le_refl _, fun _ => rfl, by omega, ?_, ?_⟩
    · refine ⟨rfl, by simp [nb_le_width ht htw], ?_⟩
      intro i
      unfold bitAt
      simp only
      by_cases hi : i < w
      · rw [Nat.div_eq_of_lt hi, Nat.mod_eq_of_lt hi]
        simp only [blk, List.getElem?_cons_zero, Option.getD_some, BitVec.getLsbD_setWidth, hi, decide_true, Bool.true_and]
        by_cases hit : i < t
        · simp [hit]
        · simp [hit, BitVec.getLsbD_of_ge v i (by omega)]
      · rw [blk_ge (by simp only [List.length_singleton]; exact (Nat.le_div_iff_mul_le hw).mpr (by omega))]
        simp; omega
    · intro i hi; exact BitVec.getLsbD_of_ge _ _ hi
  · rw [if_neg htw]
    obtain ⟨b, e, n, h1, h2, h3, h4⟩ := forUp_ok (σ := Bitset w) (fun k b => ∃ n, n ≤ k ∧ (n = 0 ∨ v.getLsbD (n - 1) = true) ∧
        Has b n v.getLsbD ∧ ∀ i, n ≤ i → i < k → v.getLsbD i = false)
      (lo := 0) (n := t) (s := empty) (f := fun bitPos b =>
        if (v &&& (1#t <<< bitPos)) != 0#t then unboundedSet b bitPos true else pure b)
      ⟨0, Nat.le_refl _, Or.inl rfl, (has_empty w).congr (by intro i hi; omega), by intro i _ hi; omega⟩
      (by
        rintro k b hk ⟨n, g1, g2, g3, g4⟩
        rw [Nat.zero_add, and_mask_ne v k hk]
        cases hb : v.getLsbD k with
        | false =>
          refine ⟨b, by simp, n, by omega, g2, g3, ?_⟩
          intro i hi1 hi2
          by_cases hik : i = k
          · rw [hik, hb]
          · exact g4 i hi1 (by omega)
        | true =>
          obtain ⟨b', e', hb'⟩ := unboundedSet_ok h b g3.wf k true
          refine ⟨b', by simp [e'], k + 1, Nat.le_refl _, Or.inr (by simpa using hb), ?_, by intro i _ _; omega⟩
          rw [g3.size, if_neg (by simp; omega)] at hb'
          apply hb'.congr
          intro i hi
          by_cases hik : i = k
          · rw [if_pos hik, hik, hb]
          · rw [if_neg hik]
            by_cases hin : i < n
            · rw [if_pos hin, g3.bits]; simp [hin]
            · rw [if_neg hin, g4 i (by omega) (by omega)])
    refine ⟨b, n, e, h1, by omega, fun _ => h2, h3, ?_⟩
    intro i hi
    by_cases hit : i < t
    · exact h4 i hi hit
    · exact BitVec.getLsbD_of_ge _ _ (by omega)

/-! ### Byte streams -/

/-- An append of at most 8 bits never shifts by the width of a block of 32 bits or more. -/
theorem small_append (hw : 0 < w) (m n : Nat) (hn : n ≤ 8) : w < 32 ∨ (m + n) % w ≠ 0 ∨ nb w (m + n) = nb w m := by
  by_cases h1 : w < 32
  · exact Or.inl h1
  by_cases h2 : (m + n) % w = 0
  · refine Or.inr (Or.inr ?_)
    obtain ⟨q, hq⟩ := Nat.dvd_of_mod_eq_zero h2
    rw [nb_of_bounds hw (q := q) (by omega) (by omega), nb_of_bounds hw (q := q) (by omega) (by omega)]
  · exact Or.inr (Or.inl h2)

theorem high_mask_bit (s j : Nat) (hs : s < 8) (hj : j < 8) :
    ((~~~((1#32 <<< s) - 1#32)).setWidth 8 : BitVec 8).getLsbD j = decide (s ≤ j) := by
  rw [BitVec.getLsbD_setWidth, BitVec.getLsbD_not, low_mask_bit _ _ (by omega)]
  simp only [hj, show j < 32 by omega, decide_true, Bool.true_and]
  by_cases h : s ≤ j <;> simp [h]; omega

/-- The state of `Write` after `P` bytes: everything appended so far, and after the last byte (the `E`-th) also its unread bits that fall in
the free part of the block that was the last one. -/
def WriteInv (b : Bitset w) (mem : List (BitVec 8)) (ptr s T E P : Nat) (c : Bitset w) : Prop :=
  c.bitCount = b.bitCount + (min T (8 * P) - s) ∧ c.blocks.length = nb w (b.bitCount + (min T (8 * P) - s)) ∧
  ∀ i, bitAt c.blocks i = if i < b.bitCount then bitAt b.blocks i
    else ((decide (i < b.bitCount + (min T (8 * P) - s)) || (decide (E < P) && (decide (s + (i - b.bitCount) < 8 * (E + 1)) &&
      decide (i < w * nb w (b.bitCount + (8 * E - s)))))) && streamBit mem ptr (s + (i - b.bitCount)))

/-- What `Write` leaves: the unread bits of the last byte are in the free part of the block that was the last one before that byte. -/
theorem write_gen (h : IsBlockWidth w) (b : Bitset w) (wf : WF b) (mem : List (BitVec 8)) (seq : Sequence) (n : Nat)
    (hbit : seq.bit < 8) (hn : 0 < n) (hmem : seq.ptr + (seq.bit + n - 1) / 8 < mem.length) :
    ∃ b', write b mem seq n = .ok (b', ⟨seq.ptr + (seq.bit + n) / 8, (seq.bit + n) % 8⟩) ∧
      b'.bitCount = b.bitCount + n ∧ b'.blocks.length = nb w (b.bitCount + n) ∧
      ∀ i, bitAt b'.blocks i = if i < b.bitCount then bitAt b.blocks i
        else ((decide (i < b.bitCount + n) || (decide (seq.bit + (i - b.bitCount) < 8 * ((seq.bit + n - 1) / 8 + 1)) &&
          decide (i < w * nb w (b.bitCount + (8 * ((seq.bit + n - 1) / 8) - seq.bit))))) &&
            streamBit mem seq.ptr (seq.bit + (i - b.bitCount))) := by
  have hw := h.pos
  obtain ⟨ptr, s⟩ := seq
  simp only at *
  unfold write
  simp only [hbit, decide_true, assert_true, ok_bind]
  generalize hT : s + n = T at *
  have hT0 : T ≠ 0 := by omega
  rw [if_pos (show (T != 0) = true by simpa using hT0)]
  generalize hE : (T - 1) / 8 = E at *
  -- the first byte
  have head : ∃ (b1 : Bitset w) (p0 : Nat), writeHead b mem ⟨ptr, s⟩ n = .ok (b1, ptr + p0, T - 8 * p0) ∧ p0 ≤ E + 1 ∧ (p0 = 0 → s = 0) ∧
      WriteInv b mem ptr s T E p0 b1 := by
    unfold writeHead
    simp only
    by_cases hs0 : s = 0
    · refine ⟨b, 0, by simp [hs0]; omega, by omega, by omega, ?_⟩
      unfold WriteInv
      rw [show b.bitCount + (min T (8 * 0) - s) = b.bitCount by omega]
      refine ⟨wf.size, wf.len, ?_⟩
      intro i
      by_cases hib : i < b.bitCount
      · rw [if_pos hib]
      · rw [if_neg hib, wf.bits]; simp [hib]
    · rw [if_pos (by simpa using hs0), rd_ok (by omega), ok_bind]
      have hbyte : mem.getD ptr 0#8 = mem[ptr] := by simp [List.getD, List.getElem?_eq_getElem (show ptr < mem.length by omega)]
      have hval : ∀ i, (((mem[ptr] &&& ((~~~((1#32 <<< s) - 1#32)).setWidth 8 : BitVec 8)).setWidth (promoted w)) >>> s).getLsbD i =
          (decide (s + i < 8) && streamBit mem ptr (s + i)) := by
        intro i
        rw [BitVec.getLsbD_ushiftRight, BitVec.getLsbD_setWidth, BitVec.getLsbD_and]
        by_cases hi : s + i < 8
        · rw [high_mask_bit s (s + i) hbit hi]
          have : s + i < promoted w := by unfold promoted; omega
          unfold streamBit
          rw [Nat.div_eq_of_lt hi, Nat.mod_eq_of_lt hi, Nat.add_zero, hbyte]
          simp [hi, this]
        · rw [BitVec.getLsbD_of_ge mem[ptr] _ (by omega)]
          simp [hi]
      obtain ⟨b1, e1, f1, f2, f3⟩ := appendBits_gen h b wf (((mem[ptr] &&& ((~~~((1#32 <<< s) - 1#32)).setWidth 8 : BitVec 8)).setWidth (promoted w)) >>> s)
        (min n (8 - s)) (small_append hw _ _ (by omega))
      rw [e1, ok_bind]
      refine ⟨b1, 1, by rw [pure_ok]; congr 3; omega, by omega, by omega, ?_⟩
      unfold WriteInv
      rw [show min T (8 * 1) - s = min n (8 - s) by omega]
      refine ⟨f1, f2, ?_⟩
      intro i
      rw [f3]
      by_cases hib : i < b.bitCount
      · rw [if_pos hib, if_pos hib]
      · rw [if_neg hib, if_neg hib, hval]
        by_cases c1 : i < b.bitCount + min n (8 - s)
        · simp only [c1, decide_true, Bool.true_or, Bool.true_and]
          rw [show decide (s + (i - b.bitCount) < 8) = true by simp; omega, Bool.true_and]
        · by_cases c2 : s + (i - b.bitCount) < 8
          · rw [show 8 * E - s = 0 by omega, Nat.add_zero]
            simp only [c1, c2, show E < 1 by omega, show s + (i - b.bitCount) < 8 * (E + 1) by omega, decide_true, decide_false, Bool.true_and, Bool.false_or, Nat.add_zero]
          · simp only [c1, c2, decide_false, Bool.false_and, Bool.false_or, Bool.and_false]
            by_cases c3 : E < 1
            · simp [show ¬ s + (i - b.bitCount) < 8 * (E + 1) by omega]
            · simp [c3]
  obtain ⟨b1, p0, e1, hp0, hp0s, hb1⟩ := head
  rw [e1, ok_bind]
  simp only
  obtain ⟨⟨b2, r2⟩, e2, hI⟩ := forUp_ok (σ := Bitset w × Nat) (fun k st => st.2 = T - 8 * (p0 + k) ∧ WriteInv b mem ptr s T E (p0 + k) st.1)
    (lo := ptr + p0) (n := ptr + E + 1 - (ptr + p0)) (s := (b1, T - 8 * p0)) (f := fun p (s : Bitset w × Nat) => do
      let bitToRead := min s.2 8
      let x ← rd mem p
      let b ← appendBits s.1 x bitToRead
      pure (b, s.2 - bitToRead))
    ⟨rfl, hb1⟩
    (by
      rintro k ⟨c, r⟩ hk ⟨g1, g2⟩
      simp only at g1 g2 ⊢
      have hkE : p0 + k ≤ E := by omega
      have h8 : 8 * (p0 + k) < T := by omega
      have hs8 : s ≤ 8 * (p0 + k) := by
        by_cases hp : p0 = 0
        · have := hp0s hp; omega
        · omega
      rw [rd_ok (by omega), ok_bind]
      have hbyte : mem.getD (ptr + (p0 + k)) 0#8 = mem[ptr + p0 + k] := by
        rw [← Nat.add_assoc]
        simp [List.getD, List.getElem?_eq_getElem (show ptr + p0 + k < mem.length by omega)]
      have hval : ∀ i, i < 8 → mem[ptr + p0 + k].getLsbD i = streamBit mem ptr (8 * (p0 + k) + i) := by
        intro i hi
        unfold streamBit
        rw [Nat.mul_add_div (by omega), Nat.mul_add_mod, Nat.div_eq_of_lt hi, Nat.mod_eq_of_lt hi, Nat.add_zero, hbyte]
      obtain ⟨i1, i2, i3⟩ := g2
      rw [show min T (8 * (p0 + k)) - s = 8 * (p0 + k) - s by omega] at i1 i2 i3
      have wfc : WF c := by
        refine ⟨rfl, by rw [i1]; exact i2, ?_⟩
        intro i
        rw [i1]
        by_cases hic : i < b.bitCount + (8 * (p0 + k) - s)
        · simp [hic]
        · rw [i3, if_neg (by omega)]
          simp [hic, show ¬ E < p0 + k by omega]
      obtain ⟨c', e', f1, f2, f3⟩ := appendBits_gen h c wfc mem[ptr + p0 + k] (min r 8) (small_append hw _ _ (by omega))
      rw [e', ok_bind]
      refine ⟨_, rfl, by simp only; omega, ?_⟩
      simp only
      unfold WriteInv
      rw [i1] at f1 f2 f3
      rw [show b.bitCount + (min T (8 * (p0 + (k + 1))) - s) = b.bitCount + (8 * (p0 + k) - s) + min r 8 by omega]
      refine ⟨f1, f2, ?_⟩
      intro i
      rw [f3]
      by_cases hic : i < b.bitCount + (8 * (p0 + k) - s)
      · rw [if_pos hic, i3]
        by_cases hib : i < b.bitCount
        · rw [if_pos hib, if_pos hib]
        · rw [if_neg hib, if_neg hib]
          simp [hic, show i < b.bitCount + (8 * (p0 + k) - s) + min r 8 by omega]
      · rw [if_neg hic, if_neg (by omega)]
        generalize hj : i - (b.bitCount + (8 * (p0 + k) - s)) = j
        have hstr : s + (i - b.bitCount) = 8 * (p0 + k) + j := by omega
        rw [hstr]
        by_cases hj8 : j < 8
        · rw [hval j hj8]
          congr 1
          by_cases hlast : p0 + k = E
          · rw [hlast]
            simp [show E < p0 + (k + 1) by omega, show 8 * E + j < 8 * (E + 1) by omega]
          · simp [show i < b.bitCount + (8 * (p0 + k) - s) + min r 8 by omega]
        · rw [BitVec.getLsbD_of_ge _ _ (by omega)]
          by_cases hlast : p0 + k = E
          · simp [show ¬ i < b.bitCount + (8 * (p0 + k) - s) + min r 8 by omega, show ¬ 8 * (p0 + k) + j < 8 * (E + 1) by omega]
          · simp [show ¬ i < b.bitCount + (8 * (p0 + k) - s) + min r 8 by omega, show ¬ E < p0 + (k + 1) by omega])
  rw [e2, ok_bind]
  refine ⟨b2, ?_, ?_⟩
  · rw [pure_ok]
    congr 3
    by_cases hm : T % 8 = 0
    · simp [hm]; omega
    · simp [hm]; omega
  · have := hI.2
    simp only at this
    unfold WriteInv at this
    rw [show b.bitCount + (min T (8 * (p0 + (ptr + E + 1 - (ptr + p0)))) - s) = b.bitCount + n by omega] at this
    obtain ⟨t1, t2, t3⟩ := this
    refine ⟨t1, t2, ?_⟩
    intro i
    rw [t3, show decide (E < p0 + (ptr + E + 1 - (ptr + p0))) = true by simp; omega, Bool.true_and]

/-- A position past `n` is in the last block of `n` bits exactly when that block is partly filled and contains it. -/
theorem lt_mul_nb_iff (hw : 0 < w) {n i : Nat} (h : n ≤ i) : i < w * nb w n ↔ n % w ≠ 0 ∧ i / w = n / w := by
  have h1 := Nat.div_add_mod n w
  have h2 := Nat.mod_lt n hw
  unfold nb
  constructor
  · intro hi
    by_cases h0 : n % w = 0
    · rw [if_pos h0, Nat.add_zero] at hi; omega
    · rw [if_neg h0] at hi
      refine ⟨h0, ?_⟩
      have := Nat.div_lt_of_lt_mul hi
      have := Nat.div_le_div_right (c := w) h
      omega
  · rintro ⟨h0, hd⟩
    rw [if_neg h0, ← hd]
    have := Nat.div_add_mod i w
    have := Nat.mod_lt i hw
    rw [Nat.mul_add]; omega

theorem write_ok (h : IsBlockWidth w) (b : Bitset w) (wf : WF b) (mem : List (BitVec 8)) (seq : Sequence) (n : Nat)
    (hbit : seq.bit < 8) (hn : 0 < n) (hmem : seq.ptr + (seq.bit + n - 1) / 8 < mem.length)
    (hclean : ∀ k, seq.bit + n ≤ k → k / 8 = (seq.bit + n - 1) / 8 →
      (b.bitCount + (8 * ((seq.bit + n - 1) / 8) - seq.bit)) % w ≠ 0 →
      (b.bitCount + (k - seq.bit)) / w = (b.bitCount + (8 * ((seq.bit + n - 1) / 8) - seq.bit)) / w → streamBit mem seq.ptr k = false) :
    ∃ b', write b mem seq n = .ok (b', ⟨seq.ptr + (seq.bit + n) / 8, (seq.bit + n) % 8⟩) ∧
      Has b' (b.bitCount + n) (fun i => if i < b.bitCount then bitAt b.blocks i else streamBit mem seq.ptr (seq.bit + (i - b.bitCount))) := by
  obtain ⟨b', e, h1, h2, h3⟩ := write_gen h b wf mem seq n hbit hn hmem
  refine ⟨b', e, h1, h2, ?_⟩
  intro i
  rw [h3]
  by_cases c1 : i < b.bitCount
  · rw [if_pos c1, if_pos c1]; simp; omega
  rw [if_neg c1, if_neg c1]
  by_cases c2 : i < b.bitCount + n
  · simp [c2]
  by_cases c3 : seq.bit + (i - b.bitCount) < 8 * ((seq.bit + n - 1) / 8 + 1)
  · by_cases c4 : i < w * nb w (b.bitCount + (8 * ((seq.bit + n - 1) / 8) - seq.bit))
    · obtain ⟨d1, d2⟩ := (lt_mul_nb_iff h.pos (by omega)).1 c4
      rw [hclean (seq.bit + (i - b.bitCount)) (by omega) (by omega) d1
        (by rw [← d2]; congr 1; omega)]
      simp
    · simp [c2, c4]
  · simp [c2, c3]

/-! ### Proxies -/

theorem index_ok (h : IsBlockWidth w) (b : Bitset w) (wf : WF b) (i : Nat) (hi : i < b.bitCount) :
    index b i = .ok ⟨i / w, 1#w <<< (i % w)⟩ := by
  have hidx : i / w < b.blocks.length := by rw [wf.len]; exact div_lt_nb h.pos hi
  simp only [index, getBlockIndex, getBitIndex_eq h, rd_blk hidx, ok_bind, shl_ok _ (Nat.mod_lt i h.pos), pure_ok]

theorem bit_test_ok (h : IsBlockWidth w) (b : Bitset w) (wf : WF b) (i : Nat) (hi : i < b.bitCount) :
    Bit.test ⟨i / w, 1#w <<< (i % w)⟩ b = .ok (bitAt b.blocks i) := by
  have hidx : i / w < b.blocks.length := by rw [wf.len]; exact div_lt_nb h.pos hi
  simp only [Bit.test, rd_blk hidx, ok_bind, and_mask_ne _ _ (Nat.mod_lt i h.pos), pure_ok]
  rfl

theorem bit_set_ok (h : IsBlockWidth w) (b : Bitset w) (wf : WF b) (i : Nat) (hi : i < b.bitCount) (v : Bool) :
    Bit.set ⟨i / w, 1#w <<< (i % w)⟩ b v = set b i v := by
  have hidx : i / w < b.blocks.length := by rw [wf.len]; exact div_lt_nb h.pos hi
  simp only [Bit.set, set, getBlockIndex, getBitIndex_eq h, rd_blk hidx, ok_bind, shl_ok _ (Nat.mod_lt i h.pos), hi, decide_true, assert_true,
    setBlockRaw]
  cases v with
  | false => simp
  | true => rw [if_pos rfl, if_pos rfl, BitVec.neg_one_eq_allOnes]

theorem bit_flip_ok (h : IsBlockWidth w) (b : Bitset w) (wf : WF b) (i : Nat) (hi : i < b.bitCount) :
    ∃ b', Bit.flip ⟨i / w, 1#w <<< (i % w)⟩ b = .ok b' ∧ Has b' b.bitCount (fun j => if j = i then !(bitAt b.blocks i) else bitAt b.blocks j) := by
  have hw := h.pos
  have hidx : i / w < b.blocks.length := by rw [wf.len]; exact div_lt_nb h.pos hi
  simp only [Bit.flip, rd_blk hidx, ok_bind, setBlockRaw_ok b _ hidx]
  refine ⟨_, rfl, rfl, by simpa using wf.len, ?_⟩
  intro j
  have hdm : j = i ↔ j / w = i / w ∧ j % w = i % w := by
    constructor
    · rintro rfl; exact ⟨rfl, rfl⟩
    · rintro ⟨e1, e2⟩
      rw [← Nat.div_add_mod j w, ← Nat.div_add_mod i w, e1, e2]
  have hbit : bitAt (b.blocks.set (i / w) (blk b.blocks (i / w) ^^^ 1#w <<< (i % w))) j =
      if j = i then !(bitAt b.blocks i) else bitAt b.blocks j := by
    unfold bitAt
    rw [blk_set _ _ _ _ hidx]
    by_cases he : j / w = i / w
    · rw [if_pos he, BitVec.getLsbD_xor, one_shl_bit _ _ (Nat.mod_lt i hw), he]
      by_cases hm : j % w = i % w
      · simp [hdm.mpr ⟨he, hm⟩]
      · rw [if_neg (fun e => hm (hdm.mp e).2)]; simp [hm]
    · rw [if_neg he, if_neg (fun e => he (hdm.mp e).1)]
  simp only
  rw [hbit]
  by_cases hj : j < b.bitCount
  · simp [hj]
  · rw [if_neg (by omega), wf.bit_ge (by omega)]; simp

end Verif.Bitset
