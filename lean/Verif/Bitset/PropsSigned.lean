import Verif.Bitset.ModelSigned
import Verif.Bitset.PropsExact

/-!
# C139: `AppendBits` with a signed type
-/

namespace Verif.Bitset
open Verif.Cpp

variable {w : Nat}

/-! ### Specification -/

/-- Bit `i` of the two's complement representation, without end, of a signed value of `t` bits. -/
def Seq.signedBit {t : Nat} (v : BitVec t) (i : Nat) : Bool := if i < t then v.getLsbD i else v.msb

/-! ### The signed append as an unsigned one -/

/-- Two loops in step. -/
theorem forUp_sim {σ σ' : Type} (R : Nat → σ → σ' → Prop) {f : Nat → σ → M σ} {g : Nat → σ' → M σ'} {lo : Nat} (n : Nat) {s : σ} {s' : σ'}
    (h0 : R 0 s s')
    (hs : ∀ k s s', k < n → R k s s' → ∃ a a', f (lo + k) s = .ok a ∧ g (lo + k) s' = .ok a' ∧ R (k + 1) a a') :
    ∃ a a', forUp lo n f s = .ok a ∧ forUp lo n g s' = .ok a' ∧ R n a a' := by
  induction n generalizing lo s s' R with
  | zero => exact ⟨s, s', rfl, rfl, h0⟩
  | succ n ih =>
    obtain ⟨a, a', e, e', hr⟩ := hs 0 s s' (by omega) h0
    rw [Nat.add_zero] at e e'
    obtain ⟨c, c', f1, f2, f3⟩ := ih (fun k => R (k + 1)) (lo := lo + 1) hr (fun k x y hk hxy => by
      have := hs (k + 1) x y (by omega) hxy
      rwa [show lo + (k + 1) = lo + 1 + k by omega] at this)
    exact ⟨c, c', by simp only [forUp, e]; exact f1, by simp only [forUp, e']; exact f2, f3⟩

theorem shiftOutSigned_bit {t : Nat} (x : BitVec t) {k i : Nat} (h : k + i < t) :
    (shiftOutSigned x k).getLsbD i = x.getLsbD (k + i) := by
  unfold shiftOutSigned
  rw [if_pos (by omega), BitVec.getLsbD_sshiftRight]
  have h1 : decide (t ≤ i) = false := by simp; omega
  simp [h1, h]

theorem appendTail_sim (h : IsBlockWidth w) {t m : Nat} (s : AppendState w t) (s' : AppendState w m) (hb : s.blocks = s'.blocks)
    (hc : s.bitCount = s'.bitCount) (ht : s.bitCount ≤ t) (hm : s.bitCount ≤ m)
    (he : ∀ i, i < s.bitCount → s.bits.getLsbD i = s'.bits.getLsbD i) (hx : s.bitCount = 0 ∨ s.bitCount < t ∨ w ≤ t) :
    appendTailSigned s = appendTail s' := by
  have hw := h.pos
  unfold appendTailSigned appendTail
  rw [← hc]
  by_cases h0 : s.bitCount = 0
  · simp [h0, hb]
  rw [if_pos (by omega), if_pos (by omega)]
  simp only
  rw [computeBlockCount_eq h]
  have hle := le_mul_nb hw s.bitCount
  have hlt := mul_nb_lt hw s.bitCount
  have hnpos := nb_pos hw (Nat.pos_of_ne_zero h0)
  obtain ⟨B, hB⟩ : ∃ B, nb w s.bitCount = B + 1 := ⟨nb w s.bitCount - 1, by omega⟩
  rw [hB, Nat.mul_succ] at hle hlt
  rw [hB, Nat.add_sub_cancel]
  obtain ⟨a, a', e, e', r1, r2, r3, r4, r5⟩ := forUp_sim (σ := AppendState w t) (σ' := AppendState w m)
    (fun k x y => x.blocks = y.blocks ∧ x.bitCount = y.bitCount ∧ x.bitCount + w * k = s.bitCount ∧
      (∀ i, i < x.bitCount → x.bits.getLsbD i = y.bits.getLsbD i) ∧ (x.bitCount < t ∨ w ≤ t)) (lo := 0)
    (f := fun _ (s : AppendState w t) => pure ⟨s.blocks ++ [s.bits.signExtend w], shiftOutSigned s.bits w, s.bitCount - w⟩)
    (g := fun _ (s : AppendState w m) => do
      let blocks := s.blocks ++ [s.bits.setWidth w]
      let bits ← shiftOut s.bits w
      pure ⟨blocks, bits, s.bitCount - w⟩) B (s := s) (s' := s') ⟨hb, hc, by simp, he, by omega⟩ (by
    rintro k x y hk ⟨g1, g2, g3, g4, g5⟩
    have hkB := Nat.mul_le_mul_left w (Nat.succ_le_of_lt hk)
    rw [Nat.mul_succ] at hkB
    have hwx : w < x.bitCount := by omega
    refine ⟨_, _, rfl, by rw [shiftOut_ok, ok_bind]; rfl, ?_, ?_, ?_, ?_, ?_⟩
    · simp only
      rw [g1]
      congr 2
      apply BitVec.eq_of_getLsbD_eq
      intro i hi
      rw [BitVec.getLsbD_signExtend, BitVec.getLsbD_setWidth, if_pos (by omega), g4 i (by omega)]
    · simp only; omega
    · simp only [Nat.mul_succ]; omega
    · intro i hi
      simp only at hi ⊢
      rw [shiftOutSigned_bit _ (by omega), if_pos (by omega), BitVec.getLsbD_ushiftRight, g4 _ (by omega)]
    · simp only; omega)
  rw [e, e', ok_bind, ok_bind, ← r2, ← r1]
  by_cases hp : a.bitCount < promoted w
  · simp only [hp, decide_true, guardUB_true, ok_bind]
    congr 3
    apply BitVec.eq_of_getLsbD_eq
    intro i hi
    rw [BitVec.getLsbD_signExtend, BitVec.getLsbD_setWidth]
    simp only [BitVec.getLsbD_and, BitVec.getLsbD_setWidth, low_mask_bit _ _ hp, BitVec.msb_eq_getLsbD_last]
    by_cases c1 : i < a.bitCount
    · rw [if_pos (by omega), r4 i c1]
      simp [c1, hi, show i < t by omega, show i < m by omega]
    · by_cases c2 : i < t
      · rw [if_pos c2]; simp [c1]
      · rw [if_neg c2]
        have : ¬ t - 1 < a.bitCount := by omega
        simp [c1, this]
  · simp [hp, guardUB]

/-- Except when it fills an aligned bitset with all the bits of a value narrower than a block, `AppendBits` of at most all the bits of a
signed value appends the unsigned value with the sign extended to the width of a block. -/
theorem appendBitsSigned_eq (h : IsBlockWidth w) {t : Nat} (b : Bitset w) (v : BitVec t) (n : Nat) (hn : n ≤ t)
    (hx : b.bitCount % w ≠ 0 ∨ n = 0 ∨ n < t ∨ w ≤ t) :
    appendBitsSigned b v n = appendBits b (v.signExtend (max t w)) n := by
  have hw := h.pos
  unfold appendBitsSigned appendBits appendHeadSigned appendHead
  have hbits : ∀ i, i < t → (v.signExtend (max t w)).getLsbD i = v.getLsbD i := by
    intro i hi
    rw [BitVec.getLsbD_signExtend, if_pos hi]
    simp [show i < max t w by omega]
  by_cases h0 : b.bitCount % w = 0
  · simp only [h0, bne_self_eq_false, Bool.false_eq_true, if_false, pure_ok, ok_bind]
    rw [appendTail_sim h ⟨b.blocks, v, n⟩ ⟨b.blocks, v.signExtend (max t w), n⟩ rfl rfl hn (by simp only; omega)
      (fun i hi => (hbits i (by simp only at hi; omega)).symm) (by simp only; omega)]
  · have hb : (b.bitCount % w != 0) = true := by simpa using h0
    simp only [hb, if_true]
    have hex : (v.signExtend (max t w)).setWidth w = v.signExtend w := by
      apply BitVec.eq_of_getLsbD_eq
      intro i hi
      have hm : i < max t w := by omega
      simp only [BitVec.getLsbD_setWidth, BitVec.getLsbD_signExtend, hi, hm, decide_true, Bool.true_and]
    rw [hex]
    have hmod := Nat.mod_lt b.bitCount hw
    by_cases hl : 0 < b.blocks.length
    · simp only [hl, decide_true, guardUB_true, ok_bind]
      rw [rd_blk (by omega), ok_bind, ok_bind, shl_ok _ hmod, ok_bind, ok_bind, wr_ok (by omega), ok_bind, ok_bind, shiftOut_ok, ok_bind]
      simp only [pure_ok, ok_bind]
      have key := appendTail_sim h (t := t) (m := max t w)
        ⟨b.blocks.set (b.blocks.length - 1) (blk b.blocks (b.blocks.length - 1) ||| v.signExtend w <<< (b.bitCount % w)),
          shiftOutSigned v (w - b.bitCount % w), n - min (w - b.bitCount % w) n⟩
        ⟨b.blocks.set (b.blocks.length - 1) (blk b.blocks (b.blocks.length - 1) ||| v.signExtend w <<< (b.bitCount % w)),
          (if w - b.bitCount % w < max t w then v.signExtend (max t w) >>> (w - b.bitCount % w) else 0#_), n - min (w - b.bitCount % w) n⟩
        rfl rfl (by simp only; omega) (by simp only; omega) (by
          intro i hi
          simp only at hi ⊢
          rw [shiftOutSigned_bit _ (by omega), if_pos (by omega), BitVec.getLsbD_ushiftRight, hbits _ (by omega)]) (by simp only; omega)
      rw [key]
    · simp [hl, guardUB]

/-- The remaining case. -/
theorem appendBitsSigned_full {t : Nat} (b : Bitset w) (v : BitVec t) (h0 : b.bitCount % w = 0) (ht : 0 < t) (htw : t < w)
    (h : IsBlockWidth w) : appendBitsSigned b v t = .ok ⟨b.blocks ++ [v.signExtend w], b.bitCount + t⟩ := by
  have hw := h.pos
  have hp : t < promoted w := lt_promoted htw
  have hnb : computeBlockCount w t = 1 := by
    rw [computeBlockCount_eq h]; exact nb_of_bounds hw (by omega) (by omega)
  have hm : v &&& (((1#(promoted w) <<< t) - 1#(promoted w)).setWidth t) = v := by
    apply BitVec.eq_of_getLsbD_eq
    intro i hi
    rw [BitVec.getLsbD_and, BitVec.getLsbD_setWidth, low_mask_bit _ _ hp]
    simp [hi]
  simp only [appendBitsSigned, appendHeadSigned, h0, bne_self_eq_false, Bool.false_eq_true, if_false, pure_ok, ok_bind, appendTailSigned,
    gt_iff_lt, ht, if_true, hnb, Nat.sub_self, forUp, hp, decide_true, guardUB_true, hm]

theorem shiftOutSigned_nonneg {t : Nat} (x : BitVec t) (k : Nat) (hx : x.msb = false) :
    shiftOut x k = .ok (shiftOutSigned x k) ∧ (shiftOutSigned x k).msb = false := by
  rw [shiftOut_ok]
  unfold shiftOutSigned
  split
  · have : x.sshiftRight k = x >>> k := BitVec.sshiftRight_eq_of_msb_false hx
    refine ⟨by rw [this], ?_⟩
    rw [BitVec.msb_sshiftRight, hx]
  · exact ⟨rfl, by simp⟩

theorem signExtend_nonneg {t : Nat} (x : BitVec t) (hx : x.msb = false) : x.signExtend w = x.setWidth w :=
  BitVec.signExtend_eq_setWidth_of_msb_false hx

/-- For values that are not negative there is no difference, for every number of bits. -/
theorem appendBitsSigned_nonneg {t : Nat} (b : Bitset w) (v : BitVec t) (n : Nat) (hv : v.msb = false) :
    appendBitsSigned b v n = appendBits b v n := by
  have tail : ∀ s : AppendState w t, s.bits.msb = false → appendTailSigned s = appendTail s := by
    intro s hs
    unfold appendTailSigned appendTail
    split
    · simp only
      obtain ⟨a, a', e, e', rfl, r⟩ := forUp_sim (σ := AppendState w t) (σ' := AppendState w t) (fun _ x y => x = y ∧ x.bits.msb = false) (lo := 0)
        (f := fun _ (s : AppendState w t) => pure ⟨s.blocks ++ [s.bits.signExtend w], shiftOutSigned s.bits w, s.bitCount - w⟩)
        (g := fun _ (s : AppendState w t) => do
          let blocks := s.blocks ++ [s.bits.setWidth w]
          let bits ← shiftOut s.bits w
          pure ⟨blocks, bits, s.bitCount - w⟩) (computeBlockCount w s.bitCount - 1) (s := s) (s' := s) ⟨rfl, hs⟩ (by
        rintro k x _ hk ⟨rfl, hx⟩
        refine ⟨_, _, rfl, by rw [(shiftOutSigned_nonneg x.bits w hx).1, ok_bind]; rfl, ?_, (shiftOutSigned_nonneg x.bits w hx).2⟩
        rw [signExtend_nonneg _ hx])
      rw [e, e', ok_bind, ok_bind]
      have : ∀ m : BitVec t, (a.bits &&& m).signExtend w = (a.bits &&& m).setWidth w := by
        intro m; apply signExtend_nonneg; simp [r]
      simp only [this]
    · rfl
  unfold appendBitsSigned appendBits appendHeadSigned appendHead
  by_cases h0 : b.bitCount % w = 0
  · simp only [h0, bne_self_eq_false, Bool.false_eq_true, if_false, pure_ok, ok_bind]
    rw [tail _ hv]
  · have hb : (b.bitCount % w != 0) = true := by simpa using h0
    simp only [hb, if_true, (shiftOutSigned_nonneg v _ hv).1, signExtend_nonneg v hv, ok_bind]
    cases guardUB (decide (0 < b.blocks.length)) with
    | error e => rfl
    | ok _ =>
      simp only [ok_bind]
      cases rd b.blocks (b.blocks.length - 1) with
      | error e => rfl
      | ok x =>
        simp only [ok_bind]
        cases shl (BitVec.setWidth w v) (b.bitCount % w) with
        | error e => rfl
        | ok y =>
          simp only [ok_bind]
          cases wr b.blocks (b.blocks.length - 1) (x ||| y) with
          | error e => rfl
          | ok z =>
            simp only [ok_bind, pure_ok]
            rw [tail _ (shiftOutSigned_nonneg v _ hv).2]

/-! ### C139 -/

/-- C139, exactly: appending the low `n` bits of a signed value of at least `n` bits shows the concatenation, whatever the value; `Count` also
counts the bits of the value from `n` on, with the sign extended, that fall in the former last block, and, on a bitset whose last block is
full, the extension of the sign of a negative value that is appended completely.  (The condition on the sizes is that of C07: a
new last block of 32 bits or more must not be filled completely.) -/
theorem C139_exact (h : IsBlockWidth w) {b : Bitset w} (hb : Reachable b) {l : List Bool} (hl : Shows b l) {t : Nat} (v : BitVec t)
    (n : Nat) (hn : n ≤ t) (hs : w < 32 ∨ (l.length + n) % w ≠ 0 ∨ (l.length + n + w - 1) / w = (l.length + w - 1) / w) :
    ∃ b', appendBitsSigned b v n = .ok b' ∧ Shows b' (l ++ Seq.lowBits v n) ∧
      count b' = .ok ((l ++ Seq.lowBits v n).count true +
        if l.length % w = 0 then (if n = t ∧ v.msb = true then w - t else 0)
        else (List.range (w - l.length % w - n)).countP (fun i => Seq.signedBit v (n + i))) := by
  have hw := h.pos
  have hL := hb.hasL h hl
  have hlow : Seq.lowBits (v.signExtend (max t w)) n = Seq.lowBits v n := by
    unfold Seq.lowBits
    apply List.map_congr_left
    intro i hi
    rw [List.mem_range] at hi
    rw [BitVec.getLsbD_signExtend, if_pos (by omega)]
    simp [show i < max t w by omega]
  by_cases hx : b.bitCount % w ≠ 0 ∨ n = 0 ∨ n < t ∨ w ≤ t
  · obtain ⟨b', e, hsh, hc, -⟩ := C07_appendBits_exact h hb hl (v.signExtend (max t w)) n hs
    rw [hlow] at hsh hc
    refine ⟨b', by rw [appendBitsSigned_eq h b v n hn hx]; exact e, hsh, ?_⟩
    rw [hc]
    rw [hL.size] at hx
    congr 2
    split
    · rename_i h0
      split
      · rename_i hh
        rcases hx with hx | hx | hx | hx
        · exact absurd h0 hx
        · have : t = 0 := by omega
          subst this
          have := hh.2
          rw [BitVec.msb_eq_getLsbD_last, BitVec.getLsbD_of_ge _ _ (by omega)] at this
          cases this
        · omega
        · omega
      · rfl
    · apply List.countP_congr
      intro i hi
      rw [List.mem_range] at hi
      have hm : n + i < max t w := by omega
      rw [BitVec.getLsbD_signExtend]
      simp only [hm, decide_true, Bool.true_and, Seq.signedBit]
  · have h0 : b.bitCount % w = 0 := by omega
    obtain rfl : n = t := by omega
    have htw : n < w := by omega
    rw [hL.size] at h0
    have hle := le_mul_nb hw l.length
    have hgap := gap_eq hw l.length
    rw [if_pos h0] at hgap
    have hfull : w * nb w l.length = l.length := by omega
    have hnb : nb w (l.length + n) = nb w l.length + 1 := nb_of_bounds hw (by rw [Nat.mul_succ]; omega) (by rw [Nat.mul_succ]; omega)
    have hlen : (l ++ Seq.lowBits v n).length = l.length + n := by simp [Seq.lowBits]
    have hblen : b.blocks.length = nb w l.length := by rw [hL.wf.len, hL.size]
    refine ⟨_, appendBitsSigned_full b v (by rw [hL.size]; exact h0) (by omega) htw h, ?_⟩
    have key := loose_shows h (b := ⟨b.blocks ++ [v.signExtend w], b.bitCount + n⟩) (l := l ++ Seq.lowBits v n)
      (stray := fun j => decide (j < w - n) && v.msb) (by simp only; rw [hlen, hL.size])
      (by rw [hlen, hnb, ← hblen]; simp) (by
        intro i
        have hid := Nat.div_add_mod i w
        have him := Nat.mod_lt i hw
        simp only
        rw [hlen, getD_append']
        have hbit : bitAt (b.blocks ++ [v.signExtend w]) i = if i / w < b.blocks.length then bitAt b.blocks i
            else if i / w = b.blocks.length then (v.signExtend w).getLsbD (i % w) else false := by
          unfold bitAt
          rw [blk_append]
          split
          · rfl
          · split
            · rename_i he; rw [he, Nat.sub_self]; rfl
            · rw [blk_ge (by simp; omega)]; simp
        rw [hbit, hblen]
        by_cases c1 : i < l.length
        · have : i / w < nb w l.length := by rw [Nat.div_lt_iff_lt_mul hw, Nat.mul_comm]; omega
          rw [if_pos this, if_pos (by omega), if_pos c1, hL.bit]
        · have hge : nb w l.length ≤ i / w := by rw [Nat.le_div_iff_mul_le hw, Nat.mul_comm]; omega
          rw [if_neg (by omega), if_neg c1]
          by_cases c2 : i / w = nb w l.length
          · rw [if_pos c2]
            rw [c2, hfull] at hid
            have hr : i % w = i - l.length := by omega
            rw [hr, BitVec.getLsbD_signExtend]
            have hlt : i - l.length < w := by omega
            simp only [hlt, decide_true, Bool.true_and]
            by_cases c3 : i < l.length + n
            · rw [if_pos (by omega), if_pos c3]
              unfold Seq.lowBits
              rw [getD_range_map]
              simp [show i - l.length < n by omega]
            · rw [if_neg (by omega), if_neg c3]
              simp [show i - (l.length + n) < w - n by omega]
          · rw [if_neg c2]
            have : w * (nb w l.length + 1) ≤ w * (i / w) := Nat.mul_le_mul_left w (by omega)
            rw [Nat.mul_succ] at this
            rw [if_neg (by omega)]
            simp; omega)
    refine ⟨key.1, ?_⟩
    rw [key.2.1, hlen, hnb, Nat.mul_succ, hfull, if_pos h0, show l.length + w - (l.length + n) = w - n by omega]
    congr 2
    by_cases hv : v.msb = true
    · rw [if_pos ⟨rfl, hv⟩]
      have : (List.range (w - n)).countP (fun j => decide (j < w - n) && v.msb) = (List.range (w - n)).countP (fun _ => true) := by
        apply List.countP_congr
        intro j hj
        rw [List.mem_range] at hj
        simp [hj, hv]
      rw [this]
      simp
    · rw [if_neg (fun hc => hv hc.2)]
      simp [Bool.not_eq_true _ ▸ hv]

/-- C139 for values that are not negative: signed and unsigned types give the same result, for every number of bits and every bitset, so C07
applies. -/
theorem C139_nonneg {t : Nat} (b : Bitset w) (v : BitVec t) (n : Nat) (hv : 0 ≤ v.toInt) :
    appendBitsSigned b v n = appendBits b v n := by
  apply appendBitsSigned_nonneg
  cases hm : v.msb with
  | false => rfl
  | true => have := BitVec.toInt_neg_of_msb_true hm; omega

/-- C139, under the condition that no bit of the value from `n` on falls in the former last block, and that a negative value is not
appended completely to a bitset whose last block is full unless it fills a block: the result is the concatenation, for all observers. -/
theorem C139_appendBits_partial (h : IsBlockWidth w) {b : Bitset w} (hb : Reachable b) {l : List Bool} (hl : Shows b l) {t : Nat} (v : BitVec t)
    (n : Nat) (hn : n ≤ t) (hs : w < 32 ∨ (l.length + n) % w ≠ 0 ∨ (l.length + n + w - 1) / w = (l.length + w - 1) / w)
    (hv : ∀ i, l.length % w ≠ 0 → n ≤ i → l.length % w + i < w → Seq.signedBit v i = false)
    (hf : l.length % w = 0 → n = t → v.msb = true → w ≤ t) :
    ∃ b', appendBitsSigned b v n = .ok b' ∧ Shows b' (l ++ Seq.lowBits v n) ∧ count b' = .ok ((l ++ Seq.lowBits v n).count true) := by
  obtain ⟨b', e, hsh, hc⟩ := C139_exact h hb hl v n hn hs
  refine ⟨b', e, hsh, ?_⟩
  rw [hc]
  congr 1
  split
  · rename_i h0
    split
    · rename_i hh
      have := hf h0 hh.1 hh.2
      omega
    · rfl
  · rename_i h0
    rw [List.countP_eq_zero.mpr]
    · rfl
    · intro i hi
      rw [List.mem_range] at hi
      simp [hv (n + i) h0 (by omega) (by omega)]

/-- C139 fails for every negative value that is appended completely and does not fill its last block: all the free bits of the block are set,
and `Count` counts them. -/
theorem C139_negative_violated (h : IsBlockWidth w) {b : Bitset w} (hb : Reachable b) {l : List Bool} (hl : Shows b l) {t : Nat} (v : BitVec t)
    (hv : v.toInt < 0) (hfit : l.length % w + t < w) :
    ∃ b', appendBitsSigned b v t = .ok b' ∧ Shows b' (l ++ Seq.lowBits v t) ∧
      count b' = .ok ((l ++ Seq.lowBits v t).count true + (w - (l.length % w + t))) := by
  have hw := h.pos
  have hm : v.msb = true := by
    cases hm : v.msb with
    | true => rfl
    | false => have := BitVec.toInt_nonneg_of_msb_false hm; omega
  have ht : 0 < t := by
    rcases Nat.eq_zero_or_pos t with rfl | h
    · rw [BitVec.msb_eq_getLsbD_last, BitVec.getLsbD_of_ge _ _ (by omega)] at hm
      cases hm
    · exact h
  obtain ⟨b', e, hsh, hc⟩ := C139_exact h hb hl v t (Nat.le_refl _) (Or.inr (Or.inl (by
    rw [Nat.add_mod, Nat.mod_eq_of_lt (show t < w by omega), Nat.mod_eq_of_lt hfit]; omega)))
  refine ⟨b', e, hsh, ?_⟩
  rw [hc]
  congr 2
  split
  · rename_i h0
    rw [if_pos ⟨rfl, hm⟩]; omega
  · rw [List.countP_eq_length.mpr]
    · simp; omega
    · intro i _
      simp [Seq.signedBit, hm]

/-- The hypotheses are met, aligned and not: `AppendBits(int8_t(-3), 8)` on an empty bitset of 32-bit blocks and on one of 3 zeros. -/
example : appendBitsSigned (empty : Bitset 32) (0xFD#8) 8 = .ok ⟨[0xFFFFFFFD#32], 8⟩ ∧ count (⟨[0xFFFFFFFD#32], 8⟩ : Bitset 32) = .ok 31 ∧
    appendBitsSigned (⟨[0#32], 3⟩ : Bitset 32) (0xFD#8) 8 = .ok ⟨[0xFFFFFFE8#32], 11⟩ ∧
    appendBitsSigned (empty : Bitset 32) (0xFD#8) 7 = .ok ⟨[0x7D#32], 7⟩ ∧
    appendBitsSigned (⟨[0#8], 3⟩ : Bitset 8) (0xFFFD#16) 16 = .ok ⟨[0xE8#8, 0xFF#8, 0x7#8], 19⟩ ∧ (0xFD#8).toInt = -3 := by
  refine ⟨by decide, by decide +kernel, by decide, by decide, by decide, by decide⟩

example : Reachable (empty : Bitset 32) ∧ Shows (empty : Bitset 32) [] ∧ IsBlockWidth 32 := by
  refine ⟨⟨[], fun _ => empty, 0, trivial, rfl, rfl⟩, ⟨rfl, ?_⟩, ⟨5, rfl⟩⟩
  intro i hi; simp at hi

end Verif.Bitset
