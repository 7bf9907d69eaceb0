import Verif.Bitset.Spec
import Mathlib.Tactic.Ring
import Mathlib.Tactic.Linarith
import Mathlib.Tactic.NormNum
import Mathlib.Data.Nat.Bitwise

/-!
# Bit-level lemmas for bitsets
-/

namespace Verif.Bitset
open Verif.Cpp

variable {w : Nat}

/-! ### Division by the block width -/

theorem lt_lex (hw : 0 < w) (i n : Nat) : i < n ↔ i / w < n / w ∨ (i / w = n / w ∧ i % w < n % w) := by
  have h1 := Nat.div_add_mod i w
  have h2 := Nat.div_add_mod n w
  have h3 := Nat.mod_lt i hw
  have h4 := Nat.mod_lt n hw
  generalize i / w = a at *
  generalize n / w = b at *
  constructor
  · intro h
    rcases Nat.lt_trichotomy a b with h' | h' | h'
    · left; exact h'
    · right; subst h'; exact ⟨rfl, by omega⟩
    · exfalso
      have := Nat.mul_le_mul_left w (Nat.succ_le_of_lt h')
      rw [Nat.mul_succ] at this
      omega
  · rintro (h | ⟨rfl, h⟩)
    · have := Nat.mul_le_mul_left w (Nat.succ_le_of_lt h)
      rw [Nat.mul_succ] at this
      omega
    · omega

/-- Number of blocks for `n` bits. -/
def nb (w n : Nat) : Nat := n / w + if n % w = 0 then 0 else 1

theorem getBitIndex_eq (h : IsBlockWidth w) (i : Nat) : getBitIndex w i = i % w := by
  obtain ⟨k, rfl⟩ := h
  exact Nat.and_two_pow_sub_one_eq_mod i k

theorem IsBlockWidth.pos (h : IsBlockWidth w) : 0 < w := by
  obtain ⟨k, rfl⟩ := h
  positivity

theorem computeBlockCount_eq (h : IsBlockWidth w) (n : Nat) : computeBlockCount w n = nb w n := by
  unfold computeBlockCount nb
  rw [getBitIndex_eq h, getBlockIndex]
  by_cases h0 : n % w = 0 <;> simp [h0]

theorem nb_eq_ceil (hw : 0 < w) (n : Nat) : nb w n = (n + w - 1) / w := by
  unfold nb
  have h1 := Nat.div_add_mod n w
  have h2 := Nat.mod_lt n hw
  split
  · rename_i h
    rw [h] at h1
    rw [Nat.add_zero] at h1 ⊢
    conv => rhs; rw [← h1]
    rw [show w * (n / w) + w - 1 = (w - 1) + w * (n / w) by omega, Nat.add_mul_div_left _ _ hw,
      Nat.div_eq_of_lt (by omega : w - 1 < w)]
    omega
  · rename_i h
    conv => rhs; rw [← h1]
    rw [show w * (n / w) + n % w + w - 1 = (n % w + w - 1) + w * (n / w) by omega, Nat.add_mul_div_left _ _ hw]
    have : (n % w + w - 1) / w = 1 := by
      rw [Nat.div_eq_iff hw]; omega
    omega

theorem lt_promoted {k : Nat} (h : k < w) : k < promoted w := by unfold promoted; omega

/-! ### Blocks and bits of a block list -/

/-- Block `k`, zero past the end. -/
def blk (l : List (BitVec w)) (k : Nat) : BitVec w := (l[k]?).getD 0#w

/-- Bit `i` of a list of blocks, false past the end. -/
def bitAt (l : List (BitVec w)) (i : Nat) : Bool := (blk l (i / w)).getLsbD (i % w)

theorem blk_ge {l : List (BitVec w)} {k : Nat} (h : l.length ≤ k) : blk l k = 0#w := by
  simp [blk, List.getElem?_eq_none h]

theorem blk_lt {l : List (BitVec w)} {k : Nat} (h : k < l.length) : blk l k = l[k] := by
  simp [blk, List.getElem?_eq_getElem h]

theorem rd_blk {l : List (BitVec w)} {k : Nat} (h : k < l.length) : rd l k = .ok (blk l k) := by
  rw [rd_ok h, blk_lt h]

theorem blk_set (l : List (BitVec w)) (k : Nat) (x : BitVec w) (j : Nat) (h : k < l.length) :
    blk (l.set k x) j = if j = k then x else blk l j := by
  unfold blk
  rw [List.getElem?_set]
  by_cases e : j = k
  · subst e; simp [h]
  · simp [e, Ne.symm e]

theorem blk_nil (k : Nat) : blk ([] : List (BitVec w)) k = 0#w := by simp [blk]

theorem blk_append (l m : List (BitVec w)) (k : Nat) :
    blk (l ++ m) k = if k < l.length then blk l k else blk m (k - l.length) := by
  unfold blk
  rw [List.getElem?_append]
  split <;> rfl

theorem blk_map (f : BitVec w → BitVec w) (l : List (BitVec w)) (k : Nat) :
    blk (l.map f) k = if k < l.length then f (blk l k) else 0#w := by
  unfold blk
  rw [List.getElem?_map]
  by_cases h : k < l.length
  · simp [h]
  · simp [h]

theorem vresize_length {α : Type u} (l : List α) (n : Nat) (v : α) : (vresize l n v).length = n := by
  simp [vresize]; omega

theorem blk_vresize (l : List (BitVec w)) (n : Nat) (v : BitVec w) (k : Nat) :
    blk (vresize l n v) k = if k < n then (if k < l.length then blk l k else v) else 0#w := by
  unfold vresize
  rw [blk_append]
  by_cases h1 : k < n
  · by_cases h2 : k < l.length
    · rw [if_pos (by rw [List.length_take]; omega), if_pos h1, if_pos h2]
      simp [blk, h1]
    · rw [if_neg (by rw [List.length_take]; omega), if_pos h1, if_neg h2]
      have : k - (l.take n).length < n - l.length := by rw [List.length_take]; omega
      rw [blk_lt (by rw [List.length_replicate]; exact this), List.getElem_replicate]
  · rw [if_neg (by rw [List.length_take]; omega), if_neg h1]
    exact blk_ge (by simp; omega)

theorem blocks_ext {l m : List (BitVec w)} (hl : l.length = m.length) (h : ∀ k, k < l.length → blk l k = blk m k) : l = m := by
  apply List.ext_getElem hl
  intro k h1 h2
  have := h k h1
  rwa [blk_lt h1, blk_lt h2] at this

theorem bits_ext (hw : 0 < w) {l m : List (BitVec w)} (hl : l.length = m.length) (h : ∀ i, bitAt l i = bitAt m i) : l = m := by
  apply blocks_ext hl
  intro k _
  apply BitVec.eq_of_getLsbD_eq
  intro j hj
  have := h (w * k + j)
  unfold bitAt at this
  rwa [Nat.mul_add_div hw, Nat.div_eq_of_lt hj, Nat.add_zero, Nat.mul_add_mod, Nat.mod_eq_of_lt hj] at this

/-! ### Representation predicate -/

/-- `b` has `n` bits, the blocks for them, and the bits `f` (no bit set from `n` on). -/
structure Has (b : Bitset w) (n : Nat) (f : Nat → Bool) : Prop where
  size : b.bitCount = n
  len : b.blocks.length = nb w n
  bits : ∀ i, bitAt b.blocks i = (decide (i < n) && f i)

/-- The invariant of the class: as many blocks as needed, no bit set past the size. -/
def WF (b : Bitset w) : Prop := Has b b.bitCount (bitAt b.blocks)

theorem Has.wf {b : Bitset w} {n f} (h : Has b n f) : WF b := by
  refine ⟨rfl, by rw [h.size]; exact h.len, ?_⟩
  intro i
  rw [h.bits, h.size]
  cases decide (i < n) <;> simp

theorem Has.congr {b : Bitset w} {n f g} (h : Has b n f) (e : ∀ i, i < n → f i = g i) : Has b n g := by
  refine ⟨h.size, h.len, ?_⟩
  intro i
  rw [h.bits]
  by_cases hi : i < n
  · rw [e i hi]
  · simp [hi]

theorem Has.eq {a b : Bitset w} {n f g} (hw : 0 < w) (ha : Has a n f) (hb : Has b n g) (e : ∀ i, i < n → f i = g i) : a = b := by
  have hb' := ha.congr e
  obtain ⟨ab, an⟩ := a
  obtain ⟨bb, bn⟩ := b
  have h1 : an = bn := hb'.size.trans hb.size.symm
  have h2 : ab = bb := bits_ext hw (hb'.len.trans hb.len.symm) (fun i => (hb'.bits i).trans (hb.bits i).symm)
  rw [h1, h2]

theorem WF.bit_ge {b : Bitset w} (h : WF b) {i : Nat} (hi : b.bitCount ≤ i) : bitAt b.blocks i = false := by
  rw [h.bits]; simp [Nat.not_lt.mpr hi]

theorem div_lt_nb (hw : 0 < w) {i n : Nat} (h : i < n) : i / w < nb w n := by
  rw [lt_lex hw] at h
  unfold nb
  split <;> omega

theorem lt_of_div_lt_pred (hw : 0 < w) {i n : Nat} (h : i / w < nb w n - 1) : i < n := by
  rw [lt_lex hw]
  have h0 := Nat.zero_le (i / w)
  have h1 := Nat.zero_le (n / w)
  unfold nb at h
  split at h <;> omega

theorem nb_zero (w : Nat) : nb w 0 = 0 := by simp [nb]

theorem nb_pos (hw : 0 < w) {n : Nat} (h : 0 < n) : 0 < nb w n := Nat.lt_of_le_of_lt (Nat.zero_le _) (div_lt_nb hw h)

theorem le_of_nb_le (hw : 0 < w) {i n : Nat} (h : nb w n ≤ i / w) : n ≤ i := by
  by_contra hlt
  have := div_lt_nb hw (Nat.lt_of_not_le hlt)
  omega

/-! ### Masks -/

theorem one_shl_bit (k i : Nat) (hk : k < w) : (1#w <<< k).getLsbD i = decide (i = k) := by
  rw [← BitVec.twoPow_eq, BitVec.getLsbD_twoPow]
  simp only [hk, decide_true, Bool.true_and]
  exact decide_eq_decide.mpr eq_comm

theorem and_mask_ne (x : BitVec w) (k : Nat) (hk : k < w) : ((x &&& (1#w <<< k)) != 0#w) = x.getLsbD k := by
  rw [Bool.eq_iff_iff, bne_iff_ne]
  constructor
  · intro hne
    by_contra hf
    apply hne
    apply BitVec.eq_of_getLsbD_eq
    intro i hi
    rw [BitVec.getLsbD_and, one_shl_bit k i hk]
    by_cases e : i = k
    · subst e; simp [Bool.eq_false_iff.mpr hf]
    · simp [e]
  · intro ht he
    have := congrArg (fun x : BitVec w => x.getLsbD k) he
    simp only [BitVec.getLsbD_and, one_shl_bit k k hk, ht] at this
    simp at this

theorem shl_ok (x : BitVec w) {k : Nat} (h : k < w) : shl x k = .ok (x <<< k) := by
  simp [shl, lt_promoted h]

theorem shr_ok (x : BitVec w) {k : Nat} (h : k < w) : shr x k = .ok (x >>> k) := by
  simp [shr, lt_promoted h]

theorem shiftOut_ok {t : Nat} (x : BitVec t) (k : Nat) : shiftOut x k = .ok (if k < t then x >>> k else 0#t) := by
  unfold shiftOut
  split
  · rename_i h; exact shr_ok x h
  · rfl

theorem low_mask_bit (k i : Nat) (hk : k < w) : ((1#w <<< k) - 1#w).getLsbD i = decide (i < k) := by
  have h1 : 2 ^ k < 2 ^ w := Nat.pow_lt_pow_right (by omega) hk
  have hp : 0 < 2 ^ k := by positivity
  have e : ((1#w <<< k) - 1#w).toNat = 2 ^ k - 1 := by
    rw [BitVec.toNat_sub, ← BitVec.twoPow_eq, BitVec.toNat_twoPow, Nat.mod_eq_of_lt h1, BitVec.toNat_ofNat]
    rw [Nat.mod_eq_of_lt (by omega : 1 < 2 ^ w)]
    rw [show 2 ^ w - 1 + 2 ^ k = (2 ^ k - 1) + 2 ^ w by omega, Nat.add_mod_right, Nat.mod_eq_of_lt (by omega)]
  rw [← BitVec.testBit_toNat, e, Nat.testBit_two_pow_sub_one]

theorem getLastBlockMask_ok (h : IsBlockWidth w) (b : Bitset w) :
    ∃ m, getLastBlockMask b = .ok m ∧ ∀ i, i < w → m.getLsbD i = (decide (b.bitCount % w = 0) || decide (i < b.bitCount % w)) := by
  unfold getLastBlockMask
  rw [getBitIndex_eq h]
  have hlt := Nat.mod_lt b.bitCount h.pos
  by_cases h0 : b.bitCount % w = 0
  · refine ⟨fullBitMask w, by simp [h0], ?_⟩
    intro i hi
    simp [fullBitMask, h0, hi]
  · refine ⟨(1#w <<< (b.bitCount % w)) - 1#w, by simp [h0, shl_ok _ hlt], ?_⟩
    intro i _
    rw [low_mask_bit _ _ hlt]
    simp [h0]

/-- `ResetExtraBits` clears everything from the size on. -/
theorem resetExtraBits_ok (h : IsBlockWidth w) (b : Bitset w) (hl : b.blocks.length = nb w b.bitCount) :
    ∃ b', resetExtraBits b = .ok b' ∧ Has b' b.bitCount (bitAt b.blocks) := by
  have hw := h.pos
  unfold resetExtraBits
  by_cases h0 : b.blocks.length = 0
  · refine ⟨b, by simp [h0], rfl, hl, ?_⟩
    intro i
    have hn : b.bitCount = 0 := by
      by_contra hne
      have := nb_pos hw (Nat.pos_of_ne_zero hne)
      omega
    rw [bitAt, blk_ge (by rw [h0]; exact Nat.zero_le _)]
    simp [hn]
  · obtain ⟨m, em, hm⟩ := getLastBlockMask_ok h b
    have hlt : b.blocks.length - 1 < b.blocks.length := by omega
    refine ⟨{ b with blocks := b.blocks.set (b.blocks.length - 1) (blk b.blocks (b.blocks.length - 1) &&& m) }, ?_, rfl, ?_, ?_⟩
    · simp only [bne_iff_ne, ne_eq, h0, not_false_eq_true, if_true, rd_blk hlt, ok_bind, em, wr_ok hlt, pure_ok]
    · simpa using hl
    · intro i
      have hi := Nat.mod_lt i hw
      have hiq := Nat.zero_le (i / w)
      unfold bitAt
      simp only
      rw [blk_set _ _ _ _ hlt]
      by_cases he : i / w = b.blocks.length - 1
      · rw [if_pos he, BitVec.getLsbD_and, hm _ hi, ← he]
        rw [Bool.and_comm]
        congr 1
        have : i < b.bitCount ↔ (b.bitCount % w = 0 ∨ i % w < b.bitCount % w) := by
          rw [lt_lex hw]
          rw [hl] at he
          have hpos : 0 < nb w b.bitCount := by omega
          unfold nb at he hpos
          split at he <;> rename_i h1
          · rw [if_pos h1] at hpos; omega
          · rw [if_neg h1] at hpos; omega
        rw [Bool.eq_iff_iff]
        simp [this]
      · rw [if_neg he]
        by_cases hlt' : i / w < b.blocks.length - 1
        · have : i < b.bitCount := lt_of_div_lt_pred hw (by omega)
          simp [this]
        · rw [blk_ge (by omega)]
          simp

/-- `m_blocks[i]` for an `i` in range. -/
theorem setBlockRaw_ok (b : Bitset w) {i : Nat} (x : BitVec w) (h : i < b.blocks.length) :
    setBlockRaw b i x = .ok { b with blocks := b.blocks.set i x } := by
  simp [setBlockRaw, wr_ok h]

theorem getBlock_ok (b : Bitset w) {i : Nat} (h : i < b.blocks.length) : getBlock b i = .ok (blk b.blocks i) := by
  simp [getBlock, h, rd_blk h]

theorem has_empty (w : Nat) : Has (empty : Bitset w) 0 (fun _ => false) :=
  ⟨rfl, by simp [empty, nb_zero], by intro i; simp [empty, bitAt, blk_nil]⟩

theorem full_shl_bit (k i : Nat) (hi : i < w) : (fullBitMask w <<< k).getLsbD i = decide (k ≤ i) := by
  rw [BitVec.getLsbD_shiftLeft]
  by_cases h : k ≤ i
  · simp [fullBitMask, hi, h, Nat.not_lt.mpr h]; omega
  · simp [fullBitMask, hi, h, Nat.lt_of_not_le h]

/-! ### Elementary operations -/

theorem resize_ok (h : IsBlockWidth w) (b : Bitset w) (wf : WF b) (n : Nat) (v : Bool) :
    ∃ b', resize b n v = .ok b' ∧ Has b' n (fun i => if i < b.bitCount then bitAt b.blocks i else v) := by
  have hw := h.pos
  unfold resize
  rw [getBitIndex_eq h, computeBlockCount_eq h]
  have hmod := Nat.mod_lt b.bitCount hw
  have hnq := Nat.zero_le (b.bitCount / w)
  have hlen := wf.len
  -- bits of the resized list
  have base : ∀ i, i < n → bitAt (vresize b.blocks (nb w n) (if v then fullBitMask w else 0#w)) i =
      if i / w < nb w b.bitCount then bitAt b.blocks i else v := by
    intro i hi
    have hi' := div_lt_nb hw hi
    have him := Nat.mod_lt i hw
    have hiq := Nat.zero_le (i / w)
    unfold bitAt
    rw [blk_vresize, if_pos hi', hlen]
    split
    · rfl
    · cases v <;> simp [fullBitMask, him]
  by_cases hc : (n > b.bitCount && b.bitCount % w > 0 && v) = true
  · simp only [Bool.and_eq_true, decide_eq_true_eq] at hc
    obtain ⟨⟨h1, h2⟩, h3⟩ := hc
    have hpos : 0 < b.blocks.length := by rw [hlen]; unfold nb; split <;> omega
    have hle : nb w b.bitCount ≤ nb w n := by
      by_contra hlt
      have := le_of_nb_le hw (i := b.bitCount) (n := n) (by
        unfold nb at hlt ⊢
        rw [if_neg (by omega : ¬ b.bitCount % w = 0)] at hlt
        omega)
      omega
    have hidx : b.blocks.length - 1 < (vresize b.blocks (nb w n) (if v then fullBitMask w else 0#w)).length := by
      rw [vresize_length]; omega
    subst h3
    simp only [gt_iff_lt, h1, h2, decide_true, Bool.and_self, if_true, hpos, guardUB_true, ok_bind]
    simp only [if_true] at hidx base
    rw [rd_blk hidx, ok_bind, shl_ok _ hmod, ok_bind, wr_ok hidx, ok_bind]
    obtain ⟨b', e, hb⟩ := resetExtraBits_ok h ⟨(vresize b.blocks (nb w n) (fullBitMask w)).set (b.blocks.length - 1)
      (blk (vresize b.blocks (nb w n) (fullBitMask w)) (b.blocks.length - 1) ||| fullBitMask w <<< (b.bitCount % w)), n⟩
      (by simp [vresize_length])
    refine ⟨b', e, hb.congr ?_⟩
    intro i hi
    have him := Nat.mod_lt i hw
    have hiq := Nat.zero_le (i / w)
    have hb' := base i hi
    simp only at hb ⊢
    unfold bitAt
    rw [blk_set _ _ _ _ hidx]
    by_cases he : i / w = b.blocks.length - 1
    · rw [if_pos he, BitVec.getLsbD_or, full_shl_bit _ _ him, ← he]
      have hb'' : (blk (vresize b.blocks (nb w n) (fullBitMask w)) (i / w)).getLsbD (i % w) = bitAt b.blocks i := by
        have := hb'
        rw [if_pos (by omega)] at this
        exact this
      rw [hb'']
      by_cases hlt : i < b.bitCount
      · rw [if_pos hlt]
        have : ¬ b.bitCount % w ≤ i % w := by
          rw [lt_lex hw] at hlt
          have : i / w = b.bitCount / w := by
            rw [he, hlen]; unfold nb; rw [if_neg (by omega)]; omega
          omega
        simp [this, bitAt]
      · rw [if_neg hlt]
        have : b.bitCount % w ≤ i % w := by
          rw [lt_lex hw] at hlt
          have : i / w = b.bitCount / w := by
            rw [he, hlen]; unfold nb; rw [if_neg (by omega)]; omega
          omega
        simp [this]
    · rw [if_neg he]
      have : (blk (vresize b.blocks (nb w n) (fullBitMask w)) (i / w)).getLsbD (i % w) =
          if i / w < nb w b.bitCount then bitAt b.blocks i else true := hb'
      rw [this]
      by_cases hlt : i / w < nb w b.bitCount
      · rw [if_pos hlt]
        have : i < b.bitCount := lt_of_div_lt_pred hw (by omega)
        rw [if_pos this]; rfl
      · rw [if_neg hlt, if_neg (by have := le_of_nb_le hw (Nat.le_of_not_lt hlt); omega)]
  · rw [if_neg hc, pure_ok, ok_bind]
    obtain ⟨b', e, hb⟩ := resetExtraBits_ok h ⟨vresize b.blocks (nb w n) (if v then fullBitMask w else 0#w), n⟩
      (by simp [vresize_length])
    refine ⟨b', e, hb.congr ?_⟩
    intro i hi
    simp only at hi ⊢
    rw [base i hi]
    have hiq := Nat.zero_le (i / w)
    by_cases hlt : i < b.bitCount
    · rw [if_pos hlt, if_pos (div_lt_nb hw hlt)]
    · rw [if_neg hlt]
      by_cases h1 : i / w < nb w b.bitCount
      · rw [if_pos h1, wf.bit_ge (by omega)]
        cases v with
        | false => rfl
        | true =>
          exfalso
          apply hc
          simp only [Bool.and_true, Bool.and_eq_true, decide_eq_true_eq]
          refine ⟨by omega, ?_⟩
          by_contra h0
          rw [lt_lex hw] at hlt
          unfold nb at h1
          rw [if_pos (by omega)] at h1
          omega
      · rw [if_neg h1]

theorem set_ok (h : IsBlockWidth w) (b : Bitset w) (wf : WF b) (k : Nat) (hk : k < b.bitCount) (v : Bool) :
    ∃ b', set b k v = .ok b' ∧ Has b' b.bitCount (fun i => if i = k then v else bitAt b.blocks i) := by
  have hw := h.pos
  unfold set
  have hmod := Nat.mod_lt k hw
  have hidx : k / w < b.blocks.length := by rw [wf.len]; exact div_lt_nb hw hk
  simp only [hk, decide_true, assert_true, ok_bind, getBlockIndex, getBitIndex_eq h, rd_blk hidx, shl_ok _ hmod,
    wr_ok hidx, pure_ok]
  refine ⟨_, rfl, rfl, by simpa using wf.len, ?_⟩
  intro i
  have him := Nat.mod_lt i hw
  have hiq := Nat.zero_le (i / w)
  simp only
  unfold bitAt
  rw [blk_set _ _ _ _ hidx]
  have hbit := wf.bits i
  unfold bitAt at hbit
  have hdm : i = k ↔ i / w = k / w ∧ i % w = k % w := by
    constructor
    · rintro rfl; exact ⟨rfl, rfl⟩
    · rintro ⟨e1, e2⟩
      rw [← Nat.div_add_mod i w, ← Nat.div_add_mod k w, e1, e2]
  by_cases he : i / w = k / w
  · rw [if_pos he, BitVec.getLsbD_or, BitVec.getLsbD_and, BitVec.getLsbD_and, BitVec.getLsbD_not, one_shl_bit _ _ hmod]
    by_cases hem : i % w = k % w
    · have hik : i = k := hdm.mpr ⟨he, hem⟩
      subst hik
      simp only [decide_true, Bool.not_true, Bool.and_false, Bool.false_or, Bool.and_true, hk, Bool.true_and, if_true]
      cases v with
      | false => simp
      | true =>
        rw [if_pos rfl, BitVec.neg_one_eq_allOnes]
        simp [him]
    · have hik : ¬ i = k := fun e => hem (hdm.mp e).2
      rw [if_neg hik, ← he]
      simp only [hem, decide_false, Bool.not_false, him, decide_true, Bool.and_true, Bool.and_false, Bool.or_false]
      exact hbit
  · have hik : ¬ i = k := fun e => he (hdm.mp e).1
    rw [if_neg he, if_neg hik]
    exact hbit

theorem test_ok (h : IsBlockWidth w) (b : Bitset w) (wf : WF b) (k : Nat) (hk : k < b.bitCount) :
    test b k = .ok (bitAt b.blocks k) := by
  have hw := h.pos
  have hmod := Nat.mod_lt k hw
  have hidx : k / w < b.blocks.length := by rw [wf.len]; exact div_lt_nb hw hk
  simp only [test, hk, decide_true, assert_true, ok_bind, getBlockIndex, getBitIndex_eq h, rd_blk hidx, shl_ok _ hmod, pure_ok,
    and_mask_ne _ _ hmod]
  rfl

theorem flip_ok (h : IsBlockWidth w) (b : Bitset w) (wf : WF b) :
    ∃ b', flip b = .ok b' ∧ Has b' b.bitCount (fun i => !(bitAt b.blocks i)) := by
  have hw := h.pos
  unfold flip
  obtain ⟨b', e, hb⟩ := resetExtraBits_ok h { b with blocks := b.blocks.map (· ^^^ fullBitMask w) } (by simpa using wf.len)
  refine ⟨b', e, hb.congr ?_⟩
  intro i hi
  have him := Nat.mod_lt i hw
  have hiq := Nat.zero_le (i / w)
  simp only at hi ⊢
  unfold bitAt
  rw [blk_map, if_pos (by rw [wf.len]; exact div_lt_nb hw hi), BitVec.getLsbD_xor]
  simp [fullBitMask, him]

theorem setAll_ok (h : IsBlockWidth w) (b : Bitset w) (wf : WF b) (v : Bool) :
    ∃ b', setAll b v = .ok b' ∧ Has b' b.bitCount (fun _ => v) := by
  have hw := h.pos
  unfold setAll
  have bits : ∀ i, i < b.bitCount → bitAt (b.blocks.map (fun _ => if v then fullBitMask w else 0#w)) i = v := by
    intro i hi
    have him := Nat.mod_lt i hw
    have hiq := Nat.zero_le (i / w)
    unfold bitAt
    rw [blk_map, if_pos (by rw [wf.len]; exact div_lt_nb hw hi)]
    cases v <;> simp [fullBitMask, him]
  cases v with
  | true =>
    obtain ⟨b', e, hb⟩ := resetExtraBits_ok h { b with blocks := b.blocks.map (fun _ => if true then fullBitMask w else 0#w) }
      (by simpa using wf.len)
    exact ⟨b', by simpa using e, hb.congr (fun i hi => bits i hi)⟩
  | false =>
    refine ⟨{ b with blocks := b.blocks.map (fun _ => 0#w) }, by simp, rfl, by simpa using wf.len, ?_⟩
    intro i
    simp only [Bool.and_false]
    unfold bitAt
    rw [blk_map]
    split <;> simp

end Verif.Bitset
