import Verif.MathUtils.Spec
import Verif.MathUtils.Lemmas
import Mathlib.Tactic.IntervalCases

/-!
# C14, C15, C23: bit order, byte order, single bits
-/

namespace Verif.MathUtils
open Verif.Cpp

/-! ### ReverseBits -/

theorem table_len : bitReverseTable.length = 256 := by decide +kernel

/-- Every entry of the 256-entry table is the mirrored byte: the complete table is checked. -/
theorem table_bits : ∀ b : Fin 256, ∀ j : Fin 8,
    (bitReverseTable[b.val]'(by have := b.isLt; rw [table_len]; exact this)).testBit j.val = b.val.testBit (7 - j.val) := by
  decide +kernel

theorem table_lt : ∀ b : Fin 256,
    (bitReverseTable[b.val]'(by have := b.isLt; rw [table_len]; exact this)) < 256 := by
  decide +kernel

/-- C14: bit `i` of `ReverseBits(v)` is bit `w - 1 - i` of `v`, for every type of `n` bytes. -/
theorem C14_reverseBits (n : Nat) (v : BitVec (n * 8)) :
    ∃ r, reverseBits n v = .ok r ∧ ∀ i, i < n * 8 → r.getLsbD i = v.getLsbD (n * 8 - 1 - i) := by
  unfold reverseBits
  obtain ⟨r, e, h⟩ := forUp_ok (lo := 0) (n := n) (s := 0#(n * 8))
    (fun k (r : BitVec (n * 8)) => ∀ i, i < n * 8 →
      r.getLsbD i = (decide (n * 8 - k * 8 ≤ i) && v.getLsbD (n * 8 - 1 - i)))
    (f := fun i reversed => do
      let e ← rd bitReverseTable ((v >>> (i * 8)) &&& 0xFF#(n * 8)).toNat
      guardUB (n * 8 - (i + 1) * 8 < promoted (n * 8))
      pure (reversed ||| (BitVec.ofNat (n * 8) e <<< (n * 8 - (i + 1) * 8))))
    (by intro i hi; simp; omega)
    (by
      intro k r hk hI
      have hbyte : ((v >>> (k * 8)) &&& 0xFF#(n * 8)).toNat = (v.toNat >>> (k * 8)) % 256 := by
        have : (255 : Nat) < 2 ^ (n * 8) := by
          calc 255 < 2 ^ 8 := by norm_num
            _ ≤ 2 ^ (n * 8) := Nat.pow_le_pow_right (by omega) (by omega)
        rw [BitVec.toNat_and, BitVec.toNat_ushiftRight, BitVec.toNat_ofNat, Nat.mod_eq_of_lt this]
        exact Nat.and_two_pow_sub_one_eq_mod _ 8
      have hlt : (v.toNat >>> (k * 8)) % 256 < 256 := Nat.mod_lt _ (by norm_num)
      generalize hb : (v.toNat >>> (k * 8)) % 256 = b at *
      have hguard : n * 8 - (0 + k + 1) * 8 < promoted (n * 8) := by unfold promoted; omega
      simp only [Nat.zero_add] at hguard ⊢
      rw [hbyte, rd_ok (by rw [table_len]; exact hlt)]
      refine ⟨r ||| (BitVec.ofNat (n * 8) (bitReverseTable[b]'(by rw [table_len]; exact hlt)) <<< (n * 8 - (k + 1) * 8)),
        by simp only [ok_bind, hguard, decide_true, guardUB_true, pure_ok], ?_⟩
      intro i hi
      have hT := table_bits ⟨b, hlt⟩
      have hL := table_lt ⟨b, hlt⟩
      simp only at hT hL
      generalize bitReverseTable[b]'(by rw [table_len]; exact hlt) = t at *
      rw [BitVec.getLsbD_or, hI i hi, BitVec.getLsbD_shiftLeft]
      simp only [hi, decide_true, Bool.true_and, BitVec.getLsbD_ofNat]
      by_cases h1 : n * 8 - k * 8 ≤ i
      · have h2 : ¬ i < n * 8 - (k + 1) * 8 := by omega
        have h3 : n * 8 - (k + 1) * 8 ≤ i := by omega
        have h4 : t.testBit (i - (n * 8 - (k + 1) * 8)) = false := by
          apply Nat.testBit_lt_two_pow
          calc t < 2 ^ 8 := by simpa using hL
            _ ≤ _ := Nat.pow_le_pow_right (by omega) (by omega)
        simp [h1, h3, h4]
      · by_cases h2 : i < n * 8 - (k + 1) * 8
        · have h3 : ¬ n * 8 - (k + 1) * 8 ≤ i := by omega
          simp [h1, h2]; intro h; omega
        · have h3 : n * 8 - (k + 1) * 8 ≤ i := by omega
          have h4 := hT ⟨i - (n * 8 - (k + 1) * 8), by omega⟩
          simp only at h4
          have h5 : i - (n * 8 - (k + 1) * 8) < n * 8 := by omega
          have h6 : b.testBit (7 - (i - (n * 8 - (k + 1) * 8))) = v.getLsbD (n * 8 - 1 - i) := by
            rw [← hb, show (256 : Nat) = 2 ^ 8 by norm_num, Nat.testBit_mod_two_pow, Nat.testBit_shiftRight, BitVec.getLsbD,
              show decide (7 - (i - (n * 8 - (k + 1) * 8)) < 8) = true by simp; omega, Bool.true_and]
            congr 1; omega
          simp [h1, h2, h3, h4, h5, h6])
  refine ⟨r, e, ?_⟩
  intro i hi
  rw [h i hi]; simp

/-- C14: `ReverseBits` is an involution. -/
theorem C14_reverseBits_involutive (n : Nat) (v : BitVec (n * 8)) :
    (do let r ← reverseBits n v; reverseBits n r) = .ok v := by
  obtain ⟨r, e, h⟩ := C14_reverseBits n v
  obtain ⟨r', e', h'⟩ := C14_reverseBits n r
  rw [e, ok_bind, e']
  congr 1
  apply BitVec.eq_of_getLsbD_eq
  intro i hi
  rw [h' i hi, h _ (by omega)]
  congr 1; omega

example : reverseBits 2 0x1234#16 = .ok 0x2C48#16 := by decide +kernel

/-! ### SwapBytes and ByteSwap -/

theorem swapBytesLoop_ok (l : List (BitVec 8)) (i j : Nat) (hj : j < l.length ∨ j ≤ i) :
    ∃ l', swapBytesLoop l i j = .ok l' ∧ l'.length = l.length ∧
      ∀ k, l'[k]? = if i ≤ k ∧ k ≤ j then l[i + j - k]? else l[k]? := by
  induction l, i, j using swapBytesLoop.induct with
  | case1 l i j h ih =>
    have hj' : j < l.length := by omega
    have hi' : i < l.length := by omega
    rw [swapBytesLoop, if_pos h, rd_ok hi', ok_bind, rd_ok hj', ok_bind, wr_ok hi', ok_bind,
      wr_ok (by simpa using hj'), ok_bind]
    obtain ⟨l', e, hl, hk⟩ := ih ((l.set i l[j]).set j l[i]) (by simp; omega)
    refine ⟨l', e, by simpa using hl, ?_⟩
    intro k
    rw [hk k]
    simp only [List.getElem?_set, List.length_set]
    by_cases h1 : i + 1 ≤ k ∧ k ≤ j - 1
    · have e1 : i + 1 + (j - 1) - k = i + j - k := by omega
      rw [if_pos h1, e1, if_neg (show ¬ j = i + j - k by omega), if_neg (show ¬ i = i + j - k by omega),
        if_pos (show i ≤ k ∧ k ≤ j by omega)]
    · rw [if_neg h1]
      by_cases h2 : j = k
      · subst h2
        rw [if_pos rfl, if_pos hj', if_pos (by omega), show i + j - j = i by omega,
          List.getElem?_eq_getElem hi']
      · rw [if_neg h2]
        by_cases h3 : i = k
        · subst h3
          rw [if_pos rfl, if_pos hi', if_pos (by omega), show i + j - i = j by omega,
            List.getElem?_eq_getElem hj']
        · rw [if_neg h3, if_neg (by omega)]
  | case2 l i j h =>
    rw [swapBytesLoop, if_neg h]
    refine ⟨l, rfl, rfl, ?_⟩
    intro k
    split
    · next hk => congr 1; omega
    · rfl

/-- C15: `SwapBytes(buffer, size)` with `1 ≤ size ≤` accessible length reverses the first `size` bytes and leaves the
others alone. -/
theorem C15_swapBytes (l : List (BitVec 8)) (size : Nat) (h1 : 1 ≤ size) (h2 : size ≤ l.length) (h3 : size < 2 ^ 64) :
    swapBytes l size = .ok ((l.take size).reverse ++ l.drop size) := by
  unfold swapBytes
  rw [show (size + (2 ^ 64 - 1)) % 2 ^ 64 = size - 1 by omega]
  obtain ⟨l', e, hl, hk⟩ := swapBytesLoop_ok l 0 (size - 1) (by omega)
  rw [e]
  congr 1
  apply List.ext_getElem?
  intro k
  rw [hk k]
  by_cases hks : k < size
  · rw [if_pos (by omega), List.getElem?_append_left (by simp; omega), List.getElem?_reverse (by simp; omega)]
    rw [List.getElem?_take]
    simp only [List.length_take]
    rw [if_pos (by omega)]
    congr 1; omega
  · rw [if_neg (by omega), List.getElem?_append_right (by simp; omega), List.getElem?_drop]
    simp only [List.length_reverse, List.length_take]
    congr 1; omega

example : swapBytes [1#8, 2#8, 3#8, 4#8] 3 = .ok [3#8, 2#8, 1#8, 4#8] := by
  rw [C15_swapBytes] <;> simp

/-- A call with size 0 accesses memory outside the buffer (`size - 1` wraps): the lower bound of `C15_swapBytes` is needed. -/
theorem C15_swapBytes_zero_ub (l : List (BitVec 8)) (h : l.length < 2 ^ 64) : swapBytes l 0 = .error .ub := by
  unfold swapBytes
  rw [show (0 + (2 ^ 64 - 1)) % 2 ^ 64 = 2 ^ 64 - 1 by norm_num, swapBytesLoop, if_pos (by omega)]
  by_cases h0 : 0 < l.length
  · rw [rd_ok h0, ok_bind, rd_ub (by omega)]; rfl
  · rw [rd_ub (by omega)]; rfl

theorem byteSwap16_bit (v : BitVec 16) (j : Nat) (hj : j < 16) :
    (byteSwap16 v).getLsbD j = v.getLsbD (8 * (1 - j / 8) + j % 8) := by
  interval_cases j <;> simp [byteSwap16]

theorem byteSwap32_bit (v : BitVec 32) (j : Nat) (hj : j < 32) :
    (byteSwap32 v).getLsbD j = v.getLsbD (8 * (3 - j / 8) + j % 8) := by
  interval_cases j <;> simp [byteSwap32]

theorem byteSwap64_bit (v : BitVec 64) (j : Nat) (hj : j < 64) :
    (byteSwap64 v).getLsbD j = v.getLsbD (8 * (7 - j / 8) + j % 8) := by
  interval_cases j <;> simp [byteSwap64]

/-- Mirroring of bytes, from the statement on bits. -/
theorem byte_of_bits {w n : Nat} (f v : BitVec w) (hw : w = 8 * n)
    (h : ∀ j, j < w → f.getLsbD j = v.getLsbD (8 * (n - 1 - j / 8) + j % 8)) :
    ∀ i, i < n → byte f i = byte v (n - 1 - i) := by
  intro i hi
  apply BitVec.eq_of_getLsbD_eq
  intro j hj
  simp only [byte, BitVec.getLsbD_extractLsb', hj, decide_true, Bool.true_and]
  rw [h _ (by omega)]
  congr 1
  omega

theorem eq_of_bytes {w n : Nat} (a b : BitVec w) (hw : w = 8 * n) (h : ∀ i, i < n → byte a i = byte b i) : a = b := by
  apply BitVec.eq_of_getLsbD_eq
  intro j hj
  have := congrArg (fun x : BitVec 8 => x.getLsbD (j % 8)) (h (j / 8) (by omega))
  simp only [byte, BitVec.getLsbD_extractLsb', show j % 8 < 8 by omega, decide_true, Bool.true_and] at this
  rwa [show 8 * (j / 8) + j % 8 = j by omega] at this

/-- C15: byte `i` of `ByteSwap(v)` is byte `n - 1 - i` of `v`, for 2, 4 and 8 byte integers (the compile-time
expressions; the run-time builtins have this meaning by their documentation; for one byte the value is unchanged). -/
theorem C15_byteSwap :
    (∀ (v : BitVec 16) i, i < 2 → byte (byteSwap16 v) i = byte v (1 - i)) ∧
    (∀ (v : BitVec 32) i, i < 4 → byte (byteSwap32 v) i = byte v (3 - i)) ∧
    (∀ (v : BitVec 64) i, i < 8 → byte (byteSwap64 v) i = byte v (7 - i)) :=
  ⟨fun v => byte_of_bits (n := 2) _ v rfl (byteSwap16_bit v),
   fun v => byte_of_bits (n := 4) _ v rfl (byteSwap32_bit v),
   fun v => byte_of_bits (n := 8) _ v rfl (byteSwap64_bit v)⟩

/-- C15: `ByteSwap` is an involution. -/
theorem C15_byteSwap_involutive :
    (∀ v, byteSwap16 (byteSwap16 v) = v) ∧ (∀ v, byteSwap32 (byteSwap32 v) = v) ∧
    (∀ v, byteSwap64 (byteSwap64 v) = v) := by
  obtain ⟨h16, h32, h64⟩ := C15_byteSwap
  refine ⟨fun v => ?_, fun v => ?_, fun v => ?_⟩
  · apply eq_of_bytes (n := 2) _ _ rfl
    intro i hi; rw [h16 _ i hi, h16 _ _ (by omega)]; congr 1; omega
  · apply eq_of_bytes (n := 4) _ _ rfl
    intro i hi; rw [h32 _ i hi, h32 _ _ (by omega)]; congr 1; omega
  · apply eq_of_bytes (n := 8) _ _ rfl
    intro i hi; rw [h64 _ i hi, h64 _ _ (by omega)]; congr 1; omega

theorem bytesLE_mirror {w n : Nat} (f v : BitVec w) (h : ∀ i, i < n → byte f i = byte v (n - 1 - i)) :
    bytesLE n f = (bytesLE n v).reverse := by
  apply List.ext_getElem
  · simp [bytesLE]
  · intro i h1 h2
    simp only [bytesLE, List.length_map, List.length_range] at h1
    simp only [bytesLE, List.getElem_map, List.getElem_range, List.getElem_reverse, List.length_map,
      List.length_range]
    rw [h i h1]

/-- C15: `ByteSwap` agrees with the generic `SwapBytes` on the object representation (also when that is stored in the
opposite order, since both are then reversed). -/
theorem C15_byteSwap_swapBytes :
    (∀ v : BitVec 16, swapBytes (bytesLE 2 v) 2 = .ok (bytesLE 2 (byteSwap16 v))) ∧
    (∀ v : BitVec 32, swapBytes (bytesLE 4 v) 4 = .ok (bytesLE 4 (byteSwap32 v))) ∧
    (∀ v : BitVec 64, swapBytes (bytesLE 8 v) 8 = .ok (bytesLE 8 (byteSwap64 v))) := by
  obtain ⟨h16, h32, h64⟩ := C15_byteSwap
  have hl : ∀ (w n : Nat) (v : BitVec w), (bytesLE n v).length = n := by intro w n v; simp [bytesLE]
  have key : ∀ (w n : Nat) (v f : BitVec w), 0 < n → n < 2 ^ 64 → (∀ i, i < n → byte f i = byte v (n - 1 - i)) →
      swapBytes (bytesLE n v) n = .ok (bytesLE n f) := by
    intro w n v f h0 hn h
    rw [C15_swapBytes _ _ (by omega) (by simp [bytesLE]) (by omega), List.take_of_length_le (by rw [hl]),
      List.drop_of_length_le (by rw [hl]), List.append_nil, bytesLE_mirror f v h]
  exact ⟨fun v => key 16 2 v _ (by omega) (by omega) (h16 v), fun v => key 32 4 v _ (by omega) (by omega) (h32 v),
    fun v => key 64 8 v _ (by omega) (by omega) (h64 v)⟩

example : byteSwap32 0xABCDEF01#32 = 0x01EFCDAB#32 := by decide +kernel

/-! ### Single bits (C23) -/

theorem le_promoted (w : Nat) : w ≤ promoted w := by unfold promoted; omega

/-- C23: with the index in range, `SetBit`, `ClearBit` and `ToggleBit` change exactly that bit. -/
theorem C23_single_bit {w : Nat} (v : BitVec w) (bit : Nat) (h : bit < w) :
    (∃ r, setBit v bit = .ok r ∧ ∀ i, i < w → r.getLsbD i = if i = bit then true else v.getLsbD i) ∧
    (∃ r, clearBit v bit = .ok r ∧ ∀ i, i < w → r.getLsbD i = if i = bit then false else v.getLsbD i) ∧
    (∃ r, toggleBit v bit = .ok r ∧ ∀ i, i < w → r.getLsbD i = if i = bit then !(v.getLsbD i) else v.getLsbD i) ∧
    testBit v bit = .ok (v.getLsbD bit) := by
  have hp := le_promoted w
  have hb : bit < promoted w := by omega
  have one : ∀ i, i < promoted w → (1#(promoted w) <<< bit).getLsbD i = decide (i = bit) := by
    intro i hi
    rw [← BitVec.twoPow_eq, BitVec.getLsbD_twoPow]
    simp only [hb, decide_true, Bool.true_and]
    exact decide_eq_decide.mpr eq_comm
  refine ⟨⟨(v.setWidth (promoted w) ||| 1#(promoted w) <<< bit).setWidth w, by simp [setBit, h, hb], ?_⟩,
    ⟨(v.setWidth (promoted w) &&& ~~~(1#(promoted w) <<< bit)).setWidth w, by simp [clearBit, h, hb], ?_⟩,
    ⟨(v.setWidth (promoted w) ^^^ 1#(promoted w) <<< bit).setWidth w, by simp [toggleBit, h, hb], ?_⟩, ?_⟩
  · intro i hi
    have hip : i < promoted w := by omega
    rw [BitVec.getLsbD_setWidth, BitVec.getLsbD_or, one i hip, BitVec.getLsbD_setWidth]
    by_cases e : i = bit <;> simp [hi, hip, e, h]
  · intro i hi
    have hip : i < promoted w := by omega
    rw [BitVec.getLsbD_setWidth, BitVec.getLsbD_and, BitVec.getLsbD_not, one i hip, BitVec.getLsbD_setWidth]
    by_cases e : i = bit
    · simp [e]
    · simp [hi, hip, e]
  · intro i hi
    have hip : i < promoted w := by omega
    rw [BitVec.getLsbD_setWidth, BitVec.getLsbD_xor, one i hip, BitVec.getLsbD_setWidth]
    by_cases e : i = bit <;> simp [hi, hip, e, h, hb]
  · simp only [testBit, h, hb, decide_true, assert_true, guardUB_true, ok_bind, pure_ok]
    congr 1
    rw [Bool.eq_iff_iff, bne_iff_ne]
    constructor
    · intro hne
      by_contra hf
      apply hne
      apply BitVec.eq_of_getLsbD_eq
      intro i hi
      rw [BitVec.getLsbD_and, one i hi, BitVec.getLsbD_setWidth]
      by_cases e : i = bit
      · subst e; simp [Bool.eq_false_iff.mpr hf]
      · simp [e]
    · intro ht he
      have := congrArg (fun x : BitVec (promoted w) => x.getLsbD bit) he
      simp only [BitVec.getLsbD_and, one bit hb, BitVec.getLsbD_setWidth, hb, ht] at this
      simp at this

/-- C23: an index out of range fails the assertion of each of the four functions. -/
theorem C23_single_bit_assert {w : Nat} (v : BitVec w) (bit : Nat) (h : w ≤ bit) :
    setBit v bit = .error .assert ∧ clearBit v bit = .error .assert ∧ toggleBit v bit = .error .assert ∧
    testBit v bit = .error .assert := by
  have : decide (bit < w) = false := by simp; omega
  simp [setBit, clearBit, toggleBit, testBit, this]

example : setBit 0b00110001#8 1 = .ok 0b00110011#8 := by decide +kernel

end Verif.MathUtils
