import Mathlib.Dynamics.PeriodicPts.Lemmas
import Mathlib.Tactic.NormNum.Prime
import Mathlib.RingTheory.Coprime.Lemmas
import Verif.Hash.PropsCall

/-!
# Property C162: what CRC32 does not see, and two changed bits
-/

namespace Verif.Hash

open Verif.Cpp Polynomial

/-! ## The order of the shift register -/

/-- The register that stands for the polynomial 1. -/
private def unit : BitVec 32 := 0x80000000#32

/-- The sum of `w`, `lfsr w`, ... selected by the bits of `v`, from the bit `k - 1` down. -/
private def mulR : Nat → BitVec 32 → BitVec 32 → BitVec 32
  | 0, _, _ => 0#32
  | k + 1, v, w => (if v.getLsbD k then w else 0#32) ^^^ mulR k v (lfsr w)

private theorem lfsrN_zero (n : Nat) : lfsrN n 0#32 = 0#32 := by
  induction n with
  | zero => rfl
  | succ n ih => rw [lfsrN, lfsr_zero, ih]

private theorem lfsrN_comm (m n : Nat) (x : BitVec 32) : lfsrN m (lfsrN n x) = lfsrN n (lfsrN m x) := by
  rw [← lfsrN_add, ← lfsrN_add, Nat.add_comm]

private theorem mulR_lfsrN (m : Nat) (v : BitVec 32) (k : Nat) : ∀ w, mulR k v (lfsrN m w) = lfsrN m (mulR k v w) := by
  induction k with
  | zero => intro w; rw [mulR, mulR, lfsrN_zero]
  | succ k ih =>
    intro w
    have h : lfsr (lfsrN m w) = lfsrN m (lfsr w) := lfsrN_comm 1 m w
    rw [mulR, mulR, h, ih, lfsrN_xor]
    split <;> simp [lfsrN_zero]

/-- The bits of a register below bit `k`. -/
private def low (k : Nat) (v : BitVec 32) : BitVec 32 := (v.setWidth k).setWidth 32

private theorem low_bit (k : Nat) (v : BitVec 32) (i : Nat) : (low k v).getLsbD i = (decide (i < k) && v.getLsbD i) := by
  unfold low
  by_cases h : i < 32
  · simp only [BitVec.getLsbD_setWidth, h, decide_true, Bool.true_and]
  · rw [BitVec.getLsbD_of_ge _ _ (by omega), BitVec.getLsbD_of_ge _ _ (by omega)]; simp

private theorem lfsr_single (k : Nat) (h : k < 31) : lfsr (BitVec.twoPow 32 (k + 1)) = BitVec.twoPow 32 k := by
  have e : ∀ k : Fin 31, lfsr (BitVec.twoPow 32 (k.val + 1)) = BitVec.twoPow 32 k.val := by decide +kernel
  exact e ⟨k, h⟩

private theorem mulR_single (v : BitVec 32) (k : Nat) : k < 32 → mulR (k + 1) v (BitVec.twoPow 32 k) = low (k + 1) v := by
  induction k with
  | zero =>
    intro _
    apply BitVec.eq_of_getLsbD_eq
    intro i hi
    simp only [mulR, BitVec.xor_zero, low_bit]
    cases hv : v.getLsbD 0
    · by_cases h : i = 0
      · subst h; rw [hv]; rfl
      · simp [show ¬ i < 1 by omega]
    · by_cases h : i = 0
      · subst h; simp [hv]
      · simp [show ¬ i < 1 by omega, BitVec.getLsbD_twoPow, show ¬ 0 = i by omega]
  | succ k ih =>
    intro h
    rw [mulR, lfsr_single k (by omega), ih (by omega)]
    apply BitVec.eq_of_getLsbD_eq
    intro i hi
    rw [BitVec.getLsbD_xor, low_bit, low_bit]
    by_cases e : i = k + 1
    · subst e
      cases hv : v.getLsbD (k + 1) <;> simp [hi]
    · have h1 : (if v.getLsbD (k + 1) = true then BitVec.twoPow 32 (k + 1) else 0#32).getLsbD i = false := by
        split
        · simp [BitVec.getLsbD_twoPow, show ¬ k + 1 = i by omega]
        · simp
      rw [h1]
      by_cases h2 : i < k + 1
      · simp [h2, show i < k + 1 + 1 by omega]
      · simp [h2, show ¬ i < k + 1 + 1 by omega]

private theorem mulR_unit (v : BitVec 32) : mulR 32 v unit = v := by
  have h := mulR_single v 31 (by omega)
  rw [show unit = BitVec.twoPow 32 31 by decide]
  rw [h]
  apply BitVec.eq_of_getLsbD_eq
  intro i hi
  rw [low_bit]; simp [hi]

private theorem mulR_power (m n : Nat) (v w : BitVec 32) (hv : lfsrN m unit = v) (hw : lfsrN n unit = w) :
    lfsrN (m + n) unit = mulR 32 v w := by
  rw [lfsrN_add, hv, ← hw, mulR_lfsrN, mulR_unit]

private theorem power_step (m n : Nat) (v w z : BitVec 32) (hv : lfsrN m unit = v) (hw : lfsrN n unit = w)
    (hz : mulR 32 v w = z) : lfsrN (m + n) unit = z := (mulR_power m n v w hv hw).trans hz

/-! The powers of two, and the sums that are needed (square and multiply). -/

private theorem pow_0 : lfsrN 1 unit = 0x40000000#32 := by decide +kernel
private theorem pow_1 : lfsrN 2 unit = 0x20000000#32 := power_step 1 1 _ _ _ pow_0 pow_0 (by decide +kernel)
private theorem pow_2 : lfsrN 4 unit = 0x08000000#32 := power_step 2 2 _ _ _ pow_1 pow_1 (by decide +kernel)
private theorem pow_3 : lfsrN 8 unit = 0x00800000#32 := power_step 4 4 _ _ _ pow_2 pow_2 (by decide +kernel)
private theorem pow_4 : lfsrN 16 unit = 0x00008000#32 := power_step 8 8 _ _ _ pow_3 pow_3 (by decide +kernel)
private theorem pow_5 : lfsrN 32 unit = 0xEDB88320#32 := power_step 16 16 _ _ _ pow_4 pow_4 (by decide +kernel)
private theorem pow_6 : lfsrN 64 unit = 0xB1E6B092#32 := power_step 32 32 _ _ _ pow_5 pow_5 (by decide +kernel)
private theorem pow_7 : lfsrN 128 unit = 0xA06A2517#32 := power_step 64 64 _ _ _ pow_6 pow_6 (by decide +kernel)
private theorem pow_8 : lfsrN 256 unit = 0xED627DAE#32 := power_step 128 128 _ _ _ pow_7 pow_7 (by decide +kernel)
private theorem pow_9 : lfsrN 512 unit = 0x88D14467#32 := power_step 256 256 _ _ _ pow_8 pow_8 (by decide +kernel)
private theorem pow_10 : lfsrN 1024 unit = 0xD7BBFE6A#32 := power_step 512 512 _ _ _ pow_9 pow_9 (by decide +kernel)
private theorem pow_11 : lfsrN 2048 unit = 0xEC447F11#32 := power_step 1024 1024 _ _ _ pow_10 pow_10 (by decide +kernel)
private theorem pow_12 : lfsrN 4096 unit = 0x8E7EA170#32 := power_step 2048 2048 _ _ _ pow_11 pow_11 (by decide +kernel)
private theorem pow_13 : lfsrN 8192 unit = 0x6427800E#32 := power_step 4096 4096 _ _ _ pow_12 pow_12 (by decide +kernel)
private theorem pow_14 : lfsrN 16384 unit = 0x4D47BAE0#32 := power_step 8192 8192 _ _ _ pow_13 pow_13 (by decide +kernel)
private theorem pow_15 : lfsrN 32768 unit = 0x09FE548F#32 := power_step 16384 16384 _ _ _ pow_14 pow_14 (by decide +kernel)
private theorem pow_16 : lfsrN 65536 unit = 0x83852D0F#32 := power_step 32768 32768 _ _ _ pow_15 pow_15 (by decide +kernel)
private theorem pow_17 : lfsrN 131072 unit = 0x30362F1A#32 := power_step 65536 65536 _ _ _ pow_16 pow_16 (by decide +kernel)
private theorem pow_18 : lfsrN 262144 unit = 0x7B5A9CC3#32 := power_step 131072 131072 _ _ _ pow_17 pow_17 (by decide +kernel)
private theorem pow_19 : lfsrN 524288 unit = 0x31FEC169#32 := power_step 262144 262144 _ _ _ pow_18 pow_18 (by decide +kernel)
private theorem pow_20 : lfsrN 1048576 unit = 0x9FEC022A#32 := power_step 524288 524288 _ _ _ pow_19 pow_19 (by decide +kernel)
private theorem pow_21 : lfsrN 2097152 unit = 0x6C8DEDC4#32 := power_step 1048576 1048576 _ _ _ pow_20 pow_20 (by decide +kernel)
private theorem pow_22 : lfsrN 4194304 unit = 0x15D6874D#32 := power_step 2097152 2097152 _ _ _ pow_21 pow_21 (by decide +kernel)
private theorem pow_23 : lfsrN 8388608 unit = 0x5FDE7A4E#32 := power_step 4194304 4194304 _ _ _ pow_22 pow_22 (by decide +kernel)
private theorem pow_24 : lfsrN 16777216 unit = 0xBAD90E37#32 := power_step 8388608 8388608 _ _ _ pow_23 pow_23 (by decide +kernel)
private theorem pow_25 : lfsrN 33554432 unit = 0x2E4E5EEF#32 := power_step 16777216 16777216 _ _ _ pow_24 pow_24 (by decide +kernel)
private theorem pow_26 : lfsrN 67108864 unit = 0x4EABA214#32 := power_step 33554432 33554432 _ _ _ pow_25 pow_25 (by decide +kernel)
private theorem pow_27 : lfsrN 134217728 unit = 0xA8A472C0#32 := power_step 67108864 67108864 _ _ _ pow_26 pow_26 (by decide +kernel)
private theorem pow_28 : lfsrN 268435456 unit = 0x429A969E#32 := power_step 134217728 134217728 _ _ _ pow_27 pow_27 (by decide +kernel)
private theorem pow_29 : lfsrN 536870912 unit = 0x148D302A#32 := power_step 268435456 268435456 _ _ _ pow_28 pow_28 (by decide +kernel)
private theorem pow_30 : lfsrN 1073741824 unit = 0xC40BA6D0#32 := power_step 536870912 536870912 _ _ _ pow_29 pow_29 (by decide +kernel)
private theorem pow_31 : lfsrN 2147483648 unit = 0xC4E22C3C#32 := power_step 1073741824 1073741824 _ _ _ pow_30 pow_30 (by decide +kernel)
private theorem pow_32 : lfsrN 4294967296 unit = 0x40000000#32 := power_step 2147483648 2147483648 _ _ _ pow_31 pow_31 (by decide +kernel)
private theorem sum_1342177280 : lfsrN 1342177280 unit = 0x9C7B4C60#32 := power_step 1073741824 268435456 _ _ _ pow_30 pow_28 (by decide +kernel)
private theorem sum_1409286144 : lfsrN 1409286144 unit = 0x881C863C#32 := power_step 1342177280 67108864 _ _ _ sum_1342177280 pow_26 (by decide +kernel)
private theorem sum_1426063360 : lfsrN 1426063360 unit = 0xBBDF3325#32 := power_step 1409286144 16777216 _ _ _ sum_1409286144 pow_24 (by decide +kernel)
private theorem sum_1430257664 : lfsrN 1430257664 unit = 0xC6B58A66#32 := power_step 1426063360 4194304 _ _ _ sum_1426063360 pow_22 (by decide +kernel)
private theorem sum_1431306240 : lfsrN 1431306240 unit = 0x8778524D#32 := power_step 1430257664 1048576 _ _ _ sum_1430257664 pow_20 (by decide +kernel)
private theorem sum_1431568384 : lfsrN 1431568384 unit = 0xA9190709#32 := power_step 1431306240 262144 _ _ _ sum_1431306240 pow_18 (by decide +kernel)
private theorem sum_1431633920 : lfsrN 1431633920 unit = 0xEEE2CCBE#32 := power_step 1431568384 65536 _ _ _ sum_1431568384 pow_16 (by decide +kernel)
private theorem sum_1431650304 : lfsrN 1431650304 unit = 0xDDF86291#32 := power_step 1431633920 16384 _ _ _ sum_1431633920 pow_14 (by decide +kernel)
private theorem sum_1431654400 : lfsrN 1431654400 unit = 0xAB199265#32 := power_step 1431650304 4096 _ _ _ sum_1431650304 pow_12 (by decide +kernel)
private theorem sum_1431655424 : lfsrN 1431655424 unit = 0x79E733A5#32 := power_step 1431654400 1024 _ _ _ sum_1431654400 pow_10 (by decide +kernel)
private theorem sum_1431655680 : lfsrN 1431655680 unit = 0x3C0965E0#32 := power_step 1431655424 256 _ _ _ sum_1431655424 pow_8 (by decide +kernel)
private theorem sum_1431655744 : lfsrN 1431655744 unit = 0x1980426C#32 := power_step 1431655680 64 _ _ _ sum_1431655680 pow_6 (by decide +kernel)
private theorem sum_1431655760 : lfsrN 1431655760 unit = 0x519A1D97#32 := power_step 1431655744 16 _ _ _ sum_1431655744 pow_4 (by decide +kernel)
private theorem sum_1431655764 : lfsrN 1431655764 unit = 0x551CD0E5#32 := power_step 1431655760 4 _ _ _ sum_1431655760 pow_2 (by decide +kernel)
private theorem sum_1431655765 : lfsrN 1431655765 unit = 0xC736EB52#32 := power_step 1431655764 1 _ _ _ sum_1431655764 pow_0 (by decide +kernel)
private theorem sum_805306368 : lfsrN 805306368 unit = 0x6633295B#32 := power_step 536870912 268435456 _ _ _ pow_29 pow_28 (by decide +kernel)
private theorem sum_838860800 : lfsrN 838860800 unit = 0xA5545023#32 := power_step 805306368 33554432 _ _ _ sum_805306368 pow_25 (by decide +kernel)
private theorem sum_855638016 : lfsrN 855638016 unit = 0x9F3E27D4#32 := power_step 838860800 16777216 _ _ _ sum_838860800 pow_24 (by decide +kernel)
private theorem sum_857735168 : lfsrN 857735168 unit = 0x79D2C8C8#32 := power_step 855638016 2097152 _ _ _ sum_855638016 pow_21 (by decide +kernel)
private theorem sum_858783744 : lfsrN 858783744 unit = 0x40B46C0F#32 := power_step 857735168 1048576 _ _ _ sum_857735168 pow_20 (by decide +kernel)
private theorem sum_858914816 : lfsrN 858914816 unit = 0x418B6977#32 := power_step 858783744 131072 _ _ _ sum_858783744 pow_17 (by decide +kernel)
private theorem sum_858980352 : lfsrN 858980352 unit = 0x3FC51329#32 := power_step 858914816 65536 _ _ _ sum_858914816 pow_16 (by decide +kernel)
private theorem sum_858988544 : lfsrN 858988544 unit = 0x795986A4#32 := power_step 858980352 8192 _ _ _ sum_858980352 pow_13 (by decide +kernel)
private theorem sum_858992640 : lfsrN 858992640 unit = 0x3D4A4F94#32 := power_step 858988544 4096 _ _ _ sum_858988544 pow_12 (by decide +kernel)
private theorem sum_858993152 : lfsrN 858993152 unit = 0xC80E4F32#32 := power_step 858992640 512 _ _ _ sum_858992640 pow_9 (by decide +kernel)
private theorem sum_858993408 : lfsrN 858993408 unit = 0xCB8588B9#32 := power_step 858993152 256 _ _ _ sum_858993152 pow_8 (by decide +kernel)
private theorem sum_858993440 : lfsrN 858993440 unit = 0xC51E3C1E#32 := power_step 858993408 32 _ _ _ sum_858993408 pow_5 (by decide +kernel)
private theorem sum_858993456 : lfsrN 858993456 unit = 0xFB2E8646#32 := power_step 858993440 16 _ _ _ sum_858993440 pow_4 (by decide +kernel)
private theorem sum_858993458 : lfsrN 858993458 unit = 0xD37322B1#32 := power_step 858993456 2 _ _ _ sum_858993456 pow_1 (by decide +kernel)
private theorem sum_858993459 : lfsrN 858993459 unit = 0x84011278#32 := power_step 858993458 1 _ _ _ sum_858993458 pow_0 (by decide +kernel)
private theorem sum_201326592 : lfsrN 201326592 unit = 0x6AFBB0F7#32 := power_step 134217728 67108864 _ _ _ pow_27 pow_26 (by decide +kernel)
private theorem sum_234881024 : lfsrN 234881024 unit = 0x7E7C0C26#32 := power_step 201326592 33554432 _ _ _ sum_201326592 pow_25 (by decide +kernel)
private theorem sum_251658240 : lfsrN 251658240 unit = 0x3261EB50#32 := power_step 234881024 16777216 _ _ _ sum_234881024 pow_24 (by decide +kernel)
private theorem sum_252182528 : lfsrN 252182528 unit = 0xA88CD5E6#32 := power_step 251658240 524288 _ _ _ sum_251658240 pow_19 (by decide +kernel)
private theorem sum_252444672 : lfsrN 252444672 unit = 0x1BE67E71#32 := power_step 252182528 262144 _ _ _ sum_252182528 pow_18 (by decide +kernel)
private theorem sum_252575744 : lfsrN 252575744 unit = 0xD8C4DBE2#32 := power_step 252444672 131072 _ _ _ sum_252444672 pow_17 (by decide +kernel)
private theorem sum_252641280 : lfsrN 252641280 unit = 0x8CCE674F#32 := power_step 252575744 65536 _ _ _ sum_252575744 pow_16 (by decide +kernel)
private theorem sum_252643328 : lfsrN 252643328 unit = 0x96DE47C4#32 := power_step 252641280 2048 _ _ _ sum_252641280 pow_11 (by decide +kernel)
private theorem sum_252644352 : lfsrN 252644352 unit = 0x39F26077#32 := power_step 252643328 1024 _ _ _ sum_252643328 pow_10 (by decide +kernel)
private theorem sum_252644864 : lfsrN 252644864 unit = 0x9519E643#32 := power_step 252644352 512 _ _ _ sum_252644352 pow_9 (by decide +kernel)
private theorem sum_252645120 : lfsrN 252645120 unit = 0xA7B71E8F#32 := power_step 252644864 256 _ _ _ sum_252644864 pow_8 (by decide +kernel)
private theorem sum_252645128 : lfsrN 252645128 unit = 0x7DA029AF#32 := power_step 252645120 8 _ _ _ sum_252645120 pow_3 (by decide +kernel)
private theorem sum_252645132 : lfsrN 252645132 unit = 0xBA67F086#32 := power_step 252645128 4 _ _ _ sum_252645128 pow_2 (by decide +kernel)
private theorem sum_252645134 : lfsrN 252645134 unit = 0xC3217F01#32 := power_step 252645132 2 _ _ _ sum_252645132 pow_1 (by decide +kernel)
private theorem sum_252645135 : lfsrN 252645135 unit = 0x8C283CA0#32 := power_step 252645134 1 _ _ _ sum_252645134 pow_0 (by decide +kernel)
private theorem sum_12582912 : lfsrN 12582912 unit = 0xFE664796#32 := power_step 8388608 4194304 _ _ _ pow_23 pow_22 (by decide +kernel)
private theorem sum_14680064 : lfsrN 14680064 unit = 0xE32BDB84#32 := power_step 12582912 2097152 _ _ _ sum_12582912 pow_21 (by decide +kernel)
private theorem sum_15728640 : lfsrN 15728640 unit = 0x0618410A#32 := power_step 14680064 1048576 _ _ _ sum_14680064 pow_20 (by decide +kernel)
private theorem sum_16252928 : lfsrN 16252928 unit = 0x7907F497#32 := power_step 15728640 524288 _ _ _ sum_15728640 pow_19 (by decide +kernel)
private theorem sum_16515072 : lfsrN 16515072 unit = 0xABE5C22C#32 := power_step 16252928 262144 _ _ _ sum_16252928 pow_18 (by decide +kernel)
private theorem sum_16646144 : lfsrN 16646144 unit = 0xCB85FC57#32 := power_step 16515072 131072 _ _ _ sum_16515072 pow_17 (by decide +kernel)
private theorem sum_16711680 : lfsrN 16711680 unit = 0x14EC2C14#32 := power_step 16646144 65536 _ _ _ sum_16646144 pow_16 (by decide +kernel)
private theorem sum_16711808 : lfsrN 16711808 unit = 0xAEC3D8C9#32 := power_step 16711680 128 _ _ _ sum_16711680 pow_7 (by decide +kernel)
private theorem sum_16711872 : lfsrN 16711872 unit = 0xA5AE5CD3#32 := power_step 16711808 64 _ _ _ sum_16711808 pow_6 (by decide +kernel)
private theorem sum_16711904 : lfsrN 16711904 unit = 0xC77F07A3#32 := power_step 16711872 32 _ _ _ sum_16711872 pow_5 (by decide +kernel)
private theorem sum_16711920 : lfsrN 16711920 unit = 0x1B4EBDF6#32 := power_step 16711904 16 _ _ _ sum_16711904 pow_4 (by decide +kernel)
private theorem sum_16711928 : lfsrN 16711928 unit = 0x54C51994#32 := power_step 16711920 8 _ _ _ sum_16711920 pow_3 (by decide +kernel)
private theorem sum_16711932 : lfsrN 16711932 unit = 0x73901009#32 := power_step 16711928 4 _ _ _ sum_16711928 pow_2 (by decide +kernel)
private theorem sum_16711934 : lfsrN 16711934 unit = 0x6A384592#32 := power_step 16711932 2 _ _ _ sum_16711932 pow_1 (by decide +kernel)
private theorem sum_16711935 : lfsrN 16711935 unit = 0x351C22C9#32 := power_step 16711934 1 _ _ _ sum_16711934 pow_0 (by decide +kernel)
private theorem sum_49152 : lfsrN 49152 unit = 0x552D4042#32 := power_step 32768 16384 _ _ _ pow_15 pow_14 (by decide +kernel)
private theorem sum_57344 : lfsrN 57344 unit = 0x63C21244#32 := power_step 49152 8192 _ _ _ sum_49152 pow_13 (by decide +kernel)
private theorem sum_61440 : lfsrN 61440 unit = 0x196613FE#32 := power_step 57344 4096 _ _ _ sum_57344 pow_12 (by decide +kernel)
private theorem sum_63488 : lfsrN 63488 unit = 0x513A9268#32 := power_step 61440 2048 _ _ _ sum_61440 pow_11 (by decide +kernel)
private theorem sum_64512 : lfsrN 64512 unit = 0x11021915#32 := power_step 63488 1024 _ _ _ sum_63488 pow_10 (by decide +kernel)
private theorem sum_65024 : lfsrN 65024 unit = 0x885CAC8D#32 := power_step 64512 512 _ _ _ sum_64512 pow_9 (by decide +kernel)
private theorem sum_65280 : lfsrN 65280 unit = 0x3EF534D3#32 := power_step 65024 256 _ _ _ sum_65024 pow_8 (by decide +kernel)
private theorem sum_65408 : lfsrN 65408 unit = 0xEB978685#32 := power_step 65280 128 _ _ _ sum_65280 pow_7 (by decide +kernel)
private theorem sum_65472 : lfsrN 65472 unit = 0xAF7A8443#32 := power_step 65408 64 _ _ _ sum_65408 pow_6 (by decide +kernel)
private theorem sum_65504 : lfsrN 65504 unit = 0xFC246B8A#32 := power_step 65472 32 _ _ _ sum_65472 pow_5 (by decide +kernel)
private theorem sum_65520 : lfsrN 65520 unit = 0x1B0C3435#32 := power_step 65504 16 _ _ _ sum_65504 pow_4 (by decide +kernel)
private theorem sum_65528 : lfsrN 65528 unit = 0x56A8C817#32 := power_step 65520 8 _ _ _ sum_65520 pow_3 (by decide +kernel)
private theorem sum_65532 : lfsrN 65532 unit = 0x556FFDBD#32 := power_step 65528 4 _ _ _ sum_65528 pow_2 (by decide +kernel)
private theorem sum_65534 : lfsrN 65534 unit = 0x6387BEFF#32 := power_step 65532 2 _ _ _ sum_65532 pow_1 (by decide +kernel)
private theorem sum_65535 : lfsrN 65535 unit = 0xDC7B5C5F#32 := power_step 65534 1 _ _ _ sum_65534 pow_0 (by decide +kernel)

/-- The register of the polynomial 1 comes back after `2 ^ 32 - 1` steps. -/
private theorem full_period : lfsrN 4294967295 unit = unit := by
  apply lfsrN_injective 1
  rw [← lfsrN_add]
  exact pow_32.trans pow_0.symm

private theorem lfsrN_iterate (n : Nat) : ∀ x, lfsrN n x = lfsr^[n] x := by
  induction n with
  | zero => intro x; rfl
  | succ n ih => intro x; rw [lfsrN, ih, Function.iterate_succ_apply]

private theorem prime_factor (p : Nat) (hp : p.Prime) (h : p ∣ 4294967295) :
    p = 3 ∨ p = 5 ∨ p = 17 ∨ p = 257 ∨ p = 65537 := by
  rw [show 4294967295 = 3 * (5 * (17 * (257 * 65537))) by norm_num] at h
  rcases (Nat.Prime.dvd_mul hp).mp h with h | h
  · left; exact (Nat.prime_dvd_prime_iff_eq hp (by norm_num)).mp h
  rcases (Nat.Prime.dvd_mul hp).mp h with h | h
  · right; left; exact (Nat.prime_dvd_prime_iff_eq hp (by norm_num)).mp h
  rcases (Nat.Prime.dvd_mul hp).mp h with h | h
  · right; right; left; exact (Nat.prime_dvd_prime_iff_eq hp (by norm_num)).mp h
  rcases (Nat.Prime.dvd_mul hp).mp h with h | h
  · right; right; right; left; exact (Nat.prime_dvd_prime_iff_eq hp (by norm_num)).mp h
  · right; right; right; right; exact (Nat.prime_dvd_prime_iff_eq hp (by norm_num)).mp h

private theorem minimal_period : Function.minimalPeriod lfsr unit = 4294967295 := by
  have hd : Function.minimalPeriod lfsr unit ∣ 4294967295 := by
    apply Function.IsPeriodicPt.minimalPeriod_dvd
    exact (lfsrN_iterate _ _).symm.trans full_period
  by_contra hne
  obtain ⟨c, hc⟩ := hd
  have hc1 : c ≠ 1 := by rintro rfl; exact hne (by rw [hc, Nat.mul_one])
  obtain ⟨p, hp, q, hq⟩ := Nat.exists_prime_and_dvd hc1
  have hdp : p ∣ 4294967295 := ⟨Function.minimalPeriod lfsr unit * q, by rw [hc, hq]; ring⟩
  have hper : ∀ m, m * p = 4294967295 → lfsrN m unit = unit := by
    intro m hm
    have : Function.minimalPeriod lfsr unit ∣ m := ⟨q, by
      apply Nat.eq_of_mul_eq_mul_right hp.pos
      rw [hm, hc, hq]; ring⟩
    have h := Function.isPeriodicPt_iff_minimalPeriod_dvd.mpr this
    exact (lfsrN_iterate _ _).trans h
  rcases prime_factor p hp hdp with rfl | rfl | rfl | rfl | rfl
  · exact absurd (sum_1431655765.symm.trans (hper 1431655765 (by norm_num))) (by decide)
  · exact absurd (sum_858993459.symm.trans (hper 858993459 (by norm_num))) (by decide)
  · exact absurd (sum_252645135.symm.trans (hper 252645135 (by norm_num))) (by decide)
  · exact absurd (sum_16711935.symm.trans (hper 16711935 (by norm_num))) (by decide)
  · exact absurd (sum_65535.symm.trans (hper 65535 (by norm_num))) (by decide)

private theorem lfsrN_one (d : Nat) : lfsrN d 1#32 = 1#32 ↔ 4294967295 ∣ d := by
  have h1 : lfsrN 31 unit = 1#32 := by decide +kernel
  rw [← h1, lfsrN_comm]
  constructor
  · intro h
    have := lfsrN_injective _ _ _ h
    rw [← minimal_period]
    exact Function.isPeriodicPt_iff_minimalPeriod_dvd.mp ((lfsrN_iterate _ _).symm.trans this)
  · intro h
    rw [← minimal_period] at h
    rw [(lfsrN_iterate d unit).trans (Function.isPeriodicPt_iff_minimalPeriod_dvd.mpr h)]

/-- A map of a finite type all but one of whose elements are on one cycle. -/
private theorem on_cycle {α : Type} [Fintype α] [DecidableEq α] (f : α → α) (x z : α) (hz : ∀ i, f^[i] x ≠ z) (h : Function.minimalPeriod f x + 1 = Fintype.card α) (y : α) (hy : y ≠ z) :
    ∃ i, f^[i] x = y := by
  have hc : ((Finset.range (Function.minimalPeriod f x)).image (fun i => f^[i] x)).card = Function.minimalPeriod f x := by
    rw [Finset.card_image_of_injOn, Finset.card_range]
    intro a ha b hb e
    simp only [Finset.coe_range, Set.mem_Iio] at ha hb
    exact Function.iterate_injOn_Iio_minimalPeriod ha hb e
  have hs : (Finset.range (Function.minimalPeriod f x)).image (fun i => f^[i] x) = Finset.univ.erase z := by
    apply Finset.eq_of_subset_of_card_le
    · intro y hy
      obtain ⟨i, _, rfl⟩ := Finset.mem_image.mp hy
      exact Finset.mem_erase.mpr ⟨hz i, Finset.mem_univ _⟩
    · rw [hc, Finset.card_erase_of_mem (Finset.mem_univ _), Finset.card_univ, ← h, Nat.add_sub_cancel]
  have : y ∈ (Finset.range (Function.minimalPeriod f x)).image (fun i => f^[i] x) := by
    rw [hs]; exact Finset.mem_erase.mpr ⟨hy, Finset.mem_univ _⟩
  obtain ⟨i, _, e⟩ := Finset.mem_image.mp this
  exact ⟨i, e⟩

/-- The steps after which a register comes back. -/
theorem lfsrN_fixed (d : Nat) (r : BitVec 32) : lfsrN d r = r ↔ r = 0#32 ∨ 4294967295 ∣ d := by
  have h0 : ∀ n, lfsrN n 0#32 = 0#32 := by
    intro n
    induction n with
    | zero => rfl
    | succ n ih => rw [lfsrN, lfsr_zero, ih]
  by_cases hr : r = 0#32
  · subst hr; simp [h0]
  · let e : BitVec 32 ≃ Fin (2 ^ 32) := ⟨BitVec.toFin, BitVec.ofFin, fun _ => rfl, fun _ => rfl⟩
    let _ : Fintype (BitVec 32) := Fintype.ofEquiv _ e.symm
    obtain ⟨i, hi⟩ := on_cycle lfsr unit 0#32 (fun i h => by
      have : lfsrN i unit = lfsrN i 0#32 := by rw [lfsrN_iterate, h, h0]
      exact absurd (lfsrN_injective _ _ _ this) (by decide)) (by
        rw [minimal_period, Fintype.card_congr e, Fintype.card_fin]; norm_num) r hr
    rw [← lfsrN_iterate] at hi
    rw [← hi, lfsrN_comm, ← minimal_period]
    constructor
    · intro h
      exact Or.inr (Function.isPeriodicPt_iff_minimalPeriod_dvd.mp ((lfsrN_iterate _ _).symm.trans (lfsrN_injective _ _ _ h)))
    · rintro (h | h)
      · exact absurd (hi.symm.trans h) hr
      · rw [(lfsrN_iterate d unit).trans (Function.isPeriodicPt_iff_minimalPeriod_dvd.mpr h)]

/-! ## Two changed bits -/

private theorem foldl_xor (bits : List Bool) : ∀ r d, bits.foldl crcBit (r ^^^ d) = bits.foldl crcBit r ^^^ lfsrN bits.length d := by
  induction bits with
  | nil => intro r d; rfl
  | cons b bs ih =>
    intro r d
    have h : crcBit (r ^^^ d) b = crcBit r b ^^^ lfsr d := by
      rw [crcBit_eq, crcBit_eq, ← lfsr_xor]
      congr 1
      rw [BitVec.xor_assoc, BitVec.xor_comm d, BitVec.xor_assoc]
    rw [List.foldl_cons, List.foldl_cons, h, ih]
    rfl

private theorem crcBit_flip (r d : BitVec 32) (x : Bool) : crcBit (r ^^^ d) (!x) = crcBit r x ^^^ lfsr (d ^^^ 1#32) := by
  rw [crcBit_eq, crcBit_eq, ← lfsr_xor]
  congr 1
  have e : ∀ x : Bool, (if (!x) = true then 1#32 else 0#32) = (if x = true then 1#32 else 0#32) ^^^ 1#32 := by decide
  rw [e]
  generalize (if x = true then 1#32 else 0#32) = u
  rw [BitVec.xor_assoc, BitVec.xor_assoc, ← BitVec.xor_assoc d, BitVec.xor_comm d u, BitVec.xor_assoc]

private theorem xor_eq_self (r d : BitVec 32) : r = r ^^^ d ↔ d = 0#32 := by
  constructor
  · intro h
    have := congrArg (fun v => r ^^^ v) h
    simp only [BitVec.xor_self, ← BitVec.xor_assoc, BitVec.zero_xor] at this
    exact this.symm
  · rintro rfl; simp

private theorem register_two (before between after : List Bool) (x y : Bool) :
    crcRegister (before ++ x :: between ++ y :: after) = crcRegister (before ++ (!x) :: between ++ (!y) :: after) ↔
      4294967295 ∣ between.length + 1 := by
  unfold crcRegister
  simp only [List.foldl_append, List.foldl_cons, List.append_assoc, List.cons_append]
  generalize before.foldl crcBit (BitVec.allOnes 32) = r
  have h1 : crcBit r (!x) = crcBit r x ^^^ lfsr 1#32 := by
    have h := crcBit_flip r 0#32 x
    simpa using h
  rw [h1, foldl_xor, crcBit_flip, foldl_xor, xor_eq_self]
  generalize crcBit r x = r'
  rw [← lfsrN_one]
  constructor
  · intro h
    have h2 := lfsrN_injective _ _ _ (h.trans (lfsrN_zero _).symm)
    have h3 := lfsr_injective _ _ (h2.trans lfsr_zero.symm)
    have h4 : lfsrN between.length (lfsr 1#32) = 1#32 := by
      have := congrArg (fun v => v ^^^ 1#32) h3
      simpa [BitVec.xor_assoc] using this
    exact h4
  · intro h
    have h4 : lfsrN between.length (lfsr 1#32) = 1#32 := h
    rw [h4, BitVec.xor_self, lfsr_zero, lfsrN_zero]

/-- C162: two byte sequences that differ in two bits have the same CRC32 exactly if the distance of
the bits is a multiple of `2 ^ 32 - 1`. -/
theorem C162_two_bits (a b : List Byte) (distance : Nat) (h : DifferInTwoBits a b distance) :
    ∃ x y, crc32Buffer a a.length = .ok x ∧ crc32Buffer b b.length = .ok y ∧ (x = y ↔ 2 ^ 32 - 1 ∣ distance) := by
  refine ⟨crcSpec a, crcSpec b, by rw [C47_buffer _ _ (Nat.le_refl _), List.take_length],
    by rw [C47_buffer _ _ (Nat.le_refl _), List.take_length], ?_⟩
  obtain ⟨before, between, after, x, y, ea, eb, rfl⟩ := h
  unfold crcSpec
  rw [BitVec.not_inj, ea, eb, register_two, show 2 ^ 32 - 1 = 4294967295 by norm_num]

private theorem bitsOf_length (a : List Byte) : (bitsOf a).length = 8 * a.length := by
  induction a with
  | nil => rfl
  | cons x a ih => rw [bitsOf_cons, List.length_append, ih]; simp; omega

/-- C162: two changed bits in a message of less than 512 MiB are always detected. -/
theorem C162_short_partial (a b : List Byte) (distance : Nat) (h : DifferInTwoBits a b distance) (hl : a.length < 2 ^ 29) :
    ∃ x y, crc32Buffer a a.length = .ok x ∧ crc32Buffer b b.length = .ok y ∧ x ≠ y := by
  obtain ⟨x, y, hx, hy, hxy⟩ := C162_two_bits a b distance h
  refine ⟨x, y, hx, hy, fun e => ?_⟩
  obtain ⟨before, between, after, u, v, ea, eb, rfl⟩ := h
  have hd := Nat.le_of_dvd (Nat.succ_pos _) (hxy.mp e)
  have hb := bitsOf_length a
  rw [ea] at hb
  simp only [List.length_append, List.length_cons] at hb
  norm_num at hd hl
  omega

/-- C162: every message of 512 MiB or more has another one that differs in two bits and has the same
CRC32. -/
theorem C162_long_violated (a : List Byte) (hl : 2 ^ 29 ≤ a.length) :
    ∃ b x, b.length = a.length ∧ DifferInTwoBits a b (2 ^ 32 - 1) ∧
      crc32Buffer a a.length = .ok x ∧ crc32Buffer b b.length = .ok x := by
  obtain ⟨u, a1, rfl⟩ : ∃ u a1, a = u :: a1 := by
    cases a with
    | nil => norm_num at hl
    | cons u a1 => exact ⟨u, a1, rfl⟩
  norm_num at hl
  obtain ⟨mid, v, post, rfl, hm⟩ : ∃ mid v post, a1 = mid ++ v :: post ∧ mid.length = 536870910 := by
    refine ⟨a1.take 536870910, a1[536870910]'(by omega), a1.drop 536870911, ?_, by rw [List.length_take]; omega⟩
    rw [← List.drop_eq_getElem_cons, List.take_append_drop]
  let u' : Byte := u ^^^ 1#8
  let v' : Byte := v ^^^ 0x80#8
  have key : DifferInTwoBits (u :: (mid ++ v :: post)) (u' :: (mid ++ v' :: post)) (2 ^ 32 - 1) := by
    refine ⟨[], ((List.range 7).map fun i => u.getLsbD (i + 1)) ++ bitsOf mid ++ ((List.range 7).map fun i => v.getLsbD i),
      bitsOf post, u.getLsbD 0, v.getLsbD 7, ?_, ?_, ?_⟩
    · rw [bitsOf_cons, bitsOf_append, bitsOf_cons]
      simp [List.range_succ]
    · rw [bitsOf_cons, bitsOf_append, bitsOf_cons]
      simp [List.range_succ, u', v']
    · simp only [List.length_append, List.length_map, List.length_range, bitsOf_length, hm]
      norm_num
  obtain ⟨x, y, hx, hy, hxy⟩ := C162_two_bits _ _ _ key
  have e := hxy.mpr (Nat.dvd_refl _)
  subst e
  exact ⟨_, x, by simp, key, hx, hy⟩

/-- Two bits of different bytes; and there are messages of 512 MiB. -/
example : DifferInTwoBits [9, 1, 2, 3] [9, 0, 2, 0x83] 23 ∧ ∃ a : List Byte, 2 ^ 29 ≤ a.length :=
  ⟨⟨bitsOf [9], (bitsOf [1, 2, 3]).tail.dropLast, [], true, false, by decide, by decide, by decide⟩,
   List.replicate (2 ^ 29) 0, by rw [List.length_replicate]⟩

/-! ## All changes that keep the length -/

private theorem registerPoly_injective (v w : BitVec 32) (h : registerPoly v = registerPoly w) : v = w := by
  apply BitVec.eq_of_getLsbD_eq
  intro i hi
  have e := congrArg (fun p => p.coeff (31 - i)) h
  simp only [registerPoly_coeff, show 31 - i < 32 by omega, true_and, show 31 - (31 - i) = i by omega] at e
  cases hv : v.getLsbD i <;> cases hw : w.getLsbD i <;> simp_all

private theorem generator_coprime : IsCoprime ((X : (ZMod 2)[X]) ^ 32) generator := by
  apply IsCoprime.pow_left
  refine ⟨-(X ^ 31 + (X ^ 25 + X ^ 22 + X ^ 21 + X ^ 15 + X ^ 11 + X ^ 10 + X ^ 9 + X ^ 7 + X ^ 6 + X ^ 4 + X ^ 3 + X + 1)), 1, ?_⟩
  unfold generator
  ring

/-- C162: two byte sequences of the same length have the same CRC32 exactly if the generator polynomial
divides the difference of their polynomials. -/
theorem C162_undetected (a b : List Byte) (hl : a.length = b.length) :
    ∃ x y, crc32Buffer a a.length = .ok x ∧ crc32Buffer b b.length = .ok y ∧
      (x = y ↔ generator ∣ bitsPoly (bitsOf a) - bitsPoly (bitsOf b)) := by
  obtain ⟨x, hx, px⟩ := C47_polynomial a
  obtain ⟨y, hy, py⟩ := C47_polynomial b
  refine ⟨x, y, hx, hy, ?_⟩
  have hb : (bitsOf a).length = (bitsOf b).length := by rw [bitsOf_length, bitsOf_length, hl]
  have e1 : x = y ↔ registerPoly (~~~x) = registerPoly (~~~y) :=
    ⟨fun e => by rw [e], fun e => BitVec.not_inj.mp (registerPoly_injective _ _ e)⟩
  rw [e1, px, py, ← sub_eq_zero, ← sub_modByMonic, modByMonic_eq_zero_iff_dvd generator_monic.1, hb]
  rw [show ∀ p q r : (ZMod 2)[X], p + q * X ^ 32 - (p + r * X ^ 32) = (q - r) * X ^ 32 by intros; ring]
  exact ⟨generator_coprime.symm.dvd_of_dvd_mul_right, fun h => Dvd.dvd.mul_right h _⟩

end Verif.Hash
