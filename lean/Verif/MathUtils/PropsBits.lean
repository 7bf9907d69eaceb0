import Verif.MathUtils.Spec
import Verif.MathUtils.Lemmas

/-!
# C13, C17: bit counting, bit scanning and binary logarithms
-/

namespace Verif.MathUtils
open Verif.Cpp

/-- C13: `CountBits` is the number of set bits. -/
theorem C13_countBits {w : Nat} (v : BitVec w) : countBits v = popcount v := by
  rw [countBits, countBitsLoop_eq, popcount]; omega

example : countBits 0xA5#8 = 4 := by rw [C13_countBits]; decide

theorem popcount_setWidth {w n : Nat} (v : BitVec w) (h : w ≤ n) : popcount (v.setWidth n) = popcount v := by
  obtain ⟨d, rfl⟩ := Nat.exists_eq_add_of_le h
  unfold popcount
  rw [List.range_add, List.countP_append]
  have e1 : (List.range w).countP (fun i => (v.setWidth (w + d)).getLsbD i) = (List.range w).countP (fun i => v.getLsbD i) := by
    apply List.countP_congr
    intro i hi
    rw [List.mem_range] at hi
    have : i < w + d := by omega
    simp [this]
  have e2 : (List.map (fun x => w + x) (List.range d)).countP (fun i => (v.setWidth (w + d)).getLsbD i) = 0 := by
    rw [List.countP_eq_zero]
    intro i hi
    rw [List.mem_map] at hi
    obtain ⟨a, _, rfl⟩ := hi
    simp
  rw [e1, e2]; rfl

/-- C13: the run-time path of `CountBits` agrees with the compile-time path for unsigned types and for
types of at least 32 bits. -/
theorem C13_countBits_runtime_partial {w : Nat} (signed : Bool) (v : BitVec w) (h : signed = false ∨ 32 ≤ w) :
    countBitsRuntime signed v = popcount v := by
  unfold countBitsRuntime builtinPopcount
  change popcount (extend signed (promoted w) v) = _
  unfold extend
  rcases h with rfl | h
  · exact popcount_setWidth v (by unfold promoted; omega)
  · have : promoted w = w := by unfold promoted; omega
    rw [this]; cases signed <;> simp

-- An instance of `C13_countBits_signed_violated` (PropsExact.lean).
example :
    countBitsRuntime true (0xFF#8) = 32 ∧ countBits (0xFF#8) = 8 := by
  refine ⟨by decide +kernel, by rw [C13_countBits]; decide⟩

theorem isLowest_of_lowbit {w : Nat} (v : BitVec w) (k m : Nat) (e : v.toNat = 2 ^ k * (2 * m + 1)) :
    IsLowest v k := by
  constructor
  · simp only [BitVec.getLsbD, e, lowbit_testBit]; simp
  · intro j hj; simp only [BitVec.getLsbD, e, lowbit_testBit]; simp [hj]

theorem integralLog2PotWords_twoPow {w : Nat} (k : Nat) (hk : k < w) (n : Nat) (hn : k < n * 32) :
    integralLog2PotWords (BitVec.twoPow w k) n = .ok k := by
  induction n with
  | zero => omega
  | succ n ih =>
    unfold integralLog2PotWords
    simp only [word_eq]
    have hword : ∀ i, i < 32 → ((BitVec.twoPow w k).extractLsb' (n * 32) 32).getLsbD i = decide (n * 32 + i = k) := by
      intro i hi
      simp only [BitVec.getLsbD_extractLsb', hi, decide_true, Bool.true_and, BitVec.getLsbD_twoPow, hk]
      exact decide_eq_decide.mpr eq_comm
    by_cases h : k < n * 32
    · have : (BitVec.twoPow w k).extractLsb' (n * 32) 32 = 0#32 := by
        apply BitVec.eq_of_getLsbD_eq
        intro i hi
        rw [hword i hi]; simp; omega
      rw [this, show integralLog2Pot_32 0#32 = .ok 0 by decide]
      simpa using ih h
    · have : (BitVec.twoPow w k).extractLsb' (n * 32) 32 = BitVec.twoPow 32 (k - n * 32) := by
        apply BitVec.eq_of_getLsbD_eq
        intro i hi
        rw [hword i hi, BitVec.getLsbD_twoPow, show decide (k - n * 32 < 32) = true by simp; omega, Bool.true_and]
        exact decide_eq_decide.mpr (by omega)
      have hk32 : k - n * 32 < 32 := by omega
      rw [this, deBruijn2_all ⟨k - n * 32, hk32⟩]
      by_cases h0 : k - n * 32 = 0
      · simp only [h0, ok_bind]
        rw [if_pos (Or.inr (by decide))]
        congr 1; omega
      · simp only [ok_bind]
        rw [if_pos (Or.inl h0)]
        congr 1; omega

theorem integralLog2Pot_twoPow {w : Nat} (hw : IsWidth w) (k : Nat) (hk : k < w) :
    integralLog2Pot (BitVec.twoPow w k) = .ok k := by
  unfold integralLog2Pot
  split
  · have : (BitVec.twoPow w k).setWidth 32 = BitVec.twoPow 32 k := by
      apply BitVec.eq_of_getLsbD_eq
      intro i hi
      have hk' : k < 32 := by omega
      rw [BitVec.getLsbD_setWidth, BitVec.getLsbD_twoPow, BitVec.getLsbD_twoPow]
      simp only [hi, hk, hk', decide_true, Bool.true_and]
    rw [this]; exact deBruijn2_all ⟨k, by omega⟩
  · apply integralLog2PotWords_twoPow _ hk
    rcases hw with rfl | rfl | rfl | rfl <;> omega

/-- C13: `FindFirstBit` (compile-time path) reports the lowest set bit. -/
theorem C13_findFirstBit {w : Nat} (hw : IsWidth w) (v : BitVec w) :
    ∃ n, findFirstBit v = .ok n ∧ IsScan IsLowest v n := by
  unfold findFirstBit
  by_cases h : v = 0#w
  · exact ⟨0, by simp [h], Or.inl ⟨h, rfl⟩⟩
  · obtain ⟨k, m, hk, e⟩ := bv_lowbit v h
    refine ⟨k + 1, ?_, Or.inr ⟨k, isLowest_of_lowbit v k m e, rfl⟩⟩
    rw [if_pos h, and_neg_eq v k m hk e, integralLog2Pot_twoPow hw k hk]; rfl

example : findFirstBit 0x8000000000000000#64 = .ok 64 := by decide +kernel

theorem findFirst_range {n : Nat} (v : BitVec n) : IsScan IsLowest v (builtinFfs v) := by
  unfold builtinFfs
  split
  · next i hi =>
    refine Or.inr ⟨i, ?_, rfl⟩
    rw [List.find?_range_eq_some] at hi
    exact ⟨hi.1, fun j hj => by simpa using hi.2.2 j hj⟩
  · next hi =>
    left
    refine ⟨?_, rfl⟩
    apply BitVec.eq_of_getLsbD_eq
    intro i hlt
    rw [List.find?_range_eq_none] at hi
    simpa using hi i hlt

/-- C13: the run-time path of `FindFirstBit` reports the lowest set bit for every signedness and
width (sign extension does not change the lowest set bit). -/
theorem C13_findFirstBit_runtime {w : Nat} (signed : Bool) (v : BitVec w) :
    IsScan IsLowest v (findFirstBitRuntime signed v) := by
  unfold findFirstBitRuntime
  have hp : w ≤ promoted w := by unfold promoted; omega
  have hbit : ∀ i, i < w → (extend signed (promoted w) v).getLsbD i = v.getLsbD i := by
    intro i hi
    have : i < promoted w := by omega
    unfold extend
    cases signed
    · simp [this]
    · simp only [if_true, BitVec.getLsbD_signExtend, hi, this]; simp
  rcases findFirst_range (extend signed (promoted w) v) with ⟨h, e⟩ | ⟨k, ⟨h1, h2⟩, e⟩
  · left
    refine ⟨?_, e⟩
    apply BitVec.eq_of_getLsbD_eq
    intro i hi
    rw [← hbit i hi, h]; simp
  · right
    have hkw : k < w := by
      by_contra hk
      have hz : v = 0#w := by
        apply BitVec.eq_of_getLsbD_eq
        intro i hi
        rw [← hbit i hi, h2 i (by omega)]; simp
      subst hz
      unfold extend at h1
      cases signed
      · simp at h1
      · simp only [if_true, BitVec.getLsbD_signExtend] at h1; simp at h1
    exact ⟨k, ⟨by rw [← hbit k hkw]; exact h1, fun j hj => by rw [← hbit j (by omega)]; exact h2 j hj⟩, e⟩

/-! ### FindLastBit -/

/-- Binary size: 0 for 0, one plus the logarithm otherwise. -/
def size2 (n : Nat) : Nat := if n = 0 then 0 else n.log2 + 1

theorem size2_scan {w : Nat} (v : BitVec w) : IsScan IsHighest v (size2 v.toNat) := by
  unfold size2
  by_cases h : v.toNat = 0
  · left; exact ⟨BitVec.eq_of_toNat_eq (by simpa using h), by simp [h]⟩
  · right
    refine ⟨v.toNat.log2, ⟨Nat.testBit_log2 h, ?_⟩, by simp [h]⟩
    intro j hj
    by_contra hb
    have := testBit_log2_max v.toNat j (by simpa [BitVec.getLsbD] using hb)
    omega

theorem findLastStep_size {w : Nat} (s : Nat) (st : BitVec w × Nat) :
    size2 (findLastStep s st).1.toNat + (findLastStep s st).2 = size2 st.1.toNat + st.2 := by
  unfold findLastStep
  split
  · next h =>
    simp only [BitVec.toNat_ushiftRight]
    have h0 : st.1.toNat ≠ 0 := by have : 0 < 2 ^ s := by positivity
                                   omega
    have h1 : st.1.toNat >>> s ≠ 0 := by
      rw [Nat.shiftRight_eq_div_pow]
      exact (Nat.div_pos h (by positivity)).ne'
    simp only [size2, h0, h1, if_false]
    rw [log2_shiftRight _ s h]; omega
  · rfl

theorem findLastStep_lt {w : Nat} (s : Nat) (st : BitVec w × Nat) (h : st.1.toNat < 2 ^ (s + s)) :
    (findLastStep s st).1.toNat < 2 ^ s := by
  unfold findLastStep
  split
  · simp only [BitVec.toNat_ushiftRight, Nat.shiftRight_eq_div_pow]
    rw [Nat.div_lt_iff_lt_mul (by positivity), ← pow_add]; exact h
  · omega

/-- C13: `FindLastBit` (compile-time path) reports the highest set bit. -/
theorem C13_findLastBit {w : Nat} (hw : IsWidth w) (v : BitVec w) : IsScan IsHighest v (findLastBit v) := by
  have key : findLastBit v = size2 v.toNat := by
    unfold findLastBit
    simp only
    generalize hst : (if w > 32 then findLastStep 32 (v, 0) else (v, 0)) = st
    have h1 : size2 st.1.toNat + st.2 = size2 v.toNat := by
      subst hst; split
      · rw [findLastStep_size]; rfl
      · rfl
    have h2 : st.1.toNat < 2 ^ (16 + 16) := by
      subst hst; split
      · apply findLastStep_lt 32
        have := v.isLt
        rcases hw with rfl | rfl | rfl | rfl <;> simp_all
      · have := v.isLt
        calc v.toNat < 2 ^ w := this
          _ ≤ 2 ^ 32 := Nat.pow_le_pow_right (by omega) (by omega)
    have h3 := findLastStep_lt 16 st h2
    have h4 := findLastStep_lt 8 (findLastStep 16 st) h3
    have h5 := findLastStep_lt 4 _ h4
    have h6 := findLastStep_lt 2 _ h5
    have h7 := findLastStep_lt 1 _ h6
    have hs := findLastStep_size 1 (findLastStep 2 (findLastStep 4 (findLastStep 8 (findLastStep 16 st))))
    rw [findLastStep_size 2, findLastStep_size 4, findLastStep_size 8, findLastStep_size 16, h1] at hs
    rw [← hs]
    generalize findLastStep 1 (findLastStep 2 (findLastStep 4 (findLastStep 8 (findLastStep 16 st)))) = r at *
    have : r.1.toNat = 0 ∨ r.1.toNat = 1 := by omega
    rcases this with h | h
    · simp [h, size2]
    · simp [h, size2, show Nat.log2 1 = 0 by decide]; omega
  rw [key]; exact size2_scan v

example : findLastBit 0b00110101#8 = 6 := by decide +kernel

/-- C13: the run-time path of `FindLastBit` reports the highest set bit for unsigned types and for types of at
least 32 bits. -/
theorem C13_findLastBit_runtime_partial {w : Nat} (signed : Bool) (v : BitVec w) (h : signed = false ∨ 32 ≤ w) :
    ∃ n, findLastBitRuntime signed v = .ok n ∧ IsScan IsHighest v n := by
  unfold findLastBitRuntime
  by_cases hv : v = 0#w
  · exact ⟨0, by simp [hv], Or.inl ⟨hv, rfl⟩⟩
  · rw [if_neg hv]
    have h0 : v.toNat ≠ 0 := fun e => hv (BitVec.eq_of_toNat_eq (by simpa using e))
    have hp : w ≤ promoted w := by unfold promoted; omega
    have hext : (extend signed (promoted w) v).toNat = v.toNat := by
      unfold extend
      rcases h with rfl | h
      · simp only [Bool.false_eq_true, if_false, BitVec.toNat_setWidth]
        exact Nat.mod_eq_of_lt (lt_of_lt_of_le v.isLt (Nat.pow_le_pow_right (by omega) hp))
      · have : promoted w = w := by unfold promoted; omega
        rw [this]; cases signed <;> simp
    have hne : extend signed (promoted w) v ≠ 0#_ := by
      intro he; rw [he] at hext; simp at hext; omega
    have hl : v.toNat.log2 < promoted w := lt_of_lt_of_le ((Nat.log2_lt h0).mpr v.isLt) hp
    refine ⟨v.toNat.log2 + 1, ?_, ?_⟩
    · unfold builtinClz
      rw [if_neg hne, hext]
      simp only [ok_bind, pure_ok]
      congr 1; omega
    · have := size2_scan v
      unfold size2 at this
      rwa [if_neg h0] at this

-- An instance of `C13_findLastBit_signed_violated` (PropsExact.lean).
example :
    findLastBitRuntime true (0x80#8) = .ok 32 ∧ findLastBit (0x80#8) = 8 := by
  decide +kernel

/-! ### Logarithms -/

/-- C17: `IntegralLog2Pot(2^k) = k`. -/
theorem C17_integralLog2Pot {w : Nat} (hw : IsWidth w) (k : Nat) (hk : k < w) :
    integralLog2Pot (BitVec.ofNat w (2 ^ k)) = .ok k := by
  have : BitVec.ofNat w (2 ^ k) = BitVec.twoPow w k := by
    apply BitVec.eq_of_toNat_eq; simp
  rw [this]; exact integralLog2Pot_twoPow hw k hk

/-- C17: `IntegralLog2` is the floor of the binary logarithm for all types of at most 32 bits and for
all 64-bit values whose upper half is not exactly 1.  (`Nat.log2 0 = 0`.) -/
theorem C17_integralLog2_partial {w : Nat} (v : BitVec w) (hw : w ≤ 32 ∨ (w = 64 ∧ v.toNat / 2 ^ 32 ≠ 1)) :
    integralLog2 v = .ok v.toNat.log2 := by
  unfold integralLog2
  rcases hw with hw | ⟨rfl, hv⟩
  · rw [if_pos hw, integralLog2_32_eq]
    congr 2
    rw [BitVec.toNat_setWidth, Nat.mod_eq_of_lt]
    exact lt_of_lt_of_le v.isLt (Nat.pow_le_pow_right (by omega) hw)
  · rw [if_neg (by omega)]
    have hlt := v.isLt
    simp only [show 64 / 32 = 2 by rfl, integralLog2Words, word_eq, integralLog2_32_eq, ok_bind, extract_toNat]
    simp only [Nat.one_mul, Nat.zero_mul, pow_zero, Nat.div_one, Nat.add_zero]
    by_cases hhi : v.toNat / 2 ^ 32 = 0
    · have hlo : v.toNat % 2 ^ 32 = v.toNat := Nat.mod_eq_of_lt (by omega)
      rw [hhi, hlo]
      by_cases hz : v.toNat.log2 = 0
      · simp [hz, show Nat.log2 0 = 0 by decide]
      · simp [hz, show Nat.log2 0 = 0 by decide]
    · have h1 : v.toNat / 2 ^ 32 % 2 ^ 32 = v.toNat >>> 32 := by
        rw [Nat.shiftRight_eq_div_pow]; omega
      have h2 : v.toNat >>> 32 ≠ 0 := by rw [Nat.shiftRight_eq_div_pow]; exact hhi
      have h3 : (v.toNat >>> 32).log2 ≠ 0 := by
        have : 1 ≤ (v.toNat >>> 32).log2 := by
          rw [Nat.le_log2 h2, Nat.shiftRight_eq_div_pow]; omega
        omega
      rw [h1, if_pos h3, ← log2_shiftRight _ 32 (by omega)]

example : integralLog2 0x200000000#64 = .ok 33 := by decide +kernel

/-- C17 is violated by every 64-bit value whose upper half is 1: the logarithm of the lower half is
returned instead of 32. -/
theorem C17_integralLog2_violated (low : BitVec 32) :
    integralLog2 (1#32 ++ low) = .ok low.toNat.log2 ∧ low.toNat.log2 < 32 ∧ (1#32 ++ low).toNat.log2 = 32 := by
  have hv : (1#32 ++ low).toNat = 2 ^ 32 + low.toNat := by
    rw [BitVec.toNat_append, ← Nat.shiftLeft_add_eq_or_of_lt low.isLt]
    rfl
  have hl := low.isLt
  refine ⟨?_, ?_, ?_⟩
  · unfold integralLog2
    rw [if_neg (by omega)]
    simp only [show (32 + 32) / 32 = 2 by rfl, integralLog2Words, word_eq, integralLog2_32_eq, ok_bind, extract_toNat]
    simp only [Nat.one_mul, Nat.zero_mul, pow_zero, Nat.div_one, Nat.add_zero]
    have h1 : (1#32 ++ low).toNat / 2 ^ 32 % 2 ^ 32 = 1 := by omega
    have h2 : (1#32 ++ low).toNat % 2 ^ 32 = low.toNat := by omega
    rw [h1, h2]
    by_cases hz : low.toNat.log2 = 0
    · simp [hz, show Nat.log2 1 = 0 by decide]
    · simp [hz, show Nat.log2 1 = 0 by decide]
  · by_cases h0 : low.toNat = 0
    · rw [h0]; decide
    · exact (Nat.log2_lt h0).mpr hl
  · have h0 : (1#32 ++ low).toNat ≠ 0 := by omega
    apply Nat.le_antisymm
    · exact Nat.lt_succ_iff.mp ((Nat.log2_lt h0).mpr (by omega))
    · exact (Nat.le_log2 h0).mpr (by omega)

end Verif.MathUtils
