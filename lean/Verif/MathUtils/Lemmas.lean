import Verif.MathUtils.Model
import Mathlib.Tactic.Ring
import Mathlib.Tactic.Linarith
import Mathlib.Data.Nat.Bitwise

/-!
# Helper lemmas for the `MathUtils` theorems
-/

namespace Verif.MathUtils
open Verif.Cpp

/-- Decomposition of a positive number at its lowest set bit. -/
theorem exists_lowbit (n : Nat) (h : n ≠ 0) : ∃ k m, n = 2 ^ k * (2 * m + 1) := by
  induction n using Nat.strongRecOn with
  | _ n ih =>
    rcases Nat.even_or_odd' n with ⟨m, hm | hm⟩
    · obtain ⟨k, m', e⟩ := ih m (by omega) (by omega)
      exact ⟨k + 1, m', by rw [hm, e, pow_succ]; ring⟩
    · exact ⟨0, m, by omega⟩

theorem lowbit_testBit (k m i : Nat) :
    (2 ^ k * (2 * m + 1)).testBit i = if i < k then false else if i = k then true else m.testBit (i - k - 1) := by
  have := Nat.testBit_two_pow_mul_add (2 * m + 1) (i := k) (b := 0) (by positivity) i
  rw [Nat.add_zero] at this
  rw [this]
  split
  · simp
  · split
    · subst_vars; simp
    · rw [show i - k = (i - k - 1) + 1 by omega, Nat.testBit_add_one]
      congr 1; omega

theorem lowbit_sub_testBit (k m i : Nat) :
    (2 ^ k * (2 * m + 1) - 1).testBit i = if i < k then true else if i = k then false else m.testBit (i - k - 1) := by
  have hk : 0 < 2 ^ k := by positivity
  have e : 2 ^ k * (2 * m + 1) - 1 = 2 ^ k * (2 * m) + (2 ^ k - 1) := by
    rw [Nat.mul_add]; omega
  rw [e, Nat.testBit_two_pow_mul_add _ (by omega)]
  split
  · rw [Nat.testBit_two_pow_sub_one]; simpa
  · split
    · subst_vars; simp
    · rw [show i - k = (i - k - 1) + 1 by omega, Nat.testBit_add_one]
      congr 1; omega

/-- A nonzero bit vector has a lowest set bit. -/
theorem bv_lowbit {w : Nat} (v : BitVec w) (h : v ≠ 0#w) :
    ∃ k m, k < w ∧ v.toNat = 2 ^ k * (2 * m + 1) := by
  have h0 : v.toNat ≠ 0 := fun e => h (BitVec.eq_of_toNat_eq (by simpa using e))
  obtain ⟨k, m, e⟩ := exists_lowbit _ h0
  refine ⟨k, m, ?_, e⟩
  have := v.isLt
  by_contra hk
  have : 2 ^ w ≤ 2 ^ k := Nat.pow_le_pow_right (by omega) (by omega)
  nlinarith [Nat.zero_le m, show 0 < 2 ^ k by positivity]

theorem toNat_sub_one {w : Nat} (v : BitVec w) (h : v ≠ 0#w) : (v - 1#w).toNat = v.toNat - 1 := by
  have h0 : v.toNat ≠ 0 := fun e => h (BitVec.eq_of_toNat_eq (by simpa using e))
  have hw : 1 < 2 ^ w := by
    rcases Nat.eq_zero_or_pos w with rfl | hw
    · have := v.isLt; simp at this; omega
    · exact Nat.one_lt_two_pow (by omega)
  have := v.isLt
  rw [BitVec.toNat_sub, BitVec.toNat_ofNat, Nat.mod_eq_of_lt hw,
    show 2 ^ w - 1 + v.toNat = (v.toNat - 1) + 2 ^ w by omega,
    Nat.add_mod_right, Nat.mod_eq_of_lt (by omega)]

/-- `v & (v - 1)` clears the lowest set bit. -/
theorem and_sub_one_bit {w : Nat} (v : BitVec w) (k m : Nat)
    (e : v.toNat = 2 ^ k * (2 * m + 1)) (i : Nat) :
    (v &&& (v - 1#w)).getLsbD i = (v.getLsbD i && decide (i ≠ k)) := by
  have h : v ≠ 0#w := by
    rintro rfl
    have : 0 < 2 ^ k := by positivity
    simp at e
  rw [BitVec.getLsbD_and]
  simp only [BitVec.getLsbD, toNat_sub_one v h]
  rw [e, lowbit_testBit, lowbit_sub_testBit]
  split
  · simp
  · split
    · simp_all
    · simp_all

/-- `v & -v` keeps only the lowest set bit. -/
theorem and_neg_eq {w : Nat} (v : BitVec w) (k m : Nat) (hk : k < w)
    (e : v.toNat = 2 ^ k * (2 * m + 1)) : v &&& -v = BitVec.twoPow w k := by
  have h : v ≠ 0#w := by
    rintro rfl
    have : 0 < 2 ^ k := by positivity
    simp at e
  apply BitVec.eq_of_getLsbD_eq
  intro i hi
  have hneg : -v = ~~~(v - 1#w) := by
    rw [BitVec.not_eq_neg_add, BitVec.neg_sub]
    simp only [BitVec.sub_eq_add_neg]
    rw [BitVec.add_assoc, ← BitVec.sub_eq_add_neg, BitVec.sub_self, BitVec.add_zero]
  rw [BitVec.getLsbD_and, hneg, BitVec.getLsbD_not, BitVec.getLsbD_twoPow]
  simp only [BitVec.getLsbD, toNat_sub_one v h]
  rw [e, lowbit_testBit, lowbit_sub_testBit]
  simp only [hi]
  split
  · simp; omega
  · split
    · subst_vars; simp [hi]
    · simp; omega

theorem countP_split (p : Nat → Bool) (k n : Nat) :
    (List.range n).countP p = (List.range n).countP (fun i => p i && decide (i ≠ k)) +
      (if k < n ∧ p k = true then 1 else 0) := by
  induction n with
  | zero => simp
  | succ n ih =>
    rw [List.range_succ, List.countP_append, List.countP_append, ih]
    by_cases hkn : k = n
    · subst hkn; by_cases hp : p k = true <;> simp [hp]
    · have : (k < n + 1) ↔ k < n := by omega
      have h2 : n ≠ k := fun h => hkn h.symm
      simp only [this, List.countP_singleton, h2, ne_eq, not_false_eq_true, decide_true, Bool.and_true]
      omega

/-- Number of set bits. -/
theorem countBitsLoop_eq {w : Nat} (v : BitVec w) (c : Nat) :
    countBitsLoop v c = c + (List.range w).countP (fun i => v.getLsbD i) := by
  induction v, c using countBitsLoop.induct with
  | case1 c => rw [countBitsLoop]; simp
  | case2 v c h ih =>
    rw [countBitsLoop]
    simp only [h, dite_false]
    rw [ih]
    obtain ⟨k, m, hk, e⟩ := bv_lowbit v h
    have hb : v.getLsbD k = true := by
      simp only [BitVec.getLsbD, e, lowbit_testBit]; simp
    rw [countP_split (fun i => v.getLsbD i) k w]
    simp only [and_sub_one_bit v k m e, hk, hb, and_self, if_true]
    omega

/-! ### Binary logarithm -/

theorem log2_shiftRight (n s : Nat) (h : 2 ^ s ≤ n) : n.log2 = (n >>> s).log2 + s := by
  have h0 : n ≠ 0 := by have : 0 < 2 ^ s := by positivity
                        omega
  have h1 : n >>> s ≠ 0 := by
    rw [Nat.shiftRight_eq_div_pow]
    exact (Nat.div_pos h (by positivity)).ne'
  have a : (n >>> s).log2 + s ≤ n.log2 := by
    rw [Nat.le_log2 h0, pow_add]
    have := (Nat.le_log2 h1).mp (le_refl _)
    rw [Nat.shiftRight_eq_div_pow] at this ⊢
    calc _ ≤ n / 2 ^ s * 2 ^ s := Nat.mul_le_mul_right _ this
      _ ≤ n := Nat.div_mul_le_self _ _
  have b : n.log2 < (n >>> s).log2 + s + 1 := by
    rw [Nat.log2_lt h0]
    have := (Nat.log2_lt h1).mp (Nat.lt_succ_self _)
    rw [Nat.shiftRight_eq_div_pow] at this
    have := Nat.div_lt_iff_lt_mul (x := n) (y := 2 ^ ((n >>> s).log2 + 1)) (k := 2 ^ s) (by positivity)
    rw [Nat.shiftRight_eq_div_pow] at *
    rw [show (n / 2 ^ s).log2 + s + 1 = (n / 2 ^ s).log2 + 1 + s by omega, pow_add]
    apply this.mp; assumption
  omega

/-- The highest set bit of a number is its binary logarithm. -/
theorem testBit_log2_max (n i : Nat) (h : n.testBit i = true) : i ≤ n.log2 := by
  have h0 : n ≠ 0 := by rintro rfl; simp at h
  rw [Nat.le_log2 h0]
  exact Nat.ge_two_pow_of_testBit h

/-! ### Smearing -/

/-- `y` collects windows of `s` bits of `x`. -/
def Window {w : Nat} (s : Nat) (x y : BitVec w) : Prop :=
  ∀ i, y.getLsbD i = true ↔ ∃ d, d < s ∧ x.getLsbD (i + d) = true

theorem Window.init {w : Nat} (x : BitVec w) : Window 1 x x := by
  intro i
  constructor
  · intro h; exact ⟨0, by omega, h⟩
  · rintro ⟨d, hd, h⟩
    have : d = 0 := by omega
    subst this; exact h

theorem Window.smear {w s : Nat} {x y : BitVec w} (h : Window s x y) : Window (2 * s) x (smear s y) := by
  intro i
  simp only [MathUtils.smear, BitVec.getLsbD_or, BitVec.getLsbD_ushiftRight, Bool.or_eq_true, h i, h (s + i)]
  constructor
  · rintro (⟨d, hd, e⟩ | ⟨d, hd, e⟩)
    · exact ⟨d, by omega, e⟩
    · exact ⟨s + d, by omega, by rwa [show i + (s + d) = s + i + d by omega]⟩
  · rintro ⟨d, hd, e⟩
    by_cases hs : d < s
    · exact Or.inl ⟨d, hs, e⟩
    · exact Or.inr ⟨d - s, by omega, by rwa [show s + i + (d - s) = i + d by omega]⟩

/-- Once the window covers the whole width, the smeared value is `2^(log2 x + 1) - 1`. -/
theorem Window.full {w s : Nat} {x y : BitVec w} (h : Window s x y) (hs : w ≤ s) (hx : x ≠ 0#w) :
    y.toNat = 2 ^ (x.toNat.log2 + 1) - 1 := by
  have h0 : x.toNat ≠ 0 := fun e => hx (BitVec.eq_of_toNat_eq (by simpa using e))
  have hl : x.toNat.log2 < w := (Nat.log2_lt h0).mpr x.isLt
  apply Nat.eq_of_testBit_eq
  intro i
  rw [Nat.testBit_two_pow_sub_one]
  have := h i
  simp only [BitVec.getLsbD] at this
  rw [Bool.eq_iff_iff, this, decide_eq_true_iff]
  constructor
  · rintro ⟨d, _, e⟩
    have := testBit_log2_max _ _ e
    omega
  · intro hi
    exact ⟨x.toNat.log2 - i, by omega, by
      rw [show i + (x.toNat.log2 - i) = x.toNat.log2 by omega]; exact Nat.testBit_log2 h0⟩

/-! ### De Bruijn tables -/

theorem deBruijn2_all : ∀ k : Fin 32, integralLog2Pot_32 (BitVec.twoPow 32 k) = .ok k.val := by
  decide +kernel

theorem deBruijn_all : ∀ k : Fin 32,
    rd deBruijnTable ((BitVec.ofNat 32 (2 ^ (k.val + 1) - 1) * 0x07C4ACDD#32) >>> 27).toNat = .ok k.val := by
  decide +kernel

theorem integralLog2_32_eq (v : BitVec 32) : integralLog2_32 v = .ok v.toNat.log2 := by
  by_cases h : v = 0#32
  · subst h; decide
  · have hw : Window (2 * (2 * (2 * (2 * (2 * 1))))) v
        (smear 16 (smear 8 (smear 4 (smear 2 (smear 1 v))))) :=
      (Window.init v).smear.smear.smear.smear.smear
    have hf := hw.full (by omega) h
    have h0 : v.toNat ≠ 0 := fun e => h (BitVec.eq_of_toNat_eq (by simpa using e))
    have hl : v.toNat.log2 < 32 := (Nat.log2_lt h0).mpr v.isLt
    have hb : smear 16 (smear 8 (smear 4 (smear 2 (smear 1 v)))) = BitVec.ofNat 32 (2 ^ (v.toNat.log2 + 1) - 1) := by
      apply BitVec.eq_of_toNat_eq
      rw [hf, BitVec.toNat_ofNat, Nat.mod_eq_of_lt]
      rw [← hf]; exact BitVec.isLt _
    have := deBruijn_all ⟨v.toNat.log2, hl⟩
    simp only at this
    rw [← hb] at this
    exact this

/-- The masked and shifted word of the 32-bit word loops. -/
theorem word_eq {w : Nat} (v : BitVec w) (n : Nat) :
    ((v &&& ((BitVec.setWidth w 0xFFFFFFFF#32) <<< (n * 32))) >>> (n * 32)).setWidth 32
      = v.extractLsb' (n * 32) 32 := by
  apply BitVec.eq_of_getLsbD_eq
  intro i hi
  simp only [BitVec.getLsbD_setWidth, BitVec.getLsbD_ushiftRight, BitVec.getLsbD_and,
    BitVec.getLsbD_shiftLeft, BitVec.getLsbD_extractLsb', hi, decide_true, Bool.true_and]
  by_cases h : n * 32 + i < w
  · have : (0xFFFFFFFF#32).getLsbD i = true :=
      (by decide +kernel : ∀ i : Fin 32, (0xFFFFFFFF#32).getLsbD i.val = true) ⟨i, hi⟩
    have h3 : n * 32 + i - n * 32 = i := by omega
    have h4 : ¬ (n * 32 + i < n * 32) := by omega
    have h5 : i < w := by omega
    simp [h, h3, h4, h5, this]
  · rw [BitVec.getLsbD_of_ge v _ (by omega)]; simp

theorem extract_toNat {w : Nat} (v : BitVec w) (n : Nat) :
    (v.extractLsb' (n * 32) 32).toNat = v.toNat / 2 ^ (n * 32) % 2 ^ 32 := by
  simp [BitVec.extractLsb'_toNat, Nat.shiftRight_eq_div_pow]

end Verif.MathUtils
