import Verif.Bytes.Props
import Verif.Bytes.ModelFloat
import Verif.Bytes.SpecFloat
import Verif.Endianness.Props
import Mathlib.Tactic.NormNum

/-!
# C133: `BitCast`, `ByteSwap` and the conversions of byte orders with floating-point numbers
-/

namespace Verif.Bytes
open Verif.Cpp Verif.FloatMath Verif.Endianness Verif.MathUtils

theorem flt_enc_int (big wide : Bool) {s : Bool} {e f : Nat} (he : e < 2 ^ expBits wide) (hf : f < 2 ^ fracBits wide) :
    enc big (.flt wide) (.flt s e f) = enc big (.int false (fltSize wide)) (.num (fltBits wide s e f : Nat)) := by
  have h := wrap_bytes (s := false) (fltBits_lt (s := s) he hf)
  simp only [wrap, Bool.false_eq_true, if_false, Int.emod_emod_of_dvd, dvd_refl] at h
  simp only [enc]
  rw [h]

/-- C133: `BitCast` of a floating-point value to the unsigned integer of its size gives the sign in the highest bit, then the exponent, then the fraction, whatever the order
of the bytes; and every such integer is cast to the value with these parts. -/
theorem C133_bits (big wide s : Bool) {e f : Nat} (he : e < 2 ^ expBits wide) (hf : f < 2 ^ fracBits wide) :
    let n : Nat := s.toNat * 2 ^ (8 * fltSize wide - 1) + e * 2 ^ fracBits wide + f
    bitCast big (.int false (fltSize wide)) (.flt wide) (.flt s e f) = .ok (.num n) ∧
      bitCast big (.flt wide) (.int false (fltSize wide)) (.num n) = .ok (.flt s e f) := by
  have hn : s.toNat * 2 ^ (8 * fltSize wide - 1) + e * 2 ^ fracBits wide + f = fltBits wide s e f := by
    have : 2 ^ (8 * fltSize wide - 1) = 2 ^ expBits wide * 2 ^ fracBits wide := by
      rw [flt_width, ← Nat.pow_add]; congr 1; omega
    rw [fltBits, Nat.add_mul, Nat.mul_assoc, this]
  simp only [hn]
  have hlt := fltBits_lt (s := s) he hf
  have hw : wrap false (fltSize wide) (fltBits wide s e f : Nat) = (fltBits wide s e f : Nat) := by
    simp only [wrap, Bool.false_eq_true, if_false]
    exact Int.emod_eq_of_lt (by omega) (by exact_mod_cast hlt)
  constructor
  · have h := C112_integers big false false (fltSize wide) (fltBits wide s e f : Nat)
    rw [hw] at h
    rw [← h, bitCast, bitCast, flt_enc_int big wide he hf]
  · have h := C112_same_type big (t := .flt wide) (v := .flt s e f) trivial ⟨he, hf⟩
    rw [← h, bitCast, bitCast, flt_enc_int big wide he hf]

/-! ## Values -/

/-- The value in units of the smallest positive number. -/
def units (wide : Bool) (e f : Nat) : Nat := if e = 0 then f else (2 ^ fracBits wide + f) * 2 ^ (e - 1)

theorem fltValue_units {wide s : Bool} {e f : Nat} (he : e ≠ 2 ^ expBits wide - 1) :
    fltValue wide (.flt s e f) = .fin ((if s then -1 else 1) * ((units wide e f : ℚ) * 2 ^ (format wide).emin)) := by
  simp only [fltValue, if_neg he, units]
  congr 2
  by_cases h0 : e = 0
  · simp [h0]
  · simp only [if_neg h0]
    rw [zpow_add₀ (by norm_num : (2 : ℚ) ≠ 0), show ((e : ℤ) - 1) = ((e - 1 : ℕ) : ℤ) by omega, zpow_natCast]
    push_cast
    ring

theorem units_lt {wide : Bool} {e f e' f' : Nat} (hf : f < 2 ^ fracBits wide) (h : e * 2 ^ fracBits wide + f < e' * 2 ^ fracBits wide + f') (hf' : f' < 2 ^ fracBits wide) :
    units wide e f < units wide e' f' := by
  have hee : e ≤ e' := by
    by_contra hc
    have : (e' + 1) * 2 ^ fracBits wide ≤ e * 2 ^ fracBits wide := Nat.mul_le_mul_right _ (by omega)
    rw [Nat.add_mul, Nat.one_mul] at this
    omega
  obtain rfl | hlt := Nat.eq_or_lt_of_le hee
  · unfold units
    split
    · omega
    · exact Nat.mul_lt_mul_of_pos_right (by omega) (Nat.pow_pos (by decide))
  · have h1 : units wide e f < 2 ^ fracBits wide * 2 ^ e := by
      unfold units
      split
      · next h0 => subst h0; omega
      · next h0 =>
        obtain ⟨d, rfl⟩ : ∃ d, e = d + 1 := ⟨e - 1, by omega⟩
        calc (2 ^ fracBits wide + f) * 2 ^ d < (2 ^ fracBits wide + 2 ^ fracBits wide) * 2 ^ d :=
              Nat.mul_lt_mul_of_pos_right (by omega) (Nat.pow_pos (by decide))
          _ = 2 ^ fracBits wide * 2 ^ (d + 1) := by ring
    have h2 : 2 ^ fracBits wide * 2 ^ e ≤ units wide e' f' := by
      unfold units
      rw [if_neg (by omega)]
      exact Nat.mul_le_mul (by omega) (Nat.pow_le_pow_right (by decide) (by omega))
    omega

theorem units_bound {wide : Bool} {e f : Nat} (hf : f < 2 ^ fracBits wide) (he : e < 2 ^ expBits wide - 1) :
    units wide e f < 2 ^ fracBits wide * 2 ^ (2 ^ expBits wide - 2) := by
  have h := units_lt (wide := wide) (e := e) (f := f) (e' := 2 ^ expBits wide - 1) (f' := 0) hf (by
    have : (e + 1) * 2 ^ fracBits wide ≤ (2 ^ expBits wide - 1) * 2 ^ fracBits wide := Nat.mul_le_mul_right _ (by omega)
    rw [Nat.add_mul, Nat.one_mul] at this
    omega) (Nat.pow_pos (by decide))
  have hne : 2 ^ expBits wide - 1 ≠ 0 := by omega
  unfold units at h ⊢
  rw [if_neg hne] at h
  exact h

theorem format_eq (wide : Bool) : (format wide).prec = fracBits wide + 1 ∧ (format wide).emax = (format wide).emin + fracBits wide + (2 ^ expBits wide - 2 : Nat) := by
  cases wide <;> exact ⟨rfl, by decide⟩

theorem two_pos (z : ℤ) : (0 : ℚ) < 2 ^ z := zpow_pos (by norm_num) z

/-- Every natural number of the grid has a canonical form. -/
theorem canonical {P : Nat} (k : Nat) : ∀ m : Nat, m < 2 ^ (P + 1) → ∃ m' k', m * 2 ^ k = m' * 2 ^ k' ∧ m' < 2 ^ (P + 1) ∧ (k' = 0 ∨ 2 ^ P ≤ m') := by
  induction k with
  | zero => intro m hm; exact ⟨m, 0, rfl, hm, Or.inl rfl⟩
  | succ k ih =>
    intro m hm
    by_cases h : 2 ^ P ≤ m
    · exact ⟨m, k + 1, rfl, hm, Or.inr h⟩
    · obtain ⟨m', k', h1, h2, h3⟩ := ih (m * 2) (by rw [Nat.pow_succ]; omega)
      refine ⟨m', k', ?_, h2, h3⟩
      rw [← h1, Nat.pow_succ]
      ring

/-- Numbers below the largest that are multiples of the smallest by such a factor are the values of objects. -/
theorem units_onto {wide : Bool} {m k : Nat} (hm : m < 2 ^ (fracBits wide + 1)) (hb : m * 2 ^ k < 2 ^ fracBits wide * 2 ^ (2 ^ expBits wide - 2)) :
    ∃ e f, e < 2 ^ expBits wide - 1 ∧ f < 2 ^ fracBits wide ∧ units wide e f = m * 2 ^ k := by
  have hE : 2 ≤ 2 ^ expBits wide := by cases wide <;> decide
  obtain ⟨m', k', h1, h2, h3⟩ := canonical k m hm
  rw [h1] at hb ⊢
  by_cases hs : m' < 2 ^ fracBits wide
  · have hk : k' = 0 := by omega
    subst hk
    have hE' : 3 ≤ 2 ^ expBits wide := by cases wide <;> decide
    exact ⟨0, m', by omega, hs, by simp [units]⟩
  · have hk : k' + 1 < 2 ^ expBits wide - 1 := by
      by_contra hc
      have h4 : 2 ^ fracBits wide * 2 ^ (2 ^ expBits wide - 2) ≤ m' * 2 ^ k' := Nat.mul_le_mul (by omega) (Nat.pow_le_pow_right (by decide) (by omega))
      omega
    refine ⟨k' + 1, m' - 2 ^ fracBits wide, hk, by rw [Nat.pow_succ] at h2; omega, ?_⟩
    simp only [units, Nat.add_sub_cancel]
    rw [if_neg (by omega)]
    congr 1
    omega

theorem abs_sign (s : Bool) (q : ℚ) (hq : 0 ≤ q) : |(if s then -1 else 1) * q| = q := by
  cases s <;> simp [abs_of_nonneg hq]

/-- C133: the objects of type `float` and `double` stand for values of their format, and every value of the format is that of some object. -/
theorem C133_values (wide : Bool) : (∀ v, HasType (.flt wide) v → (format wide).Has (fltValue wide v)) ∧
    ∀ x, (format wide).Has x → ∃ v, HasType (.flt wide) v ∧ fltValue wide v = x := by
  obtain ⟨hp, hm⟩ := format_eq wide
  have hmax : (2 : ℚ) ^ (format wide).emax = (2 ^ fracBits wide * 2 ^ (2 ^ expBits wide - 2 : Nat) : ℚ) * 2 ^ (format wide).emin := by
    rw [hm, zpow_add₀ (by norm_num : (2 : ℚ) ≠ 0), zpow_add₀ (by norm_num : (2 : ℚ) ≠ 0), zpow_natCast, zpow_natCast]
    ring
  have hE : 3 ≤ 2 ^ expBits wide := by cases wide <;> decide
  constructor
  · intro v hv
    cases v with
    | num v => simp [HasType] at hv
    | agg vs => simp [HasType] at hv
    | flt s e f =>
      obtain ⟨he, hf⟩ : e < 2 ^ expBits wide ∧ f < 2 ^ fracBits wide := hv
      by_cases hx : e = 2 ^ expBits wide - 1
      · simp only [fltValue, if_pos hx]
        split <;> trivial
      · rw [fltValue_units hx]
        have hu := units_bound (wide := wide) hf (by omega : e < 2 ^ expBits wide - 1)
        refine ⟨?_, ?_⟩
        · have hz : ∃ m k : Nat, units wide e f = m * 2 ^ k ∧ m < 2 ^ (fracBits wide + 1) := by
            unfold units
            split
            · exact ⟨f, 0, by simp, by rw [Nat.pow_succ]; omega⟩
            · exact ⟨_, _, rfl, by rw [Nat.pow_succ]; omega⟩
          obtain ⟨m, k, h1, h2⟩ := hz
          refine ⟨(if s then -1 else 1) * (m : ℤ), (format wide).emin + k, by omega, ?_, ?_⟩
          · rw [hp]
            have h3 : |(if s then -1 else 1) * (m : ℤ)| = m := by cases s <;> simp
            rw [h3]
            exact_mod_cast h2
          · rw [h1, zpow_add₀ (by norm_num : (2 : ℚ) ≠ 0), zpow_natCast]
            push_cast
            cases s <;> simp <;> ring
        · rw [abs_sign s _ (by have := two_pos (format wide).emin; positivity), hmax]
          apply mul_lt_mul_of_pos_right _ (two_pos _)
          exact_mod_cast hu
  · intro x hx
    cases x with
    | nan => exact ⟨.flt false (2 ^ expBits wide - 1) 1, ⟨by omega, by cases wide <;> decide⟩, by simp [fltValue]⟩
    | inf s => exact ⟨.flt s (2 ^ expBits wide - 1) 0, ⟨by omega, by cases wide <;> decide⟩, by simp [fltValue]⟩
    | fin q =>
      obtain ⟨⟨m, e, h1, h2, h3⟩, h4⟩ := hx
      obtain ⟨k, rfl⟩ : ∃ k : Nat, e = (format wide).emin + k := ⟨(e - (format wide).emin).toNat, by omega⟩
      have hq : q = m * 2 ^ k * 2 ^ (format wide).emin := by
        rw [h3, zpow_add₀ (by norm_num : (2 : ℚ) ≠ 0), zpow_natCast]; ring
      have habs : |q| = (m.natAbs : ℚ) * 2 ^ k * 2 ^ (format wide).emin := by
        rw [hq, abs_mul, abs_mul, abs_of_pos (two_pos _), abs_of_pos (by positivity : (0 : ℚ) < 2 ^ k), Nat.cast_natAbs, Int.cast_abs]
      have h5 : m.natAbs < 2 ^ (fracBits wide + 1) := by
        rw [hp, Int.abs_eq_natAbs] at h2
        exact_mod_cast h2
      have h6 : m.natAbs * 2 ^ k < 2 ^ fracBits wide * 2 ^ (2 ^ expBits wide - 2) := by
        rw [habs, hmax] at h4
        have := lt_of_mul_lt_mul_right h4 (two_pos _).le
        exact_mod_cast this
      obtain ⟨e, f, he, hf, hu⟩ := units_onto h5 h6
      refine ⟨.flt (decide (m < 0)) e f, ⟨by omega, hf⟩, ?_⟩
      rw [fltValue_units (by omega), hu, hq]
      congr 1
      push_cast
      by_cases hneg : m < 0
      · have : ((m.natAbs : ℕ) : ℚ) = -m := by rw [Nat.cast_natAbs, abs_of_neg hneg]; push_cast; ring
        rw [this]
        simp [hneg]
      · have : ((m.natAbs : ℕ) : ℚ) = m := by rw [Nat.cast_natAbs, abs_of_nonneg (by omega)]
        rw [this]
        simp [hneg]

/-- C133: two values without sign that are no NaN are ordered like the integers that `BitCast` gives. -/
theorem C133_order (big wide : Bool) {u v : Val} (hu : HasType (.flt wide) u) (hv : HasType (.flt wide) v) (hsu : ∃ e f, u = .flt false e f) (hsv : ∃ e f, v = .flt false e f)
    (hnu : fltValue wide u ≠ .nan) (hnv : fltValue wide v ≠ .nan) :
    ∃ a b : Nat, bitCast big (.int false (fltSize wide)) (.flt wide) u = .ok (.num a) ∧ bitCast big (.int false (fltSize wide)) (.flt wide) v = .ok (.num b) ∧
      ((fltValue wide u).lt (fltValue wide v) = true ↔ a < b) := by
  obtain ⟨e, f, rfl⟩ := hsu
  obtain ⟨e', f', rfl⟩ := hsv
  obtain ⟨he, hf⟩ : e < 2 ^ expBits wide ∧ f < 2 ^ fracBits wide := hu
  obtain ⟨he', hf'⟩ : e' < 2 ^ expBits wide ∧ f' < 2 ^ fracBits wide := hv
  refine ⟨_, _, (C133_bits big wide false he hf).1, (C133_bits big wide false he' hf').1, ?_⟩
  simp only [Bool.toNat_false, Nat.zero_mul, Nat.zero_add]
  have hE : 3 ≤ 2 ^ expBits wide := by cases wide <;> decide
  have mono : ∀ {e e' : Nat}, e + 1 ≤ e' → ∀ {f f' : Nat}, f < 2 ^ fracBits wide → e * 2 ^ fracBits wide + f < e' * 2 ^ fracBits wide + f' := by
    intro e e' h f f' hf
    have := Nat.mul_le_mul_right (2 ^ fracBits wide) h
    rw [Nat.add_mul, Nat.one_mul] at this
    omega
  by_cases hx : e = 2 ^ expBits wide - 1
  · have hf0 : f = 0 := by
      by_contra h0
      exact hnu (by simp [fltValue, hx, h0])
    by_cases hy : e' = 2 ^ expBits wide - 1
    · have hf0' : f' = 0 := by
        by_contra h0
        exact hnv (by simp [fltValue, hy, h0])
      simp [fltValue, hx, hy, hf0, hf0', FVal.lt]
    · have h1 := mono (show e' + 1 ≤ e by omega) (f := f') (f' := f) hf'
      have h2 : (fltValue wide (.flt false e f)).lt (fltValue wide (.flt false e' f')) = false := by simp [fltValue, hx, hy, hf0, FVal.lt]
      rw [h2]
      simp only [Bool.false_eq_true, false_iff]
      omega
  · by_cases hy : e' = 2 ^ expBits wide - 1
    · have hf0' : f' = 0 := by
        by_contra h0
        exact hnv (by simp [fltValue, hy, h0])
      have h1 := mono (show e + 1 ≤ e' by omega) (f := f) (f' := f') hf
      have h2 : (fltValue wide (.flt false e f)).lt (fltValue wide (.flt false e' f')) = true := by simp [fltValue, hx, hy, hf0', FVal.lt]
      rw [h2]
      simpa using h1
    · rw [fltValue_units hx, fltValue_units hy]
      simp only [Bool.false_eq_true, if_false, one_mul, FVal.lt, decide_eq_true_eq]
      rw [mul_lt_mul_iff_left₀ (two_pos _), Nat.cast_lt]
      constructor
      · intro h
        by_contra hc
        obtain heq | hlt := Nat.eq_or_lt_of_le (Nat.le_of_not_lt hc)
        · have h1 : e = e' ∧ f = f' := by
            have a1 := congrArg (· / 2 ^ fracBits wide) heq
            have a2 := congrArg (· % 2 ^ fracBits wide) heq
            have hp : 0 < 2 ^ fracBits wide := Nat.pow_pos (by decide)
            simp only [Nat.mul_comm _ (2 ^ fracBits wide), Nat.mul_add_div hp, Nat.mul_add_mod, Nat.div_eq_of_lt hf, Nat.div_eq_of_lt hf', Nat.mod_eq_of_lt hf,
              Nat.mod_eq_of_lt hf', Nat.add_zero] at a1 a2
            exact ⟨a1.symm, a2.symm⟩
          obtain ⟨rfl, rfl⟩ := h1
          omega
        · have := units_lt hf' hlt hf
          omega
      · intro h
        exact units_lt hf h hf'

/-- C133: but equality is not that of the integers: the two zeros are equal and cast to different integers, and the equal integers of a NaN belong to a value that is not
equal to itself. -/
theorem C133_equality (big wide : Bool) : (∃ u v, HasType (.flt wide) u ∧ HasType (.flt wide) v ∧ (fltValue wide u).eq (fltValue wide v) = true ∧
      bitCast big (.int false (fltSize wide)) (.flt wide) u ≠ bitCast big (.int false (fltSize wide)) (.flt wide) v) ∧
    ∃ u, HasType (.flt wide) u ∧ (fltValue wide u).eq (fltValue wide u) = false := by
  have hE : 3 ≤ 2 ^ expBits wide := by cases wide <;> decide
  refine ⟨⟨.flt false 0 0, .flt true 0 0, ⟨by omega, Nat.pow_pos (by decide)⟩, ⟨by omega, Nat.pow_pos (by decide)⟩, ?_, ?_⟩,
    .flt false (2 ^ expBits wide - 1) 1, ⟨by omega, by cases wide <;> decide⟩, by simp [fltValue, FVal.eq]⟩
  · rw [fltValue_units (by omega), fltValue_units (by omega)]
    simp [units, FVal.eq]
  · rw [(C133_bits big wide false (by omega) (Nat.pow_pos (by decide))).1, (C133_bits big wide true (by omega) (Nat.pow_pos (by decide))).1]
    cases wide <;> simp [fltSize]

/-! ## Byte orders -/

theorem toBytes_bytesLE {w : Nat} (k : Nat) (v : BitVec w) : toBytes k v.toNat = bytesLE k v := by
  rw [toBytes_eq, bytesLE]
  apply List.map_congr_left
  intro i _
  apply BitVec.eq_of_toNat_eq
  simp [byte, BitVec.extractLsb'_toNat, Nat.shiftRight_eq_div_pow, pow_bytes]

theorem enc_digits (big wide : Bool) {s : Bool} {e f : Nat} : enc big (.flt wide) (.flt s e f) = digits big (fltSize wide) (fltBits wide s e f) := by
  simp only [enc, toBytes_eq, order, digits]
  cases big <;> simp

theorem digits_reverse (big : Bool) (k n : Nat) : (digits big k n).reverse = digits (!big) k n := by
  cases big <;> simp [digits]

theorem isWidth (wide : Bool) : IsWidth (8 * fltSize wide) := by cases wide <;> simp [IsWidth, fltSize]

theorem byteSwapFlt_spec (big wide : Bool) {s : Bool} {e f : Nat} (he : e < 2 ^ expBits wide) (hf : f < 2 ^ fracBits wide) :
    ∃ v', byteSwapFlt big wide (.flt s e f) = .ok v' ∧ HasType (.flt wide) v' ∧ enc big (.flt wide) v' = (enc big (.flt wide) (.flt s e f)).reverse := by
  have hlt := fltBits_lt (s := s) he hf
  have h1 := (C133_bits big wide s he hf).1
  have hn : s.toNat * 2 ^ (8 * fltSize wide - 1) + e * 2 ^ fracBits wide + f = fltBits wide s e f := by
    have : 2 ^ (8 * fltSize wide - 1) = 2 ^ expBits wide * 2 ^ fracBits wide := by
      rw [flt_width, ← Nat.pow_add]; congr 1; omega
    rw [fltBits, Nat.add_mul, Nat.mul_assoc, this]
  simp only [hn] at h1
  obtain ⟨x, hx⟩ : ∃ x : BitVec (8 * fltSize wide), x = BitVec.ofInt _ (fltBits wide s e f : Nat) := ⟨_, rfl⟩
  have hxn : x.toNat = fltBits wide s e f := by
    rw [hx, BitVec.ofInt_natCast, BitVec.toNat_ofNat, Nat.mod_eq_of_lt hlt]
  obtain ⟨s', e', f', h2, h3, h4, h5⟩ := fltBits_fltOf (wide := wide) (byteSwap _ x).isLt
  refine ⟨.flt s' e' f', ?_, ⟨h3, h4⟩, ?_⟩
  · rw [byteSwapFlt, h1]
    simp only [ok_bind]
    rw [← hx, ← h5]
    have := (C133_bits big wide s' h3 h4).2
    have hn' : s'.toNat * 2 ^ (8 * fltSize wide - 1) + e' * 2 ^ fracBits wide + f' = fltBits wide s' e' f' := by
      have : 2 ^ (8 * fltSize wide - 1) = 2 ^ expBits wide * 2 ^ fracBits wide := by
        rw [flt_width, ← Nat.pow_add]; congr 1; omega
      rw [fltBits, Nat.add_mul, Nat.mul_assoc, this]
    simp only [hn'] at this
    exact this
  · simp only [enc]
    rw [h5, ← hxn, toBytes_bytesLE, toBytes_bytesLE]
    have h6 := bytesLE_byteSwap (isWidth wide) x
    rw [Nat.mul_div_cancel_left _ (by decide)] at h6
    rw [h6]
    cases big <;> simp [order]

/-- C133: `ByteSwap` of a floating-point value gives the value whose bytes in memory are those of the argument in the opposite order; swapped twice, the value is the
original one, also if it is a NaN. -/
theorem C133_swap (big wide : Bool) {v : Val} (hv : HasType (.flt wide) v) :
    ∃ v', byteSwapFlt big wide v = .ok v' ∧ HasType (.flt wide) v' ∧ enc big (.flt wide) v' = (enc big (.flt wide) v).reverse ∧ byteSwapFlt big wide v' = .ok v := by
  cases v with
  | num v => simp [HasType] at hv
  | agg vs => simp [HasType] at hv
  | flt s e f =>
    obtain ⟨v', h1, h2, h3⟩ := byteSwapFlt_spec big wide (s := s) hv.1 hv.2
    refine ⟨v', h1, h2, h3, ?_⟩
    cases v' with
    | num v => simp [HasType] at h2
    | agg vs => simp [HasType] at h2
    | flt s' e' f' =>
      obtain ⟨v'', h4, h5, h6⟩ := byteSwapFlt_spec big wide (s := s') h2.1 h2.2
      rw [h4]
      have h7 := dec_enc big (.flt wide) v'' _ trivial h5 (Agrees.refl _)
      have h8 := dec_enc big (.flt wide) (.flt s e f) _ trivial hv (Agrees.refl _)
      rw [h6, h3, List.reverse_reverse, h8] at h7
      simpa using h7.symm

/-- C133: on either host, `HostToBigEndian` of a floating-point value has in memory the digits of its bits, the highest first, `HostToLittleEndian` the lowest first; the
conversions back give the original value. -/
theorem C133_endianness (big wide s : Bool) {e f : Nat} (hv : HasType (.flt wide) (.flt s e f)) :
    (∃ v', hostToBigEndianFlt big wide (.flt s e f) = .ok v' ∧ enc big (.flt wide) v' = digits true (fltSize wide) (fltBits wide s e f) ∧
      bigEndianToHostFlt big wide v' = .ok (.flt s e f)) ∧
    ∃ v', hostToLittleEndianFlt big wide (.flt s e f) = .ok v' ∧ enc big (.flt wide) v' = digits false (fltSize wide) (fltBits wide s e f) ∧
      littleEndianToHostFlt big wide v' = .ok (.flt s e f) := by
  obtain ⟨v', h1, _, h3, h4⟩ := C133_swap big wide hv
  rw [enc_digits, digits_reverse] at h3
  cases big with
  | true =>
    exact ⟨⟨_, rfl, enc_digits .., rfl⟩, v', h1, h3, h4⟩
  | false =>
    exact ⟨⟨v', h1, h3, h4⟩, _, rfl, enc_digits .., rfl⟩

/-- `1.0f` is `0x3F800000`, its value is 1, and its bytes swapped are those of the subnormal `0x0000803F`. -/
example : bitCast false (.int false 4) (.flt false) (.flt false 127 0) = .ok (.num 0x3F800000) ∧ fltValue false (.flt false 127 0) = .fin 1 ∧
    byteSwapFlt false false (.flt false 127 0) = .ok (.flt false 0 0x803F) := by
  have h1 := (C133_bits false false false (e := 127) (f := 0) (by decide) (by decide)).1
  have h2 := (C133_bits false false false (e := 0) (f := 0x803F) (by decide) (by decide)).2
  refine ⟨h1, ?_, ?_⟩
  · simp only [fltValue, format, float32, fracBits, expBits]
    norm_num
  · rw [byteSwapFlt, h1]
    exact h2

/-- `-0.1` is the double `0xBFB999999999999A`. -/
example : HasType (.flt true) (.flt true 1019 0x999999999999A) ∧ bitCast true (.int false 8) (.flt true) (.flt true 1019 0x999999999999A) = .ok (.num 0xBFB999999999999A) :=
  ⟨⟨by decide, by decide⟩, (C133_bits true true true (e := 1019) (f := 0x999999999999A) (by decide) (by decide)).1⟩

end Verif.Bytes
