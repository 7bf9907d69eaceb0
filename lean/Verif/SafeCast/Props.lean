import Mathlib.Tactic.Linarith
import Mathlib.Tactic.NormNum
import Mathlib.Algebra.Order.Field.Rat
import Verif.SafeCast.Model

/-!
# Properties C57, C74-C76 of `SafeCast`
-/

namespace Verif.SafeCast

open Verif.Cpp

/-! ## Specification -/

/-- The value is representable in the type. -/
def Fits (t : Ty) (v : Int) : Prop := t.lowest ≤ v ∧ v ≤ t.max

instance (t : Ty) (v : Int) : Decidable (Fits t v) := inferInstanceAs (Decidable (_ ∧ _))

/-- The same value if it is representable, a failed assertion otherwise. -/
def checked (t : Ty) (v : Int) : M Int := if Fits t v then .ok v else .error .assert

/-! ## Integers -/

theorem cast_fits {t : Ty} (ht : t.Valid) {v : Int} (h : Fits t v) : cast t v = v := by
  obtain ⟨b, s, n⟩ := t
  obtain ⟨hn, hb⟩ := ht
  dsimp only at hn hb
  simp only [Fits, cast, Ty.lowest, Ty.max, Int.bmod_def] at h ⊢
  cases b
  · rcases hn with rfl | rfl | rfl | rfl <;> cases s <;> simp at h ⊢ <;> omega
  · simp at h ⊢; omega

theorem fits_cast {t : Ty} (ht : t.Valid) (v : Int) : Fits t (cast t v) := by
  obtain ⟨b, s, n⟩ := t
  obtain ⟨hn, hb⟩ := ht
  dsimp only at hn hb
  simp only [Fits, cast, Ty.lowest, Ty.max, Int.bmod_def]
  cases b
  · rcases hn with rfl | rfl | rfl | rfl <;> cases s <;> simp <;> omega
  · simp; omega

theorem cast_ne {t : Ty} (ht : t.Valid) {v : Int} (h : ¬Fits t v) : cast t v ≠ v := by
  intro e; exact h (e ▸ fits_cast ht v)

/-- The condition checked for rvalues. -/
def Check (to' from' : Ty) (v : Int) : Prop :=
  (to'.signed = false → v ≥ 0) ∧ cast (maxValueType to' from') v ≤ cast (maxValueType to' from') to'.max ∧
    cast (minValueType to' from') v ≥ cast (minValueType to' from') to'.lowest

theorem safeCast_of_check {to' from' : Ty} {v : Int} (h : Check to' from' v) : safeCast .rvalue to' from' v = .ok (cast to' v) := by
  obtain ⟨h1, h2, h3⟩ := h
  cases hs : to'.signed with
  | true => simp [safeCast, checkIntegral, hs, h2, h3]
  | false => simp [safeCast, checkIntegral, hs, h1 hs, h2, h3]

theorem safeCast_of_not_check {to' from' : Ty} {v : Int} (h : ¬Check to' from' v) : safeCast .rvalue to' from' v = .error .assert := by
  unfold safeCast checkIntegral
  by_cases h2 : cast (maxValueType to' from') v ≤ cast (maxValueType to' from') to'.max
  · by_cases h3 : cast (minValueType to' from') v ≥ cast (minValueType to' from') to'.lowest
    · cases hs : to'.signed with
      | true => exact absurd ⟨by simp [hs], h2, h3⟩ h
      | false =>
        by_cases h1 : v ≥ 0
        · exact absurd ⟨fun _ => h1, h2, h3⟩ h
        · simp [h1]
    · simp only [h2, h3, decide_true, decide_false, assert_true, assert_false]
      cases to'.signed <;> by_cases h1 : v ≥ 0 <;> simp [h1]
  · simp only [h2, decide_false, assert_false]
    cases to'.signed <;> by_cases h1 : v ≥ 0 <;> simp [h1]

theorem check_iff (to' from' : Ty) (ht : to'.Valid) (hf : from'.Valid) (hb : to'.isBool = false) (v : Int) (hv : Fits from' v)
    (hguard : from'.signed = true → to'.signed = false → v < 2 ^ (8 * to'.bytes)) : Check to' from' v ↔ Fits to' v := by
  obtain ⟨tb, ts, tn⟩ := to'
  obtain ⟨fb, fs, fn⟩ := from'
  obtain ⟨htn, -⟩ := ht
  obtain ⟨hfn, hfb⟩ := hf
  dsimp only at htn hfn hfb hb hguard
  subst hb
  simp only [Fits, Ty.lowest, Ty.max] at hv
  simp only [Check, Fits, maxValueType, minValueType, Ty.lowest, Ty.max, cast, Int.bmod_def]
  cases fb
  · rcases htn with rfl | rfl | rfl | rfl <;> rcases hfn with rfl | rfl | rfl | rfl <;> cases ts <;> cases fs <;>
      simp at hv hguard ⊢ <;> omega
  · obtain ⟨rfl, rfl⟩ := hfb rfl
    rcases htn with rfl | rfl | rfl | rfl <;> cases ts <;> simp at hv ⊢ <;> omega

/-- `SafeCast` of an rvalue between integer types returns the value if it is representable and fails an assertion otherwise.  Left out: `bool` as the
target, and values of a signed type that are too large for a narrower unsigned type. -/
theorem C57_rvalue_partial (to' from' : Ty) (ht : to'.Valid) (hf : from'.Valid) (hb : to'.isBool = false) (v : Int) (hv : Fits from' v)
    (hguard : from'.signed = true → to'.signed = false → v < 2 ^ (8 * to'.bytes)) :
    safeCast .rvalue to' from' v = checked to' v := by
  have := check_iff to' from' ht hf hb v hv hguard
  unfold checked
  by_cases h : Fits to' v
  · rw [if_pos h, safeCast_of_check (this.mpr h), cast_fits ht h]
  · rw [if_neg h, safeCast_of_not_check (fun hc => h (this.mp hc))]

/-- An rvalue of an enumeration is treated as one of its underlying type. -/
theorem C57_fromEnum_partial (to' from' : Ty) (ht : to'.Valid) (hf : from'.Valid) (hb : to'.isBool = false) (v : Int) (hv : Fits from' v)
    (hguard : from'.signed = true → to'.signed = false → v < 2 ^ (8 * to'.bytes)) :
    safeCastFromEnum .rvalue to' from' v = checked to' v := C57_rvalue_partial to' from' ht hf hb v hv hguard

/-- Whatever the category and the types, values that are representable are kept. -/
theorem C57_representable (cat : Category) (to' from' : Ty) (ht : to'.Valid) (hf : from'.Valid) (v : Int) (hv : Fits from' v) (h : Fits to' v) :
    safeCast cat to' from' v = .ok v ∧ safeCastFromEnum cat to' from' v = .ok v ∧ safeCastToEnum cat to' from' v = .ok v ∧
      safeCaster cat to' from' v = .ok v := by
  have hl : safeCast .lvalue to' from' v = .ok v := by simp [safeCast, cast_fits ht h]
  have hr : safeCast .rvalue to' from' v = .ok v := by
    cases hb : to'.isBool with
    | false =>
      rw [C57_rvalue_partial to' from' ht hf hb v hv, checked, if_pos h]
      intro _ hs
      have := h.2
      simp only [Ty.max, hb, hs] at this
      simp at this; omega
    | true =>
      obtain ⟨tb, ts, tn⟩ := to'
      obtain ⟨fb, fs, fn⟩ := from'
      dsimp only at hb; subst hb
      obtain ⟨hts, htn⟩ := ht.2 rfl
      dsimp only at hts htn; subst hts; subst htn
      obtain ⟨hfn, hfb⟩ := hf
      dsimp only at hfn hfb
      rw [safeCast_of_check]
      · rw [cast_fits ht h]
      · simp only [Fits, Ty.lowest, Ty.max] at hv h
        simp only [Check, maxValueType, minValueType, Ty.lowest, Ty.max, cast, Int.bmod_def]
        have hv01 : v = 0 ∨ v = 1 := by simp at h; omega
        cases fb
        · rcases hfn with rfl | rfl | rfl | rfl <;> cases fs <;> rcases hv01 with rfl | rfl <;> simp
        · obtain ⟨rfl, rfl⟩ := hfb rfl
          rcases hv01 with rfl | rfl <;> simp
  cases cat
  · exact ⟨hr, hr, by simp [safeCastToEnum, hl], hl⟩
  · exact ⟨hl, by simp [safeCastFromEnum, cast_fits ht h], by simp [safeCastToEnum, hl], hl⟩

/-- Values of a signed type too large for a narrower unsigned type are not reported, as in `SafeCast<UInt8>(300)`. -/
theorem C57_narrow_violated (to' from' : Ty) (ht : to'.Valid) (hf : from'.Valid) (hb : to'.isBool = false) (hfs : from'.signed = true)
    (hts : to'.signed = false) (v : Int) (hv : Fits from' v) (h : 2 ^ (8 * to'.bytes) ≤ v) :
    safeCast .rvalue to' from' v = .ok (v % 2 ^ (8 * to'.bytes)) ∧ v % 2 ^ (8 * to'.bytes) ≠ v := by
  have hpos : (0 : Int) < 2 ^ (8 * to'.bytes) := Int.pow_pos (by decide)
  have hc : cast to' v = v % 2 ^ (8 * to'.bytes) := by simp [cast, hb, hts]
  refine ⟨?_, ?_⟩
  · rw [safeCast_of_check, hc]
    have hfb : from'.isBool = false := by
      cases hx : from'.isBool with
      | false => rfl
      | true => have := (hf.2 hx).1; rw [hfs] at this; simp at this
    have hmax : maxValueType to' from' = to' := by simp [maxValueType, hfs, hts]
    have hmin : minValueType to' from' = from' := by simp [minValueType, hfs, hts]
    refine ⟨fun _ => by omega, ?_, ?_⟩
    · rw [hmax, cast_fits ht (v := to'.max) ⟨by simp [Ty.lowest, Ty.max, hb, hts]; omega, Int.le_refl _⟩]
      exact (fits_cast ht v).2
    · have hl0 : to'.lowest = 0 := by simp [Ty.lowest, hb, hts]
      have h0 : Fits from' 0 := ⟨by have := hv.1; simp [Ty.lowest, hfb, hfs] at this ⊢,
        by have := hv.2; omega⟩
      rw [hmin, cast_fits hf hv, hl0, cast_fits hf h0]; omega
  · have := Int.emod_lt_of_pos v hpos; omega

/-- Nothing is reported for an lvalue, for the conversion to an enumeration, and through `SafeCaster`: every value that does not fit is
changed silently. -/
theorem C57_lvalue_violated (cat : Category) (to' from' : Ty) (ht : to'.Valid) (v : Int) (h : ¬Fits to' v) :
    safeCast .lvalue to' from' v = .ok (cast to' v) ∧ safeCastFromEnum .lvalue to' from' v = .ok (cast to' v) ∧
      safeCastToEnum cat to' from' v = .ok (cast to' v) ∧ safeCaster cat to' from' v = .ok (cast to' v) ∧ cast to' v ≠ v :=
  ⟨rfl, rfl, rfl, rfl, cast_ne ht h⟩

/-- Conversion of an rvalue to `bool` from a one-byte unsigned or any signed type: positive values are not reported and become 1. -/
theorem C57_bool_violated (from' : Ty) (hf : from'.Valid) (hfb : from'.isBool = false) (h1 : from'.signed = true ∨ from'.bytes = 1) (v : Int)
    (hv : Fits from' v) (h : 2 ≤ v) : safeCast .rvalue ⟨true, false, 1⟩ from' v = .ok 1 ∧ v ≠ 1 := by
  refine ⟨?_, by omega⟩
  rw [safeCast_of_check]
  · simp [cast]; omega
  · obtain ⟨fb, fs, fn⟩ := from'
    obtain ⟨hfn, -⟩ := hf
    dsimp only at hfn hfb h1; subst hfb
    simp only [Fits, Ty.lowest, Ty.max] at hv
    simp only [Check, maxValueType, minValueType, Ty.lowest, Ty.max, cast, Int.bmod_def]
    rcases hfn with rfl | rfl | rfl | rfl <;> cases fs <;> simp at h1 hv ⊢ <;> omega

/-! ## Pointers as integers -/

/-- An address converted to an integer type and back is the same address, unless the first conversion reports that it does not fit, which it
does exactly if it is not representable. -/
theorem C76_round_trip (t : Ty) (ht : t.Valid) (hb : t.isBool = false) (address : Int) (ha : Fits uintptr address) :
    pointerToInteger t address = checked t address ∧
    ∀ n, pointerToInteger t address = .ok n → n = address ∧ integerToPointer t n = .ok address := by
  have hu : uintptr.Valid := ⟨by simp [uintptr], by simp [uintptr]⟩
  have h := C57_rvalue_partial t uintptr ht hu hb address ha (by simp [uintptr])
  refine ⟨h, fun n hn => ?_⟩
  rw [pointerToInteger, h, checked] at hn
  split at hn
  · cases hn
    refine ⟨rfl, ?_⟩
    simp [integerToPointer, safeCast, cast_fits hu ha]
  · cases hn

/-! ## From floating point -/

theorem truncTo_int (t : Ty) (n : Int) : truncTo t (.fin n) = if Fits t n then .ok n else .error .ub := by
  simp only [truncTo]
  have : (if (0 : Rat) ≤ (n : Rat) then (n : Rat).floor else (n : Rat).ceil) = n := by
    split
    · exact Rat.floor_intCast n
    · exact Rat.ceil_intCast n
  rw [this]
  by_cases h : Fits t n
  · rw [if_pos h, if_pos (show t.lowest ≤ n ∧ n ≤ t.max from h)]; rfl
  · rw [if_neg h, if_neg (show ¬(t.lowest ≤ n ∧ n ≤ t.max) from h)]; rfl

theorem fits_digits {t : Ty} (ht : t.Valid) : t.max = 2 ^ t.digits - 1 := by
  obtain ⟨b, s, n⟩ := t
  simp only [Ty.max, Ty.digits]
  cases b <;> cases s <;> simp

/-- Integral values that fit `long long` and the type, and are accepted: exactly those of the range, unless the maximum is rounded up. -/
theorem C74_integral_partial (prec : Nat) (to' : Ty) (ht : to'.Valid) (n : Int) (hn : Fits longLong n) (hedge : to'.digits ≤ prec ∨ n ≠ 2 ^ to'.digits) :
    safeCastFromFloat prec to' (.fin n) = checked to' n := by
  have hm := fits_digits ht
  have hle : ((n : Rat) ≤ (roundMax prec to'.digits : Rat)) ↔ n ≤ to'.max := by
    rw [Rat.intCast_le_intCast, roundMax]
    split
    · omega
    · rcases hedge with h | h <;> omega
  simp only [safeCastFromFloat, truncTo_int, hn, if_true, ok_bind, beq_self_eq_true, assert_true, ge_iff_le, Rat.intCast_le_intCast, hle]
  unfold checked
  by_cases h2 : n ≤ to'.max
  · by_cases h1 : to'.lowest ≤ n
    · have hf : Fits to' n := ⟨h1, h2⟩
      simp only [h1, h2, hf, decide_true, assert_true, ok_bind, if_true]
      cases hb : to'.isBool with
      | false => simp
      | true =>
        simp only [Ty.max, Ty.lowest, hb, if_true] at h1 h2
        have : n = 0 ∨ n = 1 := by omega
        rcases this with rfl | rfl <;> simp
    · have hf : ¬Fits to' n := fun h => h1 h.1
      simp [h1, h2, hf]
  · have hf : ¬Fits to' n := fun h => h2 h.2
    simp [h2, hf]

/-- Values that are not integral, within the range of `long long`, are reported. -/
theorem C74_fraction (prec : Nat) (to' : Ty) (q : Rat) (hfrac : ∀ n : Int, (n : Rat) ≠ q) (hlo : -2 ^ 63 < q) (hhi : q < 2 ^ 63) :
    safeCastFromFloat prec to' (.fin q) = .error .assert := by
  obtain ⟨n, hn⟩ : ∃ n, truncTo longLong (.fin q) = .ok n := by
    refine ⟨if 0 ≤ q then q.floor else q.ceil, ?_⟩
    simp only [truncTo]
    rw [if_pos]
    · rfl
    have hmin : longLong.lowest = -2 ^ 63 := by decide
    have hmax : longLong.max = 2 ^ 63 - 1 := by decide
    rw [hmin, hmax]
    split
    · rename_i h0
      have h1 : (0 : Int) ≤ q.floor := Rat.le_floor_iff.2 (by exact_mod_cast h0)
      have h2 : q.floor < 2 ^ 63 := by
        have := Rat.floor_le q
        have : (q.floor : Rat) < ((2 ^ 63 : Int) : Rat) := by push_cast; linarith
        exact_mod_cast this
      omega
    · rename_i h0
      have h1 : q.ceil ≤ 0 := Rat.ceil_le_iff.2 (by push_cast; linarith)
      have h2 : -2 ^ 63 ≤ q.ceil := by
        have := Rat.le_ceil (x := q)
        have : ((-2 ^ 63 : Int) : Rat) < (q.ceil : Rat) := by push_cast; linarith
        have : (-2 ^ 63 : Int) < q.ceil := by exact_mod_cast this
        omega
      omega
  have : ((n : Rat) == q) = false := by simpa using hfrac n
  simp [safeCastFromFloat, hn, this]

/-- `2^n` is accepted for the target type with maximum `2^n - 1` if the floating point type has less than `n` digits (as `float` for 32-bit
types); then the conversion itself is undefined. -/
theorem C74_edge_violated (prec : Nat) (to' : Ty) (ht : to'.Valid) (hb : to'.isBool = false) (hd : prec < to'.digits) (hll : to'.digits < 63) :
    safeCastFromFloat prec to' (.fin ((2 ^ to'.digits : Int) : Rat)) = .error .ub := by
  have hm := fits_digits ht
  have hnf : ¬Fits to' (2 ^ to'.digits) := fun h => by have := h.2; omega
  have hll' : Fits longLong (2 ^ to'.digits) := by
    obtain ⟨b, s, n⟩ := to'
    obtain ⟨hn, -⟩ := ht
    dsimp only at hn hb; subst hb
    rcases hn with rfl | rfl | rfl | rfl <;> cases s <;> first | decide | (exfalso; revert hll; decide)
  have hlow : to'.lowest ≤ 2 ^ to'.digits := by
    have h1 : (0 : Int) < 2 ^ to'.digits := Int.pow_pos (by decide)
    have h2 : to'.lowest ≤ 0 := by
      obtain ⟨b, s, n⟩ := to'
      obtain ⟨hn, -⟩ := ht
      dsimp only at hn hb; subst hb
      rcases hn with rfl | rfl | rfl | rfl <;> cases s <;> decide
    omega
  have hr : roundMax prec to'.digits = 2 ^ to'.digits := by rw [roundMax, if_neg (by omega)]
  simp only [safeCastFromFloat, truncTo_int, hll', hnf, hr, hb, if_true, if_false, ok_bind, beq_self_eq_true, assert_true, ge_iff_le,
    Rat.intCast_le_intCast, hlow, Int.le_refl, decide_true, Bool.false_eq_true]

/-- Infinities and NaN, and values outside the range of `long long`, are not reported: the first conversion is undefined, even if the value
is representable in the target type (64-bit unsigned). -/
theorem C74_large_violated (prec : Nat) (to' : Ty) (b : Bool) (n : Int) (h : ¬Fits longLong n) :
    safeCastFromFloat prec to' (.inf b) = .error .ub ∧ safeCastFromFloat prec to' .nan = .error .ub ∧
    safeCastFromFloat prec to' (.fin n) = .error .ub := by
  refine ⟨rfl, rfl, ?_⟩
  simp [safeCastFromFloat, truncTo_int, h]

/-! ## Pointers and references to classes -/

/-- The check of the dynamic type is never made: every pointer and reference is accepted, whatever its dynamic type. -/
theorem C75_downcast_violated {K : Type} [DecidableEq K] (base : K → K → Bool) (poly : K → Bool) (d b : K) :
    (∀ p, safeCastPtr base poly d b p = .ok p) ∧ ∀ k, safeCastRef base poly d b k = .ok k := by
  constructor <;> intro x <;> simp [safeCastPtr, safeCastRef, isBaseOf]

/-- Pointers and references to objects of the target class are kept. -/
theorem C75_downcast_partial {K : Type} [DecidableEq K] (base : K → K → Bool) (poly : K → Bool) (d b k : K) (_h : base d k = true) :
    safeCastPtr base poly d b (some k) = .ok (some k) ∧ safeCastPtr base poly d b none = .ok none ∧ safeCastRef base poly d b k = .ok k :=
  ⟨(C75_downcast_violated base poly d b).1 _, (C75_downcast_violated base poly d b).1 _, (C75_downcast_violated base poly d b).2 _⟩

/-! ## The hypotheses are met -/

def u8 : Ty := ⟨false, false, 1⟩
def i32 : Ty := ⟨false, true, 4⟩
def u64 : Ty := ⟨false, false, 8⟩

example : safeCast .rvalue u8 i32 300 = .ok 44 ∧ safeCast .rvalue u8 i32 (-1) = .error .assert ∧ safeCast .rvalue i32 u64 (2 ^ 31) = .error .assert ∧
    safeCast .rvalue u8 i32 255 = .ok 255 ∧ safeCast .lvalue i32 u64 (2 ^ 31) = .ok (-2 ^ 31) := by decide

example : u8.Valid ∧ i32.Valid ∧ Fits i32 300 ∧ ¬Fits u8 300 ∧ Fits i32 (-5) ∧ ¬Fits longLong (2 ^ 63) ∧ Fits u64 (2 ^ 63) ∧ 24 < i32.digits ∧ i32.digits < 63 := by
  refine ⟨⟨by simp [u8], by simp [u8]⟩, ⟨by simp [i32], by simp [i32]⟩, by decide, by decide, by decide, by decide, by decide, by decide, by decide⟩

example : truncTo longLong (.fin (1 / 2)) = .ok 0 := by decide +kernel

end Verif.SafeCast
