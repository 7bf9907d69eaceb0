import Verif.SafeCast.ModelFloat
import Verif.FloatMath.PropsAngle

/-!
# `SafeCast` to floating-point types

The user's view: a cast that is not safe is reported, otherwise the value stays the same.
-/

namespace Verif.SafeCast
open Verif.Cpp Verif.FloatMath

/-- All finite values of `F` are values of `G`. -/
def Within (F G : Fmt) : Prop := ∀ q, F.Rep q → G.Rep q

/-- The floating-point types of a platform: formats of a sensible size, and of two types the one that is not larger has no value the other
has not. -/
structure Types (a b : FTy) : Prop where
  a_valid : a.fmt.Valid
  b_valid : b.fmt.Valid
  ab : a.bytes ≤ b.bytes → Within a.fmt b.fmt
  ba : b.bytes ≤ a.bytes → Within b.fmt a.fmt

def float' : FTy := ⟨float32, 4⟩
def double' : FTy := ⟨float64, 8⟩
def longDouble' : FTy := ⟨float80, 16⟩

theorem within_of {F G : Fmt} (hp : F.prec ≤ G.prec) (hmin : G.emin ≤ F.emin) (hmax : F.emax ≤ G.emax) : Within F G := by
  rintro q ⟨⟨m, e, he, hm, rfl⟩, hq⟩
  refine ⟨⟨m, e, by omega, lt_of_lt_of_le hm ?_, rfl⟩, lt_of_lt_of_le hq ?_⟩
  · exact pow_le_pow_right₀ (by norm_num) hp
  · exact zpow_le_zpow_right₀ (by norm_num) hmax

example : Types float' double' :=
  ⟨float32_valid, float64_valid, fun _ => within_of (by decide) (by decide) (by decide), fun h => absurd h (by decide)⟩
example : Types longDouble' double' :=
  ⟨float80_valid, float64_valid, fun h => absurd h (by decide), fun _ => within_of (by decide) (by decide) (by decide)⟩
example : Types double' double' := ⟨float64_valid, float64_valid, fun _ _ h => h, fun _ _ h => h⟩

section
variable {to' from' : FTy} (h : Types to' from')
include h

theorem wide_to : Within to'.fmt (wideType to' from').fmt := by
  unfold wideType
  split
  · exact h.ab (by omega)
  · exact fun _ h => h

theorem wide_from : Within from'.fmt (wideType to' from').fmt := by
  unfold wideType
  split
  · exact fun _ h => h
  · exact h.ba (by omega)

theorem checkFloat_fin {q : ℚ} (hq : from'.fmt.Rep q) :
    checkFloat to' from' (.fin q) = if |q| ≤ to'.fmt.maxValue then .ok () else .error .assert := by
  have hmax := (C84_max h.a_valid).1
  have e1 : convert (wideType to' from') (.fin q) = .fin q := round_rep (wide_from h q hq)
  have e2 : convert (wideType to' from') (.fin to'.fmt.maxValue) = .fin to'.fmt.maxValue := round_rep (wide_to h _ hmax)
  have e3 : convert (wideType to' from') (.fin (-to'.fmt.maxValue)) = .fin (-to'.fmt.maxValue) :=
    round_rep (wide_to h _ (rep_neg hmax))
  simp only [checkFloat, e1, e2, e3, le_fin, abs_le]
  by_cases h1 : q ≤ to'.fmt.maxValue <;> by_cases h2 : -to'.fmt.maxValue ≤ q <;> simp [h1, h2, Cpp.assert]

/-! ## C88: casts to floating-point types -/

/-- A cast to a type that has all values of the source keeps every finite value. -/
theorem C88_widen (hw : Within from'.fmt to'.fmt) (q : ℚ) (hq : from'.fmt.Rep q) (cat : Category) :
    safeCastFloat cat to' from' (.fin q) = .ok (.fin q) := by
  have hc : convert to' (.fin q) = .fin q := round_rep (hw q hq)
  cases cat with
  | lvalue => simp [safeCastFloat, hc]
  | rvalue =>
    have := (C84_max h.a_valid).2 q (hw q hq)
    simp [safeCastFloat, hc, checkFloat_fin h hq, abs_le.2 ⟨this.2, this.1⟩]

/-- A cast of an rvalue is reported exactly if its magnitude is above the greatest one of the target type; otherwise the result is a nearest
value of the target type, which is the value itself if the target type has it.  (Missing from the full statement: values the target type has
not are changed without a report, `C88_precision_violated`; lvalues are not checked, `C88_lvalue_violated`.) -/
theorem C88_range_partial (q : ℚ) (hq : from'.fmt.Rep q) :
    (to'.fmt.maxValue < |q| → safeCastFloat .rvalue to' from' (.fin q) = .error .assert) ∧
    (|q| ≤ to'.fmt.maxValue → ∃ r, safeCastFloat .rvalue to' from' (.fin q) = .ok (.fin r) ∧ to'.fmt.Rep r ∧
      (∀ r', to'.fmt.Rep r' → |r - q| ≤ |r' - q|) ∧ (to'.fmt.Rep q → r = q)) := by
  constructor
  · intro hgt
    simp only [safeCastFloat, checkFloat_fin h hq, if_neg (not_le.2 hgt)]
    rfl
  · intro hle
    have hmax := (C84_max h.a_valid).1
    have hr : to'.fmt.Rep (to'.fmt.rnd q) := rep_rnd h.a_valid.one_le hmax (le_trans hle (le_abs_self _))
    refine ⟨to'.fmt.rnd q, ?_, hr, fun r' hr' => rnd_nearest hr'.1, fun hq' => rnd_grid hq'.1⟩
    simp only [safeCastFloat, checkFloat_fin h hq, if_pos hle, convert, round_of_rep_rnd hr]
    rfl

omit h in
/-- NaN and the infinities are reported, also by a cast to the same type. -/
theorem C88_nonfinite (ht : to'.fmt.Valid) (hw : Within to'.fmt (wideType to' from').fmt) (b : Bool) :
    safeCastFloat .rvalue to' from' .nan = .error .assert ∧ safeCastFloat .rvalue to' from' (.inf b) = .error .assert := by
  have hmax := (C84_max ht).1
  have e2 : convert (wideType to' from') (.fin to'.fmt.maxValue) = .fin to'.fmt.maxValue := round_rep (hw _ hmax)
  have e3 : convert (wideType to' from') (.fin (-to'.fmt.maxValue)) = .fin (-to'.fmt.maxValue) := round_rep (hw _ (rep_neg hmax))
  constructor
  · simp only [safeCastFloat, checkFloat, e2, e3]
    rfl
  · simp only [safeCastFloat, checkFloat, e2, e3]
    cases b <;> rfl

/-- Every value in the range of the target type that the target type has not is changed without a report. -/
theorem C88_precision_violated (q : ℚ) (hq : from'.fmt.Rep q) (hle : |q| ≤ to'.fmt.maxValue) (hn : ¬ to'.fmt.Rep q) :
    ∃ r, safeCastFloat .rvalue to' from' (.fin q) = .ok (.fin r) ∧ r ≠ q := by
  obtain ⟨r, h1, h2, _⟩ := (C88_range_partial h q hq).2 hle
  exact ⟨r, h1, fun e => hn (e ▸ h2)⟩

end

/-- For lvalues nothing is checked: every value beyond the range of the target type becomes an infinity or its greatest value, and never an
assertion fails. -/
theorem C88_lvalue_violated (to' from' : FTy) (v : FVal) : safeCastFloat .lvalue to' from' v = .ok (convert to' v) ∧
    (∀ q, (2 : ℚ) ^ to'.fmt.emax ≤ |to'.fmt.rnd q| → safeCastFloat .lvalue to' from' (.fin q) = .ok (.inf (decide (q < 0)))) := by
  refine ⟨rfl, fun q hq => ?_⟩
  simp only [safeCastFloat, convert, Fmt.round, if_neg (not_lt.2 hq)]
  rfl

/-- Integers of at most as many bits as the target type has digits are kept. -/
theorem C88_integer_partial (cat : Category) (to' : FTy) (ht : to'.fmt.Valid) (n : Int) (hn : |n| ≤ 2 ^ to'.fmt.prec) :
    safeCastIntToFloat cat to' n = .ok (.fin n) := by
  have hr : to'.fmt.Rep n := by
    rcases lt_or_eq_of_le hn with h | h
    · exact rep_int ht h
    · have h2 : to'.fmt.Rep (2 ^ (to'.fmt.prec : ℤ)) := rep_two_pow ht (by have := ht.emin; omega) (by have := ht.emax; omega)
      have e : (2 : ℚ) ^ (to'.fmt.prec : ℤ) = ((2 ^ to'.fmt.prec : ℤ) : ℚ) := by push_cast; rw [zpow_natCast]
      rw [e] at h2
      rcases (abs_eq (by positivity)).1 h with h | h
      · rw [h]; exact h2
      · rw [h]; push_cast at h2 ⊢; exact rep_neg h2
  simp only [safeCastIntToFloat, round_rep hr]
  rfl

/-- Every integer that the target type has not is changed without a report. -/
theorem C88_integer_violated (cat : Category) (to' : FTy) (ht : to'.fmt.Valid) (n : Int) (hn : ¬ to'.fmt.Rep n) :
    ∃ v, safeCastIntToFloat cat to' n = .ok v ∧ v ≠ .fin n := by
  refine ⟨_, rfl, fun e => hn ?_⟩
  have := has_round ht.one_le (F := to'.fmt) n
  rw [e] at this
  exact this

/-- `2^24 + 1` is no value of `float`. -/
theorem not_rep_float : ¬ float32.Rep ((2 ^ 24 + 1 : ℤ) : ℚ) := by
  rintro ⟨hg, -⟩
  obtain ⟨k, hk⟩ := grid_multiple hg (e := 1) (by norm_num [float32])
  have h : ((2 ^ 24 + 1 : ℤ) : ℚ) = ((k * 2 : ℤ) : ℚ) := by rw [hk]; push_cast; norm_num
  have h' := Int.cast_injective h
  omega

/-- The hypotheses of the violated theorems are met: 2^24 + 1 as an `int` and as a `double`, cast to `float`. -/
example : ∃ v, safeCastIntToFloat .rvalue float' (2 ^ 24 + 1) = .ok v ∧ v ≠ .fin ((2 ^ 24 + 1 : ℤ) : ℚ) :=
  C88_integer_violated .rvalue float' float32_valid (2 ^ 24 + 1) not_rep_float

example : ∃ r, safeCastFloat .rvalue float' double' (.fin ((2 ^ 24 + 1 : ℤ) : ℚ)) = .ok (.fin r) ∧ r ≠ ((2 ^ 24 + 1 : ℤ) : ℚ) := by
  refine C88_precision_violated ⟨float32_valid, float64_valid, fun _ => within_of (by decide) (by decide) (by decide),
    fun h => absurd h (by decide)⟩ _ (rep_int float64_valid (by decide)) ?_ not_rep_float
  norm_num [float', float32, Fmt.maxValue]

end Verif.SafeCast
