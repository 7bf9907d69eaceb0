import Verif.FloatMath.Lemmas

/-!
# C77 classification of floating-point values, C78 `NumberEquals` on floating-point numbers
-/

namespace Verif.FloatMath
open Verif.Cpp

variable {F : Fmt}

/-! ## C77 -/

/-- For every value the three functions give the same answer in constant expressions and at run time. -/
theorem C77_paths (v : FVal) :
    isFiniteConst v = isFiniteRun v ∧ isInfinityConst v = isInfinityRun v ∧ isNaNConst v = isNaNRun v := by
  cases v with
  | nan => exact ⟨rfl, rfl, rfl⟩
  | inf s => cases s <;> exact ⟨rfl, rfl, rfl⟩
  | fin q => simp [isFiniteConst, isFiniteRun, isInfinityConst, isInfinityRun, isNaNConst, isNaNRun, FVal.eq, FVal.lt, FVal.neg]

/-- What each answers, in constant expressions. -/
theorem C77_classification (v : FVal) :
    (isFiniteConst v = true ↔ ∃ q, v = .fin q) ∧ (isInfinityConst v = true ↔ v = .inf false ∨ v = .inf true) ∧
    (isNaNConst v = true ↔ v = .nan) := by
  cases v with
  | nan => simp [isFiniteConst, isInfinityConst, isNaNConst, FVal.eq]
  | inf s => cases s <;> simp [isFiniteConst, isInfinityConst, isNaNConst, FVal.eq, FVal.lt, FVal.neg]
  | fin q => simp [isFiniteConst, isInfinityConst, isNaNConst, FVal.eq, FVal.lt, FVal.neg]

/-- Exactly one of the three holds. -/
theorem C77_exactly_one (v : FVal) :
    [isFiniteConst v, isInfinityConst v, isNaNConst v].count true = 1 := by
  cases v with
  | nan => rfl
  | inf s => cases s <;> rfl
  | fin q => simp [isFiniteConst, isInfinityConst, isNaNConst, FVal.eq, FVal.lt, FVal.neg]

example : isFiniteConst (.fin 3) = true ∧ isInfinityConst (.inf true) = true ∧ isNaNConst .nan = true := ⟨by decide, rfl, rfl⟩

/-! ## C78 -/

theorem numberEqualsRun_fin (a b : ℚ) (d : FVal) : numberEqualsRun F (.fin a) (.fin b) d = (F.round |a - b|).le d := by
  unfold numberEqualsRun; rw [sub_fin, abs_round]

/-- Both ways to compute it agree on all values, infinities and NaN included. -/
theorem C78_paths (a b d : FVal) : numberEqualsConst F a b d = numberEqualsRun F a b d := by
  cases a with
  | nan => cases b <;> rfl
  | inf s => cases b with
    | nan => rfl
    | inf t => cases s <;> cases t <;> rfl
    | fin q => cases s <;> rfl
  | fin p => cases b with
    | nan => rfl
    | inf t => cases t <;> rfl
    | fin q =>
      rw [numberEqualsRun_fin]
      unfold numberEqualsConst
      simp only [FVal.lt, sub_fin]
      by_cases h : p < q
      · rw [if_pos (by simpa using h), abs_sub_comm, abs_of_pos (by linarith)]
      · rw [if_neg (by simpa using h), abs_of_nonneg (by linarith)]

/-- The order of the two numbers does not matter. -/
theorem C78_symmetric (a b d : FVal) : numberEqualsRun F a b d = numberEqualsRun F b a d := by
  unfold numberEqualsRun; rw [sub_neg' a b, abs_neg']

/-- Finite numbers: `true` whenever the distance is within the tolerance; and `false` whenever a number of the type separates the tolerance from
the distance (so the answer is only ever wrong, in favour of equality, for distances between the tolerance and the next number of the type). -/
theorem C78_finite (hF : F.Valid) (a b d : ℚ) (hd : F.Rep d) :
    (|a - b| ≤ d → numberEqualsRun F (.fin a) (.fin b) (.fin d) = true) ∧
    (∀ d', F.Rep d' → d < d' → d' ≤ |a - b| → numberEqualsRun F (.fin a) (.fin b) (.fin d) = false) := by
  rw [numberEqualsRun_fin]
  constructor
  · intro h
    have := round_le_round (F := F) hF.one_le h
    rwa [round_rep hd] at this
  · intro d' hd' h1 h2
    have := round_le_round (F := F) hF.one_le h2
    rw [round_rep hd'] at this
    revert this
    generalize F.round |a - b| = r
    cases r with
    | nan => intro; rfl
    | inf s => cases s <;> simp [FVal.le, FVal.lt, FVal.eq]
    | fin q =>
      rw [le_fin, le_fin]
      simp only [decide_eq_true_eq, decide_eq_false_iff_not, not_le]
      intro h
      linarith

/-- The distance is exact, and so is the answer, for numbers of the same sign within a factor of two of each other. -/
theorem C78_near_exact (a b d : ℚ) (ha : F.Rep a) (hb : F.Rep b) (h0 : 0 ≤ a) (h1 : a ≤ 2 * b) (h2 : b ≤ 2 * a) :
    numberEqualsRun F (.fin a) (.fin b) (.fin d) = decide (|a - b| ≤ d) := by
  have hb0 : 0 ≤ b := by linarith
  have hrep : F.Rep |a - b| := rep_abs (rep_of_le (grid_sub ha.1 hb.1 h0 h1 h2) ha (by rw [abs_of_nonneg h0, abs_le]; constructor <;> linarith))
  rw [numberEqualsRun_fin, round_rep hrep, le_fin]

/-- Every finite number equals itself, for every tolerance that is not negative. -/
theorem C78_reflexive (a d : ℚ) (h : 0 ≤ d) : numberEqualsRun F (.fin a) (.fin a) (.fin d) = true := by
  rw [numberEqualsRun_fin, sub_self, abs_zero, round_rep rep_zero, le_fin]
  simpa using h

/-- An infinity does not equal itself, whatever the tolerance. -/
theorem C78_infinity_violated (s : Bool) (d : FVal) : numberEqualsRun F (.inf s) (.inf s) d = false := by
  cases s <;> cases d <;> rfl

/-- NaN equals nothing. -/
theorem C78_nan (a d : FVal) : numberEqualsRun F .nan a d = false ∧ numberEqualsRun F a .nan d = false := by
  rw [C78_symmetric a .nan]
  refine ⟨?_, ?_⟩ <;> cases a <;> cases d <;> rfl

/-- Without a tolerance: numbers within the machine epsilon are equal, and of the numbers of magnitude 2 or more, each equals only itself. -/
theorem C78_default (hF : F.Valid) (a b : ℚ) (ha : F.Rep a) (hb : F.Rep b) :
    (|a - b| ≤ 2 ^ (1 - (F.prec : ℤ)) → numberEquals2 F (.fin a) (.fin b) = true) ∧
    (2 ≤ |a| → 2 ≤ |b| → (numberEquals2 F (.fin a) (.fin b) = true ↔ a = b)) := by
  have hp := hF.prec
  have hmin := hF.emin
  have hmax := hF.emax
  have heps : F.Rep F.epsilon := rep_two_pow hF (by omega) (by omega)
  refine ⟨fun h => (C78_finite hF a b _ heps).1 h, fun h1 h2 => ⟨fun h => ?_, fun h => ?_⟩⟩
  · by_contra hne
    obtain ⟨m, hm⟩ := grid_multiple ha.1 (e := 2 - (F.prec : ℤ)) (by
      refine le_trans (le_of_eq ?_) h1
      rw [show (2 - (F.prec : ℤ) + F.prec - 1 : ℤ) = 1 by ring]; norm_num)
    obtain ⟨n, hn⟩ := grid_multiple hb.1 (e := 2 - (F.prec : ℤ)) (by
      refine le_trans (le_of_eq ?_) h2
      rw [show (2 - (F.prec : ℤ) + F.prec - 1 : ℤ) = 1 by ring]; norm_num)
    have hmn : m ≠ n := by rintro rfl; exact hne (hm.trans hn.symm)
    have hd : (2 : ℚ) ^ (2 - (F.prec : ℤ)) ≤ |a - b| := by
      rw [hm, hn, ← sub_mul, abs_mul, abs_of_pos (two_pow_pos (2 - (F.prec : ℤ)))]
      have h3 : (1 : ℤ) ≤ |m - n| := Int.one_le_abs (sub_ne_zero.2 hmn)
      have h4 : (1 : ℚ) ≤ |(m : ℚ) - n| := by exact_mod_cast h3
      nlinarith [two_pow_pos (2 - (F.prec : ℤ))]
    have := (C78_finite hF a b _ heps).2 (2 ^ (2 - (F.prec : ℤ))) (rep_two_pow hF (by omega) (by omega))
      (zpow_lt_zpow_right₀ (by norm_num) (by omega)) hd
    unfold numberEquals2 at h
    rw [h] at this
    exact Bool.noConfusion this
  · subst h; exact C78_reflexive a _ (two_pow_pos _).le

example : float32.Rep 3 ∧ float32.Rep 5 ∧ (2 : ℚ) ≤ |3| ∧ (2 : ℚ) ≤ |5| := by
  refine ⟨?_, ?_, by norm_num, by norm_num⟩
  · exact_mod_cast rep_int float32_valid (n := 3) (by decide)
  · exact_mod_cast rep_int float32_valid (n := 5) (by decide)

end Verif.FloatMath
