import Verif.FloatMath.Lemmas
import Mathlib.Analysis.Real.Pi.Bounds

/-!
# C83 mathematical constants
-/

namespace Verif.FloatMath

variable {F : Fmt}

/-- The value is a number of the type and none is nearer to `c`. -/
def IsNearest (F : Fmt) (v : FVal) (c : ℝ) : Prop :=
  ∃ q : ℚ, v = .fin q ∧ F.Rep q ∧ ∀ r : ℚ, F.Rep r → |(q : ℝ) - c| ≤ |(r : ℝ) - c|

/-- A number all of whose digits are known, within half of its last digit of a real number. -/
theorem nearest_real {m e : ℤ} {c : ℝ} (h1 : 2 ^ (F.prec - 1) < m) (h2 : m < 2 ^ F.prec) (he : F.emin ≤ e) (hs : e + F.prec ≤ F.emax)
    (h : |(m : ℝ) * 2 ^ e - c| ≤ 1 / 2 * 2 ^ e) (v : FVal) (hv : v = .fin ((m : ℚ) * 2 ^ e)) : IsNearest F v c := by
  have hm0 : 0 < m := lt_of_lt_of_le (by positivity) h1.le
  have hposR : (0 : ℝ) < 2 ^ e := zpow_pos (by norm_num) e
  have hG : F.Grid ((m : ℚ) * 2 ^ e) := ⟨m, e, he, by rwa [abs_of_pos hm0], rfl⟩
  refine ⟨_, hv, ⟨hG, ?_⟩, fun r hr => ?_⟩
  · have hmq : (m : ℚ) < 2 ^ F.prec := by exact_mod_cast h2
    have hm0q : (0 : ℚ) < m := by exact_mod_cast hm0
    rw [abs_of_pos (mul_pos hm0q (two_pow_pos e))]
    refine lt_of_lt_of_le (mul_lt_mul_of_pos_right hmq (two_pow_pos e)) ?_
    rw [← zpow_natCast, ← zpow_add₀ (by norm_num)]
    exact zpow_le_zpow_right₀ (by norm_num) (by omega)
  · have key : ((r : ℚ) = (m : ℚ) * 2 ^ e) ∨ (2 : ℚ) ^ e ≤ |r - m * 2 ^ e| := by
      obtain ⟨m', e', he', hm', rfl⟩ := hr.1
      rcases le_or_gt e e' with hle | hlt
      · have e1 : (m' : ℚ) * 2 ^ e' = ((m' * 2 ^ (e' - e).toNat : ℤ) : ℚ) * 2 ^ e := by
          rw [← scaled_int hle, div_mul_cancel₀ _ (two_pow_pos _).ne']
        rw [e1]
        generalize m' * 2 ^ (e' - e).toNat = n
        by_cases hn : n = m
        · left; rw [hn]
        · right
          rw [← sub_mul, abs_mul, abs_of_pos (two_pow_pos e)]
          have h3 : (1 : ℤ) ≤ |n - m| := Int.one_le_abs (sub_ne_zero.2 hn)
          have h4 : (1 : ℚ) ≤ |(n : ℚ) - m| := by exact_mod_cast h3
          exact le_mul_of_one_le_left (two_pow_pos e).le h4
      · right
        have h3 : (m' : ℚ) * 2 ^ e' ≤ (m - 1) * 2 ^ e := by
          have h4 : (m' : ℚ) ≤ 2 ^ F.prec := by exact_mod_cast le_trans (le_abs_self m') hm'.le
          have h5 : (2 : ℚ) ^ (F.prec - 1) ≤ m - 1 := by
            have : (2 : ℤ) ^ (F.prec - 1) ≤ m - 1 := by omega
            exact_mod_cast this
          have hp : F.prec ≠ 0 := by
            intro h0
            rw [h0] at h1 h2
            norm_num at h1 h2
            omega
          calc (m' : ℚ) * 2 ^ e' ≤ 2 ^ F.prec * 2 ^ e' := mul_le_mul_of_nonneg_right h4 (two_pow_pos _).le
            _ ≤ 2 ^ (F.prec - 1) * 2 ^ e := by
              rw [← zpow_natCast, ← zpow_natCast, ← zpow_add₀ (by norm_num), ← zpow_add₀ (by norm_num)]
              exact zpow_le_zpow_right₀ (by norm_num) (by omega)
            _ ≤ (m - 1) * 2 ^ e := mul_le_mul_of_nonneg_right h5 (two_pow_pos _).le
        rw [abs_of_nonpos (by nlinarith [two_pow_pos e])]
        linarith
    rcases key with h3 | h3
    · rw [h3]
    · have h4 : (((2 : ℚ) ^ e : ℚ) : ℝ) ≤ ((|r - m * 2 ^ e| : ℚ) : ℝ) := Rat.cast_le.2 h3
      push_cast at h4
      have h5 := abs_sub_le (r : ℝ) c (m * 2 ^ e)
      rw [abs_sub_comm c] at h5
      push_cast
      linarith

theorem round_of_near {q : ℚ} {m e : ℤ} (he : F.emin ≤ e) (h1 : (2 : ℚ) ^ (e + F.prec - 1) ≤ |q|) (h2 : |q| < 2 ^ (e + F.prec))
    (h : |q - m * 2 ^ e| < 1 / 2 * 2 ^ e) (hm : |m| < 2 ^ F.prec) (hs : e + F.prec ≤ F.emax) : F.round q = .fin (m * 2 ^ e) := by
  rw [round_of_rep_rnd, rnd_of_near he h1 h2 h]
  rw [rnd_of_near he h1 h2 h]
  have hmq : |(m : ℚ)| < 2 ^ F.prec := by exact_mod_cast hm
  refine ⟨⟨m, e, he, hm, rfl⟩, ?_⟩
  rw [abs_mul, abs_of_pos (two_pow_pos e)]
  refine lt_of_lt_of_le (mul_lt_mul_of_pos_right hmq (two_pow_pos e)) ?_
  rw [← zpow_natCast, ← zpow_add₀ (by norm_num)]
  exact zpow_le_zpow_right₀ (by norm_num) (by omega)

/-! ## The values of the constants -/

theorem halfPi_lit : float64.round 1.5707963267948966192313216916398 = .fin ((7074237752028440 : ℤ) * 2 ^ (-52 : ℤ)) :=
  round_of_near (by decide) (by simp only [float64]; norm_num [abs_of_pos]) (by simp only [float64]; norm_num [abs_of_pos]) (by rw [abs_lt]; norm_num) (by decide)
    (by decide)

theorem halfPi_double : halfPi float64 = .fin ((7074237752028440 : ℤ) * 2 ^ (-52 : ℤ)) := by
  unfold halfPi Fmt.literal
  rw [halfPi_lit]
  refine round_rep ⟨⟨7074237752028440, -52, by decide, by decide, rfl⟩, ?_⟩
  refine lt_of_lt_of_le (b := 2 ^ (10 : ℤ)) (by norm_num [abs_of_pos]) ?_
  exact zpow_le_zpow_right₀ (by norm_num) (by decide)

theorem halfPi_longDouble : halfPi float80 = .fin ((7074237752028440 : ℤ) * 2 ^ (-52 : ℤ)) := by
  unfold halfPi Fmt.literal
  rw [halfPi_lit]
  refine round_rep ⟨⟨7074237752028440, -52, by decide, by decide, rfl⟩, ?_⟩
  refine lt_of_lt_of_le (b := 2 ^ (10 : ℤ)) (by norm_num [abs_of_pos]) ?_
  exact zpow_le_zpow_right₀ (by norm_num) (by decide)

theorem halfPi_float : halfPi float32 = .fin ((13176795 : ℤ) * 2 ^ (-23 : ℤ)) := by
  unfold halfPi Fmt.literal
  rw [halfPi_lit]
  exact round_of_near (by decide) (by simp only [float32]; norm_num [abs_of_pos]) (by simp only [float32]; norm_num [abs_of_pos]) (by rw [abs_lt]; norm_num)
    (by decide) (by decide)

theorem pi_lit : float64.round 3.1415926535897932384626433832795 = .fin ((7074237752028440 : ℤ) * 2 ^ (-51 : ℤ)) :=
  round_of_near (by decide) (by simp only [float64]; norm_num [abs_of_pos]) (by simp only [float64]; norm_num [abs_of_pos]) (by rw [abs_lt]; norm_num) (by decide)
    (by decide)

theorem pi_double : pi float64 = .fin ((7074237752028440 : ℤ) * 2 ^ (-51 : ℤ)) := by
  unfold pi Fmt.literal
  rw [pi_lit]
  refine round_rep ⟨⟨7074237752028440, -51, by decide, by decide, rfl⟩, ?_⟩
  refine lt_of_lt_of_le (b := 2 ^ (10 : ℤ)) (by norm_num [abs_of_pos]) ?_
  exact zpow_le_zpow_right₀ (by norm_num) (by decide)

theorem pi_longDouble : pi float80 = .fin ((7074237752028440 : ℤ) * 2 ^ (-51 : ℤ)) := by
  unfold pi Fmt.literal
  rw [pi_lit]
  refine round_rep ⟨⟨7074237752028440, -51, by decide, by decide, rfl⟩, ?_⟩
  refine lt_of_lt_of_le (b := 2 ^ (10 : ℤ)) (by norm_num [abs_of_pos]) ?_
  exact zpow_le_zpow_right₀ (by norm_num) (by decide)

theorem pi_float : pi float32 = .fin ((13176795 : ℤ) * 2 ^ (-22 : ℤ)) := by
  unfold pi Fmt.literal
  rw [pi_lit]
  exact round_of_near (by decide) (by simp only [float32]; norm_num [abs_of_pos]) (by simp only [float32]; norm_num [abs_of_pos]) (by rw [abs_lt]; norm_num)
    (by decide) (by decide)

theorem tau_lit : float64.round 6.2831853071795864769252867665590 = .fin ((7074237752028440 : ℤ) * 2 ^ (-50 : ℤ)) :=
  round_of_near (by decide) (by simp only [float64]; norm_num [abs_of_pos]) (by simp only [float64]; norm_num [abs_of_pos]) (by rw [abs_lt]; norm_num) (by decide)
    (by decide)

theorem tau_double : tau float64 = .fin ((7074237752028440 : ℤ) * 2 ^ (-50 : ℤ)) := by
  unfold tau Fmt.literal
  rw [tau_lit]
  refine round_rep ⟨⟨7074237752028440, -50, by decide, by decide, rfl⟩, ?_⟩
  refine lt_of_lt_of_le (b := 2 ^ (10 : ℤ)) (by norm_num [abs_of_pos]) ?_
  exact zpow_le_zpow_right₀ (by norm_num) (by decide)

theorem tau_longDouble : tau float80 = .fin ((7074237752028440 : ℤ) * 2 ^ (-50 : ℤ)) := by
  unfold tau Fmt.literal
  rw [tau_lit]
  refine round_rep ⟨⟨7074237752028440, -50, by decide, by decide, rfl⟩, ?_⟩
  refine lt_of_lt_of_le (b := 2 ^ (10 : ℤ)) (by norm_num [abs_of_pos]) ?_
  exact zpow_le_zpow_right₀ (by norm_num) (by decide)

theorem tau_float : tau float32 = .fin ((13176795 : ℤ) * 2 ^ (-21 : ℤ)) := by
  unfold tau Fmt.literal
  rw [tau_lit]
  exact round_of_near (by decide) (by simp only [float32]; norm_num [abs_of_pos]) (by simp only [float32]; norm_num [abs_of_pos]) (by rw [abs_lt]; norm_num)
    (by decide) (by decide)

theorem sqrt2_lit : float64.round 1.4142135623730950488016887242097 = .fin ((6369051672525773 : ℤ) * 2 ^ (-52 : ℤ)) :=
  round_of_near (by decide) (by simp only [float64]; norm_num [abs_of_pos]) (by simp only [float64]; norm_num [abs_of_pos]) (by rw [abs_lt]; norm_num) (by decide)
    (by decide)

theorem sqrt2_double : sqrt2 float64 = .fin ((6369051672525773 : ℤ) * 2 ^ (-52 : ℤ)) := by
  unfold sqrt2 Fmt.literal
  rw [sqrt2_lit]
  refine round_rep ⟨⟨6369051672525773, -52, by decide, by decide, rfl⟩, ?_⟩
  refine lt_of_lt_of_le (b := 2 ^ (10 : ℤ)) (by norm_num [abs_of_pos]) ?_
  exact zpow_le_zpow_right₀ (by norm_num) (by decide)

theorem sqrt2_longDouble : sqrt2 float80 = .fin ((6369051672525773 : ℤ) * 2 ^ (-52 : ℤ)) := by
  unfold sqrt2 Fmt.literal
  rw [sqrt2_lit]
  refine round_rep ⟨⟨6369051672525773, -52, by decide, by decide, rfl⟩, ?_⟩
  refine lt_of_lt_of_le (b := 2 ^ (10 : ℤ)) (by norm_num [abs_of_pos]) ?_
  exact zpow_le_zpow_right₀ (by norm_num) (by decide)

theorem sqrt2_float : sqrt2 float32 = .fin ((11863283 : ℤ) * 2 ^ (-23 : ℤ)) := by
  unfold sqrt2 Fmt.literal
  rw [sqrt2_lit]
  exact round_of_near (by decide) (by simp only [float32]; norm_num [abs_of_pos]) (by simp only [float32]; norm_num [abs_of_pos]) (by rw [abs_lt]; norm_num)
    (by decide) (by decide)

theorem sqrt3_lit : float64.round 1.7320508075688772935274463415059 = .fin ((7800463371553962 : ℤ) * 2 ^ (-52 : ℤ)) :=
  round_of_near (by decide) (by simp only [float64]; norm_num [abs_of_pos]) (by simp only [float64]; norm_num [abs_of_pos]) (by rw [abs_lt]; norm_num) (by decide)
    (by decide)

theorem sqrt3_double : sqrt3 float64 = .fin ((7800463371553962 : ℤ) * 2 ^ (-52 : ℤ)) := by
  unfold sqrt3 Fmt.literal
  rw [sqrt3_lit]
  refine round_rep ⟨⟨7800463371553962, -52, by decide, by decide, rfl⟩, ?_⟩
  refine lt_of_lt_of_le (b := 2 ^ (10 : ℤ)) (by norm_num [abs_of_pos]) ?_
  exact zpow_le_zpow_right₀ (by norm_num) (by decide)

theorem sqrt3_longDouble : sqrt3 float80 = .fin ((7800463371553962 : ℤ) * 2 ^ (-52 : ℤ)) := by
  unfold sqrt3 Fmt.literal
  rw [sqrt3_lit]
  refine round_rep ⟨⟨7800463371553962, -52, by decide, by decide, rfl⟩, ?_⟩
  refine lt_of_lt_of_le (b := 2 ^ (10 : ℤ)) (by norm_num [abs_of_pos]) ?_
  exact zpow_le_zpow_right₀ (by norm_num) (by decide)

theorem sqrt3_float : sqrt3 float32 = .fin ((14529495 : ℤ) * 2 ^ (-23 : ℤ)) := by
  unfold sqrt3 Fmt.literal
  rw [sqrt3_lit]
  exact round_of_near (by decide) (by simp only [float32]; norm_num [abs_of_pos]) (by simp only [float32]; norm_num [abs_of_pos]) (by rw [abs_lt]; norm_num)
    (by decide) (by decide)

theorem sqrt5_lit : float64.round 2.2360679774997896964091736687313 = .fin ((5035177455121576 : ℤ) * 2 ^ (-51 : ℤ)) :=
  round_of_near (by decide) (by simp only [float64]; norm_num [abs_of_pos]) (by simp only [float64]; norm_num [abs_of_pos]) (by rw [abs_lt]; norm_num) (by decide)
    (by decide)

theorem sqrt5_double : sqrt5 float64 = .fin ((5035177455121576 : ℤ) * 2 ^ (-51 : ℤ)) := by
  unfold sqrt5 Fmt.literal
  rw [sqrt5_lit]
  refine round_rep ⟨⟨5035177455121576, -51, by decide, by decide, rfl⟩, ?_⟩
  refine lt_of_lt_of_le (b := 2 ^ (10 : ℤ)) (by norm_num [abs_of_pos]) ?_
  exact zpow_le_zpow_right₀ (by norm_num) (by decide)

theorem sqrt5_longDouble : sqrt5 float80 = .fin ((5035177455121576 : ℤ) * 2 ^ (-51 : ℤ)) := by
  unfold sqrt5 Fmt.literal
  rw [sqrt5_lit]
  refine round_rep ⟨⟨5035177455121576, -51, by decide, by decide, rfl⟩, ?_⟩
  refine lt_of_lt_of_le (b := 2 ^ (10 : ℤ)) (by norm_num [abs_of_pos]) ?_
  exact zpow_le_zpow_right₀ (by norm_num) (by decide)

theorem sqrt5_float : sqrt5 float32 = .fin ((9378749 : ℤ) * 2 ^ (-22 : ℤ)) := by
  unfold sqrt5 Fmt.literal
  rw [sqrt5_lit]
  exact round_of_near (by decide) (by simp only [float32]; norm_num [abs_of_pos]) (by simp only [float32]; norm_num [abs_of_pos]) (by rw [abs_lt]; norm_num)
    (by decide) (by decide)

/-! ## Bounds of the real numbers -/

theorem pi_bounds : (3.14159265358979323846 : ℝ) < Real.pi ∧ Real.pi < 3.14159265358979323847 := ⟨Real.pi_gt_d20, Real.pi_lt_d20⟩

theorem sqrt2_bounds : (1.41421356237309504880168872 : ℝ) < √2 ∧ √2 < (1.41421356237309504880168873 : ℝ) := by
  constructor
  · apply Real.lt_sqrt_of_sq_lt; norm_num
  · rw [Real.sqrt_lt' (by norm_num)]; norm_num

theorem sqrt3_bounds : (1.73205080756887729352744634 : ℝ) < √3 ∧ √3 < (1.73205080756887729352744635 : ℝ) := by
  constructor
  · apply Real.lt_sqrt_of_sq_lt; norm_num
  · rw [Real.sqrt_lt' (by norm_num)]; norm_num

theorem sqrt5_bounds : (2.23606797749978969640917366 : ℝ) < √5 ∧ √5 < (2.23606797749978969640917367 : ℝ) := by
  constructor
  · apply Real.lt_sqrt_of_sq_lt; norm_num
  · rw [Real.sqrt_lt' (by norm_num)]; norm_num

theorem halfPi_nearest_float : IsNearest float32 (halfPi float32) (Real.pi / 2) := by
  refine nearest_real (m := 13176795) (e := -23) (by decide) (by decide) (by decide) (by decide) ?_ _ halfPi_float
  obtain ⟨h1, h2⟩ := pi_bounds
  rw [abs_le]
  norm_num at h1 h2 ⊢
  constructor <;> linarith

theorem halfPi_nearest_double : IsNearest float64 (halfPi float64) (Real.pi / 2) := by
  refine nearest_real (m := 7074237752028440) (e := -52) (by decide) (by decide) (by decide) (by decide) ?_ _ halfPi_double
  obtain ⟨h1, h2⟩ := pi_bounds
  rw [abs_le]
  norm_num at h1 h2 ⊢
  constructor <;> linarith

theorem pi_nearest_float : IsNearest float32 (pi float32) (Real.pi) := by
  refine nearest_real (m := 13176795) (e := -22) (by decide) (by decide) (by decide) (by decide) ?_ _ pi_float
  obtain ⟨h1, h2⟩ := pi_bounds
  rw [abs_le]
  norm_num at h1 h2 ⊢
  constructor <;> linarith

theorem pi_nearest_double : IsNearest float64 (pi float64) (Real.pi) := by
  refine nearest_real (m := 7074237752028440) (e := -51) (by decide) (by decide) (by decide) (by decide) ?_ _ pi_double
  obtain ⟨h1, h2⟩ := pi_bounds
  rw [abs_le]
  norm_num at h1 h2 ⊢
  constructor <;> linarith

theorem tau_nearest_float : IsNearest float32 (tau float32) (2 * Real.pi) := by
  refine nearest_real (m := 13176795) (e := -21) (by decide) (by decide) (by decide) (by decide) ?_ _ tau_float
  obtain ⟨h1, h2⟩ := pi_bounds
  rw [abs_le]
  norm_num at h1 h2 ⊢
  constructor <;> linarith

theorem tau_nearest_double : IsNearest float64 (tau float64) (2 * Real.pi) := by
  refine nearest_real (m := 7074237752028440) (e := -50) (by decide) (by decide) (by decide) (by decide) ?_ _ tau_double
  obtain ⟨h1, h2⟩ := pi_bounds
  rw [abs_le]
  norm_num at h1 h2 ⊢
  constructor <;> linarith

theorem sqrt2_nearest_float : IsNearest float32 (sqrt2 float32) (√2) := by
  refine nearest_real (m := 11863283) (e := -23) (by decide) (by decide) (by decide) (by decide) ?_ _ sqrt2_float
  obtain ⟨h1, h2⟩ := sqrt2_bounds
  rw [abs_le]
  norm_num at h1 h2 ⊢
  constructor <;> linarith

theorem sqrt2_nearest_double : IsNearest float64 (sqrt2 float64) (√2) := by
  refine nearest_real (m := 6369051672525773) (e := -52) (by decide) (by decide) (by decide) (by decide) ?_ _ sqrt2_double
  obtain ⟨h1, h2⟩ := sqrt2_bounds
  rw [abs_le]
  norm_num at h1 h2 ⊢
  constructor <;> linarith

theorem sqrt3_nearest_float : IsNearest float32 (sqrt3 float32) (√3) := by
  refine nearest_real (m := 14529495) (e := -23) (by decide) (by decide) (by decide) (by decide) ?_ _ sqrt3_float
  obtain ⟨h1, h2⟩ := sqrt3_bounds
  rw [abs_le]
  norm_num at h1 h2 ⊢
  constructor <;> linarith

theorem sqrt3_nearest_double : IsNearest float64 (sqrt3 float64) (√3) := by
  refine nearest_real (m := 7800463371553962) (e := -52) (by decide) (by decide) (by decide) (by decide) ?_ _ sqrt3_double
  obtain ⟨h1, h2⟩ := sqrt3_bounds
  rw [abs_le]
  norm_num at h1 h2 ⊢
  constructor <;> linarith

theorem sqrt5_nearest_float : IsNearest float32 (sqrt5 float32) (√5) := by
  refine nearest_real (m := 9378749) (e := -22) (by decide) (by decide) (by decide) (by decide) ?_ _ sqrt5_float
  obtain ⟨h1, h2⟩ := sqrt5_bounds
  rw [abs_le]
  norm_num at h1 h2 ⊢
  constructor <;> linarith

theorem sqrt5_nearest_double : IsNearest float64 (sqrt5 float64) (√5) := by
  refine nearest_real (m := 5035177455121576) (e := -51) (by decide) (by decide) (by decide) (by decide) ?_ _ sqrt5_double
  obtain ⟨h1, h2⟩ := sqrt5_bounds
  rw [abs_le]
  norm_num at h1 h2 ⊢
  constructor <;> linarith

/-- As `float` and as `double`, each constant is the number of the type nearest to the real number it stands for. -/
theorem C83_constants (F : Fmt) (h : F = float32 ∨ F = float64) :
    IsNearest F (halfPi F) (Real.pi / 2) ∧ IsNearest F (pi F) Real.pi ∧ IsNearest F (tau F) (2 * Real.pi) ∧
    IsNearest F (sqrt2 F) √2 ∧ IsNearest F (sqrt3 F) √3 ∧ IsNearest F (sqrt5 F) √5 := by
  rcases h with rfl | rfl
  · exact ⟨halfPi_nearest_float, pi_nearest_float, tau_nearest_float, sqrt2_nearest_float, sqrt3_nearest_float, sqrt5_nearest_float⟩
  · exact ⟨halfPi_nearest_double, pi_nearest_double, tau_nearest_double, sqrt2_nearest_double, sqrt3_nearest_double, sqrt5_nearest_double⟩

/-- Twice `HalfPi` is exactly `Pi` and twice `Pi` is exactly `Tau`, in all three types. -/
theorem C83_multiples (F : Fmt) (h : F = float32 ∨ F = float64 ∨ F = float80) :
    F.mul (.fin 2) (halfPi F) = pi F ∧ F.mul (.fin 2) (pi F) = tau F := by
  rcases h with rfl | rfl | rfl
  · constructor
    · rw [halfPi_float, pi_float]
      simp only [Fmt.mul]
      rw [← round_rep (F := float32) (q := ((13176795 : ℤ) : ℚ) * 2 ^ (-22 : ℤ))]
      · congr 1; norm_num
      · refine ⟨⟨13176795, -22, by decide, by decide, rfl⟩, ?_⟩
        refine lt_of_lt_of_le (b := 2 ^ (10 : ℤ)) (by norm_num [abs_of_pos]) ?_
        exact zpow_le_zpow_right₀ (by norm_num) (by decide)
    · rw [pi_float, tau_float]
      simp only [Fmt.mul]
      rw [← round_rep (F := float32) (q := ((13176795 : ℤ) : ℚ) * 2 ^ (-21 : ℤ))]
      · congr 1; norm_num
      · refine ⟨⟨13176795, -21, by decide, by decide, rfl⟩, ?_⟩
        refine lt_of_lt_of_le (b := 2 ^ (10 : ℤ)) (by norm_num [abs_of_pos]) ?_
        exact zpow_le_zpow_right₀ (by norm_num) (by decide)
  · constructor
    · rw [halfPi_double, pi_double]
      simp only [Fmt.mul]
      rw [← round_rep (F := float64) (q := ((7074237752028440 : ℤ) : ℚ) * 2 ^ (-51 : ℤ))]
      · congr 1; norm_num
      · refine ⟨⟨7074237752028440, -51, by decide, by decide, rfl⟩, ?_⟩
        refine lt_of_lt_of_le (b := 2 ^ (10 : ℤ)) (by norm_num [abs_of_pos]) ?_
        exact zpow_le_zpow_right₀ (by norm_num) (by decide)
    · rw [pi_double, tau_double]
      simp only [Fmt.mul]
      rw [← round_rep (F := float64) (q := ((7074237752028440 : ℤ) : ℚ) * 2 ^ (-50 : ℤ))]
      · congr 1; norm_num
      · refine ⟨⟨7074237752028440, -50, by decide, by decide, rfl⟩, ?_⟩
        refine lt_of_lt_of_le (b := 2 ^ (10 : ℤ)) (by norm_num [abs_of_pos]) ?_
        exact zpow_le_zpow_right₀ (by norm_num) (by decide)
  · constructor
    · rw [halfPi_longDouble, pi_longDouble]
      simp only [Fmt.mul]
      rw [← round_rep (F := float80) (q := ((7074237752028440 : ℤ) : ℚ) * 2 ^ (-51 : ℤ))]
      · congr 1; norm_num
      · refine ⟨⟨7074237752028440, -51, by decide, by decide, rfl⟩, ?_⟩
        refine lt_of_lt_of_le (b := 2 ^ (10 : ℤ)) (by norm_num [abs_of_pos]) ?_
        exact zpow_le_zpow_right₀ (by norm_num) (by decide)
    · rw [pi_longDouble, tau_longDouble]
      simp only [Fmt.mul]
      rw [← round_rep (F := float80) (q := ((7074237752028440 : ℤ) : ℚ) * 2 ^ (-50 : ℤ))]
      · congr 1; norm_num
      · refine ⟨⟨7074237752028440, -50, by decide, by decide, rfl⟩, ?_⟩
        refine lt_of_lt_of_le (b := 2 ^ (10 : ℤ)) (by norm_num [abs_of_pos]) ?_
        exact zpow_le_zpow_right₀ (by norm_num) (by decide)

/-- As `long double` (of 80 bits) no constant is: the literals are of type `double`, so most of the additional digits are lost. -/
theorem C83_longDouble_violated :
    ¬ IsNearest float80 (halfPi float80) (Real.pi / 2) ∧ ¬ IsNearest float80 (pi float80) Real.pi ∧
    ¬ IsNearest float80 (tau float80) (2 * Real.pi) ∧ ¬ IsNearest float80 (sqrt2 float80) √2 ∧
    ¬ IsNearest float80 (sqrt3 float80) √3 ∧ ¬ IsNearest float80 (sqrt5 float80) √5 := by
  have far : ∀ {v : FVal} {q r : ℚ} {c : ℝ}, v = .fin q → float80.Rep r → |(r : ℝ) - c| < |(q : ℝ) - c| → ¬ IsNearest float80 v c := by
    rintro v q r c h1 h2 h3 ⟨q', h4, -, h5⟩
    rw [h1] at h4
    injection h4 with h4
    subst h4
    exact absurd (h5 r h2) (not_le.2 h3)
  have rep : ∀ m e : ℤ, float80.emin ≤ e → |m| < 2 ^ float80.prec → e ≤ 0 → float80.Rep ((m : ℚ) * 2 ^ e) := by
    intro m e h1 h2 h3
    refine ⟨⟨m, e, h1, h2, rfl⟩, ?_⟩
    have h4 : |(m : ℚ)| < 2 ^ float80.prec := by exact_mod_cast h2
    rw [abs_mul, abs_of_pos (two_pow_pos e)]
    refine lt_of_lt_of_le (mul_lt_mul_of_pos_right h4 (two_pow_pos e)) ?_
    rw [← zpow_natCast, ← zpow_add₀ (by norm_num)]
    exact zpow_le_zpow_right₀ (by norm_num) (by simp only [float80]; omega)
  refine ⟨?_, ?_, ?_, ?_, ?_, ?_⟩
  · obtain ⟨h1, h2⟩ := pi_bounds
    refine far halfPi_longDouble (rep 14488038916154245685 (-63) (by decide) (by decide) (by decide)) ?_
    have hq : (1 / 2 ^ 60 : ℝ) < |(((7074237752028440 : ℤ) * 2 ^ (-52 : ℤ) : ℚ) : ℝ) - (Real.pi / 2)| := by
      rw [lt_abs]
      right
      norm_num at h1 h2 ⊢
      linarith
    have hr : |(((14488038916154245685 : ℤ) * 2 ^ (-63 : ℤ) : ℚ) : ℝ) - (Real.pi / 2)| < 1 / 2 ^ 60 := by
      rw [abs_lt]
      norm_num at h1 h2 ⊢
      constructor <;> linarith
    exact lt_trans hr hq
  · obtain ⟨h1, h2⟩ := pi_bounds
    refine far pi_longDouble (rep 14488038916154245685 (-62) (by decide) (by decide) (by decide)) ?_
    have hq : (1 / 2 ^ 60 : ℝ) < |(((7074237752028440 : ℤ) * 2 ^ (-51 : ℤ) : ℚ) : ℝ) - (Real.pi)| := by
      rw [lt_abs]
      right
      norm_num at h1 h2 ⊢
      linarith
    have hr : |(((14488038916154245685 : ℤ) * 2 ^ (-62 : ℤ) : ℚ) : ℝ) - (Real.pi)| < 1 / 2 ^ 60 := by
      rw [abs_lt]
      norm_num at h1 h2 ⊢
      constructor <;> linarith
    exact lt_trans hr hq
  · obtain ⟨h1, h2⟩ := pi_bounds
    refine far tau_longDouble (rep 14488038916154245685 (-61) (by decide) (by decide) (by decide)) ?_
    have hq : (1 / 2 ^ 60 : ℝ) < |(((7074237752028440 : ℤ) * 2 ^ (-50 : ℤ) : ℚ) : ℝ) - (2 * Real.pi)| := by
      rw [lt_abs]
      right
      norm_num at h1 h2 ⊢
      linarith
    have hr : |(((14488038916154245685 : ℤ) * 2 ^ (-61 : ℤ) : ℚ) : ℝ) - (2 * Real.pi)| < 1 / 2 ^ 60 := by
      rw [abs_lt]
      norm_num at h1 h2 ⊢
      constructor <;> linarith
    exact lt_trans hr hq
  · obtain ⟨h1, h2⟩ := sqrt2_bounds
    refine far sqrt2_longDouble (rep 13043817825332782212 (-63) (by decide) (by decide) (by decide)) ?_
    have hq : (1 / 2 ^ 60 : ℝ) < |(((6369051672525773 : ℤ) * 2 ^ (-52 : ℤ) : ℚ) : ℝ) - (√2)| := by
      rw [lt_abs]
      left
      norm_num at h1 h2 ⊢
      linarith
    have hr : |(((13043817825332782212 : ℤ) * 2 ^ (-63 : ℤ) : ℚ) : ℝ) - (√2)| < 1 / 2 ^ 60 := by
      rw [abs_lt]
      norm_num at h1 h2 ⊢
      constructor <;> linarith
    exact lt_trans hr hq
  · obtain ⟨h1, h2⟩ := sqrt3_bounds
    refine far sqrt3_longDouble (rep 15975348984942515102 (-63) (by decide) (by decide) (by decide)) ?_
    have hq : (1 / 2 ^ 60 : ℝ) < |(((7800463371553962 : ℤ) * 2 ^ (-52 : ℤ) : ℚ) : ℝ) - (√3)| := by
      rw [lt_abs]
      right
      norm_num at h1 h2 ⊢
      linarith
    have hr : |(((15975348984942515102 : ℤ) * 2 ^ (-63 : ℤ) : ℚ) : ℝ) - (√3)| < 1 / 2 ^ 60 := by
      rw [abs_lt]
      norm_num at h1 h2 ⊢
      constructor <;> linarith
    exact lt_trans hr hq
  · obtain ⟨h1, h2⟩ := sqrt5_bounds
    refine far sqrt5_longDouble (rep 10312043428088987147 (-62) (by decide) (by decide) (by decide)) ?_
    have hq : (1 / 2 ^ 60 : ℝ) < |(((5035177455121576 : ℤ) * 2 ^ (-51 : ℤ) : ℚ) : ℝ) - (√5)| := by
      rw [lt_abs]
      left
      norm_num at h1 h2 ⊢
      linarith
    have hr : |(((10312043428088987147 : ℤ) * 2 ^ (-62 : ℤ) : ℚ) : ℝ) - (√5)| < 1 / 2 ^ 60 := by
      rw [abs_lt]
      norm_num at h1 h2 ⊢
      constructor <;> linarith
    exact lt_trans hr hq

end Verif.FloatMath
