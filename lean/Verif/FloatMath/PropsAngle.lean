import Verif.FloatMath.PropsConst
import Verif.FloatMath.PropsLerp

/-!
# C84 limits, C85 angles
-/

namespace Verif.FloatMath

variable {F : Fmt}

/-! ## C84 -/

theorem rep_le_maxValue (r : ℚ) (hr : F.Rep r) : |r| ≤ F.maxValue := by
  obtain ⟨⟨m, e, he, hm, rfl⟩, hlt⟩ := hr
  have hm' : |(m : ℚ)| ≤ 2 ^ F.prec - 1 := by
    have : |m| ≤ 2 ^ F.prec - 1 := by omega
    exact_mod_cast this
  have h1 : (0 : ℚ) ≤ 2 ^ F.prec - 1 := le_trans (abs_nonneg _) hm'
  rcases le_or_gt e (F.emax - F.prec) with h | h
  · rw [abs_mul, abs_of_pos (two_pow_pos e)]
    unfold Fmt.maxValue
    exact mul_le_mul hm' (zpow_le_zpow_right₀ (by norm_num) h) (two_pow_pos e).le h1
  · -- a multiple of a power of two above: below `2 ^ emax` by at least that power
    have hpos := two_pow_pos (F.emax - F.prec)
    have e1 : (m : ℚ) * 2 ^ e = ((m * 2 ^ (e - (F.emax - F.prec)).toNat : ℤ) : ℚ) * 2 ^ (F.emax - F.prec) := by
      rw [← scaled_int h.le, div_mul_cancel₀ _ hpos.ne']
    rw [e1] at hlt ⊢
    generalize m * 2 ^ (e - (F.emax - F.prec)).toNat = n at *
    have htop : (2 : ℚ) ^ F.emax = 2 ^ F.prec * 2 ^ (F.emax - F.prec) := by
      rw [← zpow_natCast, ← zpow_add₀ (by norm_num)]; congr 1; ring
    rw [abs_mul, abs_of_pos hpos, htop] at hlt
    rw [abs_mul, abs_of_pos hpos]
    have h2 : |(n : ℚ)| < 2 ^ F.prec := lt_of_mul_lt_mul_right hlt hpos.le
    have h3 : |n| < 2 ^ F.prec := by exact_mod_cast h2
    have h4 : |(n : ℚ)| ≤ 2 ^ F.prec - 1 := by
      have : |n| ≤ 2 ^ F.prec - 1 := by omega
      exact_mod_cast this
    exact mul_le_mul_of_nonneg_right h4 hpos.le

/-- `MaxValue` of a floating-point type is its largest number, and its opposite the smallest. -/
theorem C84_max (hF : F.Valid) : F.Rep F.maxValue ∧ ∀ r, F.Rep r → r ≤ F.maxValue ∧ -F.maxValue ≤ r := by
  refine ⟨(C80_lerp_overflow hF).1, fun r hr => ?_⟩
  have := abs_le.1 (rep_le_maxValue r hr)
  exact ⟨this.2, this.1⟩

/-- `MinValue` of a floating-point type is not its smallest number: it is positive, so zero and all negative numbers are below it. -/
theorem C84_min_violated (hF : F.Valid) : F.Rep F.minValue ∧ (∀ r, r ≤ 0 → r < F.minValue) ∧ F.Rep (-1) := by
  have hp := hF.prec
  have hmin := hF.emin
  have hmax := hF.emax
  refine ⟨rep_two_pow hF (by omega) (by omega), fun r hr => lt_of_le_of_lt hr (two_pow_pos _), ?_⟩
  have := rep_two_pow hF (e := 0) (by omega) (by omega)
  rw [zpow_zero] at this
  exact rep_neg this

/-- What it is: the number from which on results are rounded with the full relative precision of the type, and just below which they are not. -/
theorem C84_min_partial (hF : F.Valid) :
    (∀ q, F.minValue ≤ |q| → |F.rnd q - q| ≤ 2 ^ (-(F.prec : ℤ)) * |q|) ∧
    ∃ q, 0 < q ∧ F.minValue - 2 ^ F.emin < q ∧ q < F.minValue ∧ 2 ^ (-(F.prec : ℤ)) * |q| < |F.rnd q - q| := by
  refine ⟨fun q h => rnd_error h, ?_⟩
  have hp := hF.prec
  have hu := two_pow_pos F.emin
  have hv : F.minValue = 2 ^ (F.prec - 1) * 2 ^ F.emin := by
    unfold Fmt.minValue
    rw [← zpow_natCast, ← zpow_add₀ (by norm_num)]
    congr 1
    push_cast [Nat.cast_sub (show 1 ≤ F.prec by omega)]
    ring
  have h4 : (4 : ℚ) ≤ 2 ^ (F.prec - 1) := by
    have := pow_le_pow_right₀ (a := (2 : ℚ)) (by norm_num) (show 2 ≤ F.prec - 1 by omega)
    norm_num at this ⊢
    linarith
  obtain ⟨m, e, he, -, hm⟩ := grid_rnd (F := F) hF.one_le ((2 ^ (F.prec - 1) - 1 / 2) * 2 ^ F.emin)
  refine ⟨(2 ^ (F.prec - 1) - 1 / 2) * 2 ^ F.emin, mul_pos (by linarith) hu, by rw [hv]; linarith, by rw [hv]; linarith, ?_⟩
  have e1 : (m : ℚ) * 2 ^ e = ((m * 2 ^ (e - F.emin).toNat : ℤ) : ℚ) * 2 ^ F.emin := by
    rw [← scaled_int he, div_mul_cancel₀ _ hu.ne']
  rw [hm, e1]
  generalize m * 2 ^ (e - F.emin).toNat = n
  rw [← sub_mul, abs_mul, abs_mul, abs_of_pos hu, ← mul_assoc]
  refine mul_lt_mul_of_pos_right ?_ hu
  have e2 : (2 : ℚ) ^ (-(F.prec : ℤ)) * 2 ^ (F.prec - 1) = 1 / 2 := by
    rw [← zpow_natCast, ← zpow_add₀ (by norm_num), show -(F.prec : ℤ) + ((F.prec - 1 : ℕ) : ℤ) = -1 by omega]
    norm_num
  have h5 : (1 / 2 : ℚ) ≤ |(n : ℚ) - (2 ^ (F.prec - 1) - 1 / 2)| := by
    have e3 : (n : ℚ) - (2 ^ (F.prec - 1) - 1 / 2) = ((n - 2 ^ (F.prec - 1) : ℤ) : ℚ) + 1 / 2 := by push_cast; ring
    rw [e3]
    generalize n - 2 ^ (F.prec - 1) = j
    rcases le_or_gt 0 j with h | h
    · have : (0 : ℚ) ≤ j := by exact_mod_cast h
      rw [abs_of_pos (by linarith)]
      linarith
    · have : (j : ℚ) ≤ -1 := by exact_mod_cast (show j ≤ -1 by omega)
      rw [abs_of_neg (by linarith)]
      linarith
  refine lt_of_lt_of_le ?_ h5
  rw [abs_of_pos (by linarith), mul_sub, e2]
  linarith [two_pow_pos (-(F.prec : ℤ))]

/-- Integers: the largest and the smallest value of the type. -/
theorem C84_integers {w : Nat} (hw : 1 ≤ w) :
    (∀ x : BitVec w, intMin true w ≤ x.toInt ∧ x.toInt ≤ intMax true w ∧ intMin false w ≤ x.toNat ∧ (x.toNat : Int) ≤ intMax false w) ∧
    (∃ x : BitVec w, x.toInt = intMax true w) ∧ (∃ x : BitVec w, x.toInt = intMin true w) ∧ (∃ x : BitVec w, (x.toNat : Int) = intMax false w) ∧
    (∃ x : BitVec w, (x.toNat : Int) = intMin false w) := by
  obtain ⟨k, rfl⟩ : ∃ k, w = k + 1 := ⟨w - 1, by omega⟩
  have hk : (0 : Int) < 2 ^ k := by positivity
  have hkn : 0 < 2 ^ k := by positivity
  have e : (2 : ℕ) ^ (k + 1) = 2 * 2 ^ k := by rw [pow_succ]; ring
  have ez : (2 : ℤ) ^ (k + 1) = 2 * 2 ^ k := by rw [pow_succ]; ring
  have ec : ((2 ^ k : ℕ) : ℤ) = 2 ^ k := by push_cast; rfl
  simp only [intMin, intMax, if_true, Bool.false_eq_true, if_false, Nat.add_sub_cancel]
  refine ⟨fun x => ?_, ⟨BitVec.ofNat _ (2 ^ k - 1), ?_⟩, ⟨BitVec.ofNat _ (2 ^ k), ?_⟩, ⟨BitVec.ofNat _ (2 ^ (k + 1) - 1), ?_⟩, ⟨0, by simp⟩⟩
  · have h1 := x.isLt
    rw [BitVec.toInt_eq_toNat_cond]
    rw [e] at h1 ⊢
    split_ifs <;> omega
  · rw [BitVec.toInt_eq_toNat_cond, BitVec.toNat_ofNat, Nat.mod_eq_of_lt (by omega), if_pos (by omega)]
    omega
  · rw [BitVec.toInt_eq_toNat_cond, BitVec.toNat_ofNat, Nat.mod_eq_of_lt (by omega), if_neg (by omega), e]
    push_cast
    omega
  · rw [BitVec.toNat_ofNat, Nat.mod_eq_of_lt (by omega), e]
    omega

example : ∃ r : ℚ, float32.Rep r ∧ r ≤ 0 := ⟨0, rep_zero, le_refl _⟩

/-! ## C85 -/

theorem mul_fin (x y : ℚ) : F.mul (.fin x) (.fin y) = F.round (x * y) := rfl

/-- `Pi<T>()` for the types considered. -/
theorem pi_value (F : Fmt) (h : F = float32 ∨ F = float64) :
    ∃ P : ℚ, pi F = .fin P ∧ 3 < P ∧ P < 4 ∧ |(P : ℝ) - Real.pi| ≤ 2 ^ (-(F.prec : ℤ)) * Real.pi := by
  obtain ⟨h1, h2⟩ := pi_bounds
  rcases h with rfl | rfl
  · refine ⟨_, pi_float, by norm_num, by norm_num, ?_⟩
    simp only [float32]
    rw [abs_le]
    norm_num at h1 h2 ⊢
    constructor <;> linarith
  · refine ⟨_, pi_double, by norm_num, by norm_num, ?_⟩
    simp only [float64]
    rw [abs_le]
    norm_num at h1 h2 ⊢
    constructor <;> linarith

/-- The factor by which degrees are multiplied. -/
theorem toRad_factor (hF : F.Valid) (hp10 : 10 ≤ F.prec) {P : ℚ} (hP : 3 < P) (hP' : P < 4) :
    F.div false (.fin P) (F.round 180) = .fin (F.rnd (P / 180)) ∧ 1 / 64 ≤ F.rnd (P / 180) ∧ F.rnd (P / 180) ≤ 1 / 32 ∧
      |F.rnd (P / 180) - P / 180| ≤ 2 ^ (-(F.prec : ℤ)) * (P / 180) := by
  have hmin := hF.emin
  have hmax := hF.emax
  have h180 : F.Rep 180 := by
    have := rep_int hF (n := 180) (by
      rw [abs_of_pos (by norm_num)]
      exact lt_of_lt_of_le (show (180 : ℤ) < 2 ^ 10 by norm_num) (pow_le_pow_right₀ (by norm_num) hp10))
    push_cast at this; exact this
  have hq1 : 1 / 64 ≤ P / 180 := by linarith
  have hq2 : P / 180 ≤ 1 / 32 := by linarith
  have p64 : (1 / 64 : ℚ) = 2 ^ (-6 : ℤ) := by norm_num
  have p32 : (1 / 32 : ℚ) = 2 ^ (-5 : ℤ) := by norm_num
  have r64 : F.Rep (1 / 64) := by rw [p64]; exact rep_two_pow hF (by omega) (by omega)
  have r32 : F.Rep (1 / 32) := by rw [p32]; exact rep_two_pow hF (by omega) (by omega)
  have hrep : F.Rep (F.rnd (P / 180)) := rep_rnd hF.one_le r32 (by rw [abs_of_pos (by linarith), abs_of_pos (by norm_num)]; exact hq2)
  refine ⟨?_, ?_, ?_, ?_⟩
  · rw [round_rep h180]
    simp only [Fmt.div]
    rw [if_neg (by norm_num), round_of_rep_rnd hrep]
  · have := rnd_mono (F := F) hF.one_le hq1; rwa [rnd_grid r64.1] at this
  · have := rnd_mono (F := F) hF.one_le hq2; rwa [rnd_grid r32.1] at this
  · have := rnd_error (F := F) (q := P / 180) (by
      rw [abs_of_pos (by linarith)]
      refine le_trans ?_ hq1
      rw [p64]
      exact zpow_le_zpow_right₀ (by norm_num) (by omega))
    rwa [abs_of_pos (show 0 < P / 180 by linarith)] at this

/-- The factor by which radians are multiplied. -/
theorem toDeg_factor (hF : F.Valid) (hp10 : 10 ≤ F.prec) {P : ℚ} (hP : 3 < P) (hP' : P < 4) :
    F.div false (F.round 180) (.fin P) = .fin (F.rnd (180 / P)) ∧ 32 ≤ F.rnd (180 / P) ∧ F.rnd (180 / P) ≤ 64 ∧
      |F.rnd (180 / P) - 180 / P| ≤ 2 ^ (-(F.prec : ℤ)) * (180 / P) := by
  have hmin := hF.emin
  have hmax := hF.emax
  have h180 : F.Rep 180 := by
    have := rep_int hF (n := 180) (by
      rw [abs_of_pos (by norm_num)]
      exact lt_of_lt_of_le (show (180 : ℤ) < 2 ^ 10 by norm_num) (pow_le_pow_right₀ (by norm_num) hp10))
    push_cast at this; exact this
  have hP0 : 0 < P := by linarith
  have hq1 : 32 ≤ 180 / P := by rw [le_div_iff₀ hP0]; linarith
  have hq2 : 180 / P ≤ 64 := by rw [div_le_iff₀ hP0]; linarith
  have p64 : (64 : ℚ) = 2 ^ (6 : ℤ) := by norm_num
  have p32 : (32 : ℚ) = 2 ^ (5 : ℤ) := by norm_num
  have r64 : F.Rep 64 := by rw [p64]; exact rep_two_pow hF (by omega) (by omega)
  have r32 : F.Rep 32 := by rw [p32]; exact rep_two_pow hF (by omega) (by omega)
  have hrep : F.Rep (F.rnd (180 / P)) := rep_rnd hF.one_le r64 (by rw [abs_of_pos (by linarith), abs_of_pos (by norm_num)]; exact hq2)
  refine ⟨?_, ?_, ?_, ?_⟩
  · rw [round_rep h180]
    simp only [Fmt.div]
    rw [if_neg hP0.ne', round_of_rep_rnd hrep]
  · have := rnd_mono (F := F) hF.one_le hq1; rwa [rnd_grid r32.1] at this
  · have := rnd_mono (F := F) hF.one_le hq2; rwa [rnd_grid r64.1] at this
  · have := rnd_error (F := F) (q := 180 / P) (by
      rw [abs_of_pos (by linarith)]
      refine le_trans ?_ hq1
      rw [p32]
      exact zpow_le_zpow_right₀ (by norm_num) (by omega))
    rwa [abs_of_pos (show 0 < 180 / P by linarith)] at this

theorem type_valid (h : F = float32 ∨ F = float64) : F.Valid ∧ 10 ≤ F.prec := by
  rcases h with rfl | rfl
  · exact ⟨float32_valid, by decide⟩
  · exact ⟨float64_valid, by decide⟩

/-- The conversions keep the order of angles, and turn opposite angles into opposite angles. -/
theorem C85_mono (h : F = float32 ∨ F = float64) (a b : ℚ) (hab : a ≤ b) :
    (degreeToRadian F (.fin a)).le (degreeToRadian F (.fin b)) = true ∧ (radianToDegree F (.fin a)).le (radianToDegree F (.fin b)) = true ∧
    degreeToRadian F (.fin (-a)) = (degreeToRadian F (.fin a)).neg ∧ radianToDegree F (.fin (-a)) = (radianToDegree F (.fin a)).neg := by
  obtain ⟨hF, hp⟩ := type_valid h
  obtain ⟨P, hP, h3, h4, -⟩ := pi_value F h
  obtain ⟨e1, l1, -, -⟩ := toRad_factor hF hp h3 h4
  obtain ⟨e2, l2, -, -⟩ := toDeg_factor hF hp h3 h4
  unfold degreeToRadian radianToDegree
  rw [hP, e1, e2]
  simp only [mul_fin]
  refine ⟨round_le_round hF.one_le (mul_le_mul_of_nonneg_right hab (by linarith)),
    round_le_round hF.one_le (mul_le_mul_of_nonneg_right hab (by linarith)), ?_, ?_⟩
  · rw [neg_mul, round_neg]
  · rw [neg_mul, round_neg]

/-- Error of a result: relative for numbers with all their digits, half a unit of the last place for the smaller ones. -/
theorem rnd_error_max (q : ℚ) : |F.rnd q - q| ≤ 2 ^ (-(F.prec : ℤ)) * max |q| F.minValue := by
  rcases le_or_gt F.minValue |q| with h | h
  · rw [max_eq_left h]; exact rnd_error h
  · rw [max_eq_right h.le]
    by_cases hq : q = 0
    · subst hq
      rw [rnd_zero, sub_zero, abs_zero]
      exact mul_nonneg (two_pow_pos _).le (two_pow_pos _).le
    have hpos := two_pow_pos (F.expOf q)
    have e1 : |F.rnd q - q| ≤ 1 / 2 * 2 ^ F.expOf q := by
      have := mul_le_mul_of_nonneg_right (roundEven_near (q / 2 ^ F.expOf q)) hpos.le
      rwa [← abs_of_pos hpos, ← abs_mul, abs_of_pos hpos, sub_mul, div_mul_cancel₀ _ hpos.ne'] at this
    have e2 : F.expOf q ≤ F.emin := expOf_le hq (le_refl _) (lt_of_lt_of_le h (zpow_le_zpow_right₀ (by norm_num) (by omega)))
    have e3 : (2 : ℚ) ^ F.expOf q ≤ 2 ^ F.emin := zpow_le_zpow_right₀ (by norm_num) e2
    refine le_trans e1 (le_trans (mul_le_mul_of_nonneg_left e3 (by norm_num)) (le_of_eq ?_))
    unfold Fmt.minValue
    rw [← zpow_add₀ (by norm_num), show -(F.prec : ℤ) + (F.emin + F.prec - 1) = F.emin - 1 by ring, zpow_sub_one₀ (by norm_num)]
    ring

theorem minValue_pos : 0 < F.minValue := two_pow_pos _

theorem maxValue_eq : F.maxValue = (1 - 2 ^ (-(F.prec : ℤ))) * 2 ^ F.emax := by
  unfold Fmt.maxValue
  have h : (2 : ℚ) ^ (F.emax - F.prec) = 2 ^ (-(F.prec : ℤ)) * 2 ^ F.emax := by rw [← zpow_add₀ (by norm_num)]; congr 1; ring
  have h2 : (2 : ℚ) ^ F.prec * 2 ^ (-(F.prec : ℤ)) = 1 := by rw [zpow_neg, zpow_natCast, mul_inv_cancel₀ (by positivity)]
  rw [h, sub_mul, sub_mul, ← mul_assoc, h2, one_mul, one_mul]

theorem small_real (hp : 10 ≤ F.prec) : (2 : ℝ) ^ (-(F.prec : ℤ)) ≤ 1 / 1024 := by
  have := zpow_le_zpow_right₀ (a := (2 : ℝ)) (by norm_num) (show -(F.prec : ℤ) ≤ -10 by omega)
  norm_num at this ⊢
  linarith

/-- All angles: the conversion to radians gives a number of the type, whose distance to the exact angle is at most `4 * 2 ^ -prec` (two units in the last place of 1) times that angle, or times the
smallest number with all its digits if the angle is below it. -/
theorem C85_degreeToRadian (h : F = float32 ∨ F = float64) (d : ℚ) (hd : F.Rep d) :
    ∃ r, degreeToRadian F (.fin d) = .fin r ∧ F.Rep r ∧
      |(r : ℝ) - d * Real.pi / 180| ≤ 4 * 2 ^ (-(F.prec : ℤ)) * max |d * Real.pi / 180| (F.minValue : ℝ) := by
  obtain ⟨hF, hp⟩ := type_valid h
  obtain ⟨P, hP, h3, h4, h5⟩ := pi_value F h
  obtain ⟨e1, l1, l2, l3⟩ := toRad_factor hF hp h3 h4
  have hmin := hF.emin
  generalize hk : F.rnd (P / 180) = k at *
  have hrep : F.Rep (F.rnd (d * k)) := rep_rnd hF.one_le hd (by
    rw [abs_mul, abs_of_pos (show 0 < k by linarith)]
    nlinarith [abs_nonneg d])
  have herr := rnd_error_max (F := F) (d * k)
  refine ⟨F.rnd (d * k), ?_, hrep, ?_⟩
  · unfold degreeToRadian
    rw [hP, e1, mul_fin, round_of_rep_rnd hrep]
  · have hε : (2 : ℝ) ^ (-(F.prec : ℤ)) ≤ 1 / 1024 := by
      have := zpow_le_zpow_right₀ (a := (2 : ℝ)) (by norm_num) (show -(F.prec : ℤ) ≤ -10 by omega)
      norm_num at this ⊢
      linarith
    have hε0 : (0 : ℝ) < 2 ^ (-(F.prec : ℤ)) := zpow_pos (by norm_num) _
    have herr' : |((F.rnd (d * k) : ℚ) : ℝ) - d * k| ≤ 2 ^ (-(F.prec : ℤ)) * max |(d : ℝ) * k| (F.minValue : ℝ) := by
      have := (Rat.cast_le (K := ℝ)).2 herr
      push_cast at this
      exact this
    have l3' : |(k : ℝ) - P / 180| ≤ 2 ^ (-(F.prec : ℤ)) * (P / 180) := by
      have := (Rat.cast_le (K := ℝ)).2 l3
      push_cast at this
      exact this
    generalize (2 : ℝ) ^ (-(F.prec : ℤ)) = ε at *
    generalize ((F.rnd (d * k) : ℚ) : ℝ) = r at *
    have hpi := Real.pi_pos
    -- the factor is near pi / 180
    have hkπ : |(k : ℝ) - Real.pi / 180| ≤ (2 * ε + ε * ε) * (Real.pi / 180) := by
      rw [abs_le] at h5 l3' ⊢
      constructor <;> nlinarith
    have hk0 : |(k : ℝ)| ≤ (1 + (2 * ε + ε * ε)) * (Real.pi / 180) := by
      rw [abs_le] at hkπ ⊢
      constructor <;> nlinarith
    have t1 : |(d : ℝ) * k - d * Real.pi / 180| ≤ (2 * ε + ε * ε) * |(d : ℝ) * Real.pi / 180| := by
      have : (d : ℝ) * k - d * Real.pi / 180 = d * (k - Real.pi / 180) := by ring
      rw [this, abs_mul]
      have e : |(d : ℝ) * Real.pi / 180| = |(d : ℝ)| * (Real.pi / 180) := by
        rw [mul_div_assoc, abs_mul, abs_of_pos (by positivity : (0 : ℝ) < Real.pi / 180)]
      rw [e]
      calc |(d : ℝ)| * |(k : ℝ) - Real.pi / 180| ≤ |(d : ℝ)| * ((2 * ε + ε * ε) * (Real.pi / 180)) := mul_le_mul_of_nonneg_left hkπ (abs_nonneg _)
        _ = _ := by ring
    have t2 : |(d : ℝ) * k| ≤ (1 + (2 * ε + ε * ε)) * |(d : ℝ) * Real.pi / 180| := by
      have e : |(d : ℝ) * Real.pi / 180| = |(d : ℝ)| * (Real.pi / 180) := by
        rw [mul_div_assoc, abs_mul, abs_of_pos (by positivity : (0 : ℝ) < Real.pi / 180)]
      rw [e, abs_mul]
      calc |(d : ℝ)| * |(k : ℝ)| ≤ |(d : ℝ)| * ((1 + (2 * ε + ε * ε)) * (Real.pi / 180)) := mul_le_mul_of_nonneg_left hk0 (abs_nonneg _)
        _ = _ := by ring
    have t3 := abs_sub_le r ((d : ℝ) * k) (d * Real.pi / 180)
    have hD := abs_nonneg ((d : ℝ) * Real.pi / 180)
    have hN : (0 : ℝ) < F.minValue := by exact_mod_cast minValue_pos (F := F)
    generalize |(d : ℝ) * Real.pi / 180| = D at *
    generalize (F.minValue : ℝ) = N at *
    have hDM := le_max_left D N
    have hNM := le_max_right D N
    generalize max D N = M at *
    have t4 : max |(d : ℝ) * k| N ≤ (1 + (2 * ε + ε * ε)) * M :=
      max_le (t2.trans (mul_le_mul_of_nonneg_left hDM (by positivity))) (by nlinarith [mul_pos hε0 hε0, mul_nonneg hε0.le (hN.le.trans hNM)])
    have t4' : ε * max |(d : ℝ) * k| N ≤ ε * ((1 + (2 * ε + ε * ε)) * M) := mul_le_mul_of_nonneg_left t4 hε0.le
    have t1' : (2 * ε + ε * ε) * D ≤ (2 * ε + ε * ε) * M := mul_le_mul_of_nonneg_left hDM (by positivity)
    have t5 : ε * ((1 + (2 * ε + ε * ε)) * M) + (2 * ε + ε * ε) * M ≤ 4 * ε * M := by
      have : ε * (1 + (2 * ε + ε * ε)) + (2 * ε + ε * ε) ≤ 4 * ε := by nlinarith [mul_pos hε0 hε0]
      nlinarith
    linarith

/-- The factor from radians to degrees is near `180 / pi`. -/
theorem toDeg_near (h : F = float32 ∨ F = float64) :
    ∃ k : ℚ, F.div false (F.round 180) (pi F) = .fin k ∧ 32 ≤ k ∧ k ≤ 64 ∧ |(k : ℝ) * (Real.pi / 180) - 1| ≤ (9 / 4) * 2 ^ (-(F.prec : ℤ)) := by
  obtain ⟨hF, hp⟩ := type_valid h
  obtain ⟨P, hP, h3, h4, h5⟩ := pi_value F h
  obtain ⟨e1, l1, l2, l3⟩ := toDeg_factor hF hp h3 h4
  refine ⟨F.rnd (180 / P), by rw [hP, e1], l1, l2, ?_⟩
  generalize hk : F.rnd (180 / P) = k at *
  · have hε := small_real hp
    have hε0 : (0 : ℝ) < 2 ^ (-(F.prec : ℤ)) := zpow_pos (by norm_num) _
    have l3' : |(k : ℝ) - 180 / P| ≤ 2 ^ (-(F.prec : ℤ)) * (180 / P) := by
      have := (Rat.cast_le (K := ℝ)).2 l3
      push_cast at this
      exact this
    have hP0 : (0 : ℝ) < P := by exact_mod_cast (show (0 : ℚ) < P by linarith)
    generalize (2 : ℝ) ^ (-(F.prec : ℤ)) = ε at *
    have hpi := Real.pi_pos
    have hεε : ε * ε ≤ ε * (1 / 1024) := mul_le_mul_of_nonneg_left hε hε0.le
    -- in units of 180 / pi
    have hg : |Real.pi / P - 1| ≤ 513 / 512 * ε := by
      have e : Real.pi / P - 1 = (Real.pi - P) / P := by field_simp
      rw [e, abs_div, abs_of_pos hP0, div_le_iff₀ hP0, abs_sub_comm]
      refine h5.trans ?_
      have : Real.pi * (1 - ε) ≤ P := by have := (abs_le.1 h5).1; linarith
      have h6 : Real.pi * (511 / 512) ≤ P * (512 / 513 : ℝ) + Real.pi / 512 := by nlinarith
      nlinarith
    have hkπ : |(k : ℝ) * (Real.pi / 180) - 1| ≤ (9 / 4) * ε := by
      have e : (k : ℝ) * (Real.pi / 180) - 1 = (k - 180 / P) * (P / 180) * (Real.pi / P) + (Real.pi / P - 1) := by field_simp; ring
      rw [e]
      have a1 : |((k : ℝ) - 180 / P) * (P / 180)| ≤ ε := by
        rw [abs_mul, abs_of_pos (by positivity : (0 : ℝ) < P / 180)]
        calc |(k : ℝ) - 180 / P| * (P / 180) ≤ ε * (180 / P) * (P / 180) := mul_le_mul_of_nonneg_right l3' (by positivity)
          _ = ε := by field_simp
      have a2 : |Real.pi / P| ≤ 1 + 513 / 512 * ε := by
        have := abs_sub_abs_le_abs_sub (Real.pi / P) 1
        rw [abs_one] at this
        linarith
      have a3 := abs_add_le (((k : ℝ) - 180 / P) * (P / 180) * (Real.pi / P)) (Real.pi / P - 1)
      rw [abs_mul] at a3
      have a4 := mul_le_mul a1 a2 (abs_nonneg _) hε0.le
      linarith
    exact hkπ

/-- Same for radians to degrees, for all angles whose exact value in degrees is in the range of the type (up to four units in the last place of its end). -/
theorem C85_radianToDegree (h : F = float32 ∨ F = float64) (x : ℚ) (h2 : |(x : ℝ) * 180 / Real.pi| ≤ (1 - 4 * 2 ^ (-(F.prec : ℤ))) * 2 ^ F.emax) :
    ∃ r, radianToDegree F (.fin x) = .fin r ∧ F.Rep r ∧
      |(r : ℝ) - x * 180 / Real.pi| ≤ 4 * 2 ^ (-(F.prec : ℤ)) * max |x * 180 / Real.pi| (F.minValue : ℝ) := by
  obtain ⟨hF, hp⟩ := type_valid h
  obtain ⟨k, e1, l1, l2, hkπ⟩ := toDeg_near h
  have hk0 : 0 < k := by linarith
  have hε := small_real hp
  have hε0 : (0 : ℝ) < 2 ^ (-(F.prec : ℤ)) := zpow_pos (by norm_num) _
  have hpi := Real.pi_pos
  have e : (x : ℝ) * 180 / Real.pi * (k * (Real.pi / 180)) = x * k := by field_simp
  have hD := abs_nonneg ((x : ℝ) * 180 / Real.pi)
  have hT : (0 : ℝ) < 2 ^ F.emax := zpow_pos (by norm_num) _
  have b1 : |(x : ℝ) * k - x * 180 / Real.pi| ≤ 9 / 4 * 2 ^ (-(F.prec : ℤ)) * |(x : ℝ) * 180 / Real.pi| := by
    rw [← e]
    generalize (x : ℝ) * 180 / Real.pi = D at *
    generalize (k : ℝ) * (Real.pi / 180) = g at *
    have : D * g - D = D * (g - 1) := by ring
    rw [this, abs_mul, mul_comm]
    exact mul_le_mul_of_nonneg_right hkπ hD
  have b2 : |(x : ℝ) * k| ≤ (1 + 9 / 4 * 2 ^ (-(F.prec : ℤ))) * |(x : ℝ) * 180 / Real.pi| := by
    have := abs_sub_abs_le_abs_sub ((x : ℝ) * k) (x * 180 / Real.pi)
    linarith
  have hrep : F.Rep (F.rnd (x * k)) := by
    have hmax := C84_max (F := F) hF
    refine rep_rnd hF.one_le hmax.1 ?_
    have hnn : 0 ≤ F.maxValue := by linarith [(hmax.2 _ (rep_zero (F := F))).1]
    rw [abs_of_nonneg hnn, maxValue_eq, ← Rat.cast_le (K := ℝ)]
    push_cast
    refine b2.trans (le_trans (mul_le_mul_of_nonneg_left h2 (by positivity)) ?_)
    rw [← mul_assoc]
    refine mul_le_mul_of_nonneg_right ?_ hT.le
    generalize (2 : ℝ) ^ (-(F.prec : ℤ)) = ε at *
    nlinarith [mul_pos hε0 hε0]
  refine ⟨F.rnd (x * k), ?_, hrep, ?_⟩
  · unfold radianToDegree
    rw [e1, mul_fin, round_of_rep_rnd hrep]
  · have herr' : |((F.rnd (x * k) : ℚ) : ℝ) - x * k| ≤ 2 ^ (-(F.prec : ℤ)) * max |(x : ℝ) * k| (F.minValue : ℝ) := by
      have := (Rat.cast_le (K := ℝ)).2 (rnd_error_max (F := F) (x * k))
      push_cast at this
      exact this
    have b4 := abs_sub_le ((F.rnd (x * k) : ℚ) : ℝ) ((x : ℝ) * k) (x * 180 / Real.pi)
    have hN : (0 : ℝ) < F.minValue := by exact_mod_cast minValue_pos (F := F)
    generalize |(x : ℝ) * 180 / Real.pi| = D at *
    generalize (F.minValue : ℝ) = N at *
    have hDM := le_max_left D N
    have hNM := le_max_right D N
    generalize max D N = M at *
    generalize (2 : ℝ) ^ (-(F.prec : ℤ)) = ε at *
    have t4 : max |(x : ℝ) * k| N ≤ (1 + 9 / 4 * ε) * M :=
      max_le (b2.trans (mul_le_mul_of_nonneg_left hDM (by positivity))) (by nlinarith [mul_nonneg hε0.le (hN.le.trans hNM)])
    have t4' : ε * max |(x : ℝ) * k| N ≤ ε * ((1 + 9 / 4 * ε) * M) := mul_le_mul_of_nonneg_left t4 hε0.le
    have t1' : 9 / 4 * ε * D ≤ 9 / 4 * ε * M := mul_le_mul_of_nonneg_left hDM (by positivity)
    have hεε : ε * ε ≤ ε * (1 / 1024) := mul_le_mul_of_nonneg_left hε hε0.le
    have b5 : ε * (1 + 9 / 4 * ε) + 9 / 4 * ε ≤ 4 * ε := by linarith
    have b6 := mul_le_mul_of_nonneg_right b5 (hN.le.trans hNM)
    linarith

/-- Beyond that range the result is an infinity, of the sign of the angle. -/
theorem C85_radianToDegree_overflow (h : F = float32 ∨ F = float64) (x : ℚ) (h2 : (1 + 4 * 2 ^ (-(F.prec : ℤ))) * 2 ^ F.emax ≤ |(x : ℝ) * 180 / Real.pi|) :
    radianToDegree F (.fin x) = .inf (decide (x < 0)) := by
  obtain ⟨hF, hp⟩ := type_valid h
  obtain ⟨k, e1, l1, l2, hkπ⟩ := toDeg_near h
  have hk0 : 0 < k := by linarith
  have hε := small_real hp
  have hε0 : (0 : ℝ) < 2 ^ (-(F.prec : ℤ)) := zpow_pos (by norm_num) _
  have hpi := Real.pi_pos
  have hmin := hF.emin
  have hmax := hF.emax
  have e : (x : ℝ) * 180 / Real.pi * (k * (Real.pi / 180)) = x * k := by field_simp
  have hD := abs_nonneg ((x : ℝ) * 180 / Real.pi)
  have hT : (0 : ℝ) < 2 ^ F.emax := zpow_pos (by norm_num) _
  have b1 : |x * 180 / Real.pi - (x : ℝ) * k| ≤ 9 / 4 * 2 ^ (-(F.prec : ℤ)) * |(x : ℝ) * 180 / Real.pi| := by
    rw [abs_sub_comm, ← e]
    generalize (x : ℝ) * 180 / Real.pi = D at *
    generalize (k : ℝ) * (Real.pi / 180) = g at *
    have : D * g - D = D * (g - 1) := by ring
    rw [this, abs_mul, mul_comm]
    exact mul_le_mul_of_nonneg_right hkπ hD
  have b2 : (1 - 9 / 4 * 2 ^ (-(F.prec : ℤ))) * |(x : ℝ) * 180 / Real.pi| ≤ |(x : ℝ) * k| := by
    have := abs_sub_abs_le_abs_sub (x * 180 / Real.pi) ((x : ℝ) * k)
    linarith
  have b3 : (2 : ℝ) ^ F.emax ≤ |(x : ℝ) * k| := by
    refine le_trans (le_trans ?_ (mul_le_mul_of_nonneg_left h2 (by linarith))) b2
    rw [← mul_assoc]
    refine le_mul_of_one_le_left hT.le ?_
    generalize (2 : ℝ) ^ (-(F.prec : ℤ)) = ε at *
    have hεε : ε * ε ≤ ε * (1 / 1024) := mul_le_mul_of_nonneg_left hε hε0.le
    nlinarith
  have b4 : (2 : ℚ) ^ F.emax ≤ |x * k| := by
    rw [← Rat.cast_le (K := ℝ)]
    push_cast
    exact b3
  have b5 : ¬ |F.rnd (x * k)| < 2 ^ F.emax := by
    rw [not_lt]
    have hg : F.rnd (2 ^ F.emax) = 2 ^ F.emax := rnd_grid (grid_two_pow hF.one_le (by omega))
    rcases le_total 0 (x * k) with h0 | h0
    · rw [abs_of_nonneg h0] at b4
      have := rnd_mono (F := F) hF.one_le b4
      rw [hg] at this
      exact this.trans (le_abs_self _)
    · rw [abs_of_nonpos h0] at b4
      have := rnd_mono (F := F) hF.one_le b4
      rw [hg, rnd_neg] at this
      exact this.trans (neg_le_abs _)
  unfold radianToDegree
  rw [e1, mul_fin]
  unfold Fmt.round
  rw [if_neg b5]
  congr 1
  rw [decide_eq_decide]
  constructor
  · intro h; by_contra hx; exact absurd (mul_nonneg (not_lt.1 hx) hk0.le) (not_le.2 h)
  · intro h; exact mul_neg_of_neg_of_pos h hk0

/-- From degrees to radians and back, for angles that are not at the very end of the range: the result is a number of the type that differs from the angle by at most `5 * 2 ^ -prec` times the angle
(or times the smallest angle whose conversion has all its digits, if the angle is below it). -/
theorem C85_roundTrip (h : F = float32 ∨ F = float64) (d : ℚ) (hd : F.Rep d) (h2 : |d| ≤ (1 - 8 * 2 ^ (-(F.prec : ℤ))) * 2 ^ F.emax) :
    ∃ r, radianToDegree F (degreeToRadian F (.fin d)) = .fin r ∧ F.Rep r ∧ |r - d| ≤ 5 * 2 ^ (-(F.prec : ℤ)) * max |d| (64 * F.minValue) := by
  obtain ⟨hF, hp⟩ := type_valid h
  obtain ⟨P, hP, h3, h4, -⟩ := pi_value F h
  obtain ⟨e1, l1, l2, l3⟩ := toRad_factor hF hp h3 h4
  obtain ⟨e2, m1, m2, m3⟩ := toDeg_factor hF hp h3 h4
  have hmin := hF.emin
  have hmax := hF.emax
  generalize hk : F.rnd (P / 180) = k at *
  generalize hk' : F.rnd (180 / P) = k' at *
  have hk0 : 0 < k := by linarith
  have hk'0 : 0 < k' := by linarith
  have hP0 : 0 < P := by linarith
  have hrep : F.Rep (F.rnd (d * k)) := rep_rnd hF.one_le hd (by
    rw [abs_mul, abs_of_pos hk0]
    nlinarith [abs_nonneg d])
  have herr := rnd_error_max (F := F) (d * k)
  have hN := minValue_pos (F := F)
  have hNT : 64 * F.minValue ≤ (1 - 8 * 2 ^ (-(F.prec : ℤ))) * 2 ^ F.emax := by
    have a1 : F.minValue ≤ 2 ^ (-(12 : ℤ)) := zpow_le_zpow_right₀ (by norm_num) (by omega)
    have a2 : (1 : ℚ) ≤ 2 ^ F.emax := one_le_zpow₀ (by norm_num) (by omega)
    have a3 : (2 : ℚ) ^ (-(F.prec : ℤ)) ≤ 2 ^ (-(10 : ℤ)) := zpow_le_zpow_right₀ (by norm_num) (by omega)
    have a4 : (2 : ℚ) ^ (-(12 : ℤ)) = 1 / 4096 := by norm_num
    have a5 : (2 : ℚ) ^ (-(10 : ℤ)) = 1 / 1024 := by norm_num
    rw [a4] at a1
    rw [a5] at a3
    have a6 : (1 / 2 : ℚ) ≤ 1 - 8 * 2 ^ (-(F.prec : ℤ)) := by linarith
    have a7 := mul_le_mul a6 a2 (by norm_num) (by linarith)
    linarith
  have hε : (2 : ℚ) ^ (-(F.prec : ℤ)) ≤ 1 / 1024 := by
    have := zpow_le_zpow_right₀ (a := (2 : ℚ)) (by norm_num) (show -(F.prec : ℤ) ≤ -10 by omega)
    norm_num at this ⊢
    linarith
  have hε0 := two_pow_pos (-(F.prec : ℤ))
  generalize hr : F.rnd (d * k) = r at *
  have hD := abs_nonneg d
  -- the product of the factors is near 1
  have hkk : |k * k' - 1| ≤ 2 * (2 : ℚ) ^ (-(F.prec : ℤ)) + 2 ^ (-(F.prec : ℤ)) * 2 ^ (-(F.prec : ℤ)) := by
    generalize (2 : ℚ) ^ (-(F.prec : ℤ)) = ε at *
    have n1 : |k * (180 / P) - 1| ≤ ε := by
      have : k * (180 / P) - 1 = (k - P / 180) * (180 / P) := by field_simp
      rw [this, abs_mul, abs_of_pos (by positivity : 0 < 180 / P)]
      calc |k - P / 180| * (180 / P) ≤ ε * (P / 180) * (180 / P) := mul_le_mul_of_nonneg_right l3 (by positivity)
        _ = ε := by field_simp
    have n2 : |k' * (P / 180) - 1| ≤ ε := by
      have : k' * (P / 180) - 1 = (k' - 180 / P) * (P / 180) := by field_simp
      rw [this, abs_mul, abs_of_pos (by positivity : 0 < P / 180)]
      calc |k' - 180 / P| * (P / 180) ≤ ε * (180 / P) * (P / 180) := mul_le_mul_of_nonneg_right m3 (by positivity)
        _ = ε := by field_simp
    have n3 : k * k' = (k * (180 / P)) * (k' * (P / 180)) := by field_simp
    rw [n3]
    generalize k * (180 / P) = a at *
    generalize k' * (P / 180) = b at *
    have : a * b - 1 = (a - 1) * (b - 1) + (a - 1) + (b - 1) := by ring
    rw [this]
    calc |(a - 1) * (b - 1) + (a - 1) + (b - 1)| ≤ |(a - 1) * (b - 1)| + |a - 1| + |b - 1| := abs_add_three _ _ _
      _ ≤ ε * ε + ε + ε := by
        rw [abs_mul]
        have := mul_le_mul n1 n2 (abs_nonneg _) hε0.le
        linarith
      _ = _ := by ring
  have hM : max |d| (64 * F.minValue) ≤ (1 - 8 * 2 ^ (-(F.prec : ℤ))) * 2 ^ F.emax := max_le h2 hNT
  have hDM := le_max_left |d| (64 * F.minValue)
  have hNM := le_max_right |d| (64 * F.minValue)
  generalize max |d| (64 * F.minValue) = M at *
  have hM0 : 0 ≤ M := hD.trans hDM
  have hrk : |r * k' - d| ≤ (3 * (2 : ℚ) ^ (-(F.prec : ℤ)) + 4 * (2 ^ (-(F.prec : ℤ)) * 2 ^ (-(F.prec : ℤ)))) * M := by
    generalize (2 : ℚ) ^ (-(F.prec : ℤ)) = ε at *
    have n3 : |k * k'| ≤ 1 + (2 * ε + ε * ε) := by
      rw [abs_of_pos (by positivity)]
      have := (abs_le.1 hkk).2
      linarith
    have n0 : max |d * k| F.minValue * |k'| ≤ (1 + (2 * ε + ε * ε)) * M := by
      rw [max_mul_of_nonneg _ _ (abs_nonneg _), abs_of_pos hk'0]
      refine max_le ?_ ?_
      · have : |d * k| * k' = |d| * |k * k'| := by rw [abs_mul, abs_mul, abs_of_pos hk'0]; ring
        rw [this, mul_comm]
        exact mul_le_mul n3 hDM hD (by positivity)
      · have a1 : F.minValue * k' ≤ M := by nlinarith
        nlinarith [mul_nonneg hε0.le hM0, mul_nonneg (mul_pos hε0 hε0).le hM0]
    have n1 : |r * k' - d * k * k'| ≤ ε * ((1 + (2 * ε + ε * ε)) * M) := by
      rw [← sub_mul, abs_mul]
      calc |r - d * k| * |k'| ≤ ε * max |d * k| F.minValue * |k'| := mul_le_mul_of_nonneg_right herr (abs_nonneg _)
        _ = ε * (max |d * k| F.minValue * |k'|) := by ring
        _ ≤ _ := mul_le_mul_of_nonneg_left n0 hε0.le
    have n2 : |d * k * k' - d| ≤ (2 * ε + ε * ε) * M := by
      have : d * k * k' - d = d * (k * k' - 1) := by ring
      rw [this, abs_mul, mul_comm]
      exact mul_le_mul hkk hDM hD (by positivity)
    have n4 := abs_sub_le (r * k') (d * k * k') d
    have n6 : ε * (1 + (2 * ε + ε * ε)) + (2 * ε + ε * ε) ≤ 3 * ε + 4 * (ε * ε) := by nlinarith [mul_pos hε0 hε0]
    have n7 := mul_le_mul_of_nonneg_right n6 hM0
    linarith
  have hup : |r * k'| ≤ (1 + (3 * (2 : ℚ) ^ (-(F.prec : ℤ)) + 4 * (2 ^ (-(F.prec : ℤ)) * 2 ^ (-(F.prec : ℤ))))) * M := by
    have h0 : |r * k'| - |d| ≤ |r * k' - d| := abs_sub_abs_le_abs_sub _ _
    linarith
  have hrep2 : F.Rep (F.rnd (r * k')) := by
    have hmx := C84_max (F := F) hF
    refine rep_rnd hF.one_le hmx.1 ?_
    have hnn : 0 ≤ F.maxValue := by linarith [(hmx.2 _ (rep_zero (F := F))).1]
    rw [abs_of_nonneg hnn, maxValue_eq]
    refine hup.trans (le_trans (mul_le_mul_of_nonneg_left hM (by positivity)) ?_)
    rw [← mul_assoc]
    refine mul_le_mul_of_nonneg_right ?_ (two_pow_pos _).le
    generalize (2 : ℚ) ^ (-(F.prec : ℤ)) = ε at *
    nlinarith [mul_pos hε0 hε0, mul_pos (mul_pos hε0 hε0) hε0]
  have herr2 := rnd_error_max (F := F) (r * k')
  refine ⟨F.rnd (r * k'), ?_, hrep2, ?_⟩
  · unfold radianToDegree degreeToRadian
    have e4 : F.round (d * k) = .fin r := by
      rw [← hr] at hrep ⊢
      exact round_of_rep_rnd hrep
    rw [hP, e1, e2, mul_fin, e4, mul_fin, round_of_rep_rnd hrep2]
  · have h0 := abs_sub_le (F.rnd (r * k')) (r * k') d
    generalize (2 : ℚ) ^ (-(F.prec : ℤ)) = ε at *
    have h5 : max |r * k'| F.minValue ≤ (1 + (3 * ε + 4 * (ε * ε))) * M := by
      refine max_le hup ?_
      nlinarith [mul_nonneg hε0.le hM0, mul_nonneg (mul_pos hε0 hε0).le hM0]
    have h6 : ε * max |r * k'| F.minValue ≤ ε * ((1 + (3 * ε + 4 * (ε * ε))) * M) := mul_le_mul_of_nonneg_left h5 hε0.le
    have h7 : ε * (1 + (3 * ε + 4 * (ε * ε))) + (3 * ε + 4 * (ε * ε)) ≤ 5 * ε := by
      have a1 : ε * ε ≤ ε * (1 / 1024) := mul_le_mul_of_nonneg_left hε hε0.le
      have a2 : ε * (ε * ε) ≤ ε * (ε * (1 / 1024)) := mul_le_mul_of_nonneg_left a1 hε0.le
      linarith
    have h8 := mul_le_mul_of_nonneg_right h7 hM0
    linarith

/-- The hypotheses hold e.g. of 45 degrees, and of one radian, as a `float`. -/
example : float32.Rep 45 ∧ |(45 : ℚ)| ≤ (1 - 8 * 2 ^ (-(float32.prec : ℤ))) * 2 ^ float32.emax := by
  refine ⟨by exact_mod_cast rep_int float32_valid (n := 45) (by decide), ?_⟩
  simp only [float32]
  norm_num
example : |((1 : ℚ) : ℝ) * 180 / Real.pi| ≤ (1 - 4 * 2 ^ (-(float32.prec : ℤ))) * 2 ^ float32.emax := by
  have h := Real.pi_gt_three
  have h0 := Real.pi_pos
  rw [abs_of_pos (by positivity), div_le_iff₀ h0]
  simp only [float32]
  norm_num
  linarith

end Verif.FloatMath
