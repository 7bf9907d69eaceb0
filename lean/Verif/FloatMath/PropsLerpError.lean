import Verif.FloatMath.PropsLerp
import Verif.FloatMath.PropsAngle

/-!
# C80: how far `Lerp` may be from the exact interpolation
-/

namespace Verif.FloatMath

variable {F : Fmt}

/-- Sums of numbers of the format have a small relative error, however small they are. -/
private theorem rnd_error_add {x y : ℚ} (hx : F.Grid x) (hy : F.Grid y) : |F.rnd (x + y) - (x + y)| ≤ 2 ^ (-(F.prec : ℤ)) * |x + y| := by
  by_cases h : (2 : ℚ) ^ (F.emin + F.prec - 1) ≤ |x + y|
  · exact rnd_error h
  · have hg : F.Grid (x + y) := by
      obtain ⟨m, n, e, he, ex, ey, -⟩ := grid_common hx hy
      have e1 : x + y = ((m + n : ℤ) : ℚ) * 2 ^ e := by rw [ex, ey]; push_cast; ring
      rw [e1] at h ⊢
      refine grid_of_multiple he (lt_of_lt_of_le (not_le.1 h) ?_)
      exact zpow_le_zpow_right₀ (by norm_num) (by omega)
    rw [rnd_grid hg, sub_self, abs_zero]
    exact mul_nonneg (two_pow_pos _).le (abs_nonneg _)

private theorem rnd_of_round {q r : ℚ} (h : F.round q = .fin r) : F.rnd q = r := by
  unfold Fmt.round at h
  split_ifs at h
  injection h

/-- `2 ^ -prec` is at most one eighth. -/
private theorem unit_le (hF : F.Valid) : (2 : ℚ) ^ (-(F.prec : ℤ)) ≤ 1 / 8 := by
  have h : (2 : ℚ) ^ (-(F.prec : ℤ)) ≤ 2 ^ (-3 : ℤ) := zpow_le_zpow_right₀ (by norm_num) (by have := hF.prec; omega)
  norm_num at h ⊢
  exact h

/-- **C80** `Lerp(from, to, 1)` misses `to` by no more than roundings of `to` and of the difference: with a finite result, the error is at most `2^-prec * (|to| + (1 + 2^-prec) * |to - from|)`. -/
theorem C80_lerp_one_error {a b d r : ℚ} (hF : F.Valid) (ha : F.Rep a) (hb : F.Rep b) (hd : F.round (b - a) = .fin d) (hr : lerp F (.fin a) (.fin b) (.fin 1) = .fin r) :
    |r - b| ≤ 2 ^ (-(F.prec : ℤ)) * (|b| + (1 + 2 ^ (-(F.prec : ℤ))) * |b - a|) := by
  have hu := two_pow_pos (-(F.prec : ℤ))
  set u : ℚ := 2 ^ (-(F.prec : ℤ)) with hu'
  have hdr := rnd_of_round hd
  have e1 : |d - (b - a)| ≤ u * |b - a| := by
    have := rnd_error_add (F := F) hb.1 (grid_neg ha.1)
    rwa [← sub_eq_add_neg, hdr] at this
  have hdg : F.Grid d := by rw [← hdr]; exact grid_rnd hF.one_le _
  have hdrep : F.Rep d := by
    have := has_round (F := F) hF.one_le (b - a)
    rw [hd] at this
    exact this
  rw [lerp_fin a b 1 d hd, one_mul, round_rep hdrep] at hr
  have hrr := rnd_of_round (show F.round (a + d) = .fin r from hr)
  have e2 := rnd_error_add (F := F) ha.1 hdg
  rw [hrr, ← hu'] at e2
  have e3 : |a + d| ≤ |b| + u * |b - a| := by
    have := abs_add_le b (d - (b - a))
    rw [show b + (d - (b - a)) = a + d by ring] at this
    linarith
  have e4 : |r - b| ≤ |r - (a + d)| + |d - (b - a)| := by
    have := abs_add_le (r - (a + d)) (d - (b - a))
    rwa [show r - (a + d) + (d - (b - a)) = r - b by ring] at this
  have e5 : u * |a + d| ≤ u * (|b| + u * |b - a|) := mul_le_mul_of_nonneg_left e3 hu.le
  calc |r - b| ≤ u * (|b| + u * |b - a|) + u * |b - a| := by linarith
    _ = u * (|b| + (1 + u) * |b - a|) := by ring

/-- **C80** For every interpolation in [0, 1], a finite result is within six units of rounding (of the greater of the two ends, or of the least normal number) of the exact interpolation. -/
theorem C80_lerp_error {a b d t r : ℚ} (hF : F.Valid) (ha : F.Rep a) (hb : F.Rep b) (ht0 : 0 ≤ t) (ht1 : t ≤ 1) (hd : F.round (b - a) = .fin d)
    (hr : lerp F (.fin a) (.fin b) (.fin t) = .fin r) : |r - (a + t * (b - a))| ≤ 6 * 2 ^ (-(F.prec : ℤ)) * max (max |a| |b|) F.minValue := by
  have hu := two_pow_pos (-(F.prec : ℤ))
  have hu8 := unit_le hF
  set u : ℚ := 2 ^ (-(F.prec : ℤ)) with hu'
  set X : ℚ := max (max |a| |b|) F.minValue with hX
  have hXa : |a| ≤ X := le_trans (le_max_left _ _) (le_max_left _ _)
  have hXb : |b| ≤ X := le_trans (le_max_right _ _) (le_max_left _ _)
  have hXm : F.minValue ≤ X := le_max_right _ _
  have hm0 : 0 < F.minValue := two_pow_pos _
  have hX0 : 0 < X := lt_of_lt_of_le hm0 hXm
  have hdr := rnd_of_round hd
  have e1 : |d - (b - a)| ≤ u * |b - a| := by
    have := rnd_error_add (F := F) hb.1 (grid_neg ha.1)
    rwa [← sub_eq_add_neg, hdr] at this
  have hba : |b - a| ≤ 2 * X := by
    have := abs_sub_le b 0 a
    rw [sub_zero, zero_sub, abs_neg] at this
    linarith
  have e1' : |d - (b - a)| ≤ 2 * u * X := by nlinarith
  obtain ⟨p, hp⟩ : ∃ p, F.round (t * d) = .fin p := by
    rw [lerp_fin a b t d hd] at hr
    cases h : F.round (t * d) with
    | nan => rw [h] at hr; simp [Fmt.add] at hr
    | inf s => rw [h] at hr; simp [Fmt.add] at hr
    | fin p => exact ⟨p, rfl⟩
  have hpr := rnd_of_round hp
  have hpg : F.Grid p := by rw [← hpr]; exact grid_rnd hF.one_le _
  rw [lerp_fin a b t d hd, hp] at hr
  have hrr := rnd_of_round (show F.round (a + p) = .fin r from hr)
  have hdabs : |d| ≤ 2 * X + 2 * u * X := by
    have := abs_add_le (b - a) (d - (b - a))
    rw [show b - a + (d - (b - a)) = d by ring] at this
    linarith
  have htd : |t * d| ≤ 2 * X + 2 * u * X := by
    rw [abs_mul, abs_of_nonneg ht0]
    nlinarith [abs_nonneg d]
  have e2 : |p - t * d| ≤ u * (2 * X + 2 * u * X) := by
    have h1 := rnd_error_max (F := F) (t * d)
    rw [hpr, ← hu'] at h1
    refine le_trans h1 (mul_le_mul_of_nonneg_left (max_le htd ?_) hu.le)
    nlinarith
  have e3 : |t * d - t * (b - a)| ≤ 2 * u * X := by
    rw [← mul_sub, abs_mul, abs_of_nonneg ht0]
    nlinarith [abs_nonneg (d - (b - a))]
  have e4 : |a + t * (b - a)| ≤ X := by
    rw [abs_le] at hXa hXb ⊢
    constructor <;> nlinarith
  have e5 : |a + p| ≤ X + 2 * u * X + u * (2 * X + 2 * u * X) := by
    have h1 := abs_add_le (a + t * (b - a)) (t * d - t * (b - a))
    have h2 := abs_add_le (a + t * d) (p - t * d)
    rw [show a + t * (b - a) + (t * d - t * (b - a)) = a + t * d by ring] at h1
    rw [show a + t * d + (p - t * d) = a + p by ring] at h2
    linarith
  have e6 : |r - (a + p)| ≤ u * (X + 2 * u * X + u * (2 * X + 2 * u * X)) := by
    have h1 := rnd_error_add (F := F) ha.1 hpg
    rw [hrr, ← hu'] at h1
    exact le_trans h1 (mul_le_mul_of_nonneg_left e5 hu.le)
  have e7 : |r - (a + t * (b - a))| ≤ |r - (a + p)| + |p - t * d| + |t * d - t * (b - a)| := by
    have h1 := abs_add_le (r - (a + p)) (p - t * d)
    have h2 := abs_add_le (r - (a + p) + (p - t * d)) (t * d - t * (b - a))
    rw [show r - (a + p) + (p - t * d) + (t * d - t * (b - a)) = r - (a + t * (b - a)) by ring] at h2
    linarith
  have hux : 0 < u * X := mul_pos hu hX0
  have h8 : u * (u * X) ≤ 1 / 8 * (u * X) := mul_le_mul_of_nonneg_right hu8 hux.le
  have h9 : u * (u * (u * X)) ≤ 1 / 8 * (u * (u * X)) := mul_le_mul_of_nonneg_right hu8 (mul_pos hu hux).le
  nlinarith

/-- **C80, violated** Interpolation 1 may overflow although the difference does not: in every format there is a number `a` in [0, max] with `Lerp(a, max, 1)` infinite. -/
theorem C80_lerp_one_overflow_violated (hF : F.Valid) : ∃ a d, F.Rep a ∧ F.Rep F.maxValue ∧ 0 ≤ a ∧ a ≤ F.maxValue ∧ F.round (F.maxValue - a) = .fin d ∧
    lerp F (.fin a) (.fin F.maxValue) (.fin 1) = .inf false := by
  obtain ⟨hp, hmin, hmax⟩ := hF
  set e : ℤ := F.emax - F.prec with he
  have hemin : F.emin ≤ e - 1 := by omega
  have h2 : (2 : ℚ) ^ (e - 1) * 2 = 2 ^ e := by
    rw [zpow_sub_one₀ (by norm_num)]; ring
  have hpos := two_pow_pos (e - 1)
  set x : ℚ := 2 ^ (e - 1) with hx
  have hP : (8 : ℚ) ≤ 2 ^ F.prec := by
    have : (2 : ℚ) ^ 3 ≤ 2 ^ F.prec := pow_le_pow_right₀ (by norm_num) hp
    norm_num at this; exact this
  set P : ℚ := 2 ^ F.prec with hPdef
  have hPe : (2 : ℚ) ^ (e + F.prec) = 2 * P * x := by
    rw [zpow_add₀ (by norm_num), zpow_natCast, ← h2]; ring
  have hPe1 : (2 : ℚ) ^ (e + F.prec - 1) = P * x := by
    rw [zpow_sub_one₀ (by norm_num), hPe]; ring
  have hemax : (2 : ℚ) ^ F.emax = 2 * P * x := by rw [← hPe, he]; congr 1; ring
  have hM : F.maxValue = (2 * P - 2) * x := by
    unfold Fmt.maxValue
    rw [← he, ← h2]; ring
  have hPi : ((2 ^ F.prec : ℤ) : ℚ) = P := by push_cast; rfl
  have hrepa : F.Rep (3 * x) := by
    refine ⟨?_, ?_⟩
    · have := grid_of_multiple (F := F) (n := 3) hemin (by
        rw [abs_of_pos (by push_cast; positivity), show e - 1 + (F.prec : ℤ) = e + F.prec - 1 by ring, hPe1]
        push_cast
        nlinarith)
      push_cast at this
      exact this
    · rw [abs_of_pos (by positivity), hemax]; nlinarith
  have hrepM : F.Rep F.maxValue := by
    refine ⟨⟨2 ^ F.prec - 1, e, by omega, ?_, by unfold Fmt.maxValue; push_cast; rfl⟩, ?_⟩
    · have : (1 : ℤ) ≤ 2 ^ F.prec := one_le_pow₀ (by norm_num)
      rw [abs_of_nonneg (by omega)]; omega
    · rw [hM, hemax, abs_of_pos (by apply mul_pos _ hpos; linarith)]; nlinarith
  have hev : ((2 ^ F.prec : ℤ)) % 2 = 0 := by
    obtain ⟨k, hk⟩ : ∃ k, F.prec = k + 1 := ⟨F.prec - 1, by omega⟩
    rw [hk, pow_succ]; omega
  have hd : F.rnd (F.maxValue - 3 * x) = ((2 ^ F.prec - 2 : ℤ) : ℚ) * 2 ^ e := by
    have hq : F.maxValue - 3 * x = (2 * P - 5) * x := by rw [hM]; ring
    have hq0 : 0 < (2 * P - 5) * x := mul_pos (by linarith) hpos
    refine rnd_of_tie (by omega) ?_ ?_ (by omega) ?_
    · rw [hq, hPe1, abs_of_pos hq0]; nlinarith
    · rw [hq, hPe, abs_of_pos hq0]; nlinarith
    · push_cast
      rw [hq, ← hPdef, ← h2, show (2 * P - 5) * x - (P - 2) * (x * 2) = -x by ring, abs_neg, abs_of_pos hpos]
      ring
  have hdv : F.rnd (F.maxValue - 3 * x) = (2 * P - 4) * x := by
    rw [hd, ← h2]; push_cast; rw [← hPdef]; ring
  have hd0 : 0 < (2 * P - 4) * x := mul_pos (by linarith) hpos
  have hround : F.round (F.maxValue - 3 * x) = .fin ((2 * P - 4) * x) := by
    unfold Fmt.round
    rw [hdv, if_pos (by rw [abs_of_pos hd0, hemax]; nlinarith)]
  refine ⟨3 * x, (2 * P - 4) * x, hrepa, hrepM, by positivity, by rw [hM]; nlinarith, hround, ?_⟩
  have hdrep : F.Rep ((2 * P - 4) * x) := by
    have := has_round (F := F) (by omega) (F.maxValue - 3 * x)
    rw [hround] at this
    exact this
  rw [lerp_fin _ _ 1 _ hround, one_mul, round_rep hdrep]
  show F.round (3 * x + (2 * P - 4) * x) = _
  have hq : 3 * x + (2 * P - 4) * x = (2 * P - 1) * x := by ring
  have hq0 : 0 < (2 * P - 1) * x := mul_pos (by linarith) hpos
  have hr : F.rnd (3 * x + (2 * P - 4) * x) = ((2 ^ F.prec : ℤ) : ℚ) * 2 ^ e := by
    refine rnd_of_tie (by omega) ?_ ?_ hev ?_
    · rw [hq, hPe1, abs_of_pos hq0]; nlinarith
    · rw [hq, hPe, abs_of_pos hq0]; nlinarith
    · rw [hPi, hq, ← h2, show (2 * P - 1) * x - P * (x * 2) = -x by ring, abs_neg, abs_of_pos hpos]
      ring
  unfold Fmt.round
  rw [hr, hPi, ← h2, hemax, if_neg, hq]
  · rw [decide_eq_false (not_lt.2 hq0.le)]
  · rw [abs_of_pos (by positivity), not_lt]
    exact le_of_eq (by ring)

/-- The hypotheses hold e.g. of 3 and 10 in `float`. -/
example : float32.Valid ∧ float32.Rep 3 ∧ float32.Rep 10 ∧ float32.round (10 - 3) = .fin 7 := by
  have h3 : float32.Rep 3 := by exact_mod_cast rep_int float32_valid (n := 3) (by decide)
  have h7 : float32.Rep 7 := by exact_mod_cast rep_int float32_valid (n := 7) (by decide)
  have h10 : float32.Rep 10 := by exact_mod_cast rep_int float32_valid (n := 10) (by decide)
  exact ⟨float32_valid, h3, h10, by rw [show (10 - 3 : ℚ) = 7 by norm_num]; exact round_rep h7⟩

end Verif.FloatMath
