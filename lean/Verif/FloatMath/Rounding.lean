import Verif.FloatMath.Format

/-!
# Rounding: odd, monotone, exact on numbers of the format, nearest
-/

namespace Verif.FloatMath

theorem two_pow_pos (e : ℤ) : (0 : ℚ) < 2 ^ e := zpow_pos (by norm_num) e

/-! ## Integers -/

theorem roundEven_int (n : ℤ) : roundEven (n : ℚ) = n := by
  unfold roundEven; rw [Int.floor_intCast]; simp

theorem roundEven_near (x : ℚ) : |(roundEven x : ℚ) - x| ≤ 1 / 2 := by
  have h0 := Int.floor_le x
  have h1 := Int.lt_floor_add_one x
  unfold roundEven
  rw [abs_le]
  split_ifs <;> push_cast <;> constructor <;> linarith

/-- No integer is nearer. -/
theorem roundEven_nearest (x : ℚ) (n : ℤ) : |(roundEven x : ℚ) - x| ≤ |(n : ℚ) - x| := by
  by_contra h
  push Not at h
  have hr := roundEven_near x
  have hn : |(n : ℚ) - x| < 1 / 2 := by linarith
  have h2 : |((roundEven x : ℤ) : ℚ) - n| < 1 := by
    have := abs_sub_le ((roundEven x : ℤ) : ℚ) x n
    rw [abs_sub_comm x] at this
    linarith
  have h3 : roundEven x = n := by
    have : |roundEven x - n| < 1 := by exact_mod_cast h2
    rw [Int.abs_lt_one_iff] at this
    omega
  rw [h3] at h
  exact lt_irrefl _ h

theorem roundEven_mono {x y : ℚ} (h : x ≤ y) : roundEven x ≤ roundEven y := by
  have hf := Int.floor_le_floor h
  by_cases he : ⌊x⌋ = ⌊y⌋
  · unfold roundEven
    rw [he]
    split_ifs <;> first | omega | (exfalso; linarith)
  · have h1 : ⌊x⌋ + 1 ≤ ⌊y⌋ := by omega
    have h2 : roundEven x ≤ ⌊x⌋ + 1 := by unfold roundEven; split_ifs <;> omega
    have h3 : ⌊y⌋ ≤ roundEven y := by unfold roundEven; split_ifs <;> omega
    omega

theorem roundEven_neg (x : ℚ) : roundEven (-x) = -roundEven x := by
  by_cases hx : x = ⌊x⌋
  · rw [hx, ← Int.cast_neg, roundEven_int, roundEven_int]
  · have h0 := Int.floor_le x
    have h1 := Int.lt_floor_add_one x
    have h0' : (⌊x⌋ : ℚ) < x := lt_of_le_of_ne h0 (Ne.symm hx)
    have hfl : ⌊-x⌋ = -⌊x⌋ - 1 := by
      rw [Int.floor_eq_iff]; push_cast; constructor <;> linarith
    unfold roundEven
    rw [hfl]
    push_cast
    split_ifs <;> first | omega | (exfalso; linarith)

/-! ## The format -/

variable {F : Fmt}

theorem expOf_neg (q : ℚ) : F.expOf (-q) = F.expOf q := by unfold Fmt.expOf; rw [abs_neg]

theorem rnd_neg (q : ℚ) : F.rnd (-q) = -F.rnd q := by
  unfold Fmt.rnd; rw [expOf_neg, neg_div, roundEven_neg]; push_cast; ring

theorem rnd_zero : F.rnd 0 = 0 := by
  unfold Fmt.rnd; rw [zero_div]; have := roundEven_int 0; push_cast at this; rw [this]; simp

theorem lt_of_log (q : ℚ) : |q| < 2 ^ (Int.log 2 |q| + 1) := Int.lt_zpow_succ_log_self (b := 2) (by decide) |q|

theorem log_le {q : ℚ} (hq : q ≠ 0) : (2 : ℚ) ^ Int.log 2 |q| ≤ |q| := by
  have := Int.zpow_log_le_self (R := ℚ) (b := 2) (by decide) (abs_pos.2 hq)
  exact_mod_cast this

theorem expOf_ge (q : ℚ) : F.emin ≤ F.expOf q := le_max_left _ _

/-- The significand has at most `prec` digits. -/
theorem scaled_lt (q : ℚ) : |q / 2 ^ F.expOf q| < 2 ^ F.prec := by
  rw [abs_div, abs_of_pos (two_pow_pos _), div_lt_iff₀ (two_pow_pos _)]
  refine lt_of_lt_of_le (lt_of_log q) ?_
  rw [← zpow_natCast, ← zpow_add₀ (by norm_num)]
  apply zpow_le_zpow_right₀ (by norm_num)
  have := le_max_right F.emin (Int.log 2 |q| + 1 - F.prec)
  change _ ≤ (F.prec : ℤ) + F.expOf q
  unfold Fmt.expOf
  omega

/-- Above the smallest exponent the significand has all its digits. -/
theorem pow_le_of_expOf {q : ℚ} (hq : q ≠ 0) (h : F.emin < F.expOf q) : (2 : ℚ) ^ (F.expOf q + F.prec - 1) ≤ |q| := by
  refine le_trans ?_ (log_le hq)
  apply zpow_le_zpow_right₀ (by norm_num)
  unfold Fmt.expOf at *
  omega

theorem expOf_le {q : ℚ} (hq : q ≠ 0) {e : ℤ} (he : F.emin ≤ e) (h : |q| < 2 ^ (e + F.prec)) : F.expOf q ≤ e := by
  have := (zpow_lt_zpow_iff_right₀ (by norm_num : (1 : ℚ) < 2)).1 (lt_of_le_of_lt (log_le hq) h)
  unfold Fmt.expOf
  omega

theorem zpow_nat {e : ℤ} (h : 0 ≤ e) : ((2 ^ e.toNat : ℤ) : ℚ) = 2 ^ e := by
  push_cast; rw [← zpow_natCast, Int.toNat_of_nonneg h]

/-- A multiple of the last digit is rounded to itself. -/
theorem scaled_int {e e' m : ℤ} (h : e ≤ e') : ((m : ℚ) * 2 ^ e') / 2 ^ e = ((m * 2 ^ (e' - e).toNat : ℤ) : ℚ) := by
  rw [Int.cast_mul, zpow_nat (by omega), mul_div_assoc, ← zpow_sub₀ (by norm_num)]

theorem rnd_grid {q : ℚ} (h : F.Grid q) : F.rnd q = q := by
  obtain ⟨m, e, he, hm, rfl⟩ := h
  by_cases h0 : (m : ℚ) * 2 ^ e = 0
  · rw [h0, rnd_zero]
  have hle : F.expOf ((m : ℚ) * 2 ^ e) ≤ e := by
    refine expOf_le h0 he ?_
    rw [abs_mul, abs_of_pos (two_pow_pos e), add_comm, zpow_add₀ (by norm_num), zpow_natCast]
    refine mul_lt_mul_of_pos_right ?_ (two_pow_pos e)
    exact_mod_cast hm
  unfold Fmt.rnd
  rw [scaled_int hle, roundEven_int, ← scaled_int hle, div_mul_cancel₀ _ (two_pow_pos _).ne']

theorem grid_zero : F.Grid 0 := ⟨0, F.emin, le_refl _, by simp, by simp⟩

theorem grid_neg {q : ℚ} (h : F.Grid q) : F.Grid (-q) := by
  obtain ⟨m, e, he, hm, rfl⟩ := h
  exact ⟨-m, e, he, by rwa [abs_neg], by push_cast; ring⟩

theorem grid_abs {q : ℚ} (h : F.Grid q) : F.Grid |q| := by
  rcases abs_choice q with h' | h' <;> rw [h']
  · exact h
  · exact grid_neg h

theorem grid_two_pow (hp : 1 ≤ F.prec) {e : ℤ} (he : F.emin ≤ e) : F.Grid (2 ^ e) :=
  ⟨1, e, he, by rw [abs_one]; exact one_lt_pow₀ (by norm_num) (by omega), by simp⟩

/-- Integers of at most `prec` digits are numbers of the format. -/
theorem grid_int (h : F.emin ≤ 0) {n : ℤ} (hn : |n| < 2 ^ F.prec) : F.Grid n := ⟨n, 0, h, hn, by simp⟩

/-- The result is a number of the format. -/
theorem grid_rnd (hp : 1 ≤ F.prec) (q : ℚ) : F.Grid (F.rnd q) := by
  have h1 : |roundEven (q / 2 ^ F.expOf q)| ≤ 2 ^ F.prec := by
    have hs := scaled_lt (F := F) q
    rw [abs_lt] at hs
    rw [abs_le]
    constructor
    · have := roundEven_mono hs.1.le
      have e : (-(2 : ℚ) ^ F.prec) = ((-2 ^ F.prec : ℤ) : ℚ) := by push_cast; ring
      rwa [e, roundEven_int] at this
    · have := roundEven_mono hs.2.le
      have e : ((2 : ℚ) ^ F.prec) = ((2 ^ F.prec : ℤ) : ℚ) := by push_cast; ring
      rwa [e, roundEven_int] at this
  rcases lt_or_eq_of_le h1 with h | h
  · exact ⟨_, _, expOf_ge q, h, rfl⟩
  · have key : F.Grid (2 ^ (F.prec + F.expOf q : ℤ)) := grid_two_pow hp (by have := expOf_ge (F := F) q; omega)
    rw [zpow_add₀ (by norm_num), zpow_natCast] at key
    unfold Fmt.rnd
    rcases abs_choice (roundEven (q / 2 ^ F.expOf q)) with h' | h'
    · rw [h'] at h; rw [h]; push_cast; exact key
    · rw [h'] at h
      have : roundEven (q / 2 ^ F.expOf q) = -2 ^ F.prec := by omega
      rw [this]; push_cast
      have := grid_neg key
      rwa [neg_mul]

/-- Rounding to a multiple of a given last digit is monotone. -/
theorem rnd_le_mul {q : ℚ} {m e : ℤ} (he : F.expOf q ≤ e) (h : q ≤ m * 2 ^ e) : F.rnd q ≤ m * 2 ^ e := by
  have h1 : q / 2 ^ F.expOf q ≤ ((m * 2 ^ (e - F.expOf q).toNat : ℤ) : ℚ) := by
    rw [← scaled_int he]; exact div_le_div_of_nonneg_right h (two_pow_pos _).le
  have h2 := roundEven_mono h1
  rw [roundEven_int] at h2
  have h3 : ((roundEven (q / 2 ^ F.expOf q) : ℤ) : ℚ) ≤ ((m * 2 ^ (e - F.expOf q).toNat : ℤ) : ℚ) := by exact_mod_cast h2
  rw [← scaled_int he, le_div_iff₀ (two_pow_pos _)] at h3
  exact h3

theorem mul_le_rnd {q : ℚ} {m e : ℤ} (he : F.expOf q ≤ e) (h : m * 2 ^ e ≤ q) : m * 2 ^ e ≤ F.rnd q := by
  have := rnd_le_mul (F := F) (q := -q) (m := -m) (e := e) (by rwa [expOf_neg]) (by push_cast; linarith)
  rw [rnd_neg] at this
  push_cast at this
  linarith

theorem rnd_nonneg {q : ℚ} (h : 0 ≤ q) : 0 ≤ F.rnd q := by
  have := mul_le_rnd (F := F) (q := q) (m := 0) (le_refl _) (by simpa using h)
  simpa using this

theorem expOf_mono {x y : ℚ} (hx : 0 < x) (h : x ≤ y) : F.expOf x ≤ F.expOf y := by
  have hy : 0 < y := lt_of_lt_of_le hx h
  have := (zpow_lt_zpow_iff_right₀ (by norm_num : (1 : ℚ) < 2)).1
    (lt_of_le_of_lt (log_le hx.ne') (lt_of_le_of_lt (by rwa [abs_of_pos hx, abs_of_pos hy] : |x| ≤ |y|) (lt_of_log y)))
  unfold Fmt.expOf
  omega

theorem rnd_mono_pos (hp : 1 ≤ F.prec) {x y : ℚ} (hx : 0 < x) (h : x ≤ y) : F.rnd x ≤ F.rnd y := by
  have hy : 0 < y := lt_of_lt_of_le hx h
  have hm := expOf_mono (F := F) hx h
  rcases eq_or_lt_of_le hm with he | he
  · unfold Fmt.rnd
    rw [he]
    refine mul_le_mul_of_nonneg_right ?_ (two_pow_pos _).le
    exact_mod_cast roundEven_mono (div_le_div_of_nonneg_right h (two_pow_pos _).le)
  · have hyb := pow_le_of_expOf hy.ne' (lt_of_le_of_lt (expOf_ge x) he)
    rw [abs_of_pos hy] at hyb
    have hxlt : x ≤ 2 ^ (F.expOf y + F.prec - 1) := by
      have h1 := lt_of_log x
      rw [abs_of_pos hx] at h1
      refine le_of_lt (lt_of_lt_of_le h1 ?_)
      apply zpow_le_zpow_right₀ (by norm_num)
      have := le_max_right F.emin (Int.log 2 |x| + 1 - F.prec)
      rw [abs_of_pos hx] at this
      unfold Fmt.expOf at he ⊢
      rw [abs_of_pos hx] at he
      omega
    have h1 := rnd_le_mul (F := F) (q := x) (m := 1) (e := F.expOf y + F.prec - 1) (by omega) (by simpa using hxlt)
    have h2 := mul_le_rnd (F := F) (q := y) (m := 2 ^ (F.prec - 1)) (e := F.expOf y) (le_refl _) (by
      push_cast
      rw [← zpow_natCast, ← zpow_add₀ (by norm_num)]
      convert hyb using 2
      omega)
    push_cast at h1 h2
    rw [one_mul] at h1
    refine le_trans h1 (le_trans (le_of_eq ?_) h2)
    rw [← zpow_natCast, ← zpow_add₀ (by norm_num)]
    congr 1
    omega

/-- Rounding is monotone. -/
theorem rnd_mono (hp : 1 ≤ F.prec) {x y : ℚ} (h : x ≤ y) : F.rnd x ≤ F.rnd y := by
  rcases lt_trichotomy 0 x with hx | hx | hx
  · exact rnd_mono_pos hp hx h
  · subst hx; rw [rnd_zero]; exact rnd_nonneg h
  · rcases le_or_gt 0 y with hy | hy
    · have h1 := rnd_nonneg (F := F) (q := -x) (by linarith)
      rw [rnd_neg] at h1
      have h2 := rnd_nonneg (F := F) hy
      linarith
    · have := rnd_mono_pos (F := F) hp (x := -y) (y := -x) (by linarith) (by linarith)
      rw [rnd_neg, rnd_neg] at this
      linarith

/-- No number of the format is nearer to the exact value. -/
theorem rnd_nearest {q r : ℚ} (hr : F.Grid r) : |F.rnd q - q| ≤ |r - q| := by
  have base : ∀ n : ℤ, |F.rnd q - q| ≤ |(n : ℚ) * 2 ^ F.expOf q - q| := by
    intro n
    have := roundEven_nearest (q / 2 ^ F.expOf q) n
    have hpos := two_pow_pos (F.expOf q)
    have key : ∀ m : ℤ, |(m : ℚ) * 2 ^ F.expOf q - q| = |(m : ℚ) - q / 2 ^ F.expOf q| * 2 ^ F.expOf q := by
      intro m
      rw [← abs_of_pos hpos, ← abs_mul, abs_of_pos hpos, sub_mul, div_mul_cancel₀ _ hpos.ne']
    unfold Fmt.rnd
    rw [key, key]
    exact mul_le_mul_of_nonneg_right this hpos.le
  by_cases hq : q = 0
  · subst hq; rw [rnd_zero]; simp
  obtain ⟨m, e, he, hm, rfl⟩ := hr
  rcases le_or_gt (F.expOf q) e with hle | hlt
  · have := base (m * 2 ^ (e - F.expOf q).toNat)
    rwa [← scaled_int hle, div_mul_cancel₀ _ (two_pow_pos _).ne'] at this
  · have hb := pow_le_of_expOf hq (lt_of_le_of_lt he hlt)
    have hmr : |(m : ℚ) * 2 ^ e| ≤ 2 ^ (F.expOf q + F.prec - 1) := by
      rw [abs_mul, abs_of_pos (two_pow_pos e)]
      have h1 : |(m : ℚ)| ≤ 2 ^ F.prec := by exact_mod_cast hm.le
      refine le_trans (mul_le_mul_of_nonneg_right h1 (two_pow_pos e).le) ?_
      rw [← zpow_natCast, ← zpow_add₀ (by norm_num)]
      apply zpow_le_zpow_right₀ (by norm_num)
      omega
    by_cases hp : F.prec = 0
    · have : m = 0 := by rw [hp] at hm; simpa using hm
      subst this
      have := base 0
      simpa using this
    have hpow : ((2 ^ (F.prec - 1) : ℤ) : ℚ) * 2 ^ F.expOf q = 2 ^ (F.expOf q + F.prec - 1) := by
      push_cast
      rw [← zpow_natCast, ← zpow_add₀ (by norm_num)]
      congr 1
      omega
    rcases lt_or_gt_of_ne hq with hneg | hpos
    · have h2 := base (-2 ^ (F.prec - 1))
      push_cast at h2 hpow
      rw [neg_mul, hpow] at h2
      refine le_trans h2 ?_
      rw [abs_of_neg hneg] at hb
      rw [abs_le] at hmr
      rw [abs_of_nonneg (by linarith), abs_of_nonneg (by linarith)]
      linarith
    · have h2 := base (2 ^ (F.prec - 1))
      rw [hpow] at h2
      refine le_trans h2 ?_
      rw [abs_of_pos hpos] at hb
      rw [abs_le] at hmr
      rw [abs_of_nonpos (by linarith), abs_of_nonpos (by linarith)]
      linarith

/-- Relative error of a result that is not below the smallest number with all its digits. -/
theorem rnd_error {q : ℚ} (h : (2 : ℚ) ^ (F.emin + F.prec - 1) ≤ |q|) : |F.rnd q - q| ≤ 2 ^ (-(F.prec : ℤ)) * |q| := by
  have hq : q ≠ 0 := by rintro rfl; rw [abs_zero] at h; exact absurd h (not_le.2 (two_pow_pos _))
  have hpos := two_pow_pos (F.expOf q)
  have e1 : |F.rnd q - q| ≤ 1 / 2 * 2 ^ F.expOf q := by
    have := mul_le_mul_of_nonneg_right (roundEven_near (q / 2 ^ F.expOf q)) hpos.le
    rwa [← abs_of_pos hpos, ← abs_mul, abs_of_pos hpos, sub_mul, div_mul_cancel₀ _ hpos.ne'] at this
  have e2 : (2 : ℚ) ^ (F.expOf q + F.prec - 1) ≤ |q| := by
    rcases eq_or_lt_of_le (expOf_ge (F := F) q) with he | he
    · rw [← he]; exact h
    · exact pow_le_of_expOf hq he
  refine le_trans e1 ?_
  refine le_trans (le_of_eq ?_) (mul_le_mul_of_nonneg_left e2 (two_pow_pos _).le)
  rw [← zpow_add₀ (by norm_num), show -(F.prec : ℤ) + (F.expOf q + F.prec - 1) = F.expOf q - 1 by ring, zpow_sub_one₀ (by norm_num)]
  ring

/-! ## The limit of size -/

theorem rep_zero : F.Rep 0 := ⟨grid_zero, by rw [abs_zero]; exact two_pow_pos _⟩

theorem rep_neg {q : ℚ} (h : F.Rep q) : F.Rep (-q) := ⟨grid_neg h.1, by rw [abs_neg]; exact h.2⟩

theorem rep_abs {q : ℚ} (h : F.Rep q) : F.Rep |q| := ⟨grid_abs h.1, by rw [abs_abs]; exact h.2⟩

theorem round_rep {q : ℚ} (h : F.Rep q) : F.round q = .fin q := by
  unfold Fmt.round; rw [rnd_grid h.1, if_pos h.2]

theorem has_round (hp : 1 ≤ F.prec) (q : ℚ) : F.Has (F.round q) := by
  unfold Fmt.round
  split_ifs with h
  · exact ⟨grid_rnd hp q, h⟩
  · trivial

theorem round_neg (q : ℚ) : F.round (-q) = (F.round q).neg := by
  unfold Fmt.round
  rw [rnd_neg, abs_neg]
  split_ifs with h
  · rfl
  · have h0 : q ≠ 0 := by rintro rfl; rw [rnd_zero, abs_zero] at h; exact h (two_pow_pos _)
    unfold FVal.neg
    congr 1
    rcases lt_or_gt_of_ne h0 with h1 | h1 <;> simp [h1, h1.le, not_lt.2 h1.le]

/-- Ordering of values: everything but NaN. -/
theorem round_le_round (hp : 1 ≤ F.prec) {x y : ℚ} (h : x ≤ y) : (F.round x).le (F.round y) = true := by
  have hm := rnd_mono (F := F) hp h
  unfold Fmt.round
  split_ifs with h1 h2 h2
  · simp only [FVal.le, FVal.lt, FVal.eq, Bool.or_eq_true, decide_eq_true_eq]
    exact lt_or_eq_of_le hm
  · have : ¬ y < 0 := by
      intro hy
      have h3 : F.rnd y ≤ 0 := by have := rnd_mono (F := F) hp hy.le; rwa [rnd_zero] at this
      rw [abs_of_nonpos h3] at h2
      rw [abs_of_nonpos (le_trans hm h3)] at h1
      linarith
    simp [FVal.le, FVal.lt, this]
  · have : x < 0 := by
      by_contra hx
      push Not at hx
      have h3 : 0 ≤ F.rnd x := rnd_nonneg hx
      rw [abs_of_nonneg h3] at h1
      rw [abs_of_nonneg (le_trans h3 hm)] at h2
      linarith
    simp [FVal.le, FVal.lt, this]
  · by_cases hx : x < 0 <;> by_cases hy : y < 0 <;> simp [FVal.le, FVal.lt, FVal.eq, hx, hy]
    linarith

end Verif.FloatMath
