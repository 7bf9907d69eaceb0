import Verif.FloatMath.PropsLerp
import Mathlib.Data.Nat.Log

/-!
# C81 `Mod`, C82 `MultiplyAdd`
-/

namespace Verif.FloatMath
open Verif.Cpp Verif.MathUtils

variable {F : Fmt}

/-! ## Truncation -/

theorem trunc_frac (q : ℚ) : |q - trunc q| < 1 ∧ 0 ≤ (q - trunc q) * q ∧ |q - trunc q| ≤ |q| := by
  unfold trunc
  split_ifs with h
  · have h1 := Int.le_ceil q
    have h2 := Int.ceil_lt_add_one q
    have h3 : (⌈q⌉ : ℚ) ≤ 0 := by have : ⌈q⌉ ≤ 0 := Int.ceil_le.2 (by push_cast; linarith); exact_mod_cast this
    rw [abs_of_nonpos (by linarith), abs_of_neg h]
    exact ⟨by linarith, mul_nonneg_of_nonpos_of_nonpos (by linarith) h.le, by linarith⟩
  · have h0 := not_lt.1 h
    have h1 := Int.floor_le q
    have h2 := Int.lt_floor_add_one q
    have h3 : (0 : ℚ) ≤ ⌊q⌋ := by have : 0 ≤ ⌊q⌋ := Int.floor_nonneg.2 h0; exact_mod_cast this
    rw [abs_of_nonneg (by linarith), abs_of_nonneg h0]
    exact ⟨by linarith, mul_nonneg (by linarith) h0, by linarith⟩

theorem trunc_neg (q : ℚ) : trunc (-q) = -trunc q := by
  unfold trunc
  rcases lt_trichotomy q 0 with h | h | h
  · rw [if_neg (by linarith), if_pos h, Int.floor_neg]
  · subst h; simp
  · rw [if_pos (by linarith), if_neg (by linarith), Int.ceil_neg]

/-! ## Run time -/

/-- At run time: the remainder is a number of the type, smaller than the divisor, of the sign of the dividend, no larger than the dividend, and
differs from it by a multiple of the divisor. -/
theorem C81_mod_run (x y : ℚ) (hx : F.Rep x) (hy : F.Rep y) (h : y ≠ 0) :
    ∃ r, modRun F (.fin x) (.fin y) = .fin r ∧ F.Rep r ∧ |r| < |y| ∧ 0 ≤ r * x ∧ |r| ≤ |x| ∧ ∃ n : ℤ, x = n * y + r := by
  obtain ⟨h1, h2, h3⟩ := trunc_frac (x / y)
  have e : x - trunc (x / y) * y = (x / y - trunc (x / y)) * y := by field_simp
  have hy0 := abs_pos.2 h
  have l1 : |x - trunc (x / y) * y| < |y| := by rw [e, abs_mul]; nlinarith
  have l2 : |x - trunc (x / y) * y| ≤ |x| := by
    rw [e, abs_mul]
    have : |x| = |x / y| * |y| := by rw [← abs_mul, div_mul_cancel₀ _ h]
    rw [this]
    exact mul_le_mul_of_nonneg_right h3 hy0.le
  refine ⟨x - trunc (x / y) * y, by simp [modRun, h], ?_, l1, ?_, l2, trunc (x / y), by ring⟩
  · refine rep_of_le ?_ hx l2
    have := grid_combination hx.1 hy.1 1 (-trunc (x / y)) (by push_cast; rw [one_mul, neg_mul, ← sub_eq_add_neg]; exact l2)
      (by push_cast; rw [one_mul, neg_mul, ← sub_eq_add_neg]; exact l1.le)
    push_cast at this
    rwa [one_mul, neg_mul, ← sub_eq_add_neg] at this
  · rw [e]
    have : (x / y - trunc (x / y)) * y * x = ((x / y - trunc (x / y)) * (x / y)) * (y * y) := by
      have : x = x / y * y := by field_simp
      calc _ = (x / y - trunc (x / y)) * y * (x / y * y) := by rw [← this]
        _ = _ := by ring
    rw [this]
    exact mul_nonneg h2 (mul_self_nonneg y)

/-- Special values at run time. -/
theorem C81_mod_run_special (x y : FVal) :
    (modRun F x (.fin 0) = .nan) ∧ (∀ s, modRun F (.inf s) y = .nan) ∧ (∀ q s, modRun F (.fin q) (.inf s) = .fin q) := by
  refine ⟨?_, ?_, fun _ _ => rfl⟩
  · cases x <;> simp [modRun]
  · intro s; cases y <;> rfl

/-! ## Constant expressions -/

/-- The quotient of two integers of at most `prec` digits is rounded within the same unit interval. -/
theorem rnd_lt_succ (hp : 1 ≤ F.prec) {a b n j : ℤ} (hb : 0 < b) (h2 : a < (n + 1) * b) (hn : 0 ≤ n)
    (hj1 : (2 : ℚ) ^ j * b < 2 ^ F.prec) (hj2 : ((n : ℚ) + 1) ≤ 2 ^ (j + 1)) (hj3 : j + 1 ≤ F.prec) (hj4 : F.emin ≤ j + 1 - F.prec) :
    F.rnd (a / b) < n + 1 := by
  have hbq : (0 : ℚ) < b := by exact_mod_cast hb
  have hq : (a : ℚ) / b ≤ n + 1 - 1 / b := by
    rw [div_le_iff₀ hbq, sub_mul, one_div, inv_mul_cancel₀ hbq.ne']
    have : a ≤ (n + 1) * b - 1 := by omega
    exact_mod_cast this
  have hpos := two_pow_pos (j + 1 - F.prec)
  have hgap : (2 : ℚ) ^ (j + 1 - F.prec) < 2 * (1 / b) := by
    rw [mul_one_div, lt_div_iff₀ hbq, show j + 1 - (F.prec : ℤ) = 1 + (j - F.prec) by ring, zpow_add₀ (by norm_num), zpow_one,
      zpow_sub₀ (by norm_num), zpow_natCast, mul_assoc, div_mul_eq_mul_div]
    have : (2 : ℚ) ^ j * b / 2 ^ F.prec < 1 := by rw [div_lt_one (by positivity)]; exact hj1
    linarith
  have hg : F.Grid ((n : ℚ) + 1 - 2 ^ (j + 1 - F.prec)) := by
    have e : (n : ℚ) + 1 - 2 ^ (j + 1 - F.prec) = (((n + 1) * 2 ^ (F.prec - (j + 1)).toNat - 1 : ℤ) : ℚ) * 2 ^ (j + 1 - F.prec) := by
      rw [Int.cast_sub, Int.cast_mul, zpow_nat (by omega), sub_mul, mul_assoc, ← zpow_add₀ (by norm_num)]
      push_cast
      rw [show ((F.prec : ℤ) - (j + 1) + (j + 1 - F.prec)) = 0 by ring]
      simp
    rw [e]
    refine grid_of_multiple hj4 ?_
    rw [← e, show j + 1 - (F.prec : ℤ) + F.prec = j + 1 by ring]
    have hnq : (0 : ℚ) ≤ n := by exact_mod_cast hn
    have hle : (2 : ℚ) ^ (j + 1 - F.prec) ≤ 1 := by
      have := zpow_le_zpow_right₀ (a := (2 : ℚ)) (by norm_num) (show j + 1 - (F.prec : ℤ) ≤ 0 by omega)
      simpa using this
    rw [abs_of_nonneg (by linarith)]
    linarith
  have hbi : (0 : ℚ) < 1 / b := by positivity
  by_contra hc
  rw [not_lt] at hc
  have hne := rnd_nearest (F := F) (q := a / b) hg
  rw [abs_of_nonneg (by linarith)] at hne
  have _ := hp
  rcases le_total ((n : ℚ) + 1 - 2 ^ (j + 1 - F.prec)) (a / b) with h3 | h3
  · rw [abs_of_nonpos (by linarith)] at hne
    linarith
  · rw [abs_of_nonneg (by linarith)] at hne
    linarith

theorem floor_rnd (hF : F.Valid) {a b : ℤ} (ha : 0 ≤ a) (ha' : a < 2 ^ F.prec) (hb : 0 < b) (hb' : b < 2 ^ F.prec) :
    ⌊F.rnd ((a : ℚ) / b)⌋ = a / b := by
  have hp := hF.prec
  have hmin := hF.emin
  have hn : 0 ≤ a / b := Int.ediv_nonneg ha hb.le
  have h1 : a / b * b ≤ a := Int.ediv_mul_le a hb.ne'
  have h2 : a < (a / b + 1) * b := Int.lt_ediv_add_one_mul_self a hb
  have hbq : (0 : ℚ) < b := by exact_mod_cast hb
  have hna : a / b ≤ a := by nlinarith
  generalize hnn : a / b = n at *
  rw [Int.floor_eq_iff]
  constructor
  · have hle : (n : ℚ) ≤ a / b := by rw [le_div_iff₀ hbq]; exact_mod_cast h1
    have := rnd_mono (F := F) hF.one_le hle
    rwa [rnd_grid (grid_int (by omega) (by rw [abs_of_nonneg hn]; omega))] at this
  · rcases eq_or_lt_of_le hn with h0 | h0
    · refine rnd_lt_succ hF.one_le hb h2 hn (j := -1) ?_ ?_ (by omega) (by omega)
      · have : (b : ℚ) < 2 ^ F.prec := by exact_mod_cast hb'
        rw [zpow_neg_one]
        linarith
      · rw [← h0]; norm_num
    · obtain ⟨k, rfl⟩ := Int.eq_ofNat_of_zero_le hn
      have hk : k ≠ 0 := by rintro rfl; simp at h0
      have l1 := Nat.pow_log_le_self 2 hk
      have l2 := Nat.lt_pow_succ_log_self (b := 2) (by norm_num) k
      have l1' : (2 : ℤ) ^ Nat.log 2 k ≤ k := by exact_mod_cast l1
      have l3 : (2 : ℤ) ^ Nat.log 2 k < 2 ^ F.prec := by omega
      have l4 : Nat.log 2 k < F.prec := (pow_lt_pow_iff_right₀ (by norm_num : (1 : ℤ) < 2)).1 l3
      refine rnd_lt_succ hF.one_le hb h2 hn (j := Nat.log 2 k) ?_ ?_ (by omega) (by omega)
      · rw [zpow_natCast]
        have : (2 : ℤ) ^ Nat.log 2 k * b < 2 ^ F.prec := by
          have : (2 : ℤ) ^ Nat.log 2 k * b ≤ k * b := mul_le_mul_of_nonneg_right l1' hb.le
          omega
        exact_mod_cast this
      · have : ((k : ℤ) : ℚ) + 1 ≤ 2 ^ (Nat.log 2 k + 1) := by
          have : k + 1 ≤ 2 ^ (Nat.log 2 k + 1) := l2
          exact_mod_cast this
        rw [← zpow_natCast] at this
        push_cast at this ⊢
        exact this

theorem trunc_rnd_div (hF : F.Valid) {x y : ℤ} (hx : |x| < 2 ^ F.prec) (hy : |y| < 2 ^ F.prec) (h : y ≠ 0) :
    trunc (F.rnd ((x : ℚ) / y)) = x.tdiv y := by
  have pos : ∀ a b : ℤ, 0 ≤ a → a < 2 ^ F.prec → 0 < b → b < 2 ^ F.prec → trunc (F.rnd ((a : ℚ) / b)) = a.tdiv b := by
    intro a b h1 h2 h3 h4
    have : ¬ F.rnd ((a : ℚ) / b) < 0 := by
      rw [not_lt]
      apply rnd_nonneg
      have h1' : (0 : ℚ) ≤ a := by exact_mod_cast h1
      have h3' : (0 : ℚ) ≤ b := by exact_mod_cast h3.le
      exact div_nonneg h1' h3'
    unfold trunc
    rw [if_neg this, floor_rnd hF h1 h2 h3 h4, Int.tdiv_eq_ediv_of_nonneg h1]
  rcases abs_lt.1 hx with ⟨hx1, hx2⟩
  rcases abs_lt.1 hy with ⟨hy1, hy2⟩
  rcases le_total 0 x with sx | sx <;> rcases lt_or_gt_of_ne h with sy | sy
  · have := pos x (-y) sx hx2 (by omega) (by omega)
    rw [Int.tdiv_neg, Int.cast_neg, div_neg, rnd_neg, trunc_neg] at this
    omega
  · exact pos x y sx hx2 sy hy2
  · have := pos (-x) (-y) (by omega) (by omega) (by omega) (by omega)
    rw [Int.tdiv_neg, Int.neg_tdiv, neg_neg, Int.cast_neg, Int.cast_neg, neg_div_neg_eq] at this
    exact this
  · have := pos (-x) y (by omega) (by omega) sy hy2
    rw [Int.neg_tdiv, Int.cast_neg, neg_div, rnd_neg, trunc_neg] at this
    omega

theorem trunc_div (x y : ℤ) (h : y ≠ 0) : trunc ((x : ℚ) / y) = x.tdiv y := by
  have pos : ∀ a b : ℤ, 0 ≤ a → 0 < b → trunc ((a : ℚ) / b) = a.tdiv b := by
    intro a b h1 h3
    have : ¬ (a : ℚ) / b < 0 := by
      rw [not_lt]
      have h1' : (0 : ℚ) ≤ a := by exact_mod_cast h1
      have h3' : (0 : ℚ) ≤ b := by exact_mod_cast h3.le
      exact div_nonneg h1' h3'
    unfold trunc
    rw [if_neg this, Int.tdiv_eq_ediv_of_nonneg h1]
    have hbq : (0 : ℚ) < b := by exact_mod_cast h3
    rw [Int.floor_eq_iff, le_div_iff₀ hbq, div_lt_iff₀ hbq]
    constructor
    · exact_mod_cast Int.ediv_mul_le a h3.ne'
    · exact_mod_cast Int.lt_ediv_add_one_mul_self a h3
  rcases le_total 0 x with sx | sx <;> rcases lt_or_gt_of_ne h with sy | sy
  · have := pos x (-y) sx (by omega)
    rw [Int.tdiv_neg, Int.cast_neg, div_neg, trunc_neg] at this
    omega
  · exact pos x y sx sy
  · have := pos (-x) (-y) (by omega) (by omega)
    rw [Int.tdiv_neg, Int.neg_tdiv, neg_neg, Int.cast_neg, Int.cast_neg, neg_div_neg_eq] at this
    exact this
  · have := pos (-x) y (by omega) sy
    rw [Int.neg_tdiv, Int.cast_neg, neg_div, trunc_neg] at this
    omega

/-- Integers of at most `prec` digits (and 63): in constant expressions and at run time the result is the remainder of the integer division. -/
theorem C81_mod_integers (hF : F.Valid) (hp : F.prec ≤ 63) (zs : Bool) (x y : ℤ) (hx : |x| < 2 ^ F.prec) (hy : |y| < 2 ^ F.prec) (h : y ≠ 0) :
    modConst F zs (.fin x) (.fin y) = .ok (.fin (x.tmod y)) ∧ modRun F (.fin x) (.fin y) = .fin (x.tmod y) := by
  have hyq : (y : ℚ) ≠ 0 := by exact_mod_cast h
  have hmod : x - x.tdiv y * y = x.tmod y := by have := Int.tmod_add_tdiv_mul x y; omega
  have hmodq : (x : ℚ) - (x.tdiv y : ℤ) * y = (x.tmod y : ℤ) := by rw [← hmod]; push_cast; ring
  constructor
  · have hy1 : (1 : ℚ) ≤ |(y : ℚ)| := by have := Int.one_le_abs h; exact_mod_cast this
    have hq : |(x : ℚ) / y| ≤ |(x : ℚ)| := by
      rw [abs_div]
      exact div_le_self (abs_nonneg _) hy1
    have hrep := rep_rnd hF.one_le (rep_int hF hx) hq
    have hn : |x.tdiv y| ≤ |x| := by
      rw [Int.abs_eq_natAbs, Int.abs_eq_natAbs, Int.natAbs_tdiv]
      exact_mod_cast Nat.div_le_self _ _
    have hr : |x.tmod y| ≤ |x| := by
      rw [Int.abs_eq_natAbs, Int.abs_eq_natAbs, Int.natAbs_tmod]
      exact_mod_cast Nat.mod_le _ _
    have hny : |x.tdiv y * y| ≤ |x| := by
      rw [Int.abs_eq_natAbs, Int.abs_eq_natAbs, Int.natAbs_mul, Int.natAbs_tdiv]
      exact_mod_cast Nat.div_mul_le_self _ _
    have h63 : (2 : ℤ) ^ F.prec ≤ 2 ^ 63 := pow_le_pow_right₀ (by norm_num) hp
    have hfit := abs_lt.1 (lt_of_le_of_lt hn hx)
    unfold modConst
    simp only [Fmt.div, hyq, if_false]
    rw [round_of_rep_rnd hrep]
    unfold toInt
    dsimp only
    rw [trunc_rnd_div hF hx hy h, if_pos ⟨by omega, by omega⟩, ok_bind, round_rep (rep_int hF (lt_of_le_of_lt hn hx))]
    simp only [Fmt.mul]
    rw [show ((x.tdiv y : ℤ) : ℚ) * y = ((x.tdiv y * y : ℤ) : ℚ) by push_cast; ring, round_rep (rep_int hF (lt_of_le_of_lt hny hx)), sub_fin,
      show (x : ℚ) - ((x.tdiv y * y : ℤ) : ℚ) = (x.tmod y : ℤ) by rw [← hmodq]; push_cast; ring,
      round_rep (rep_int hF (lt_of_le_of_lt hr hx))]
    rfl
  · simp only [modRun, hyq, if_false]
    rw [trunc_div x y h, hmodq]

/-- In general, the result in constant expressions is that of run time if the quotient, its product with the divisor and the remainder are not
rounded. -/
theorem C81_mod_const_partial (zs : Bool) (x y : ℚ) (h : y ≠ 0) (hq : F.Rep (x / y) ∨ (F.Rep (F.rnd (x / y)) ∧ trunc (F.rnd (x / y)) = trunc (x / y)))
    (hx : F.Rep x) (hy : F.Rep y) (hn : F.Rep (trunc (x / y))) (hl : -2 ^ 63 ≤ trunc (x / y) ∧ trunc (x / y) ≤ 2 ^ 63 - 1)
    (hm : F.Rep (trunc (x / y) * y)) : modConst F zs (.fin x) (.fin y) = .ok (modRun F (.fin x) (.fin y)) := by
  obtain ⟨r, h1, h2, -⟩ := C81_mod_run x y hx hy h
  have hq' : F.Rep (F.rnd (x / y)) ∧ trunc (F.rnd (x / y)) = trunc (x / y) := by
    rcases hq with h | h
    · rw [rnd_grid h.1]; exact ⟨h, rfl⟩
    · exact h
  rw [h1]
  simp only [modRun, h, if_false] at h1
  injection h1 with h1
  unfold modConst
  simp only [Fmt.div, h, if_false]
  rw [round_of_rep_rnd hq'.1]
  unfold toInt
  dsimp only
  rw [hq'.2, if_pos hl, ok_bind, round_rep hn]
  simp only [Fmt.mul]
  rw [round_rep hm, sub_fin, h1, round_rep h2]
  rfl

/-- The two disagree in every format: there are positive integers `x` and `y` of the type whose remainder is `y - 1`, and that is what run time
gives, but constant expressions give -2 (in `float`: 12582914 and 8388609). -/
theorem C81_mod_const_violated (hF : F.Valid) (zs : Bool) :
    ∃ x y : ℚ, F.Rep x ∧ F.Rep y ∧ 0 < y ∧ modRun F (.fin x) (.fin y) = .fin (y - 1) ∧ 1 < y ∧ modConst F zs (.fin x) (.fin y) = .ok (.fin (-2)) := by
  have hp := hF.prec
  have hmin := hF.emin
  have hmax := hF.emax
  obtain ⟨k, hk⟩ : ∃ k, F.prec = k + 3 := ⟨F.prec - 3, by omega⟩
  have hP1 : (1 : ℚ) ≤ 2 ^ k := one_le_pow₀ (by norm_num)
  have hPz : (1 : ℤ) ≤ 2 ^ k := one_le_pow₀ (by norm_num)
  have hprec : (2 : ℚ) ^ (F.prec : ℤ) = 8 * 2 ^ k := by rw [zpow_natCast, hk, pow_add]; ring
  have hprecz : (2 : ℤ) ^ F.prec = 8 * 2 ^ k := by rw [hk, pow_add]; ring
  have htop : (8 : ℚ) * 2 ^ k * 4 ≤ 2 ^ F.emax := by
    rw [← hprec]
    have := zpow_le_zpow_right₀ (a := (2 : ℚ)) (by norm_num) (show (F.prec : ℤ) + 2 ≤ F.emax by omega)
    rw [zpow_add₀ (by norm_num)] at this
    norm_num at this ⊢
    exact this
  -- y = 4 P + 1, x = 12 P + 2 with P = 2 ^ k
  have hy : F.Rep (4 * 2 ^ k + 1) := by
    have := rep_int hF (n := 4 * 2 ^ k + 1) (by rw [abs_of_nonneg (by omega), hprecz]; omega)
    push_cast at this
    exact this
  have two_mul_grid : ∀ n : ℤ, 0 ≤ n → n < 2 ^ F.prec → F.Rep ((n : ℚ) * 2) := by
    intro n h0 h1
    have hn : (n : ℚ) < 2 ^ F.prec := by exact_mod_cast h1
    have hn0 : (0 : ℚ) ≤ n := by exact_mod_cast h0
    refine ⟨⟨n, 1, by omega, by rw [abs_of_nonneg h0]; exact h1, by rw [zpow_one]⟩, ?_⟩
    rw [abs_of_nonneg (by positivity)]
    rw [← zpow_natCast, hprec] at hn
    linarith
  have hx : F.Rep (12 * 2 ^ k + 2) := by
    have := two_mul_grid (6 * 2 ^ k + 1) (by omega) (by rw [hprecz]; omega)
    push_cast at this
    convert this using 1
    ring
  have h3 : F.Rep 3 := by have := rep_int hF (n := 3) (by rw [hprecz, abs_of_pos (by norm_num)]; omega); push_cast at this; exact this
  have h2 : F.Rep (-2) := by have := rep_int hF (n := -2) (by rw [hprecz, abs_of_neg (by norm_num)]; omega); push_cast at this; exact this
  generalize hPdef : (2 : ℚ) ^ k = P at *
  have hquot : (12 * P + 2) / (4 * P + 1) = 3 - 1 / (4 * P + 1) := by field_simp; ring
  have hinv : 0 < 1 / (4 * P + 1) := by positivity
  have hinv' : 1 / (4 * P + 1) ≤ 1 / 5 := by apply one_div_le_one_div_of_le (by norm_num); linarith
  have hlast : (2 : ℚ) ^ (2 - (F.prec : ℤ)) = 1 / (2 * P) := by
    rw [zpow_sub₀ (by norm_num), hprec]
    field_simp
    norm_num
  have hrnd : F.rnd ((12 * P + 2) / (4 * P + 1)) = 3 := by
    have e : ((6 * 2 ^ k : ℤ) : ℚ) * 2 ^ (2 - (F.prec : ℤ)) = 3 := by
      rw [hlast]; push_cast; rw [hPdef]; field_simp; norm_num
    rw [hquot]
    have := rnd_of_near (F := F) (q := 3 - 1 / (4 * P + 1)) (m := 6 * 2 ^ k) (e := 2 - (F.prec : ℤ)) (by omega)
      (by rw [show (2 - (F.prec : ℤ) + F.prec - 1) = 1 by ring, zpow_one, abs_of_pos (by linarith)]; linarith)
      (by rw [show (2 - (F.prec : ℤ) + F.prec) = 2 by ring, abs_of_pos (by linarith)]; exact lt_of_lt_of_le (show _ < (3 : ℚ) by linarith) (by norm_num))
      (by
        rw [e, hlast, show (3 - 1 / (4 * P + 1) - 3) = -(1 / (4 * P + 1)) by ring, abs_neg, abs_of_pos hinv]
        rw [show 1 / 2 * (1 / (2 * P)) = 1 / (4 * P) by field_simp; norm_num]
        apply one_div_lt_one_div_of_lt <;> linarith)
    rw [this, e]
  have hmul : F.rnd (3 * (4 * P + 1)) = 12 * P + 4 := by
    have e : ((6 * 2 ^ k + 2 : ℤ) : ℚ) * 2 ^ (1 : ℤ) = 12 * P + 4 := by push_cast; rw [hPdef]; ring
    have := rnd_of_tie (F := F) (q := 3 * (4 * P + 1)) (m := 6 * 2 ^ k + 2) (e := 1) (by omega)
      (by rw [show (1 + (F.prec : ℤ) - 1) = F.prec by ring, hprec, abs_of_pos (by linarith)]; linarith)
      (by rw [zpow_add₀ (by norm_num), hprec, zpow_one, abs_of_pos (by linarith)]; linarith)
      (by omega)
      (by rw [e, zpow_one, show 3 * (4 * P + 1) - (12 * P + 4) = -1 by ring]; norm_num)
    rw [this, e]
  have h4 : F.Rep (12 * P + 4) := by
    refine ⟨by rw [← hmul]; exact grid_rnd hF.one_le _, ?_⟩
    rw [abs_of_pos (by linarith)]
    linarith
  have hy0 : (4 * P + 1 : ℚ) ≠ 0 := by positivity
  refine ⟨12 * P + 2, 4 * P + 1, hx, hy, by positivity, ?_, by linarith, ?_⟩
  · simp only [modRun, hy0, if_false]
    have ht : trunc ((12 * P + 2) / (4 * P + 1)) = 2 := by
      unfold trunc
      rw [hquot, if_neg (by linarith), Int.floor_eq_iff]
      push_cast
      constructor <;> linarith
    rw [ht]
    congr 1
    push_cast
    ring
  · unfold modConst
    simp only [Fmt.div, hy0, if_false]
    rw [round_of_rep_rnd (by rw [hrnd]; exact h3), hrnd]
    have ht : trunc 3 = 3 := by have := trunc_int 3; push_cast at this; exact this
    unfold toInt
    dsimp only
    rw [ht, if_pos (by norm_num), ok_bind]
    push_cast
    rw [round_rep h3]
    simp only [Fmt.mul]
    rw [round_of_rep_rnd (by rw [hmul]; exact h4), hmul, sub_fin, show 12 * P + 2 - (12 * P + 4) = -2 by ring, round_rep h2]
    rfl

/-- An infinite divisor: constant expressions give NaN, run time gives the dividend. -/
theorem C81_mod_infinite_violated (zs s : Bool) (x : ℚ) :
    modConst F zs (.fin x) (.inf s) = .ok .nan ∧ modRun F (.fin x) (.inf s) = .fin x := by
  refine ⟨?_, rfl⟩
  have h0 : trunc 0 = 0 := by have := trunc_int 0; push_cast at this; exact this
  unfold modConst
  simp only [Fmt.div]
  unfold toInt
  dsimp only
  rw [h0, if_pos (by norm_num), ok_bind]
  push_cast
  rw [round_rep rep_zero]
  simp [Fmt.mul, Fmt.sub, Fmt.add, FVal.neg]

/-- A quotient that does not fit `long long`: undefined in constant expressions, though defined at run time. -/
theorem C81_mod_overflow_violated (hF : F.Valid) (zs : Bool) (x y : ℚ) (h : y ≠ 0) (hq : 2 ^ 63 ≤ x / y) :
    modConst F zs (.fin x) (.fin y) = .error .ub ∧ ∃ r, modRun F (.fin x) (.fin y) = .fin r := by
  have hmin := hF.emin
  refine ⟨?_, x - trunc (x / y) * y, by simp [modRun, h]⟩
  have hge : (2 : ℚ) ^ 63 ≤ F.rnd (x / y) := by
    have := rnd_mono (F := F) hF.one_le hq
    have e : (2 : ℚ) ^ (63 : ℕ) = 2 ^ (63 : ℤ) := by norm_num
    rwa [e, rnd_grid (grid_two_pow hF.one_le (by omega))] at this
  unfold modConst
  simp only [Fmt.div, h, if_false]
  unfold Fmt.round
  split_ifs with h1
  · unfold toInt
    dsimp only
    have : 2 ^ 63 ≤ trunc (F.rnd (x / y)) := by
      unfold trunc
      rw [if_neg (by rw [not_lt]; exact le_trans (by norm_num) hge), Int.le_floor]
      push_cast
      exact hge
    rw [if_neg (by omega)]
    rfl
  · rfl

/-- Division by zero is undefined in constant expressions. -/
theorem C81_mod_zero (zs : Bool) (x : FVal) : modConst F zs x (.fin 0) = .error .ub := by
  cases x with
  | nan => rfl
  | inf s => simp [modConst, Fmt.div, toInt]
  | fin q =>
    simp only [modConst, Fmt.div, if_true]
    split_ifs <;> rfl

/-! ## Integers -/

/-- Unsigned integers: the remainder; undefined for a zero divisor. -/
theorem C81_mod_unsigned {w : Nat} (x y : BitVec w) :
    (y.toNat = 0 → modUnsigned x y = .error .ub) ∧ (y.toNat ≠ 0 → ∃ r, modUnsigned x y = .ok r ∧ r.toNat < y.toNat ∧
      ∃ n, x.toNat = n * y.toNat + r.toNat) := by
  have hz : y = 0#w ↔ y.toNat = 0 := by constructor <;> intro h
                                        · simp [h]
                                        · exact BitVec.eq_of_toNat_eq (by simpa using h)
  constructor
  · intro h; simp [modUnsigned, hz.2 h]
  · intro h
    refine ⟨x % y, by rw [modUnsigned, if_neg (fun h' => h (hz.1 h'))], ?_, x.toNat / y.toNat, ?_⟩
    · rw [BitVec.toNat_umod]; exact Nat.mod_lt _ (by omega)
    · rw [BitVec.toNat_umod, Nat.mul_comm]; exact (Nat.div_add_mod _ _).symm

/-- Signed integers of `w` bits: the remainder of the sign of the dividend; undefined exactly for a zero divisor and, in types not narrower than
`int`, for the smallest value modulo -1 (although the remainder, 0, exists). -/
theorem C81_mod_signed {w : Nat} (hw : 1 ≤ w) (x y : Int) (hx : -(2 ^ (w - 1) : Int) ≤ x ∧ x < 2 ^ (w - 1)) :
    (modSigned w x y = .error .ub ↔ y = 0 ∨ (32 ≤ w ∧ x = -2 ^ (w - 1) ∧ y = -1)) ∧
    (∀ r, modSigned w x y = .ok r → r.natAbs < y.natAbs ∧ 0 ≤ r * x ∧ ∃ n, x = n * y + r) := by
  by_cases h0 : y = 0
  · subst h0
    have : modSigned w x 0 = .error .ub := by simp [modSigned, guardUB]
    rw [this]
    simp
  have hg : guardUB (y != 0) = .ok () := by simp [guardUB, h0]
  have hunf : modSigned w x y = (sRes (promoted w) (x.tdiv y) >>= fun _ => pure (x.tmod y)) := by unfold modSigned; rw [hg, ok_bind]
  have hpow : (0 : Int) < 2 ^ (w - 1) := by positivity
  have hple : (2 : Int) ^ (w - 1) ≤ 2 ^ (promoted w - 1) := by
    apply pow_le_pow_right₀ (by norm_num); unfold promoted; omega
  have hna : (x.tdiv y).natAbs ≤ x.natAbs := by rw [Int.natAbs_tdiv]; exact Nat.div_le_self _ _
  have hiff : (¬ (-(2 ^ (promoted w - 1) : Int) ≤ x.tdiv y ∧ x.tdiv y < 2 ^ (promoted w - 1))) ↔ (32 ≤ w ∧ x = -2 ^ (w - 1) ∧ y = -1) := by
    constructor
    · intro h
      have hge : (2 : Int) ^ (promoted w - 1) ≤ x.tdiv y := by
        by_contra hc
        apply h
        constructor
        · omega
        · omega
      have hxe : x = -2 ^ (w - 1) := by omega
      have heq : (2 : Int) ^ (w - 1) = 2 ^ (promoted w - 1) := by omega
      have hpw : w - 1 = promoted w - 1 := Nat.pow_right_injective (le_refl 2) (by exact_mod_cast heq)
      have hw32 : 32 ≤ w := by unfold promoted at hpw; omega
      refine ⟨hw32, hxe, ?_⟩
      have hnat : (x.tdiv y).natAbs = x.natAbs := by omega
      rw [Int.natAbs_tdiv] at hnat
      have hxpos : 0 < x.natAbs := by omega
      have hy1 : y.natAbs = 1 := by
        by_contra hc
        have : x.natAbs / y.natAbs < x.natAbs := Nat.div_lt_self hxpos (by omega)
        have hnn : Int.natAbs x / Int.natAbs y = x.natAbs := hnat
        omega
      rcases Int.natAbs_eq y with h' | h' <;> rw [hy1] at h'
      · exfalso
        rw [h'] at hge
        simp at hge
        omega
      · omega
    · rintro ⟨hw32, hxe, hye⟩ ⟨h1, h2⟩
      rw [hxe, hye, Int.tdiv_neg, Int.tdiv_one, neg_neg] at h2
      have : promoted w = w := by unfold promoted; omega
      rw [this] at h2
      omega
  rw [hunf]
  unfold sRes
  constructor
  · by_cases hc : -(2 ^ (promoted w - 1) : Int) ≤ x.tdiv y ∧ x.tdiv y < 2 ^ (promoted w - 1)
    · rw [if_pos hc]
      constructor
      · intro h; cases h
      · rintro (h | h)
        · exact absurd h h0
        · exact absurd hc (hiff.2 h)
    · rw [if_neg hc]
      exact ⟨fun _ => Or.inr (hiff.1 hc), fun _ => rfl⟩
  · intro r hr
    by_cases hc : -(2 ^ (promoted w - 1) : Int) ≤ x.tdiv y ∧ x.tdiv y < 2 ^ (promoted w - 1)
    · rw [if_pos hc] at hr
      have hr' : x.tmod y = r := by rw [ok_bind] at hr; injection hr
      subst hr'
      refine ⟨?_, ?_, x.tdiv y, ?_⟩
      · rw [Int.natAbs_tmod]; exact Nat.mod_lt _ (by omega)
      · rcases le_total 0 x with h | h
        · exact mul_nonneg (Int.tmod_nonneg y h) h
        · have h1 : 0 ≤ (-x).tmod y := Int.tmod_nonneg y (by omega)
          rw [Int.neg_tmod] at h1
          exact mul_nonneg_of_nonpos_of_nonpos (by omega) h
      · have := Int.tmod_add_tdiv_mul x y; omega
    · rw [if_neg hc] at hr
      cases hr

example : float32.Valid ∧ float32.prec ≤ 63 ∧ |(-17 : ℤ)| < 2 ^ float32.prec ∧ (-17 : ℤ).tmod 5 = -2 := ⟨float32_valid, by decide, by decide, by decide⟩
example : (2 : ℚ) ^ 63 ≤ 10 ^ 19 / 1 := by norm_num
example : modSigned 32 (-2147483648) (-1) = .error .ub ∧ modSigned 8 (-128) (-1) = .ok 0 := ⟨by decide, by decide⟩
/-- A case of `C81_mod_const_partial` that is not one of integers: 7.5 modulo 2. -/
example : float32.Rep (7.5 / 2) ∧ float32.Rep 7.5 ∧ float32.Rep 2 ∧ trunc (7.5 / 2) = 3 := by
  have r : ∀ n : ℤ, |n| < 2 ^ 24 → float32.Rep ((n : ℚ) * 2 ^ (-2 : ℤ)) := by
    intro n hn
    refine ⟨⟨n, -2, by decide, hn, rfl⟩, ?_⟩
    have hn' : |(n : ℚ)| < 2 ^ 24 := by exact_mod_cast hn
    rw [abs_mul, abs_of_pos (two_pow_pos _)]
    simp only [float32]
    norm_num at hn' ⊢
    linarith
  have h1 := r 15 (by decide)
  have h2 := r 30 (by decide)
  have h3 := r 8 (by decide)
  norm_num at h1 h2 h3 ⊢
  refine ⟨h1, h2, h3, ?_⟩
  unfold trunc
  rw [if_neg (by norm_num), Int.floor_eq_iff]
  norm_num

/-! ## C82 `MultiplyAdd` -/

/-- If the product is a number of the type, the result is the exact `x * y + z`, rounded once, whether the host has a fused operation or not. -/
theorem C82_multiplyAdd_partial (x y z : ℚ) (h : F.Rep (x * y)) :
    multiplyAdd F (.fin x) (.fin y) (.fin z) = F.round (x * y + z) ∧ multiplyAddFused F (.fin x) (.fin y) (.fin z) = F.round (x * y + z) := by
  refine ⟨?_, rfl⟩
  unfold multiplyAdd
  simp only [Fmt.mul]
  rw [round_rep h]
  rfl

/-- Both never decrease as `z` grows. -/
theorem C82_multiplyAdd_mono (hF : F.Valid) (x y z z' : ℚ) (hz : z ≤ z') :
    (multiplyAdd F (.fin x) (.fin y) (.fin z)).le (multiplyAdd F (.fin x) (.fin y) (.fin z')) = true ∧
    (multiplyAddFused F (.fin x) (.fin y) (.fin z)).le (multiplyAddFused F (.fin x) (.fin y) (.fin z')) = true := by
  refine ⟨?_, round_le_round hF.one_le (by linarith)⟩
  unfold multiplyAdd
  simp only [Fmt.mul]
  generalize hv : F.round (x * y) = v
  cases v with
  | nan => unfold Fmt.round at hv; split_ifs at hv
  | inf s => cases s <;> rfl
  | fin p => exact round_le_round hF.one_le (by linarith)

/-- Otherwise the result depends on the host: in every format there are numbers for which one way gives zero and the other the exact positive
result. -/
theorem C82_multiplyAdd_violated (hF : F.Valid) :
    ∃ x z r : ℚ, F.Rep x ∧ F.Rep z ∧ 0 < r ∧ x * x + z = r ∧ multiplyAdd F (.fin x) (.fin x) (.fin z) = .fin 0 ∧
      multiplyAddFused F (.fin x) (.fin x) (.fin z) = .fin r := by
  have hp := hF.prec
  have hmin := hF.emin
  have hmax := hF.emax
  have hpos := two_pow_pos (1 - (F.prec : ℤ))
  have e0 : ((2 ^ (F.prec - 1) : ℤ) : ℚ) * 2 ^ (1 - (F.prec : ℤ)) = 1 := by
    push_cast
    rw [← zpow_natCast, ← zpow_add₀ (by norm_num), show (((F.prec - 1 : ℕ) : ℤ) + (1 - (F.prec : ℤ))) = 0 by omega, zpow_zero]
  have hsmall : (2 : ℚ) ^ (1 - (F.prec : ℤ)) ≤ 1 / 4 := by
    have := zpow_le_zpow_right₀ (a := (2 : ℚ)) (by norm_num) (show 1 - (F.prec : ℤ) ≤ -2 by omega)
    norm_num at this
    linarith
  have hbig : (2 : ℚ) < 2 ^ F.emax := by
    have := zpow_lt_zpow_right₀ (a := (2 : ℚ)) (by norm_num) (show 1 < F.emax by omega)
    simpa using this
  have hsq : F.Rep (2 ^ (1 - (F.prec : ℤ)) * 2 ^ (1 - (F.prec : ℤ))) := by
    rw [← zpow_add₀ (by norm_num)]; exact rep_two_pow hF (by omega) (by omega)
  generalize hu : (2 : ℚ) ^ (1 - (F.prec : ℤ)) = u at *
  have e : ∀ k : ℤ, (1 : ℚ) + k * u = ((2 ^ (F.prec - 1) + k : ℤ) : ℚ) * 2 ^ (1 - (F.prec : ℤ)) := by
    intro k; rw [hu, Int.cast_add, add_mul, e0]
  have rep : ∀ k : ℤ, 0 ≤ k → (k : ℚ) * u < 1 → F.Rep (1 + k * u) := by
    intro k hk hku
    have hk' : (0 : ℚ) ≤ k := by exact_mod_cast hk
    have hab : |(1 : ℚ) + k * u| < 2 := by rw [abs_of_nonneg (by positivity)]; linarith
    refine ⟨?_, lt_trans hab hbig⟩
    rw [e]
    refine grid_of_multiple (by omega) ?_
    rw [← e, show (1 - (F.prec : ℤ) + F.prec) = 1 by ring, zpow_one]
    exact hab
  have h1 : F.Rep (1 + u) := by have := rep 1 (by norm_num) (by push_cast; linarith); push_cast at this; rwa [one_mul] at this
  have h2 : F.Rep (1 + 2 * u) := by have := rep 2 (by norm_num) (by push_cast; linarith); push_cast at this; exact this
  have hprod : F.rnd ((1 + u) * (1 + u)) = 1 + 2 * u := by
    have e2 := e 2
    have := rnd_of_near (F := F) (q := (1 + u) * (1 + u)) (m := 2 ^ (F.prec - 1) + 2) (e := 1 - (F.prec : ℤ)) (by omega)
      (by rw [show (1 - (F.prec : ℤ) + F.prec - 1) = 0 by ring, zpow_zero, abs_of_pos (by positivity)]; nlinarith)
      (by rw [show (1 - (F.prec : ℤ) + F.prec) = 1 by ring, zpow_one, abs_of_pos (by positivity)]; nlinarith)
      (by
        rw [← e2, hu]
        push_cast
        rw [show (1 + u) * (1 + u) - (1 + 2 * u) = u * u by ring, abs_of_pos (by positivity)]
        nlinarith)
    rw [this, ← e2]
    push_cast
    rfl
  refine ⟨1 + u, -(1 + 2 * u), u * u, h1, rep_neg h2, by positivity, by ring, ?_, ?_⟩
  · unfold multiplyAdd
    simp only [Fmt.mul]
    rw [round_of_rep_rnd (by rw [hprod]; exact h2), hprod]
    simp only [Fmt.add]
    rw [add_neg_cancel]
    exact round_rep rep_zero
  · simp only [multiplyAddFused]
    rw [show (1 + u) * (1 + u) + -(1 + 2 * u) = u * u by ring]
    exact round_rep hsq

example : float32.Rep (3 * 5) := by have := rep_int float32_valid (n := 15) (by decide); push_cast at this; norm_num; exact this

end Verif.FloatMath
