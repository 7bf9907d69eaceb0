import Verif.FloatMath.Model
import Verif.FloatMath.Rounding

/-!
# Lemmas: exact results, rounding of given numbers
-/

namespace Verif.FloatMath

variable {F : Fmt}

theorem Fmt.Valid.one_le {F : Fmt} (h : F.Valid) : 1 ≤ F.prec := by have := h.prec; omega

/-- Rounding of a number whose exponent is known. -/
theorem rnd_of_near {q : ℚ} {m e : ℤ} (he : F.emin ≤ e) (h1 : (2 : ℚ) ^ (e + F.prec - 1) ≤ |q|) (h2 : |q| < 2 ^ (e + F.prec))
    (h : |q - m * 2 ^ e| < 1 / 2 * 2 ^ e) : F.rnd q = m * 2 ^ e := by
  have hq : q ≠ 0 := by rintro rfl; rw [abs_zero] at h1; exact absurd h1 (not_le.2 (two_pow_pos _))
  have hexp : F.expOf q = e := by
    apply le_antisymm (expOf_le hq he h2)
    have := (zpow_lt_zpow_iff_right₀ (by norm_num : (1 : ℚ) < 2)).1 (lt_of_le_of_lt h1 (lt_of_log q))
    unfold Fmt.expOf
    omega
  have hpos := two_pow_pos e
  have hd : |q / 2 ^ e - m| < 1 / 2 := by
    have : q / 2 ^ e - m = (q - m * 2 ^ e) / 2 ^ e := by field_simp
    rw [this, abs_div, abs_of_pos hpos, div_lt_iff₀ hpos]
    exact h
  unfold Fmt.rnd
  rw [hexp]
  congr 1
  norm_cast
  have hr := roundEven_near (q / 2 ^ e)
  have h3 : |((roundEven (q / 2 ^ e) : ℤ) : ℚ) - m| < 1 := by
    have := abs_sub_le ((roundEven (q / 2 ^ e) : ℤ) : ℚ) (q / 2 ^ e) m
    linarith
  have : |roundEven (q / 2 ^ e) - m| < 1 := by exact_mod_cast h3
  rw [Int.abs_lt_one_iff] at this
  omega

/-- Rounding of a tie. -/
theorem rnd_of_tie {q : ℚ} {m e : ℤ} (he : F.emin ≤ e) (h1 : (2 : ℚ) ^ (e + F.prec - 1) ≤ |q|) (h2 : |q| < 2 ^ (e + F.prec))
    (hm : m % 2 = 0) (h : |q - m * 2 ^ e| = 1 / 2 * 2 ^ e) : F.rnd q = m * 2 ^ e := by
  have hq : q ≠ 0 := by rintro rfl; rw [abs_zero] at h1; exact absurd h1 (not_le.2 (two_pow_pos _))
  have hexp : F.expOf q = e := by
    apply le_antisymm (expOf_le hq he h2)
    have := (zpow_lt_zpow_iff_right₀ (by norm_num : (1 : ℚ) < 2)).1 (lt_of_le_of_lt h1 (lt_of_log q))
    unfold Fmt.expOf
    omega
  have hpos := two_pow_pos e
  have hd : |q / 2 ^ e - m| = 1 / 2 := by
    have : q / 2 ^ e - m = (q - m * 2 ^ e) / 2 ^ e := by field_simp
    rw [this, abs_div, abs_of_pos hpos, div_eq_iff hpos.ne']
    exact h
  unfold Fmt.rnd
  rw [hexp]
  congr 1
  norm_cast
  rcases (abs_eq (by norm_num : (0 : ℚ) ≤ 1 / 2)).1 hd with h3 | h3
  · have hf : ⌊q / 2 ^ e⌋ = m := by rw [Int.floor_eq_iff]; constructor <;> linarith
    unfold roundEven
    rw [hf]
    rw [if_neg (by linarith), if_neg (by linarith), if_pos hm]
  · have hf : ⌊q / 2 ^ e⌋ = m - 1 := by rw [Int.floor_eq_iff]; push_cast; constructor <;> linarith
    unfold roundEven
    rw [hf]
    push_cast
    rw [if_neg (by linarith), if_neg (by linarith), if_neg (by omega)]
    omega

/-- Every number of the format is a multiple of the last digit of any power of two not above it. -/
theorem grid_multiple {q : ℚ} (h : F.Grid q) {e : ℤ} (hq : (2 : ℚ) ^ (e + F.prec - 1) ≤ |q|) : ∃ n : ℤ, q = n * 2 ^ e := by
  obtain ⟨m, e', he, hm, rfl⟩ := h
  have : e ≤ e' := by
    have h1 : |(m : ℚ) * 2 ^ e'| < 2 ^ (F.prec + e') := by
      rw [abs_mul, abs_of_pos (two_pow_pos e'), zpow_add₀ (by norm_num), zpow_natCast]
      refine mul_lt_mul_of_pos_right ?_ (two_pow_pos e')
      exact_mod_cast hm
    have := (zpow_lt_zpow_iff_right₀ (by norm_num : (1 : ℚ) < 2)).1 (lt_of_le_of_lt hq h1)
    omega
  refine ⟨m * 2 ^ (e' - e).toNat, ?_⟩
  rw [← scaled_int this, div_mul_cancel₀ _ (two_pow_pos _).ne']

/-- A multiple of a last digit, of few enough digits. -/
theorem grid_of_multiple {n e : ℤ} (he : F.emin ≤ e) (h : |(n : ℚ) * 2 ^ e| < 2 ^ (e + F.prec)) : F.Grid (n * 2 ^ e) := by
  refine ⟨n, e, he, ?_, rfl⟩
  rw [abs_mul, abs_of_pos (two_pow_pos e), add_comm, zpow_add₀ (by norm_num), zpow_natCast] at h
  have := lt_of_mul_lt_mul_right h (two_pow_pos e).le
  exact_mod_cast this

theorem grid_common {x y : ℚ} (hx : F.Grid x) (hy : F.Grid y) : ∃ a b e : ℤ, F.emin ≤ e ∧ x = a * 2 ^ e ∧ y = b * 2 ^ e ∧
    (|x| < 2 ^ (e + F.prec) ∨ |y| < 2 ^ (e + F.prec)) := by
  obtain ⟨m, e, he, hm, rfl⟩ := hx
  obtain ⟨m', e', he', hm', rfl⟩ := hy
  have key : ∀ (m e : ℤ), |m| < 2 ^ F.prec → |(m : ℚ) * 2 ^ e| < 2 ^ (e + F.prec) := by
    intro m e hm
    rw [abs_mul, abs_of_pos (two_pow_pos e), add_comm, zpow_add₀ (by norm_num), zpow_natCast]
    refine mul_lt_mul_of_pos_right ?_ (two_pow_pos e)
    exact_mod_cast hm
  rcases le_total e e' with h | h
  · refine ⟨m, m' * 2 ^ (e' - e).toNat, e, he, rfl, ?_, Or.inl (key m e hm)⟩
    rw [← scaled_int h, div_mul_cancel₀ _ (two_pow_pos _).ne']
  · refine ⟨m * 2 ^ (e - e').toNat, m', e', he', ?_, rfl, Or.inr (key m' e' hm')⟩
    rw [← scaled_int h, div_mul_cancel₀ _ (two_pow_pos _).ne']

/-- Combination of two numbers that is not larger than either. -/
theorem grid_combination {x y : ℚ} (hx : F.Grid x) (hy : F.Grid y) (a b : ℤ) (h1 : |a * x + b * y| ≤ |x|) (h2 : |a * x + b * y| ≤ |y|) :
    F.Grid (a * x + b * y) := by
  obtain ⟨m, n, e, he, ex, ey, hs⟩ := grid_common hx hy
  have e1 : (a : ℚ) * x + b * y = ((a * m + b * n : ℤ) : ℚ) * 2 ^ e := by rw [ex, ey]; push_cast; ring
  rw [e1] at h1 h2 ⊢
  refine grid_of_multiple he ?_
  rcases hs with hs | hs
  · exact lt_of_le_of_lt h1 hs
  · exact lt_of_le_of_lt h2 hs

/-- The difference of two numbers within a factor of two of each other is exact (Sterbenz). -/
theorem grid_sub {x y : ℚ} (hx : F.Grid x) (hy : F.Grid y) (h0 : 0 ≤ x) (h1 : x ≤ 2 * y) (h2 : y ≤ 2 * x) : F.Grid (x - y) := by
  have h3 : 0 ≤ y := by linarith
  have := grid_combination hx hy 1 (-1) (by rw [abs_of_nonneg h0, abs_le]; push_cast; constructor <;> linarith)
    (by rw [abs_of_nonneg h3, abs_le]; push_cast; constructor <;> linarith)
  push_cast at this
  convert this using 1
  ring

theorem rep_of_le {x y : ℚ} (hx : F.Grid x) (hy : F.Rep y) (h : |x| ≤ |y|) : F.Rep x := ⟨hx, lt_of_le_of_lt h hy.2⟩

theorem rep_int (hF : F.Valid) {n : ℤ} (hn : |n| < 2 ^ F.prec) : F.Rep n := by
  refine ⟨grid_int (by have := hF.emin; omega) hn, ?_⟩
  have h1 : |(n : ℚ)| < 2 ^ F.prec := by exact_mod_cast hn
  refine lt_of_lt_of_le h1 ?_
  rw [← zpow_natCast]
  apply zpow_le_zpow_right₀ (by norm_num)
  have := hF.emax
  omega

theorem rep_two_pow (hF : F.Valid) {e : ℤ} (he : F.emin ≤ e) (h : e < F.emax) : F.Rep (2 ^ e) := by
  refine ⟨grid_two_pow hF.one_le he, ?_⟩
  rw [abs_of_pos (two_pow_pos e)]
  exact zpow_lt_zpow_right₀ (by norm_num) h

theorem rep_rnd {q : ℚ} (hp : 1 ≤ F.prec) {y : ℚ} (hy : F.Rep y) (h : |q| ≤ |y|) : F.Rep (F.rnd q) := by
  refine ⟨grid_rnd hp q, lt_of_le_of_lt ?_ hy.2⟩
  have hy' := rnd_grid (grid_abs hy.1)
  rcases le_total 0 q with h0 | h0
  · rw [abs_of_nonneg (rnd_nonneg h0)]
    rw [abs_of_nonneg h0] at h
    have := rnd_mono (F := F) hp h
    rwa [hy'] at this
  · have h1 := rnd_nonneg (F := F) (q := -q) (by linarith)
    rw [rnd_neg] at h1
    rw [abs_of_nonpos (by linarith), ← rnd_neg]
    rw [abs_of_nonpos h0] at h
    have := rnd_mono (F := F) hp h
    rwa [hy'] at this

theorem round_of_rep_rnd {q : ℚ} (h : F.Rep (F.rnd q)) : F.round q = .fin (F.rnd q) := by
  unfold Fmt.round; rw [if_pos h.2]

/-! ## Order of values -/

theorem le_fin {x y : ℚ} : (FVal.fin x).le (.fin y) = decide (x ≤ y) := by
  simp only [FVal.le, FVal.lt, FVal.eq]
  by_cases h : x ≤ y
  · rcases lt_or_eq_of_le h with h' | h' <;> simp [h, h']
  · have h1 : ¬ x < y := fun h' => h h'.le
    have h2 : x ≠ y := fun h' => h h'.le
    simp [h, h1, h2]

theorem neg_neg' (x : FVal) : x.neg.neg = x := by cases x <;> simp [FVal.neg]

theorem abs_neg' (x : FVal) : x.neg.abs = x.abs := by cases x <;> simp [FVal.neg, FVal.abs]

theorem sub_fin (x y : ℚ) : F.sub (.fin x) (.fin y) = F.round (x - y) := by
  simp [Fmt.sub, FVal.neg, Fmt.add, sub_eq_add_neg]

theorem abs_round (q : ℚ) : (F.round q).abs = F.round |q| := by
  have key : ∀ q : ℚ, 0 ≤ q → (F.round q).abs = F.round q := by
    intro q hq
    unfold Fmt.round
    split_ifs
    · simp only [FVal.abs]; rw [abs_of_nonneg (rnd_nonneg hq)]
    · simp [FVal.abs, hq]
  rcases le_total 0 q with h | h
  · rw [abs_of_nonneg h, key q h]
  · rw [abs_of_nonpos h, ← key (-q) (by linarith), round_neg, abs_neg']

theorem sub_neg' (x y : FVal) : F.sub y x = (F.sub x y).neg := by
  cases x with
  | nan => cases y <;> rfl
  | inf s => cases y with
    | nan => rfl
    | inf t => cases s <;> cases t <;> rfl
    | fin q => simp [Fmt.sub, FVal.neg, Fmt.add]
  | fin p => cases y with
    | nan => rfl
    | inf t => simp [Fmt.sub, FVal.neg, Fmt.add]
    | fin q => rw [sub_fin, sub_fin, ← round_neg, neg_sub]

end Verif.FloatMath
