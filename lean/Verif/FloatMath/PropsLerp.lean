import Verif.FloatMath.Lemmas

/-!
# C80 `Lerp`
-/

namespace Verif.FloatMath
open Verif.Cpp Verif.MathUtils

variable {F : Fmt}

theorem lerp_fin (a b t d : ℚ) (hd : F.round (b - a) = .fin d) : lerp F (.fin a) (.fin b) (.fin t) = F.add (.fin a) (F.round (t * d)) := by
  unfold lerp; rw [sub_fin, hd]; rfl

/-- Adding a number keeps the order of values. -/
theorem add_mono (hF : F.Valid) (a : ℚ) {x y : FVal} (h : x.le y = true) : (F.add (.fin a) x).le (F.add (.fin a) y) = true := by
  cases x with
  | nan => cases y <;> simp [FVal.le, FVal.lt, FVal.eq] at h
  | inf s =>
    cases y with
    | nan => simp [FVal.le, FVal.lt, FVal.eq] at h
    | inf t => cases s <;> cases t <;> simp [FVal.le, FVal.lt, FVal.eq, Fmt.add] at *
    | fin q =>
      cases s
      · simp [FVal.le, FVal.lt, FVal.eq] at h
      · simp only [Fmt.add, Fmt.round]; split_ifs
        · simp [FVal.le, FVal.lt]
        · by_cases h0 : a + q < 0 <;> simp [FVal.le, FVal.lt, FVal.eq, h0]
  | fin p =>
    cases y with
    | nan => simp [FVal.le, FVal.lt, FVal.eq] at h
    | inf t =>
      cases t
      · simp only [Fmt.add, Fmt.round]; split_ifs
        · simp [FVal.le, FVal.lt]
        · by_cases h0 : a + p < 0 <;> simp [FVal.le, FVal.lt, FVal.eq, h0]
      · simp [FVal.le, FVal.lt, FVal.eq] at h
    | fin q =>
      rw [le_fin, decide_eq_true_eq] at h
      exact round_le_round hF.one_le (by linarith)

/-- `Lerp(from, to, 0)` is `from`, unless `to - from` overflows. -/
theorem C80_lerp_zero_partial (a b d : ℚ) (ha : F.Rep a) (hd : F.round (b - a) = .fin d) : lerp F (.fin a) (.fin b) (.fin 0) = .fin a := by
  rw [lerp_fin a b 0 d hd, zero_mul, round_rep rep_zero]
  simp only [Fmt.add, add_zero]
  exact round_rep ha

/-- If `to - from` overflows, `Lerp(from, to, 0)` is NaN. -/
theorem C80_lerp_zero_violated (a b : ℚ) (h : ∀ d, F.round (b - a) ≠ .fin d) : lerp F (.fin a) (.fin b) (.fin 0) = .nan := by
  have : ∃ s, F.round (b - a) = .inf s := by
    revert h
    unfold Fmt.round
    split_ifs with h0
    · intro h; exact absurd rfl (h _)
    · intro _; exact ⟨_, rfl⟩
  obtain ⟨s, hs⟩ := this
  unfold lerp
  rw [sub_fin, hs]
  simp [Fmt.mul, Fmt.add]

/-- Such numbers exist in every format: the largest one and its opposite. -/
theorem C80_lerp_overflow (hF : F.Valid) : F.Rep F.maxValue ∧ F.Rep (-F.maxValue) ∧ ∀ d, F.round (F.maxValue - -F.maxValue) ≠ .fin d := by
  have hp := hF.prec
  have hmin := hF.emin
  have hmax := hF.emax
  have hpos := two_pow_pos (F.emax - F.prec)
  have h1 : (1 : ℚ) ≤ 2 ^ F.prec := one_le_pow₀ (by norm_num)
  have hval : F.maxValue = ((2 ^ F.prec - 1 : ℤ) : ℚ) * 2 ^ (F.emax - F.prec) := by unfold Fmt.maxValue; push_cast; ring
  have hnn : 0 ≤ F.maxValue := by unfold Fmt.maxValue; exact mul_nonneg (by linarith) hpos.le
  have htop : (2 : ℚ) ^ F.emax = 2 ^ F.prec * 2 ^ (F.emax - F.prec) := by
    rw [← zpow_natCast, ← zpow_add₀ (by norm_num)]; congr 1; ring
  have hlt : |F.maxValue| < 2 ^ F.emax := by
    rw [abs_of_nonneg hnn, htop]
    unfold Fmt.maxValue
    exact mul_lt_mul_of_pos_right (by linarith) hpos
  have hrep : F.Rep F.maxValue := by
    refine ⟨?_, hlt⟩
    rw [hval]
    refine grid_of_multiple (by omega) ?_
    rw [← hval, show F.emax - F.prec + F.prec = F.emax by ring]
    exact hlt
  refine ⟨hrep, rep_neg hrep, fun d hd => ?_⟩
  have hge : (2 : ℚ) ^ F.emax ≤ F.maxValue - -F.maxValue := by
    rw [htop]
    unfold Fmt.maxValue
    have h2 : (2 : ℚ) ≤ 2 ^ F.prec := by
      have := pow_le_pow_right₀ (a := (2 : ℚ)) (by norm_num) (show 1 ≤ F.prec by omega)
      simpa using this
    nlinarith
  have := rnd_mono (F := F) hF.one_le hge
  rw [rnd_grid (grid_two_pow hF.one_le (by omega))] at this
  unfold Fmt.round at hd
  rw [if_neg (by rw [not_lt]; exact le_trans this (le_abs_self _))] at hd
  exact FVal.noConfusion hd

/-- `Lerp(from, to, 1)` is `to` if the difference is a number of the type. -/
theorem C80_lerp_one_partial (a b : ℚ) (hb : F.Rep b) (hd : F.Rep (b - a)) : lerp F (.fin a) (.fin b) (.fin 1) = .fin b := by
  rw [lerp_fin a b 1 (b - a) (round_rep hd), one_mul, round_rep hd]
  simp only [Fmt.add]
  rw [show a + (b - a) = b by ring]
  exact round_rep hb

/-- Otherwise it may miss: in every format there is a positive number `b` with `Lerp(1, b, 1)` equal to zero. -/
theorem C80_lerp_one_violated (hF : F.Valid) : ∃ b, F.Rep b ∧ 0 < b ∧ b ≠ 0 ∧ lerp F (.fin 1) (.fin b) (.fin 1) = .fin 0 := by
  have hp := hF.prec
  have hmin := hF.emin
  have hmax := hF.emax
  have hpos := two_pow_pos (-(F.prec : ℤ) - 2)
  have h1 : F.Rep 1 := by have := rep_two_pow hF (e := 0) (by omega) (by omega); simpa using this
  refine ⟨2 ^ (-(F.prec : ℤ) - 2), rep_two_pow hF (by omega) (by omega), hpos, hpos.ne', ?_⟩
  have e1 : (2 : ℚ) ^ (-(F.prec : ℤ)) = 4 * 2 ^ (-(F.prec : ℤ) - 2) := by
    rw [show (-(F.prec : ℤ)) = 2 + (-(F.prec : ℤ) - 2) by ring, zpow_add₀ (by norm_num)]; norm_num
  have hsmall : (2 : ℚ) ^ (-(F.prec : ℤ) - 2) ≤ 1 / 2 := by
    have := zpow_le_zpow_right₀ (a := (2 : ℚ)) (by norm_num) (show -(F.prec : ℤ) - 2 ≤ -1 by omega)
    rw [zpow_neg_one] at this
    linarith
  have hab : |(2 : ℚ) ^ (-(F.prec : ℤ) - 2) - 1| = 1 - 2 ^ (-(F.prec : ℤ) - 2) := by rw [abs_of_nonpos (by linarith)]; ring
  have e2 : ((-2 ^ F.prec : ℤ) : ℚ) * 2 ^ (-(F.prec : ℤ)) = -1 := by
    push_cast
    rw [neg_mul, ← zpow_natCast, ← zpow_add₀ (by norm_num), add_neg_cancel, zpow_zero]
  have key := rnd_of_near (F := F) (q := 2 ^ (-(F.prec : ℤ) - 2) - 1) (m := -2 ^ F.prec) (e := -(F.prec : ℤ)) (by omega)
    (by rw [hab, show (-(F.prec : ℤ) + F.prec - 1) = -1 by ring, zpow_neg_one]; linarith)
    (by rw [hab, show (-(F.prec : ℤ) + F.prec) = 0 by ring, zpow_zero]; linarith)
    (by rw [e2, e1, sub_neg_eq_add, sub_add_cancel, abs_of_pos hpos]; linarith)
  rw [e2] at key
  have hr : F.round (2 ^ (-(F.prec : ℤ) - 2) - 1) = .fin (-1) := by
    rw [round_of_rep_rnd (by rw [key]; exact rep_neg h1), key]
  rw [lerp_fin 1 _ 1 (-1) hr, one_mul, round_rep (rep_neg h1)]
  simp only [Fmt.add]
  rw [add_neg_cancel]
  exact round_rep rep_zero

/-- With `from ≤ to` and a difference that does not overflow, the result never decreases as the interpolation grows; so for interpolations
within `[0, 1]` it lies between `from` and `Lerp(from, to, 1)`. -/
theorem C80_lerp_mono (hF : F.Valid) (a b d s t : ℚ) (hab : a ≤ b) (hd : F.round (b - a) = .fin d) (hst : s ≤ t) :
    (lerp F (.fin a) (.fin b) (.fin s)).le (lerp F (.fin a) (.fin b) (.fin t)) = true := by
  rw [lerp_fin a b s d hd, lerp_fin a b t d hd]
  apply add_mono hF
  apply round_le_round hF.one_le
  have : 0 ≤ d := by
    unfold Fmt.round at hd
    split_ifs at hd with h
    · injection hd with hd
      rw [← hd]
      exact rnd_nonneg (by linarith)
  exact mul_le_mul_of_nonneg_right hst this

/-- With `to ≤ from` it never increases. -/
theorem C80_lerp_anti (hF : F.Valid) (a b d s t : ℚ) (hab : b ≤ a) (hd : F.round (b - a) = .fin d) (hst : s ≤ t) :
    (lerp F (.fin a) (.fin b) (.fin t)).le (lerp F (.fin a) (.fin b) (.fin s)) = true := by
  rw [lerp_fin a b s d hd, lerp_fin a b t d hd]
  apply add_mono hF
  apply round_le_round hF.one_le
  have : d ≤ 0 := by
    unfold Fmt.round at hd
    split_ifs at hd with h
    · injection hd with hd
      rw [← hd]
      have := rnd_mono (F := F) hF.one_le (show b - a ≤ 0 by linarith)
      rwa [rnd_zero] at this
  exact mul_le_mul_of_nonpos_right hst this

/-- If moreover the difference is a number of the type, all interpolations within `[0, 1]` give values between `from` and `to`. -/
theorem C80_lerp_between_partial (hF : F.Valid) (a b t : ℚ) (ha : F.Rep a) (hb : F.Rep b) (hd : F.Rep (b - a)) (hab : a ≤ b) (h0 : 0 ≤ t) (h1 : t ≤ 1) :
    (FVal.fin a).le (lerp F (.fin a) (.fin b) (.fin t)) = true ∧ (lerp F (.fin a) (.fin b) (.fin t)).le (.fin b) = true := by
  have l := C80_lerp_mono hF a b (b - a) 0 t hab (round_rep hd) h0
  have r := C80_lerp_mono hF a b (b - a) t 1 hab (round_rep hd) h1
  rw [C80_lerp_zero_partial a b (b - a) ha (round_rep hd)] at l
  rw [C80_lerp_one_partial a b hb hd] at r
  exact ⟨l, r⟩

/-- But it may pass `to`: in every format there are numbers `-1 < b` with `Lerp(-1, b, 1)` above `b`. -/
theorem C80_lerp_overshoot_violated (hF : F.Valid) :
    ∃ b r, F.Rep b ∧ -1 < b ∧ lerp F (.fin (-1)) (.fin b) (.fin 1) = .fin r ∧ b < r := by
  have hp := hF.prec
  have hmin := hF.emin
  have hmax := hF.emax
  have hpos := two_pow_pos (1 - (F.prec : ℤ))
  have e0 : ((2 ^ (F.prec - 1) : ℤ) : ℚ) * 2 ^ (1 - (F.prec : ℤ)) = 1 := by
    push_cast
    rw [← zpow_natCast, ← zpow_add₀ (by norm_num), show (((F.prec - 1 : ℕ) : ℤ) + (1 - (F.prec : ℤ))) = 0 by omega, zpow_zero]
  have e1 : (2 : ℚ) ^ (2 - (F.prec : ℤ)) = 2 * 2 ^ (1 - (F.prec : ℤ)) := by
    rw [show (2 - (F.prec : ℤ)) = 1 + (1 - (F.prec : ℤ)) by ring, zpow_add₀ (by norm_num)]; norm_num
  have hsmall : (2 : ℚ) ^ (1 - (F.prec : ℤ)) ≤ 1 / 4 := by
    have := zpow_le_zpow_right₀ (a := (2 : ℚ)) (by norm_num) (show 1 - (F.prec : ℤ) ≤ -2 by omega)
    norm_num at this
    linarith
  have hbig : (2 : ℚ) < 2 ^ F.emax := by
    have := zpow_lt_zpow_right₀ (a := (2 : ℚ)) (by norm_num) (show 1 < F.emax by omega)
    simpa using this
  have hbig4 : (4 : ℚ) < 2 ^ F.emax := by
    have := zpow_lt_zpow_right₀ (a := (2 : ℚ)) (by norm_num) (show 2 < F.emax by omega)
    norm_num at this
    exact this
  generalize hu : (2 : ℚ) ^ (1 - (F.prec : ℤ)) = u at *
  have rep : ∀ k : ℤ, 0 ≤ k → (k : ℚ) * u < 1 → F.Rep (1 + k * u) := by
    intro k hk hku
    have hk' : (0 : ℚ) ≤ k := by exact_mod_cast hk
    have e : (1 : ℚ) + k * u = ((2 ^ (F.prec - 1) + k : ℤ) : ℚ) * 2 ^ (1 - (F.prec : ℤ)) := by
      rw [hu, Int.cast_add, add_mul, e0]
    have hab : |(1 : ℚ) + k * u| < 2 := by rw [abs_of_nonneg (by positivity)]; linarith
    refine ⟨?_, lt_trans hab hbig⟩
    rw [e]
    refine grid_of_multiple (by omega) ?_
    rw [← e, show (1 - (F.prec : ℤ) + F.prec) = 1 by ring, zpow_one]
    exact hab
  have hb : F.Rep (1 + 3 * u) := by have := rep 3 (by norm_num) (by push_cast; linarith); push_cast at this; exact this
  -- the difference is a tie and rounds up
  have hdiff : F.rnd (1 + 3 * u - -1) = 2 + 4 * u := by
    have e4 : ((2 ^ (F.prec - 1) + 2 : ℤ) : ℚ) * 2 ^ (2 - (F.prec : ℤ)) = 2 + 4 * u := by
      rw [e1, Int.cast_add, add_mul]
      push_cast at e0 ⊢
      linarith
    have heven : ((2 : ℤ) ^ (F.prec - 1) + 2) % 2 = 0 := by
      obtain ⟨k, hk⟩ : ∃ k, F.prec - 1 = k + 1 := ⟨F.prec - 2, by omega⟩
      rw [hk, pow_succ]; omega
    have := rnd_of_tie (F := F) (q := 1 + 3 * u - -1) (m := 2 ^ (F.prec - 1) + 2) (e := 2 - (F.prec : ℤ)) (by omega)
      (by rw [show (2 - (F.prec : ℤ) + F.prec - 1) = 1 by ring, zpow_one, abs_of_pos (by linarith)]; linarith)
      (by rw [show (2 - (F.prec : ℤ) + F.prec) = 2 by ring, abs_of_pos (by linarith)]; norm_num; linarith)
      heven
      (by rw [e4, e1, show (1 + 3 * u - -1 - (2 + 4 * u)) = -u by ring, abs_neg, abs_of_pos hpos]; ring)
    rw [this, e4]
  have hd : F.Rep (2 + 4 * u) := by
    rw [← hdiff]
    refine ⟨grid_rnd hF.one_le _, ?_⟩
    rw [hdiff, abs_of_pos (by linarith)]
    linarith
  have hr : F.Rep (1 + 4 * u) ∨ 1 + 4 * u = 2 := by
    rcases lt_or_eq_of_le (show 4 * u ≤ 1 by linarith) with h | h
    · left; have := rep 4 (by norm_num) (by push_cast; exact h); push_cast at this; exact this
    · right; linarith
  have hr : F.Rep (1 + 4 * u) := by
    rcases hr with h | h
    · exact h
    · rw [h]; have := rep_two_pow hF (e := 1) (by omega) (by omega); simpa using this
  refine ⟨1 + 3 * u, 1 + 4 * u, hb, by linarith, ?_, by linarith⟩
  rw [lerp_fin (-1) _ 1 (2 + 4 * u) (by rw [round_of_rep_rnd (by rw [hdiff]; exact hd), hdiff]), one_mul, round_rep hd]
  simp only [Fmt.add]
  rw [show -1 + (2 + 4 * u) = 1 + 4 * u by ring]
  exact round_rep hr

/-! ## Integers -/

theorem trunc_int (n : ℤ) : trunc n = n := by unfold trunc; simp

/-- Interpolation of integers, all few enough digits long (and the difference not wrapping): the ends are exact. -/
theorem C80_lerp_int_partial (hF : F.Valid) (signed : Bool) (w : Nat) (a b : Int) (ha : intMin signed w ≤ a ∧ a ≤ intMax signed w)
    (hb : intMin signed w ≤ b ∧ b ≤ intMax signed w) (hs : if signed ∨ w < 32 then -2 ^ (promoted w - 1) ≤ b - a ∧ b - a < 2 ^ (promoted w - 1) else a ≤ b)
    (h1 : |a| < 2 ^ F.prec) (h2 : |b| < 2 ^ F.prec)
    (h3 : |b - a| < 2 ^ F.prec) :
    lerpInt F signed w a b (.fin 0) = .ok a ∧ lerpInt F signed w a b (.fin 1) = .ok b := by
  have ra := rep_int hF h1
  have rb := rep_int hF h2
  have rd := rep_int hF h3
  have hs : intSub signed w b a = .ok (b - a) := by
    unfold intSub
    split at hs
    · rename_i hc
      rw [if_pos (by simpa using hc), MathUtils.sRes, if_pos hs]
    · rename_i hc
      have hsg : signed = false := by simpa using fun h => hc (Or.inl h)
      subst hsg
      simp only [intMin, intMax, Bool.false_eq_true, if_false] at ha hb
      rw [if_neg (by simpa using hc), Int.emod_eq_of_lt (by omega) (by omega)]
  unfold lerpInt
  rw [hs, ok_bind, ok_bind, round_rep ra, round_rep rd]
  simp only [Fmt.mul, zero_mul, one_mul]
  rw [round_rep rep_zero, round_rep rd]
  simp only [Fmt.add, add_zero]
  rw [round_rep ra, show (a : ℚ) + ((b - a : ℤ) : ℚ) = b by push_cast; ring, round_rep rb]
  unfold toInt
  dsimp only
  rw [trunc_int, trunc_int, if_pos ha, if_pos hb]
  exact ⟨rfl, rfl⟩

/-- Integers narrower than `int` that the floating-point type can hold: the ends are exact, upwards and downwards, signed and unsigned. -/
theorem C80_lerp_int_narrow (hF : F.Valid) (signed : Bool) (w : Nat) (hw1 : 1 ≤ w) (hw : w < 32) (hp : w ≤ F.prec) (a b : Int)
    (ha : intMin signed w ≤ a ∧ a ≤ intMax signed w) (hb : intMin signed w ≤ b ∧ b ≤ intMax signed w) :
    lerpInt F signed w a b (.fin 0) = .ok a ∧ lerpInt F signed w a b (.fin 1) = .ok b := by
  have hpow : (2 : Int) ^ w ≤ 2 ^ F.prec := pow_le_pow_right₀ (by norm_num) hp
  have hpow31 : (2 : Int) ^ w ≤ 2 ^ 31 := pow_le_pow_right₀ (by norm_num) (by omega)
  have hdbl : (2 : Int) ^ w = 2 * 2 ^ (w - 1) := by rw [← pow_succ', Nat.sub_add_cancel hw1]
  have hpos : (0 : Int) < 2 ^ (w - 1) := by positivity
  have hprom : promoted w = 32 := by unfold promoted; omega
  have bounds : |a| < 2 ^ w ∧ |b| < 2 ^ w ∧ |b - a| < 2 ^ w := by
    unfold intMin intMax at ha hb
    simp only [abs_lt]
    cases signed <;> simp only [Bool.false_eq_true, if_true, if_false] at ha hb <;> omega
  have hd := abs_lt.1 bounds.2.2
  refine C80_lerp_int_partial hF signed w a b ha hb ?_ (by omega) (by omega) (by omega)
  rw [if_pos (Or.inr hw), hprom]
  norm_num at hpow31 hd ⊢
  omega

/-- Interpolating downwards between unsigned integers not narrower than `int`, with a floating-point type that can hold them (e.g. 32 bits with
a `double`): the difference wraps around and the result does not fit; the behaviour is undefined already at the end of the interval. -/
theorem C80_lerp_unsigned_violated (hF : F.Valid) (w : Nat) (hw : 32 ≤ w) (hp : w < F.prec) (a b : Int) (ha : a < 2 ^ w) (hb : 0 ≤ b)
    (hab : b < a) : lerpInt F false w a b (.fin 1) = .error .ub := by
  have hpw : (2 : Int) ^ (w + 1) ≤ 2 ^ F.prec := pow_le_pow_right₀ (by norm_num) hp
  rw [pow_succ] at hpw
  have e : intSub false w b a = .ok (b - a + 2 ^ w) := by
    have : (b - a) % 2 ^ w = b - a + 2 ^ w := by
      rw [← Int.add_emod_right, Int.emod_eq_of_lt (by omega) (by omega)]
    simp only [intSub]
    rw [if_neg (by simp; omega), this]
  have lim : ∀ n : ℤ, 0 ≤ n → n < 2 ^ w * 2 → F.Rep n := fun n h h' =>
    rep_int hF (by rw [abs_of_nonneg h]; omega)
  unfold lerpInt
  rw [e, ok_bind, round_rep (lim a (by omega) (by omega)), round_rep (lim _ (by omega) (by omega))]
  simp only [Fmt.mul, one_mul]
  rw [round_rep (lim _ (by omega) (by omega))]
  simp only [Fmt.add]
  rw [show (a : ℚ) + ((b - a + 2 ^ w : ℤ) : ℚ) = ((b + 2 ^ w : ℤ) : ℚ) by push_cast; ring, round_rep (lim _ (by omega) (by omega))]
  unfold toInt
  dsimp only
  rw [trunc_int, if_neg]
  simp only [intMax, Bool.false_eq_true, if_false]
  omega

example : float64.Valid ∧ 32 < float64.prec := ⟨float64_valid, by decide⟩

/-- The hypotheses hold e.g. of 3 and 10 in `float`, and of bytes. -/
example : float32.Rep 10 ∧ float32.Rep (10 - 3) ∧ float32.Rep 3 ∧ float32.round (10 - 3) = .fin 7 ∧ (8 : Nat) ≤ float32.prec := by
  have h3 : float32.Rep 3 := by exact_mod_cast rep_int float32_valid (n := 3) (by decide)
  have h7 : float32.Rep 7 := by exact_mod_cast rep_int float32_valid (n := 7) (by decide)
  have h10 : float32.Rep 10 := by exact_mod_cast rep_int float32_valid (n := 10) (by decide)
  have e : (10 - 3 : ℚ) = 7 := by norm_num
  rw [e]
  exact ⟨h10, h7, h3, round_rep h7, by decide⟩

end Verif.FloatMath
