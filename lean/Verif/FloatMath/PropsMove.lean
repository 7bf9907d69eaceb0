import Verif.FloatMath.Lemmas

/-!
# C79 `Approach` and `Clamp` on floating-point numbers
-/

namespace Verif.FloatMath
open Verif.Cpp Verif.MathUtils

variable {F : Fmt}

/-! ## Clamp -/

/-- Numbers and infinities, with bounds in order: the result is the value if it lies within the bounds and otherwise the bound it is beyond. -/
theorem C79_clamp (v lo hi : FVal) (hv : v ≠ .nan) (hb : lo.le hi = true) :
    (lo.le v = true → v.le hi = true → clamp FVal.lt v lo hi = v) ∧
    (v.lt lo = true → clamp FVal.lt v lo hi = lo) ∧
    (hi.lt v = true → clamp FVal.lt v lo hi = hi) ∧
    lo.le (clamp FVal.lt v lo hi) = true ∧ (clamp FVal.lt v lo hi).le hi = true := by
  have fin3 : ∀ a b c : ℚ, b ≤ c →
      clamp FVal.lt (.fin a) (.fin b) (.fin c) = if a < b then .fin b else if c < a then .fin c else .fin a := by
    intro a b c h
    unfold clamp stdMax stdMin
    simp only [FVal.lt, decide_eq_true_eq]
    by_cases h1 : c < a
    · rw [if_pos h1, if_neg (by linarith : ¬ a < b), if_neg (by simp only [decide_eq_true_eq]; linarith)]
    · rw [if_neg h1]
      by_cases h2 : a < b
      · rw [if_pos h2, if_pos (by simpa [FVal.lt] using h2)]
      · rw [if_neg h2, if_neg (by simpa [FVal.lt] using h2)]
  cases v with
  | nan => exact absurd rfl hv
  | inf s =>
    cases s <;> cases lo with
    | nan => cases hi <;> simp [FVal.le, FVal.lt, FVal.eq] at hb
    | inf t => cases t <;> cases hi with
      | nan => simp [FVal.le, FVal.lt, FVal.eq] at hb
      | inf u => cases u <;> simp [FVal.le, FVal.lt, FVal.eq, clamp, stdMax, stdMin] at *
      | fin c => simp [FVal.le, FVal.lt, FVal.eq, clamp, stdMax, stdMin] at *
    | fin b => cases hi with
      | nan => simp [FVal.le, FVal.lt, FVal.eq] at hb
      | inf u => cases u <;> simp [FVal.le, FVal.lt, FVal.eq, clamp, stdMax, stdMin] at *
      | fin c =>
        rw [le_fin] at hb
        have hb' : b ≤ c := by simpa using hb
        simp [FVal.lt, FVal.le, FVal.eq, clamp, stdMax, stdMin, not_lt.2 hb', le_iff_lt_or_eq.1 hb']
  | fin a =>
    cases lo with
    | nan => cases hi <;> simp [FVal.le, FVal.lt, FVal.eq] at hb
    | inf t => cases t <;> cases hi with
      | nan => simp [FVal.le, FVal.lt, FVal.eq] at hb
      | inf u => cases u <;> simp [FVal.le, FVal.lt, FVal.eq, clamp, stdMax, stdMin] at *
      | fin c =>
        first
          | (simp [FVal.le, FVal.lt, FVal.eq] at hb; done)
          | (simp only [clamp, stdMax, stdMin, FVal.lt, decide_eq_true_eq]
             by_cases h : c < a
             · simp [FVal.le, FVal.lt, FVal.eq, h, h.ne', not_lt.2 h.le]
             · have h' := not_lt.1 h
               have h'' := le_iff_lt_or_eq.1 h'
               simp [FVal.le, FVal.lt, FVal.eq, h, h''])
    | fin b => cases hi with
      | nan => simp [FVal.le, FVal.lt, FVal.eq] at hb
      | inf u =>
        cases u
        · simp only [clamp, stdMax, stdMin, FVal.lt]
          by_cases h : a < b
          · simp [FVal.le, FVal.lt, FVal.eq, h, h.ne', not_lt.2 h.le]
          · have h'' := le_iff_lt_or_eq.1 (not_lt.1 h)
            simp [FVal.le, FVal.lt, FVal.eq, h, h'']
        · simp [FVal.le, FVal.lt, FVal.eq] at hb
      | fin c =>
        rw [le_fin] at hb
        have hb' : b ≤ c := by simpa using hb
        rw [fin3 a b c hb']
        refine ⟨fun h1 h2 => ?_, fun h => ?_, fun h => ?_, ?_⟩
        · rw [le_fin, decide_eq_true_eq] at h1 h2
          rw [if_neg (not_lt.2 h1), if_neg (not_lt.2 h2)]
        · rw [if_pos (by simpa [FVal.lt] using h)]
        · have h' : c < a := by simpa [FVal.lt] using h
          rw [if_neg (by linarith), if_pos h']
        · split_ifs <;> simp only [le_fin, decide_eq_true_eq] <;> constructor <;> linarith

/-- NaN is not brought within bounds. -/
theorem C79_clamp_nan_violated (lo hi : FVal) : clamp FVal.lt .nan lo hi = .nan := by
  cases lo <;> cases hi <;> rfl

/-! ## Approach -/

theorem add_fin (x y : ℚ) : F.add (.fin x) (.fin y) = F.round (x + y) := rfl

theorem approach_neg (v o i : FVal) : approach F v.neg o.neg i = (approach F v o i).neg := by
  have hlt : ∀ a b : FVal, a.neg.lt b.neg = b.lt a := by
    intro a b
    cases a with
    | nan => cases b <;> rfl
    | inf s => cases b with
      | nan => rfl
      | inf t => cases s <;> cases t <;> rfl
      | fin q => cases s <;> rfl
    | fin p => cases b with
      | nan => rfl
      | inf t => cases t <;> rfl
      | fin q => simp [FVal.neg, FVal.lt]
  have hadd : F.add v.neg i = (F.sub v i).neg := by
    rw [← sub_neg' v i]
    unfold Fmt.sub
    cases v <;> cases i <;> simp [FVal.neg, Fmt.add, add_comm, eq_comm]
    rename_i s t
    cases s <;> cases t <;> rfl
  have hsub : F.sub v.neg i = (F.add v i).neg := by
    have : F.add v i = F.sub i v.neg := by
      unfold Fmt.sub; rw [neg_neg']
      cases v <;> cases i <;> simp [Fmt.add, add_comm]
      rename_i s t
      cases s <;> cases t <;> rfl
    rw [this, ← sub_neg' i v.neg]
  unfold approach stdMin stdMax
  simp only [hlt, hadd, hsub]
  by_cases h1 : v.lt o = true
  · have h2 : ¬ o.lt v = true := by
      cases v with
      | nan => cases o <;> simp [FVal.lt] at h1
      | inf s => cases o with
        | nan => simp [FVal.lt] at h1
        | inf t => cases s <;> cases t <;> simp [FVal.lt] at h1 ⊢
        | fin q => cases s <;> simp [FVal.lt] at h1 ⊢
      | fin p => cases o with
        | nan => simp [FVal.lt] at h1
        | inf t => cases t <;> simp [FVal.lt] at h1 ⊢
        | fin q => simp [FVal.lt] at h1 ⊢; linarith
    rw [if_neg h2, if_pos h1, if_pos h1]
    split_ifs <;> rfl
  · rw [if_neg h1, if_neg h1]
    split_ifs <;> rfl

theorem approach_up (hF : F.Valid) {v o i : ℚ} (ho : F.Rep o) (hvo : v ≤ o) (hi : 0 ≤ i) (hv : F.Rep v) :
    approach F (.fin v) (.fin o) (.fin i) = .fin (min (F.rnd (v + i)) o) := by
  have h0 : v ≤ F.rnd (v + i) := by
    have := rnd_mono (F := F) hF.one_le (show v ≤ v + i by linarith)
    rwa [rnd_grid hv.1] at this
  unfold approach
  simp only [FVal.lt, decide_eq_true_eq]
  by_cases h : v < o
  · rw [if_pos h, add_fin]
    unfold stdMin Fmt.round
    split_ifs with h1 h2 h2
    · rw [min_eq_right (by simp [FVal.lt] at h2; linarith)]
    · rw [min_eq_left (by simp [FVal.lt] at h2; linarith)]
    · have : ¬ F.rnd (v + i) < o := by
        intro h3
        apply h1
        have h4 := abs_lt.1 hv.2
        have h5 := abs_lt.1 ho.2
        rw [abs_lt]
        constructor <;> linarith
      rw [min_eq_right (by linarith)]
    · exfalso
      apply h2
      have : ¬ v + i < 0 := by
        intro h3
        have h4 := rnd_mono (F := F) hF.one_le h3.le
        rw [rnd_zero] at h4
        apply h1
        have h5 := abs_lt.1 hv.2
        rw [abs_lt]
        exact ⟨by linarith, lt_of_le_of_lt h4 (two_pow_pos _)⟩
      simp [FVal.lt, this]
  · have : v = o := by linarith
    subst this
    rw [if_neg h, if_neg h, min_eq_right h0]

/-- One step towards the objective, with numbers of the type and an increment that is not negative: the result lies between the value and the
objective, is the objective if that is no farther than the increment, and otherwise is the number of the type nearest to the exact step. -/
theorem C79_approach (hF : F.Valid) (v o i : ℚ) (hv : F.Rep v) (ho : F.Rep o) (hi : 0 ≤ i) :
    ∃ r, approach F (.fin v) (.fin o) (.fin i) = .fin r ∧ F.Rep r ∧ min v o ≤ r ∧ r ≤ max v o ∧ (|o - v| ≤ i → r = o) ∧
      (r ≠ o → v < o → ∀ g, F.Grid g → |r - (v + i)| ≤ |g - (v + i)|) ∧ (r ≠ o → o < v → ∀ g, F.Grid g → |r - (v - i)| ≤ |g - (v - i)|) := by
  have up : ∀ v o : ℚ, F.Rep v → F.Rep o → v ≤ o → ∃ r, approach F (.fin v) (.fin o) (.fin i) = .fin r ∧ F.Rep r ∧ v ≤ r ∧ r ≤ o ∧
      (o - v ≤ i → r = o) ∧ (r ≠ o → ∀ g, F.Grid g → |r - (v + i)| ≤ |g - (v + i)|) := by
    intro v o hv ho hvo
    have h0 : v ≤ F.rnd (v + i) := by
      have := rnd_mono (F := F) hF.one_le (show v ≤ v + i by linarith)
      rwa [rnd_grid hv.1] at this
    refine ⟨min (F.rnd (v + i)) o, approach_up hF ho hvo hi hv, ?_, le_min h0 hvo, min_le_right _ _, fun h => ?_, fun h g hg => ?_⟩
    · rcases min_choice (F.rnd (v + i)) o with h | h
      · refine ⟨by rw [h]; exact grid_rnd hF.one_le _, ?_⟩
        have h1 : F.rnd (v + i) ≤ o := by rw [← h]; exact min_le_right _ _
        rw [h]
        have h4 := abs_lt.1 hv.2
        have h5 := abs_lt.1 ho.2
        rw [abs_lt]
        constructor <;> linarith
      · rw [h]; exact ho
    · apply min_eq_right
      have := rnd_mono (F := F) hF.one_le (show o ≤ v + i by linarith)
      rwa [rnd_grid ho.1] at this
    · rcases min_choice (F.rnd (v + i)) o with h1 | h1
      · rw [h1]; exact rnd_nearest hg
      · exact absurd h1 h
  rcases le_total v o with h | h
  · obtain ⟨r, h1, h2, h3, h4, h5, h6⟩ := up v o hv ho h
    refine ⟨r, h1, h2, by rwa [min_eq_left h], by rwa [max_eq_right h], fun h7 => h5 (le_trans (le_abs_self _) h7), fun h7 _ => h6 h7,
      fun _ h7 => absurd h7 (not_lt.2 h)⟩
  · obtain ⟨r, h1, h2, h3, h4, h5, h6⟩ := up (-v) (-o) (rep_neg hv) (rep_neg ho) (by linarith)
    have e := approach_neg (F := F) (.fin v) (.fin o) (.fin i)
    simp only [FVal.neg] at e
    rw [h1] at e
    refine ⟨-r, ?_, rep_neg h2, ?_, ?_, fun h7 => ?_, fun _ h7 => absurd h7 (not_lt.2 h), fun h7 _ g hg => ?_⟩
    · have := congrArg FVal.neg e
      rw [show (FVal.fin r).neg = .fin (-r) from rfl] at this
      rw [this]
      exact (neg_neg' _).symm
    · rw [min_eq_right h]; linarith
    · rw [max_eq_left h]; linarith
    · have := h5 (by have := neg_le_abs (o - v); linarith)
      linarith
    · have := h6 (by intro h8; apply h7; linarith) (-g) (grid_neg hg)
      rw [← abs_neg, ← abs_neg (g - (v - i))]
      convert this using 2 <;> ring

/-- Repeated steps reach the objective if the increment is not below the last digit of numbers as large as the two ends (`2 ^ E`), in at most as
many steps as there are such digits between the ends, plus one. -/
theorem C79_approach_reaches_partial (hF : F.Valid) (E : ℤ) (hE : F.emin ≤ E) (i : ℚ) (hi : (2 : ℚ) ^ E ≤ i) (o : ℚ) (ho : F.Rep o)
    (ho' : |o| ≤ 2 ^ (E + F.prec)) (v : ℚ) (hv : F.Rep v) (hv' : |v| ≤ 2 ^ (E + F.prec)) :
    ∃ n : ℕ, (n : ℚ) ≤ |o - v| / 2 ^ E + 2 ∧ (fun x => approach F x (.fin o) (.fin i))^[n] (.fin v) = .fin o := by
  have hpos := two_pow_pos E
  have hi0 : 0 ≤ i := by linarith
  have up : ∀ (n : ℕ) (v o : ℚ), F.Rep v → F.Rep o → |v| ≤ 2 ^ (E + F.prec) → |o| ≤ 2 ^ (E + F.prec) → v ≤ o →
      ⌊o / 2 ^ E⌋ - ⌊v / 2 ^ E⌋ + 1 ≤ n → (fun x => approach F x (.fin o) (.fin i))^[n] (.fin v) = .fin o := by
    intro n
    induction n with
    | zero =>
      intro v o hv ho hv' ho' hvo hn
      have : ⌊v / 2 ^ E⌋ ≤ ⌊o / 2 ^ E⌋ := Int.floor_le_floor (div_le_div_of_nonneg_right hvo hpos.le)
      push_cast at hn
      omega
    | succ n ih =>
      intro v o hv ho hv' ho' hvo hn
      rw [Function.iterate_succ_apply, approach_up hF ho hvo hi0 hv]
      have stay : ∀ k : ℕ, (fun x => approach F x (.fin o) (.fin i))^[k] (.fin o) = .fin o := by
        intro k
        apply Function.iterate_fixed
        rw [approach_up hF ho (le_refl o) hi0 ho, min_eq_right]
        have := rnd_mono (F := F) hF.one_le (show o ≤ o + i by linarith)
        rwa [rnd_grid ho.1] at this
      rcases le_or_gt o (F.rnd (v + i)) with h | h
      · rw [min_eq_right h, stay n]
      · rw [min_eq_left h.le]
        have hv0 : v ≤ F.rnd (v + i) := by
          have := rnd_mono (F := F) hF.one_le (show v ≤ v + i by linarith)
          rwa [rnd_grid hv.1] at this
        have hbound : |F.rnd (v + i)| ≤ 2 ^ (E + F.prec) := by
          have h4 := abs_le.1 hv'
          have h5 := abs_le.1 ho'
          rw [abs_le]
          constructor <;> linarith
        have hrep : F.Rep (F.rnd (v + i)) := by
          refine ⟨grid_rnd hF.one_le _, ?_⟩
          have h4 := abs_lt.1 hv.2
          have h5 := abs_lt.1 ho.2
          rw [abs_lt]
          constructor <;> linarith
        refine ih _ o hrep ho hbound ho' h.le ?_
        -- the next multiple of the last digit is reached
        have hg : ((⌊v / 2 ^ E⌋ + 1 : ℤ) : ℚ) * 2 ^ E ≤ v + i := by
          have := Int.floor_le (v / 2 ^ E)
          rw [le_div_iff₀ hpos] at this
          push_cast
          linarith
        have hgrid : ((⌊v / 2 ^ E⌋ + 1 : ℤ) : ℚ) * 2 ^ E ≤ F.rnd (v + i) := by
          have hvl : v < ((⌊v / 2 ^ E⌋ + 1 : ℤ) : ℚ) * 2 ^ E := by
            have := Int.lt_floor_add_one (v / 2 ^ E)
            rw [div_lt_iff₀ hpos] at this
            push_cast
            exact this
          rcases lt_or_ge (((⌊v / 2 ^ E⌋ + 1 : ℤ) : ℚ) * 2 ^ E) (2 ^ (E + F.prec)) with h1 | h1
          · have hG : F.Grid (((⌊v / 2 ^ E⌋ + 1 : ℤ) : ℚ) * 2 ^ E) := by
              rcases lt_or_ge (-2 ^ (E + F.prec)) (((⌊v / 2 ^ E⌋ + 1 : ℤ) : ℚ) * 2 ^ E) with h2 | h2
              · exact grid_of_multiple hE (abs_lt.2 ⟨h2, h1⟩)
              · exfalso
                have := (abs_le.1 hv').1
                linarith
            have := rnd_mono (F := F) hF.one_le hg
            rwa [rnd_grid hG] at this
          · exfalso
            have h2 : (2 : ℚ) ^ (E + F.prec) ≤ v + i := le_trans h1 hg
            have h3 := rnd_mono (F := F) hF.one_le h2
            rw [rnd_grid (grid_two_pow hF.one_le (by have := hF.prec; omega))] at h3
            have := (abs_le.1 ho').2
            linarith
        have hfl : ⌊v / 2 ^ E⌋ + 1 ≤ ⌊F.rnd (v + i) / 2 ^ E⌋ := by
          rw [Int.le_floor, le_div_iff₀ hpos]; exact hgrid
        push_cast at hn
        omega
  have count : ∀ v o : ℚ, v ≤ o → ((⌊o / 2 ^ E⌋ - ⌊v / 2 ^ E⌋ + 1).toNat : ℚ) ≤ |o - v| / 2 ^ E + 2 := by
    intro v o hvo
    have h1 : ⌊v / 2 ^ E⌋ ≤ ⌊o / 2 ^ E⌋ := Int.floor_le_floor (div_le_div_of_nonneg_right hvo hpos.le)
    have h2 : ((⌊o / 2 ^ E⌋ - ⌊v / 2 ^ E⌋ + 1).toNat : ℤ) = ⌊o / 2 ^ E⌋ - ⌊v / 2 ^ E⌋ + 1 := Int.toNat_of_nonneg (by omega)
    have h3 : ((⌊o / 2 ^ E⌋ - ⌊v / 2 ^ E⌋ + 1).toNat : ℚ) = (⌊o / 2 ^ E⌋ : ℚ) - ⌊v / 2 ^ E⌋ + 1 := by exact_mod_cast h2
    rw [h3, abs_of_nonneg (by linarith), sub_div]
    have := Int.floor_le (o / 2 ^ E)
    have := Int.lt_floor_add_one (v / 2 ^ E)
    linarith
  rcases le_total v o with h | h
  · exact ⟨_, count v o h, up _ v o hv ho hv' ho' h (Int.self_le_toNat _)⟩
  · refine ⟨(⌊-o / 2 ^ E⌋ - ⌊-v / 2 ^ E⌋ + 1).toNat, ?_, ?_⟩
    · have := count (-v) (-o) (by linarith)
      convert this using 3
      rw [← abs_neg]; ring_nf
    · have := up _ (-v) (-o) (rep_neg hv) (rep_neg ho) (by rwa [abs_neg]) (by rwa [abs_neg]) (by linarith) (Int.self_le_toNat _)
      have conj : ∀ (k : ℕ) (x : FVal), (fun x => approach F x (.fin (-o)) (.fin i))^[k] x.neg = ((fun x => approach F x (.fin o) (.fin i))^[k] x).neg := by
        intro k
        induction k with
        | zero => intro x; rfl
        | succ k ih =>
          intro x
          rw [Function.iterate_succ_apply, Function.iterate_succ_apply, ← ih]
          congr 1
          exact approach_neg x (.fin o) (.fin i)
      rw [show (FVal.fin (-v)) = (FVal.fin v).neg from rfl, conj] at this
      have h2 := congrArg FVal.neg this
      rw [neg_neg'] at h2
      rw [h2]
      simp [FVal.neg]

/-- A positive increment may never get anywhere: in every format the value 1 stays where it is however often one moves it towards 2 by an
increment below half of its last digit. -/
theorem C79_approach_stuck_violated (hF : F.Valid) (n : ℕ) :
    F.Rep (2 ^ (-(F.prec : ℤ) - 1)) ∧
    (fun x => approach F x (.fin 2) (.fin (2 ^ (-(F.prec : ℤ) - 1))))^[n] (.fin 1) = .fin 1 := by
  have hp := hF.prec
  have hmin := hF.emin
  have hmax := hF.emax
  refine ⟨rep_two_pow hF (by omega) (by omega), ?_⟩
  apply Function.iterate_fixed
  have h1 : F.Rep 1 := by have := rep_two_pow hF (e := 0) (by omega) (by omega); simpa using this
  have h2 : F.Rep 2 := by have := rep_two_pow hF (e := 1) (by omega) (by omega); simpa using this
  rw [approach_up hF h2 (by norm_num) (two_pow_pos _).le h1]
  have e1 : (2 : ℚ) ^ (1 - (F.prec : ℤ)) = 4 * 2 ^ (-(F.prec : ℤ) - 1) := by
    rw [show (1 - (F.prec : ℤ)) = 2 + (-(F.prec : ℤ) - 1) by ring, zpow_add₀ (by norm_num)]; norm_num
  have hsmall : (2 : ℚ) ^ (-(F.prec : ℤ) - 1) < 1 := by
    have := zpow_lt_zpow_right₀ (a := (2 : ℚ)) (by norm_num) (show -(F.prec : ℤ) - 1 < 0 by omega)
    simpa using this
  have hpos := two_pow_pos (-(F.prec : ℤ) - 1)
  have e2 : ((2 ^ (F.prec - 1) : ℤ) : ℚ) * 2 ^ (1 - (F.prec : ℤ)) = 1 := by
    push_cast
    rw [← zpow_natCast, ← zpow_add₀ (by norm_num), show (((F.prec - 1 : ℕ) : ℤ) + (1 - (F.prec : ℤ))) = 0 by omega, zpow_zero]
  have key := rnd_of_near (F := F) (q := 1 + 2 ^ (-(F.prec : ℤ) - 1)) (m := 2 ^ (F.prec - 1)) (e := 1 - (F.prec : ℤ)) (by omega)
    (by rw [show (1 - (F.prec : ℤ) + F.prec - 1) = 0 by ring, zpow_zero, abs_of_pos (by linarith)]; linarith)
    (by rw [show (1 - (F.prec : ℤ) + F.prec) = 1 by ring, zpow_one, abs_of_pos (by linarith)]; linarith)
    (by rw [e2, e1, add_sub_cancel_left, abs_of_pos hpos]; linarith)
  rw [key, e2]
  norm_num

/-- The hypotheses hold e.g. of steps of 1 / 4 from -3 to 5 in `float`. -/
example : float32.Rep (-3) ∧ float32.Rep 5 ∧ (0 : ℚ) ≤ 1 / 4 ∧ float32.emin ≤ -2 ∧ (2 : ℚ) ^ (-2 : ℤ) ≤ 1 / 4 ∧
    |(5 : ℚ)| ≤ 2 ^ (-2 + (float32.prec : ℤ)) ∧ |(-3 : ℚ)| ≤ 2 ^ (-2 + (float32.prec : ℤ)) := by
  refine ⟨?_, ?_, by norm_num, by decide, by norm_num, ?_, ?_⟩
  · exact_mod_cast rep_int float32_valid (n := -3) (by decide)
  · exact_mod_cast rep_int float32_valid (n := 5) (by decide)
  · simp only [float32]; norm_num
  · simp only [float32]; norm_num

end Verif.FloatMath
