import Verif.MathUtils.LemmasSigned

/-!
# C137: powers of two and bit counts on signed types

`Verif/MathUtils/ModelSigned.lean` has the code.  The claim: on a signed type, `IsPow2`, `AlignPow2`,
`RoundToPow2`, `GetNearestPowerOfTwo` and the compile-time path of `CountBits` give, for every value of
the type, the same answer as in the mathematical integers whenever that answer is representable.
-/

namespace Verif.MathUtils
open Verif.Cpp

/-! ## `IsPow2` -/

theorem isPow2Signed_eq {w : Nat} {v : Int} (h0 : v ≠ 0) (h1 : -(2 ^ (promoted w - 1) : Int) ≤ v - 1)
    (h2 : v < 2 ^ (promoted w - 1)) :
    isPow2Signed w v = isPow2 (BitVec.ofInt (promoted w) v) := by
  have hx : BitVec.ofInt (promoted w) v ≠ 0#(promoted w) := by
    intro e
    have := congrArg BitVec.toInt e
    rw [toInt_ofInt_range (one_le_promoted w) (by omega) h2] at this
    simp at this; exact h0 this
  unfold isPow2Signed isPow2
  rw [sRes_ok h1 (by omega)]
  have hb : (BitVec.ofInt (promoted w) v != 0#(promoted w)) = true := by simpa using hx
  rw [hb]
  simp only [h0, ne_eq, not_false_eq_true, decide_true, assert_true, ok_bind]
  simp only [andInt, ofInt_sub_one]
  congr 1
  rw [Bool.eq_iff_iff]
  simp only [beq_iff_eq]
  constructor
  · intro h; exact BitVec.eq_of_toInt_eq (by simpa using h)
  · intro h; rw [h]; simp

/-- C137, `IsPow2`: on every value of a signed type other than 0 (which asserts) and, for types of 32 bits
and more, the least value of the type, `IsPow2` answers whether the value is a power of two: never for a
negative value.  (Missing for the full claim: the least value, see `C137_isPow2_violated`.) -/
theorem C137_isPow2_partial {w : Nat} (hw : 1 ≤ w) (v : Int) (h1 : -(2 ^ (w - 1) : Int) ≤ v) (h2 : v < 2 ^ (w - 1))
    (h0 : v ≠ 0) (hmin : w < 32 ∨ v ≠ -2 ^ (w - 1)) :
    ∃ b, isPow2Signed w v = .ok b ∧ (b = true ↔ ∃ k : Nat, v = 2 ^ k) := by
  have hp := pow_le_promoted w
  have hp0 := one_le_promoted w
  have hlow : -(2 ^ (promoted w - 1) : Int) < v := by
    rcases hmin with h | h
    · have e : promoted w = 32 := by unfold promoted; omega
      rw [e]
      have : (2 ^ (w - 1) : Int) ≤ 2 ^ 30 := by
        exact_mod_cast Nat.pow_le_pow_right (n := 2) (by omega) (show w - 1 ≤ 30 by omega)
      norm_num at this ⊢; omega
    · omega
  obtain ⟨p, hpe⟩ : ∃ p, promoted w = p + 1 := ⟨promoted w - 1, by omega⟩
  rw [isPow2Signed_eq h0 (by omega) (by omega)]
  have hx0 : BitVec.ofInt (promoted w) v ≠ 0#(promoted w) := by
    intro e
    have := congrArg BitVec.toInt e
    rw [toInt_ofInt_range hp0 (by omega) (by omega)] at this
    simp at this; exact h0 this
  obtain ⟨b, hb, hb'⟩ := C19_isPow2 _ hx0
  refine ⟨b, hb, hb'.trans ?_⟩
  rw [hpe] at hlow hp ⊢
  simp only [Nat.add_sub_cancel] at hlow hp
  have e2 : (2 ^ (p + 1) : Int) = 2 * 2 ^ p := by ring
  by_cases hv : 0 ≤ v
  · have hn := toNat_ofInt_nonneg (w := p + 1) hv (by omega)
    constructor
    · rintro ⟨k, hk⟩; exact ⟨k, by rw [← hn, hk]; push_cast; rfl⟩
    · rintro ⟨k, hk⟩; exact ⟨k, by have : ((BitVec.ofInt (p + 1) v).toNat : Int) = ((2 ^ k : Nat) : Int) := by
                                    rw [hn, hk]; push_cast; rfl
                                   exact_mod_cast this⟩
  · have hn := toNat_ofInt_neg (w := p + 1) (x := v) (by omega) (by omega)
    constructor
    · rintro ⟨k, hk⟩
      exfalso
      rw [hk] at hn
      have hn' : (2 ^ k : Int) = v + 2 * 2 ^ p := by rw [← e2, ← hn]; push_cast; rfl
      have hk1 : (2 ^ p : Int) < 2 ^ k := by omega
      have hk2 : (2 ^ k : Int) < 2 ^ (p + 1) := by rw [e2]; omega
      have a := (Nat.pow_lt_pow_iff_right (a := 2) (by omega)).mp (by exact_mod_cast hk1 : (2:Nat) ^ p < 2 ^ k)
      have b := (Nat.pow_lt_pow_iff_right (a := 2) (by omega)).mp (by exact_mod_cast hk2 : (2:Nat) ^ k < 2 ^ (p + 1))
      omega
    · rintro ⟨k, hk⟩
      have : (0 : Int) < 2 ^ k := by positivity
      omega

example : ∃ b, isPow2Signed 32 (-4) = .ok b ∧ (b = true ↔ ∃ k : Nat, (-4 : Int) = 2 ^ k) :=
  C137_isPow2_partial (by omega) (-4) (by norm_num) (by norm_num) (by omega) (by right; norm_num)

example : isPow2Signed 32 64 = .ok true ∧ isPow2Signed 8 (-128) = .ok false ∧ isPow2Signed 32 (-2147483647) = .ok false := by
  decide +kernel

/-- C137 fails for `IsPow2` on the least value of the types of 32 bits and more: `value - 1` overflows. -/
theorem C137_isPow2_violated {w : Nat} (hw : 32 ≤ w) : isPow2Signed w (-2 ^ (w - 1)) = .error .ub := by
  have e : promoted w = w := by unfold promoted; omega
  unfold isPow2Signed
  have h0 : (-2 ^ (w - 1) : Int) ≠ 0 := by
    have : (0 : Int) < 2 ^ (w - 1) := by positivity
    omega
  rw [sRes_low (by rw [e]; omega)]
  simp only [h0, ne_eq, not_false_eq_true, decide_true, assert_true, ok_bind]
  rfl

/-! ## `AlignPow2` -/

theorem and_not_mask {p k : Nat} (hk : k < p) (x : BitVec (p + 1)) (m : BitVec (p + 1)) (hm : m.toNat = 2 ^ k - 1) :
    (x &&& ~~~m).toInt = x.toInt / 2 ^ k * 2 ^ k := by
  have hN : (x &&& ~~~m).toNat = x.toNat / 2 ^ k * 2 ^ k := by
    apply Nat.eq_of_testBit_eq
    intro i
    have hsl : x.toNat / 2 ^ k * 2 ^ k = x.toNat >>> k <<< k := by
      rw [Nat.shiftLeft_eq, Nat.shiftRight_eq_div_pow]
    rw [BitVec.testBit_toNat, BitVec.getLsbD_and, BitVec.getLsbD_not, ← BitVec.testBit_toNat, ← BitVec.testBit_toNat,
      hm, Nat.testBit_two_pow_sub_one, hsl, Nat.testBit_shiftLeft, Nat.testBit_shiftRight]
    by_cases hik : i < k
    · simp [hik, Nat.not_le.mpr hik]
    · rw [show k + (i - k) = i by omega]
      by_cases hip : i < p + 1
      · simp [hik, show k ≤ i by omega, hip]
      · have : x.toNat.testBit i = false := by rw [BitVec.testBit_toNat]; exact BitVec.getLsbD_of_ge x i (by omega)
        simp [this]
  have e2 : (2 ^ (p + 1) : Nat) = 2 * 2 ^ p := by ring
  have hd : (2 ^ k : Nat) ∣ 2 ^ p := Nat.pow_dvd_pow 2 (by omega)
  obtain ⟨c, hc⟩ := hd
  have hk0 : 0 < 2 ^ k := by positivity
  rw [BitVec.toInt_eq_toNat_cond, BitVec.toInt_eq_toNat_cond, hN, e2]
  have hdm := Nat.div_add_mod x.toNat (2 ^ k)
  have hml := Nat.mod_lt x.toNat hk0
  rw [Nat.mul_comm] at hdm
  by_cases hlt : x.toNat < 2 ^ p
  · rw [if_pos (by omega), if_pos (by omega)]; push_cast; rfl
  · have hge : 2 ^ p ≤ x.toNat / 2 ^ k * 2 ^ k := by
      have : c ≤ x.toNat / 2 ^ k := by
        rw [Nat.le_div_iff_mul_le hk0, Nat.mul_comm, ← hc]; omega
      calc 2 ^ p = c * 2 ^ k := by rw [hc, Nat.mul_comm]
        _ ≤ _ := Nat.mul_le_mul_right _ this
    rw [if_neg (by omega), if_neg (by omega), hc]
    push_cast
    have : ((x.toNat : Int) - 2 * (2 ^ k * (c : Int))) = x.toNat + 2 ^ k * (-(2 * (c : Int))) := by ring
    rw [this, Int.add_mul_ediv_left _ _ (by positivity)]
    ring

theorem nextMultiple_ediv (o a m : Int) (ha : 0 < a) (hm : IsNextMultiple o a m) : (o + a - 1) / a * a = m := by
  have h := Int.emod_add_mul_ediv (o + a - 1) a
  have h1 := Int.emod_nonneg (o + a - 1) (by omega : a ≠ 0)
  have h2 := Int.emod_lt_of_pos (o + a - 1) ha
  rw [Int.mul_comm] at h
  have hle := hm.2.2 ((o + a - 1) / a * a) (Int.dvd_mul_left _ _) (by omega)
  obtain ⟨c, hc⟩ := hm.1
  have ho := hm.2.1
  by_contra hne
  have hlt : c * a < (o + a - 1) / a * a := by rw [Int.mul_comm c a, ← hc]; omega
  have hc1 : c + 1 ≤ (o + a - 1) / a := Int.lt_of_mul_lt_mul_right hlt (by omega)
  have := Int.mul_le_mul_of_nonneg_right hc1 (by omega : 0 ≤ a)
  rw [Int.add_mul, Int.mul_comm c a, ← hc] at this
  omega

/-- C137, `AlignPow2`: for every offset of the signed type, positive or negative, and every power of two, the
answer is the least multiple at or above the offset if that is representable and `offset + alignment` does
not overflow.  (Missing for the full claim: sums that overflow, see `C137_alignPow2_violated`.) -/
theorem C137_alignPow2_partial {w : Nat} (hw : 1 ≤ w) (o m : Int) (k : Nat) (h1 : -(2 ^ (w - 1) : Int) ≤ o)
    (hk : k < w - 1) (hs : o + 2 ^ k < 2 ^ (promoted w - 1)) (hm : IsNextMultiple o (2 ^ k) m) (hr : m < 2 ^ (w - 1)) :
    alignPow2Signed w o (2 ^ k) = .ok m := by
  have hp := pow_le_promoted w
  have hp0 := one_le_promoted w
  have ha : (0 : Int) < 2 ^ k := by positivity
  have hkw : (2 ^ k : Int) < 2 ^ (w - 1) := by
    exact_mod_cast (Nat.pow_lt_pow_iff_right (a := 2) (by omega)).mpr hk
  obtain ⟨b, hb, hb'⟩ := C137_isPow2_partial (w := w) hw (2 ^ k) (by omega) hkw (by omega) (by
    right; omega)
  have hb1 : b = true := hb'.mpr ⟨k, rfl⟩
  subst hb1
  unfold alignPow2Signed
  rw [hb]
  simp only [ha, decide_true, assert_true, ok_bind]
  rw [sRes_ok (by omega) hs]
  simp only [ok_bind]
  rw [sRes_ok (by omega) (by omega)]
  simp only [ok_bind]
  rw [sRes_ok (by omega) (by omega)]
  simp only [ok_bind, pure_ok]
  congr 1
  obtain ⟨p, hpe⟩ : ∃ p, promoted w = p + 1 := ⟨promoted w - 1, by omega⟩
  have hwp := le_promoted w
  have hand : andInt (promoted w) (o + 2 ^ k - 1) (notInt (promoted w) (2 ^ k - 1)) = m := by
    unfold andInt notInt
    rw [hpe] at hs hp ⊢
    simp only [Nat.add_sub_cancel] at hs hp
    rw [BitVec.ofInt_toInt, and_not_mask (k := k) (by omega), toInt_ofInt_range (by omega) (by simp; omega) (by simp; omega)]
    · exact nextMultiple_ediv o (2 ^ k) m ha hm
    · have e2 : (2 ^ (p + 1) : Int) = 2 * 2 ^ p := by ring
      have := toNat_ofInt_nonneg (w := p + 1) (x := 2 ^ k - 1) (by omega) (by omega)
      have : ((BitVec.ofInt (p + 1) (2 ^ k - 1)).toNat : Int) = ((2 ^ k - 1 : Nat) : Int) := by
        rw [this, Nat.cast_sub (Nat.one_le_two_pow)]; push_cast; rfl
      exact_mod_cast this
  rw [hand]
  exact toSigned_range hw (by have := hm.2.1; omega) hr

example : alignPow2Signed 32 (-13) (2 ^ 3) = .ok (-8) :=
  C137_alignPow2_partial (by omega) _ _ 3 (by norm_num) (by omega) (by norm_num [promoted])
    ⟨by norm_num, by norm_num, by intro m' h1 h2; omega⟩ (by norm_num)

/-- C137 fails for `AlignPow2` when `offset + alignment` overflows (types of 32 bits and more), although the
answer may be representable: for an offset that is the greatest multiple of the type, the answer is the
offset itself. -/
theorem C137_alignPow2_violated {w : Nat} (hw : 32 ≤ w) (o : Int) (k : Nat) (hk : k < w - 1)
    (h : (2 ^ (w - 1) : Int) ≤ o + 2 ^ k) : alignPow2Signed w o (2 ^ k) = .error .ub := by
  have e : promoted w = w := by unfold promoted; omega
  have ha : (0 : Int) < 2 ^ k := by positivity
  have hkw : (2 ^ k : Int) < 2 ^ (w - 1) := by
    exact_mod_cast (Nat.pow_lt_pow_iff_right (a := 2) (by omega)).mpr hk
  obtain ⟨b, hb, hb'⟩ := C137_isPow2_partial (w := w) (by omega) (2 ^ k) (by omega) hkw (by omega) (by
    right; omega)
  have hb1 : b = true := hb'.mpr ⟨k, rfl⟩
  subst hb1
  unfold alignPow2Signed
  rw [hb]
  simp only [ha, decide_true, assert_true, ok_bind]
  rw [sRes_high (by rw [e]; exact h)]
  rfl

example : alignPow2Signed 32 (2 ^ 31 - 2 ^ 3) (2 ^ 3) = .error .ub ∧ IsNextMultiple (2 ^ 31 - 2 ^ 3) (2 ^ 3) (2 ^ 31 - 2 ^ 3) :=
  ⟨C137_alignPow2_violated (by omega) _ 3 (by omega) (by norm_num), by norm_num, by omega, by intro m' _ h; exact h⟩

/-! ## `RoundToPow2` -/

theorem pow_pred {w : Nat} (hw : 1 ≤ w) : (2 ^ w : Int) = 2 * 2 ^ (w - 1) := by
  obtain ⟨n, rfl⟩ : ∃ n, w = n + 1 := ⟨w - 1, by omega⟩
  rw [Nat.add_sub_cancel]; ring

theorem width_ge {w : Nat} (hw : IsWidth w) : 8 ≤ w := by rcases hw with rfl | rfl | rfl | rfl <;> omega

/-- What `RoundToPow2` does after `value--` gave `d`. -/
theorem round_tail_pos {w : Nat} (hw : IsWidth w) (v : BitVec w) (hm : (v - 1#w).msb = false) (h1 : 1 ≤ v.toNat)
    (h2 : v.toNat ≤ 2 ^ (w - 1)) :
    ∃ r : Nat, IsCeilPow2 v.toNat r ∧ (smears (v - 1#w)).toInt = r - 1 := by
  obtain ⟨e, m⟩ := smears_pos hm
  refine ⟨(roundToPow2 v).toNat, C19_roundToPow2 hw v h1 h2, ?_⟩
  have hw8 := width_ge hw
  rw [← e, BitVec.toInt_eq_toNat_of_msb m]
  have hlt : (smears (v - 1#w)).toNat < 2 ^ (w - 1) := by
    have := BitVec.msb_eq_false_iff_two_mul_lt.mp m
    have e : (2 ^ w : Nat) = 2 * 2 ^ (w - 1) := by exact_mod_cast pow_pred (w := w) (by omega)
    omega
  have hw2 : (2 ^ (w - 1) : Nat) < 2 ^ w := (Nat.pow_lt_pow_iff_right (by omega)).mpr (by omega)
  have h1w : (1 : Nat) < 2 ^ w := Nat.one_lt_two_pow (by omega)
  rw [BitVec.toNat_add, BitVec.toNat_ofNat, Nat.mod_eq_of_lt h1w, Nat.mod_eq_of_lt (by omega)]
  push_cast; omega

/-- C137, `RoundToPow2`: for every value of a signed type from 1 up to the greatest power of two of the type,
the answer is the least power of two at or above the value; for 0 and the negative values (except the least
value of the type) it is 0.  (Missing for the full claim: see `C137_roundToPow2_violated`.) -/
theorem C137_roundToPow2_partial {w : Nat} (hw : IsWidth w) (v : Int) (h2 : v ≤ 2 ^ (w - 2)) :
    (1 ≤ v → ∃ r : Nat, roundToPow2Signed w v = .ok r ∧ IsCeilPow2 v.toNat r) ∧
    (-(2 ^ (w - 1) : Int) < v → v ≤ 0 → roundToPow2Signed w v = .ok 0) := by
  have hw8 := width_ge hw
  have hp := pow_le_promoted w
  have e1 : (2 ^ (w - 1) : Int) = 2 * 2 ^ (w - 2) := by
    have := pow_pred (w := w - 1) (by omega); rwa [show w - 1 - 1 = w - 2 by omega] at this
  have e0 := pow_pred (w := w) (by omega)
  have hpos : (0 : Int) < 2 ^ (w - 2) := by positivity
  have hstep : -(2 ^ (w - 1) : Int) < v → stepSigned w v (-1) = .ok (v - 1) := by
    intro h
    unfold stepSigned
    rw [sRes_ok (by omega) (by omega)]
    show Except.ok (toSigned w (v + -1)) = _
    rw [toSigned_range (by omega) (by omega) (by omega)]; rfl
  constructor
  · intro h1
    rw [roundToPow2Signed_eq, hstep (by omega)]
    show ∃ r : Nat, stepSigned w (smears (BitVec.ofInt w (v - 1))).toInt 1 = .ok ↑r ∧ _
    have hn := toNat_ofInt_nonneg (w := w) (x := v) (by omega) (by omega)
    have hm : (BitVec.ofInt w v - 1#w).msb = false := by
      rw [← ofInt_sub_one, BitVec.msb_eq_toInt, toInt_ofInt_range (by omega) (by omega) (by omega)]
      simp; omega
    obtain ⟨r, hr, hs⟩ := round_tail_pos hw (BitVec.ofInt w v) hm (by omega) (by
      have : ((BitVec.ofInt w v).toNat : Int) ≤ ((2 ^ (w - 1) : Nat) : Int) := by rw [hn]; push_cast; omega
      exact_mod_cast this)
    have hvn : (BitVec.ofInt w v).toNat = v.toNat := by omega
    rw [hvn] at hr
    refine ⟨r, ?_, hr⟩
    rw [ofInt_sub_one, hs]
    have hr1 : r ≤ 2 ^ (w - 2) := hr.2.2 (w - 2) (by
      have : (v.toNat : Int) ≤ ((2 ^ (w - 2) : Nat) : Int) := by push_cast; omega
      exact_mod_cast this)
    have hr2 : (r : Int) ≤ 2 ^ (w - 2) := by exact_mod_cast hr1
    have hr3 := hr.2.1
    unfold stepSigned
    rw [sRes_ok (by omega) (by omega)]
    show Except.ok (toSigned w ((r : Int) - 1 + 1)) = _
    rw [toSigned_range (by omega) (by omega) (by omega)]
    congr 1; omega
  · intro h1 h0
    rw [roundToPow2Signed_eq, hstep h1]
    show stepSigned w (smears (BitVec.ofInt w (v - 1))).toInt 1 = .ok 0
    have hm : (BitVec.ofInt w (v - 1)).msb = true := by
      rw [BitVec.msb_eq_toInt, toInt_ofInt_range (by omega) (by omega) (by omega)]
      simp; omega
    rw [smears_neg hw hm, BitVec.toInt_allOnes]
    rw [if_pos (by omega)]
    unfold stepSigned
    rw [sRes_ok (by omega) (by omega)]
    show Except.ok (toSigned w (-1 + 1)) = _
    rw [toSigned_range (by omega) (by omega) (by omega)]; rfl

example : ∃ r : Nat, roundToPow2Signed 32 1000 = .ok r ∧ IsCeilPow2 1000 r :=
  (C137_roundToPow2_partial (w := 32) (Or.inr (Or.inr (Or.inl rfl))) 1000 (by norm_num)).1 (by norm_num)

example : roundToPow2Signed 32 1000 = .ok 1024 ∧ roundToPow2Signed 32 (-6) = .ok 0 := by decide +kernel

/-- C137 fails for `RoundToPow2` above the greatest power of two of the type, where no power of two at or
above the value is representable, and on the least value of the type: undefined behaviour for the types of
32 bits and more, the least value of the type (a negative number) for narrower ones. -/
theorem C137_roundToPow2_violated {w : Nat} (hw : IsWidth w) (v : Int)
    (h : 2 ^ (w - 2) < v ∧ v < 2 ^ (w - 1) ∨ v = -2 ^ (w - 1)) :
    roundToPow2Signed w v = if 32 ≤ w then .error .ub else .ok (-2 ^ (w - 1)) := by
  have hw8 := width_ge hw
  have hp := pow_le_promoted w
  have e1 : (2 ^ (w - 1) : Int) = 2 * 2 ^ (w - 2) := by
    have := pow_pred (w := w - 1) (by omega); rwa [show w - 1 - 1 = w - 2 by omega] at this
  have e0 := pow_pred (w := w) (by omega)
  have hpos : (0 : Int) < 2 ^ (w - 2) := by positivity
  have e1n : (2 ^ (w - 1) : Nat) = 2 * 2 ^ (w - 2) := by exact_mod_cast e1
  -- the last step
  have hlast : stepSigned w (2 ^ (w - 1) - 1) 1 = if 32 ≤ w then .error .ub else .ok (-2 ^ (w - 1)) := by
    unfold stepSigned
    split
    · rename_i h32
      have e : promoted w = w := by unfold promoted; omega
      rw [sRes_high (by rw [e]; omega)]; rfl
    · rename_i h32
      have e : promoted w = 32 := by unfold promoted; omega
      have hle : (2 ^ (w - 1) : Int) ≤ 2 ^ 30 := by
        exact_mod_cast Nat.pow_le_pow_right (n := 2) (by omega) (show w - 1 ≤ 30 by omega)
      rw [sRes_ok (by rw [e]; norm_num at hle ⊢; omega) (by rw [e]; norm_num at hle ⊢; omega)]
      show Except.ok (toSigned w (2 ^ (w - 1) - 1 + 1)) = _
      congr 1
      have : (2 ^ (w - 1) - 1 + 1 : Int) = -2 ^ (w - 1) + 2 ^ w := by omega
      rw [this]
      unfold toSigned
      have e : (2 ^ w : Int) = ((2 ^ w : Nat) : Int) := by push_cast; rfl
      rw [e, Int.add_bmod_right]
      exact toSigned_range (w := w) (by omega) (by omega) (by omega)
  -- the smearing
  have htail : ∀ x : BitVec w, (x - 1#w).msb = false → 2 ^ (w - 2) < x.toNat → x.toNat ≤ 2 ^ (w - 1) →
      (smears (x - 1#w)).toInt = 2 ^ (w - 1) - 1 := by
    intro x hm hx1 hx2
    obtain ⟨r, hr, hs⟩ := round_tail_pos hw x hm (by omega) hx2
    obtain ⟨k, rfl⟩ := hr.1
    have hle := hr.2.2 (w - 1) hx2
    have hge : 2 ^ (w - 2) < 2 ^ k := Nat.lt_of_lt_of_le hx1 hr.2.1
    have a := (Nat.pow_lt_pow_iff_right (a := 2) (by omega)).mp hge
    have b := (Nat.pow_le_pow_iff_right (a := 2) (by omega)).mp hle
    have : k = w - 1 := by omega
    subst this
    rw [hs]; push_cast; rfl
  rcases h with ⟨h1, h2⟩ | rfl
  · rw [roundToPow2Signed_eq]
    have hstep : stepSigned w v (-1) = .ok (v - 1) := by
      unfold stepSigned
      rw [sRes_ok (by omega) (by omega)]
      show Except.ok (toSigned w (v + -1)) = _
      rw [toSigned_range (by omega) (by omega) (by omega)]; rfl
    rw [hstep]
    show stepSigned w (smears (BitVec.ofInt w (v - 1))).toInt 1 = _
    have hn := toNat_ofInt_nonneg (w := w) (x := v) (by omega) (by omega)
    rw [ofInt_sub_one, htail, hlast]
    · rw [← ofInt_sub_one, BitVec.msb_eq_toInt, toInt_ofInt_range (by omega) (by omega) (by omega)]
      simp; omega
    · have : ((2 ^ (w - 2) : Nat) : Int) < ((BitVec.ofInt w v).toNat : Int) := by rw [hn]; push_cast; omega
      exact_mod_cast this
    · have : ((BitVec.ofInt w v).toNat : Int) ≤ ((2 ^ (w - 1) : Nat) : Int) := by rw [hn]; push_cast; omega
      exact_mod_cast this
  · rw [roundToPow2Signed_eq]
    by_cases h32 : 32 ≤ w
    · have e : promoted w = w := by unfold promoted; omega
      have : stepSigned w (-2 ^ (w - 1)) (-1) = .error .ub := by
        unfold stepSigned
        rw [sRes_low (by rw [e]; omega)]; rfl
      rw [this, if_pos h32]; rfl
    · have e : promoted w = 32 := by unfold promoted; omega
      have hle : (2 ^ (w - 1) : Int) ≤ 2 ^ 30 := by
        exact_mod_cast Nat.pow_le_pow_right (n := 2) (by omega) (show w - 1 ≤ 30 by omega)
      have hstep : stepSigned w (-2 ^ (w - 1)) (-1) = .ok (2 ^ (w - 1) - 1) := by
        unfold stepSigned
        rw [sRes_ok (by rw [e]; norm_num at hle ⊢; omega) (by rw [e]; norm_num at hle ⊢; omega)]
        show Except.ok (toSigned w (-2 ^ (w - 1) + -1)) = _
        congr 1
        have : (-2 ^ (w - 1) + -1 : Int) = (2 ^ (w - 1) - 1) - 2 ^ w := by omega
        rw [this]
        unfold toSigned
        have e : (2 ^ w : Int) = ((2 ^ w : Nat) : Int) := by push_cast; rfl
        rw [e, Int.sub_bmod_right]
        exact toSigned_range (w := w) (by omega) (by omega) (by omega)
      rw [hstep]
      show stepSigned w (smears (BitVec.ofInt w (2 ^ (w - 1) - 1))).toInt 1 = _
      have hn := toNat_ofInt_nonneg (w := w) (x := 2 ^ (w - 1)) (by omega) (by omega)
      have hn' : (BitVec.ofInt w (2 ^ (w - 1))).toNat = 2 ^ (w - 1) := by exact_mod_cast hn
      rw [ofInt_sub_one, htail, hlast]
      · rw [← ofInt_sub_one, BitVec.msb_eq_toInt, toInt_ofInt_range (by omega) (by omega) (by omega)]
        simp; omega
      · rw [hn', e1n]; have : 0 < 2 ^ (w - 2) := by positivity
        omega
      · rw [hn']

example : roundToPow2Signed 32 1073741825 = .error .ub ∧ roundToPow2Signed 8 65 = .ok (-128) ∧
    roundToPow2Signed 8 (-128) = .ok (-128) := by decide +kernel

/-! ## `GetNearestPowerOfTwo` -/

theorem nearestSigned_ok {w : Nat} (hw : 2 ≤ w) (cpp20 : Bool) {number : Int} (h : number ≤ 2 ^ (w - 2)) :
    ∀ (j i fuel : Nat), i + j = w - 2 → (∀ k : Nat, number ≤ 2 ^ k → i ≤ k) → j < fuel →
      ∃ k : Nat, nearestPow2SignedLoop w cpp20 fuel number (2 ^ i) = .ok (2 ^ k) ∧ number ≤ 2 ^ k ∧
        ∀ k' : Nat, number ≤ 2 ^ k' → k ≤ k' := by
  intro j
  induction j with
  | zero =>
    intro i fuel hij hlow hf
    obtain ⟨fuel, rfl⟩ : ∃ f, fuel = f + 1 := ⟨fuel - 1, by omega⟩
    have : i = w - 2 := by omega
    subst this
    exact ⟨w - 2, by simp only [nearestPow2SignedLoop]; rw [if_neg (by omega)], h, hlow⟩
  | succ j ih =>
    intro i fuel hij hlow hf
    obtain ⟨fuel, rfl⟩ : ∃ f, fuel = f + 1 := ⟨fuel - 1, by omega⟩
    by_cases hlt : (2 ^ i : Int) < number
    · have hx : (0 : Int) < 2 ^ i := by positivity
      have hs : toSigned w (2 ^ i * 2) = 2 ^ (i + 1) := by
        rw [← pow_succ]
        refine toSigned_range (by omega) ?_ ?_
        · have : (0 : Int) < 2 ^ (i + 1) := by positivity
          have : (0 : Int) < 2 ^ (w - 1) := by positivity
          omega
        · exact_mod_cast (Nat.pow_lt_pow_iff_right (a := 2) (by omega)).mpr (show i + 1 < w - 1 by omega)
      obtain ⟨k, hk, hk'⟩ := ih (i + 1) fuel (by omega) (by
        intro k hk
        have := hlow k hk
        rcases Nat.eq_or_lt_of_le this with rfl | h'
        · omega
        · exact h') (by omega)
      refine ⟨k, ?_, hk'⟩
      simp only [nearestPow2SignedLoop]
      rw [if_pos hlt, if_neg (by intro hc; have := hc.2; omega), hs]
      exact hk
    · exact ⟨i, by simp only [nearestPow2SignedLoop]; rw [if_neg hlt], by omega, hlow⟩

/-- C137, `GetNearestPowerOfTwo`: for every value of a signed type up to the greatest power of two of the type,
the loop ends, after at most `w` tests of its condition, with the least power of two at or above the value
(1 for the values below 1).  (Missing for the full claim: see `C137_getNearestPowerOfTwo_violated`.) -/
theorem C137_getNearestPowerOfTwo_partial {w : Nat} (hw : 2 ≤ w) (cpp20 : Bool) (v : Int) (h : v ≤ 2 ^ (w - 2)) :
    ∃ k : Nat, (∀ fuel, w ≤ fuel → getNearestPowerOfTwoSigned w cpp20 fuel v = .ok (2 ^ k)) ∧ v ≤ 2 ^ k ∧
      ∀ k' : Nat, v ≤ 2 ^ k' → k ≤ k' := by
  obtain ⟨k, hk, hv, hmin⟩ := nearestSigned_ok hw cpp20 h (w - 2) 0 w (by omega) (by intros; omega) (by omega)
  refine ⟨k, ?_, hv, hmin⟩
  intro fuel hf
  obtain ⟨k2, hk2, hv2, hmin2⟩ := nearestSigned_ok hw cpp20 h (w - 2) 0 fuel (by omega) (by intros; omega) (by omega)
  have : k = k2 := by have := hmin _ hv2; have := hmin2 _ hv; omega
  subst this
  unfold getNearestPowerOfTwoSigned
  rw [pow_zero] at hk2
  exact hk2

example : getNearestPowerOfTwoSigned 32 true 32 1000 = .ok 1024 ∧ getNearestPowerOfTwoSigned 32 false 32 (-7) = .ok 1 := by
  decide +kernel

theorem nearestSigned_zero {w : Nat} {number : Int} (h : 0 < number) (cpp20 : Bool) (fuel : Nat) :
    nearestPow2SignedLoop w cpp20 fuel number 0 = .error .diverge := by
  induction fuel with
  | zero => rfl
  | succ fuel ih =>
    simp only [nearestPow2SignedLoop]
    rw [if_pos h, if_neg (by intro hc; have := hc.2; omega), Int.zero_mul]
    have : toSigned w 0 = 0 := by simp [toSigned]
    rw [this, ih]

theorem nearestSigned_over {w : Nat} (hw : 2 ≤ w) (cpp20 : Bool) {number : Int} (h : 2 ^ (w - 2) < number) :
    ∀ (j i fuel : Nat), i + j = w - 2 → nearestPow2SignedLoop w cpp20 fuel number (2 ^ i) =
      if cpp20 = false ∧ j + 1 < fuel then .error .ub else .error .diverge := by
  intro j
  have hp1 : (0 : Int) < 2 ^ (w - 1) := by positivity
  induction j with
  | zero =>
    intro i fuel hij
    have : i = w - 2 := by omega
    subst this
    rcases fuel with _ | fuel
    · simp [nearestPow2SignedLoop]
    · have hx : (0 : Int) < 2 ^ (w - 2) := by positivity
      simp only [nearestPow2SignedLoop]
      rw [if_pos h, if_neg (by intro hc; have := hc.2; omega)]
      have e1 : (2 ^ (w - 2) * 2 : Int) = -2 ^ (w - 1) + ((2 ^ w : Nat) : Int) := by
        have := pow_pred (w := w - 1) (by omega)
        rw [show w - 1 - 1 = w - 2 by omega] at this
        have := pow_pred (w := w) (by omega)
        push_cast; omega
      have hs : toSigned w (2 ^ (w - 2) * 2) = -2 ^ (w - 1) := by
        rw [e1]; unfold toSigned; rw [Int.add_bmod_right]
        exact toSigned_range (w := w) (by omega) (by omega) (by omega)
      rw [hs]
      rcases fuel with _ | fuel
      · simp [nearestPow2SignedLoop]
      · simp only [nearestPow2SignedLoop]
        rw [if_pos (by omega)]
        rcases cpp20 with _ | _
        · rw [if_pos ⟨rfl, by omega⟩, if_pos ⟨rfl, by omega⟩]
        · have e2 : (-2 ^ (w - 1) * 2 : Int) = 0 - ((2 ^ w : Nat) : Int) := by
            have := pow_pred (w := w) (by omega)
            push_cast; omega
          have hs2 : toSigned w (-2 ^ (w - 1) * 2) = 0 := by
            rw [e2]; unfold toSigned; rw [Int.sub_bmod_right]; simp
          rw [if_neg (by simp), if_neg (by simp), hs2]
          exact nearestSigned_zero (by omega) _ _
  | succ j ih =>
    intro i fuel hij
    rcases fuel with _ | fuel
    · simp [nearestPow2SignedLoop]
    · have hx : (0 : Int) < 2 ^ i := by positivity
      have hle : (2 ^ i : Int) ≤ 2 ^ (w - 2) := by
        exact_mod_cast Nat.pow_le_pow_right (n := 2) (by omega) (show i ≤ w - 2 by omega)
      have hs : toSigned w (2 ^ i * 2) = 2 ^ (i + 1) := by
        rw [← pow_succ]
        refine toSigned_range (by omega) ?_ ?_
        · have : (0 : Int) < 2 ^ (i + 1) := by positivity
          omega
        · exact_mod_cast (Nat.pow_lt_pow_iff_right (a := 2) (by omega)).mpr (show i + 1 < w - 1 by omega)
      simp only [nearestPow2SignedLoop]
      rw [if_pos (by omega), if_neg (by intro hc; have := hc.2; omega), hs, ih (i + 1) fuel (by omega)]
      congr 1
      simp only [eq_iff_iff, and_congr_right_iff]
      omega

/-- C137 fails for `GetNearestPowerOfTwo` on every value above the greatest power of two of the signed type: the
loop never ends in C++20, where the shifted bit gets lost; before C++20 it shifts the negative value that the
last power of two was shifted into, which is undefined. -/
theorem C137_getNearestPowerOfTwo_violated {w : Nat} (hw : 2 ≤ w) (v : Int) (h : 2 ^ (w - 2) < v) (fuel : Nat) :
    getNearestPowerOfTwoSigned w true fuel v = .error .diverge ∧
    (w ≤ fuel → getNearestPowerOfTwoSigned w false fuel v = .error .ub) := by
  unfold getNearestPowerOfTwoSigned
  have a := nearestSigned_over hw true h (w - 2) 0 fuel (by omega)
  have b := nearestSigned_over hw false h (w - 2) 0 fuel (by omega)
  rw [pow_zero] at a b
  refine ⟨by rw [a]; simp, fun hf => ?_⟩
  rw [b, if_pos ⟨rfl, by omega⟩]

example : getNearestPowerOfTwoSigned 32 true 100 1073741825 = .error .diverge ∧
    getNearestPowerOfTwoSigned 32 false 100 1073741825 = .error .ub := by decide +kernel

/-! ## `CountBits` in constant expressions -/

theorem popcount_step {w : Nat} {v : BitVec w} (h : v ≠ 0#w) : popcount v = popcount (v &&& (v - 1#w)) + 1 := by
  have h1 := countBitsLoop_eq v 0
  have h2 := countBitsLoop_eq (v &&& (v - 1#w)) 1
  rw [countBitsLoop, dif_neg h, h2] at h1
  unfold popcount
  omega

theorem popcount_le {w : Nat} (v : BitVec w) : popcount v ≤ w := by
  unfold popcount
  have := List.countP_le_length (p := fun i => v.getLsbD i) (l := List.range w)
  simpa using this

theorem countSigned_step {w : Nat} {v : BitVec w} (h : v ≠ 0#w) (hr : -(2 ^ (promoted w - 1) : Int) < v.toInt)
    (fuel count : Nat) :
    countBitsSignedLoop w (fuel + 1) v.toInt count =
      countBitsSignedLoop w fuel (v &&& (v - 1#w)).toInt (count + 1) := by
  have h0 : v.toInt ≠ 0 := by
    intro e; apply h; apply BitVec.eq_of_toInt_eq; simpa using e
  have h2 : v.toInt < 2 ^ (w - 1) := BitVec.toInt_lt
  have hp := pow_le_promoted w
  simp only [countBitsSignedLoop]
  rw [if_pos h0, sRes_ok (by omega) (by omega)]
  show countBitsSignedLoop w fuel _ _ = _
  rw [toSigned_and, BitVec.ofInt_toInt, ofInt_sub_one, BitVec.ofInt_toInt]

/-- C137, `CountBits` in constant expressions: on every value of the signed types narrower than 32 bits and on the
values of the others that are not negative, the answer is the number of set bits of the value.
(Missing for the full claim: see `C137_countBits_violated`.) -/
theorem C137_countBits_partial {w : Nat} (v : BitVec w) (h : w < 32 ∨ 0 ≤ v.toInt) (fuel : Nat) (hf : w < fuel) :
    countBitsSigned w fuel v.toInt = .ok (popcount v) := by
  have key : ∀ (n : Nat) (v : BitVec w) (fuel c : Nat), popcount v = n → n < fuel → (w < 32 ∨ 0 ≤ v.toInt) →
      countBitsSignedLoop w fuel v.toInt c = .ok (c + n) := by
    intro n
    induction n with
    | zero =>
      intro v fuel c hn hf h
      obtain ⟨fuel, rfl⟩ : ∃ f, fuel = f + 1 := ⟨fuel - 1, by omega⟩
      have : v = 0#w := by
        by_contra h0
        have := popcount_step h0; omega
      subst this
      simp [countBitsSignedLoop]
    | succ n ih =>
      intro v fuel c hn hf h
      obtain ⟨fuel, rfl⟩ : ∃ f, fuel = f + 1 := ⟨fuel - 1, by omega⟩
      have h0 : v ≠ 0#w := by
        rintro rfl
        have : popcount (0#w) = 0 := by simp [popcount]
        omega
      have hst := popcount_step h0
      have hlow : -(2 ^ (w - 1) : Int) ≤ v.toInt := BitVec.le_toInt v
      have hr : -(2 ^ (promoted w - 1) : Int) < v.toInt := by
        rcases h with h | h
        · have e : promoted w = 32 := by unfold promoted; omega
          have hle : (2 ^ (w - 1) : Int) ≤ 2 ^ 30 := by
            exact_mod_cast Nat.pow_le_pow_right (n := 2) (by omega) (show w - 1 ≤ 30 by omega)
          rw [e]; norm_num at hle ⊢; omega
        · have : (0 : Int) < 2 ^ (promoted w - 1) := by positivity
          omega
      rw [countSigned_step h0 hr, ih _ fuel (c + 1) (by omega) (by omega)]
      · congr 1; omega
      · rcases h with h | h
        · exact Or.inl h
        · right
          have hm : v.msb = false := by rw [BitVec.msb_eq_toInt]; simpa using h
          have : (v &&& (v - 1#w)).msb = false := by rw [BitVec.msb_and, hm]; rfl
          rw [BitVec.msb_eq_toInt] at this
          simpa using this
  have := key _ v fuel 0 rfl (by have := popcount_le v; omega) h
  rw [Nat.zero_add] at this
  exact this

example : countBitsSigned 8 9 (0xF1#8).toInt = .ok 5 ∧ countBitsSigned 32 33 (0x7F000001#32).toInt = .ok 8 :=
  ⟨C137_countBits_partial 0xF1#8 (Or.inl (by omega)) 9 (by omega),
   C137_countBits_partial 0x7F000001#32 (Or.inr (by decide)) 33 (by omega)⟩

/-- C137 fails for `CountBits` in constant expressions on every negative value of the types of 32 bits and more: the
sign bit is the last one to be cleared, and the subtraction from the least value of the type overflows.  (The
call is then not a constant expression.) -/
theorem C137_countBits_violated {w : Nat} (hw : 32 ≤ w) (v : BitVec w) (h : v.toInt < 0) (fuel : Nat) (hf : w < fuel) :
    countBitsSigned w fuel v.toInt = .error .ub := by
  have e : promoted w = w := by unfold promoted; omega
  have key : ∀ (n : Nat) (v : BitVec w) (fuel c : Nat), popcount v = n → n < fuel → v.toInt < 0 →
      countBitsSignedLoop w fuel v.toInt c = .error .ub := by
    intro n
    induction n with
    | zero =>
      intro v fuel c hn hf h
      have : v = 0#w := by
        by_contra h0
        have := popcount_step h0; omega
      subst this
      simp at h
    | succ n ih =>
      intro v fuel c hn hf h
      obtain ⟨fuel, rfl⟩ : ∃ f, fuel = f + 1 := ⟨fuel - 1, by omega⟩
      have h0 : v ≠ 0#w := by rintro rfl; simp at h
      have hst := popcount_step h0
      have hlow : -(2 ^ (w - 1) : Int) ≤ v.toInt := BitVec.le_toInt v
      by_cases hmin : v.toInt = -(2 ^ (w - 1) : Int)
      · simp only [countBitsSignedLoop]
        rw [if_pos (by omega), sRes_low (by rw [e]; omega)]
        rfl
      · have hr : -(2 ^ (promoted w - 1) : Int) < v.toInt := by rw [e]; omega
        rw [countSigned_step h0 hr]
        refine ih _ fuel (c + 1) (by omega) (by omega) ?_
        have hm : v.msb = true := by rw [BitVec.msb_eq_toInt]; simpa using h
        have hm1 : (v - 1#w).msb = true := by
          have h2 : v.toInt < 2 ^ (w - 1) := BitVec.toInt_lt
          have := ofInt_sub_one w v.toInt
          rw [BitVec.ofInt_toInt] at this
          rw [← this, BitVec.msb_eq_toInt, toInt_ofInt_range (by omega) (by omega) (by omega)]
          simp; omega
        have : (v &&& (v - 1#w)).msb = true := by rw [BitVec.msb_and, hm, hm1]; rfl
        rw [BitVec.msb_eq_toInt] at this
        simpa using this
  exact key _ v fuel 0 rfl (by have := popcount_le v; omega) h

example : countBitsSigned 32 33 (-1#32).toInt = .error .ub := C137_countBits_violated (by omega) _ (by decide) 33 (by omega)

end Verif.MathUtils
