import Verif.MathUtils.PropsBits
import Verif.MathUtils.PropsArith

/-!
# Where C13, C18, C20, C21, C22 and C24 fail: every failing argument
-/

namespace Verif.MathUtils
open Verif.Cpp

/-! ### Bit counts of narrow signed types (C13) -/

theorem promoted_narrow {w : Nat} (hw : w < 32) : promoted w = 32 := by unfold promoted; omega

theorem msb_of_neg {w : Nat} {v : BitVec w} (hv : v.toInt < 0) : v.msb = true := by
  rw [BitVec.msb_eq_toInt]; simpa using hv

/-- C13 fails for every negative value of a signed type narrower than `int`: the run-time path of `CountBits` also counts the copies of the sign bit. -/
theorem C13_countBits_signed_violated {w : Nat} (hw : w < 32) (v : BitVec w) (hv : v.toInt < 0) :
    countBitsRuntime true v = popcount v + (32 - w) ∧ countBits v = popcount v := by
  refine ⟨?_, C13_countBits v⟩
  obtain ⟨d, hd⟩ := Nat.exists_eq_add_of_le (Nat.le_of_lt hw)
  have hm := msb_of_neg hv
  unfold countBitsRuntime builtinPopcount popcount extend
  rw [promoted_narrow hw]
  simp only [if_true]
  rw [hd, List.range_add, List.countP_append]
  congr 1
  · apply List.countP_congr
    intro i hi
    rw [List.mem_range] at hi
    rw [BitVec.getLsbD_signExtend]
    simp [hi, show i < w + d by omega]
  · rw [List.countP_eq_length.mpr]
    · simp
    · intro i hi
      rw [List.mem_map] at hi
      obtain ⟨a, ha, rfl⟩ := hi
      rw [List.mem_range] at ha
      rw [BitVec.getLsbD_signExtend]
      simp [hm, show w + a < w + d by omega]

example : (0xFE#8).toInt < 0 := by decide

/-- C13 fails for every negative value of a signed type narrower than `int`: the run-time path of `FindLastBit` reports bit 31. -/
theorem C13_findLastBit_signed_violated {w : Nat} (hw : w < 32) (v : BitVec w) (hv : v.toInt < 0) :
    findLastBitRuntime true v = .ok 32 ∧ IsScan IsHighest v w := by
  have hm := msb_of_neg hv
  have hw0 : 0 < w := by
    rcases Nat.eq_zero_or_pos w with rfl | h
    · rw [BitVec.eq_nil v] at hv; simp at hv
    · exact h
  have hbit : v.getLsbD (w - 1) = true := by rw [BitVec.msb_eq_getLsbD_last] at hm; exact hm
  constructor
  · have hne : v ≠ 0#w := by rintro rfl; simp at hbit
    have hext : (extend true 32 v).getLsbD 31 = true := by
      unfold extend
      simp only [if_true]
      rw [BitVec.getLsbD_signExtend]
      by_cases h : 31 < w
      · omega
      · simp [h, hm]
    have hne' : extend true 32 v ≠ 0#32 := by intro h; rw [h] at hext; simp at hext
    have hl : (extend true 32 v).toNat.log2 = 31 := by
      have h0 : (extend true 32 v).toNat ≠ 0 := fun e => hne' (BitVec.eq_of_toNat_eq (by simpa using e))
      have h1 := testBit_log2_max _ 31 (by simpa [BitVec.getLsbD] using hext)
      have h2 := (Nat.log2_lt h0).mpr (extend true 32 v).isLt
      omega
    unfold findLastBitRuntime builtinClz
    rw [if_neg hne, promoted_narrow hw, if_neg hne', hl]
    rfl
  · refine Or.inr ⟨w - 1, ⟨hbit, fun j hj => BitVec.getLsbD_of_ge v j (by omega)⟩, by omega⟩

/-- C13: for the values that are not negative the run-time paths are right, whatever the width: so the negative values of narrow types are all the failures. -/
theorem C13_signed_nonneg {w : Nat} (v : BitVec w) (hv : 0 ≤ v.toInt) :
    countBitsRuntime true v = popcount v ∧ ∃ n, findLastBitRuntime true v = .ok n ∧ IsScan IsHighest v n := by
  have hm : v.msb = false := by rw [BitVec.msb_eq_toInt]; simpa using hv
  have e : ∀ n, extend true n v = extend false n v := by
    intro n
    unfold extend
    simp only [if_true, Bool.false_eq_true, if_false]
    exact BitVec.signExtend_eq_setWidth_of_msb_false hm
  constructor
  · unfold countBitsRuntime
    rw [e]
    exact C13_countBits_runtime_partial false v (Or.inl rfl)
  · have := C13_findLastBit_runtime_partial false v (Or.inl rfl)
    unfold findLastBitRuntime at this ⊢
    rw [e]
    exact this

/-! ### IntegralPow (C18) -/

theorem forUp_mul_error {w : Nat} (b : BitVec w) (hw : w < 32) :
    ∀ (n k lo : Nat) (r : BitVec w), r.toNat = b.toNat ^ k % 2 ^ w →
      (∃ j, j < n ∧ 2 ^ 31 ≤ b.toNat ^ (k + j) % 2 ^ w * b.toNat) →
      forUp lo n (fun _ r => mulAssign r b) r = .error .ub := by
  intro n
  induction n with
  | zero => rintro k lo r _ ⟨j, hj, _⟩; omega
  | succ n ih =>
    rintro k lo r hr ⟨j, hj, hbig⟩
    unfold forUp
    by_cases h0 : r.toNat * b.toNat < 2 ^ 31
    · have hg : (decide (32 ≤ w) || decide (r.toNat * b.toNat < 2 ^ 31)) = true := by simp only [h0, decide_true, Bool.or_true]
      have hm : mulAssign r b = .ok (r * b) := by simp only [mulAssign, hg, guardUB_true, ok_bind, pure_ok]
      simp only [hm]
      apply ih (k + 1)
      · rw [BitVec.toNat_mul, hr, pow_succ, Nat.mod_mul_mod]
      · rcases Nat.eq_zero_or_pos j with rfl | hjp
        · rw [Nat.add_zero, ← hr] at hbig; omega
        · exact ⟨j - 1, by omega, by rwa [show k + 1 + (j - 1) = k + j by omega]⟩
    · have hg : (decide (32 ≤ w) || decide (r.toNat * b.toNat < 2 ^ 31)) = false := by
        simp only [h0, decide_false, Bool.or_false, decide_eq_false_iff_not]; omega
      have hm : mulAssign r b = .error .ub := by simp only [mulAssign, hg]; rfl
      simp only [hm]

/-- C18 fails on unsigned types narrower than `int` exactly if an intermediate product reaches 2^31: it overflows the promoted `int` (undefined behaviour).
This happens on 16-bit types only, e.g. for every base from 46341 with an exponent from 2. -/
theorem C18_integralPow_violated {w : Nat} (hw : w < 32) (b : BitVec w) (e : Nat) :
    (integralPow b e = .error .ub ↔ ∃ k, k < e ∧ 2 ^ 31 ≤ b.toNat ^ k % 2 ^ w * b.toNat) ∧
    (46341 ≤ b.toNat → 2 ≤ e → integralPow b e = .error .ub) ∧
    (∀ r, integralPow b e = .ok r → r.toNat = b.toNat ^ e % 2 ^ w) := by
  have hfail : (∃ k, k < e ∧ 2 ^ 31 ≤ b.toNat ^ k % 2 ^ w * b.toNat) → integralPow b e = .error .ub := by
    rintro ⟨k, hk, hb⟩
    exact forUp_mul_error b hw e 0 0 1#w (by simp) ⟨k, hk, by simpa using hb⟩
  have hok : (¬ ∃ k, k < e ∧ 2 ^ 31 ≤ b.toNat ^ k % 2 ^ w * b.toNat) → ∃ r, integralPow b e = .ok r ∧ r.toNat = b.toNat ^ e % 2 ^ w := by
    intro hno
    obtain ⟨r, h, hI⟩ := forUp_ok (σ := BitVec w) (fun k r => r.toNat = b.toNat ^ k % 2 ^ w) (lo := 0) (n := e)
      (f := fun _ r => mulAssign r b) (s := 1#w) (by simp) (by
        intro k s hk hs
        refine ⟨s * b, ?_, ?_⟩
        · have h1 : s.toNat * b.toNat < 2 ^ 31 := by
            by_contra hc
            exact hno ⟨k, hk, by rw [← hs]; omega⟩
          have hg : (decide (32 ≤ w) || decide (s.toNat * b.toNat < 2 ^ 31)) = true := by simp only [h1, decide_true, Bool.or_true]
          simp only [mulAssign, hg, guardUB_true, ok_bind, pure_ok]
        · rw [BitVec.toNat_mul, hs, pow_succ, Nat.mod_mul_mod])
    exact ⟨r, h, hI⟩
  refine ⟨⟨fun h => ?_, hfail⟩, fun hb he => hfail ⟨1, by omega, ?_⟩, fun r h => ?_⟩
  · by_contra hno
    obtain ⟨r, hr, _⟩ := hok hno
    rw [hr] at h; cases h
  · rw [pow_one, Nat.mod_eq_of_lt b.isLt]
    calc 2 ^ 31 ≤ 46341 * 46341 := by norm_num
      _ ≤ b.toNat * b.toNat := Nat.mul_le_mul hb hb
  · by_cases hno : ∃ k, k < e ∧ 2 ^ 31 ≤ b.toNat ^ k % 2 ^ w * b.toNat
    · rw [hfail hno] at h; cases h
    · obtain ⟨r', hr', hv⟩ := hok hno
      rw [hr'] at h; cases h; exact hv

example : 46341 ≤ (65535#16).toNat := by decide

/-! ### Align (C20) -/

/-- C20 fails whenever the intermediate sum wraps (types of at least 32 bits): `Align` then returns 0, which is never the answer. -/
theorem C20_align_violated {w : Nat} (o a : BitVec w) (ha : 0 < a.toNat) (h : 2 ^ promoted w ≤ o.toNat + a.toNat - 1) :
    align o a = .ok 0#w ∧ ∀ m : Int, IsNextMultiple o.toNat a.toNat m → m ≠ 0 := by
  have hwp : 2 ^ w ≤ 2 ^ promoted w := Nat.pow_le_pow_right (by omega) (by unfold promoted; omega)
  have ho := o.isLt
  have hal := a.isLt
  constructor
  · have hp := promoted_pos w
    have hsum : (o.setWidth (promoted w) + a.setWidth (promoted w) - 1#(promoted w)).toNat = o.toNat + a.toNat - 1 - 2 ^ promoted w := by
      rw [BitVec.toNat_sub, BitVec.toNat_add, setWidth_promoted_toNat, setWidth_promoted_toNat, BitVec.toNat_ofNat,
        Nat.mod_eq_of_lt hp]
      generalize 2 ^ promoted w = P at *
      rw [Nat.mod_eq_sub_mod (a := o.toNat + a.toNat) (by omega), Nat.mod_eq_of_lt (a := o.toNat + a.toNat - P) (by omega),
        show P - 1 + (o.toNat + a.toNat - P) = (o.toNat + a.toNat - 1 - P) + P by omega, Nat.add_mod_right, Nat.mod_eq_of_lt (by omega)]
    have hq : (o.setWidth (promoted w) + a.setWidth (promoted w) - 1#(promoted w)) / a.setWidth (promoted w) = 0#(promoted w) := by
      apply BitVec.eq_of_toNat_eq
      rw [BitVec.toNat_udiv, hsum, setWidth_promoted_toNat]
      simp only [BitVec.toNat_ofNat, Nat.zero_mod]
      exact Nat.div_eq_of_lt (by omega)
    simp only [align, ha, decide_true, assert_true, ok_bind, pure_ok, hq]
    simp
  · intro m hm h0
    have := hm.2.1
    have : 0 < o.toNat := by omega
    omega

example : 2 ^ promoted 32 ≤ (4294967294#32).toNat + (3#32).toNat - 1 := by decide

theorem nextMultiple_le_self {o a m : Int} (ha : 0 < a) (hm : IsNextMultiple o a m) : m < o + a := by
  have h1 := Int.mul_ediv_add_emod (o + a - 1) a
  have h2 := Int.emod_lt_of_pos (o + a - 1) ha
  have h3 := Int.emod_nonneg (o + a - 1) (by omega : a ≠ 0)
  have := hm.2.2 (a * ((o + a - 1) / a)) ⟨_, rfl⟩ (by omega)
  omega

/-- The truncated division of `Align` for an offset of at most `-alignment`. -/
theorem align_tdiv {o a m : Int} (ha : 0 < a) (hoa : o ≤ -a) (hm : IsNextMultiple o a m) :
    (o + a - 1).tdiv a * a = if a ∣ o - 1 then m else m + a := by
  obtain ⟨c, hc⟩ := hm.1
  have hlt := nextMultiple_le_self ha hm
  have hle := hm.2.1
  have hneg : (o + a - 1).tdiv a = -((-(o + a - 1)) / a) := by
    rw [← Int.tdiv_eq_ediv_of_nonneg (by omega), Int.neg_tdiv, Int.neg_neg]
  rw [hneg]
  split
  · rename_i hd
    obtain ⟨k, hk⟩ := hd
    have hk2 : -(o + a - 1) = a * (-(k + 1)) := by linarith [hk, Int.mul_add a k 1, Int.mul_neg a (k + 1)]
    rw [hk2, Int.mul_ediv_cancel_left _ (by omega)]
    have h1 : a * k < a * c := by omega
    have h2 : k < c := lt_of_mul_lt_mul_left h1 (by omega)
    have h3 : a * c < a * (k + 2) := by
      have : a * (k + 2) = a * k + a + a := by ring
      omega
    have h4 : c < k + 2 := lt_of_mul_lt_mul_left h3 (by omega)
    have : c = k + 1 := by omega
    rw [hc, this]; ring
  · rename_i hd
    have hq : (-(o + a - 1)) / a = -(c + 1) := by
      have hstrict : m ≠ o + a - 1 := by
        intro he
        apply hd
        exact ⟨c - 1, by rw [Int.mul_sub, ← hc]; omega⟩
      have e1 : -(o + a - 1) = (m - o + 1) + a * (-(c + 1)) := by
        have : a * (-(c + 1)) = -(a * c) - a := by ring
        rw [this, ← hc]; omega
      rw [e1, Int.add_mul_ediv_left _ _ (by omega), Int.ediv_eq_zero_of_lt (by omega) (by omega)]
      omega
    rw [hq, hc]; ring

/-- C20, signed types, offsets of at most `-alignment` (in the range of the type): the answer is right exactly for the offsets that are 1 above a multiple;
for all others the multiple after the right one is returned. -/
theorem C20_align_signed_violated {w : Nat} (hw : 1 ≤ w) (o a m : Int) (ha : 0 < a) (hoa : o ≤ -a) (ho : -(2 ^ (w - 1) : Int) ≤ o)
    (hm : IsNextMultiple o a m) : alignSigned w o a = .ok (if a ∣ o - 1 then m else m + a) := by
  have hp := pow_promoted w
  have ht := align_tdiv ha hoa hm
  have hlt := nextMultiple_le_self ha hm
  have hle := hm.2.1
  have hm0 : m ≤ 0 := hm.2.2 0 ⟨0, by simp⟩ (by omega)
  have hpos : (0 : Int) < 2 ^ (promoted w - 1) := by positivity
  have hpos' : (0 : Int) < 2 ^ (w - 1) := by positivity
  have hneg : (o + a - 1).tdiv a = -((-(o + a - 1)) / a) := by
    rw [← Int.tdiv_eq_ediv_of_nonneg (by omega), Int.neg_tdiv, Int.neg_neg]
  have hq0 : 0 ≤ (-(o + a - 1)) / a := Int.ediv_nonneg (by omega) (by omega)
  have hq1 : (-(o + a - 1)) / a ≤ -(o + a - 1) := Int.ediv_le_self _ (by omega)
  have hr0 : (o + a - 1).tdiv a * a ≤ 0 := by
    rw [hneg]
    have := Int.mul_nonneg hq0 (by omega : 0 ≤ a)
    rw [Int.neg_mul]; omega
  have hr1 : o ≤ (o + a - 1).tdiv a * a := by
    rw [ht]; split <;> omega
  simp only [alignSigned, ha, decide_true, assert_true, ok_bind]
  rw [sRes_ok (by omega) (by omega), ok_bind, sRes_ok (by omega) (by omega), ok_bind, sRes_ok (by omega) (by omega), ok_bind,
    sRes_ok (by omega) (by omega), ok_bind, pure_ok, toSigned_ok hw (by omega) (by omega), ht]

example : alignSigned 32 (-8) 4 = .ok (-4) ∧ ¬ (4 : Int) ∣ -8 - 1 ∧ alignSigned 32 (-7) 4 = .ok (-4) ∧ (4 : Int) ∣ -7 - 1 := by decide +kernel

/-- C20 fails on signed types when `offset + alignment` overflows: undefined behaviour, even if the next multiple is representable. -/
theorem C20_align_overflow_violated {w : Nat} (o a : Int) (ha : 0 < a) (h : 2 ^ (promoted w - 1) ≤ o + a) : alignSigned w o a = .error .ub := by
  simp only [alignSigned, ha, decide_true, assert_true, ok_bind]
  rw [sRes, if_neg (by omega)]
  rfl

example : (2 : Int) ^ (promoted 32 - 1) ≤ 2147483644 + 4 ∧ IsNextMultiple 2147483644 4 2147483644 :=
  ⟨by decide, by norm_num, by norm_num, fun _ _ h => h⟩

/-! ### Approach (C21) -/

/-- C21 fails on unsigned types whenever the step wraps: the objective is within reach, and `Approach` goes the other way. -/
theorem C21_approach_violated {w : Nat} (v o i : BitVec w) :
    (v.toNat < o.toNat → 2 ^ w ≤ v.toNat + i.toNat →
      approachSpec v.toNat o.toNat i.toNat = o.toNat ∧ (approach v o i).toNat = v.toNat + i.toNat - 2 ^ w ∧ (approach v o i).toNat < v.toNat) ∧
    (o.toNat < v.toNat → v.toNat < i.toNat →
      approachSpec v.toNat o.toNat i.toNat = o.toNat ∧ (approach v o i).toNat = v.toNat + 2 ^ w - i.toNat ∧ v.toNat < (approach v o i).toNat) := by
  have hv := v.isLt
  have ho := o.isLt
  have hi := i.isLt
  constructor
  · intro h1 h2
    have hs : (v + i).toNat = v.toNat + i.toNat - 2 ^ w := by
      rw [BitVec.toNat_add, Nat.mod_eq_sub_mod h2, Nat.mod_eq_of_lt (by omega)]
    have hr : approach v o i = v + i := by
      simp only [approach, if_pos h1, stdMin, hs, decide_eq_true_eq]
      rw [if_neg (by omega)]
    refine ⟨?_, by rw [hr, hs], by rw [hr, hs]; omega⟩
    rw [approachSpec, if_pos (by omega)]
  · intro h1 h2
    have hs : (v - i).toNat = v.toNat + 2 ^ w - i.toNat := by
      rw [BitVec.toNat_sub, Nat.mod_eq_of_lt (by omega)]; omega
    have hr : approach v o i = v - i := by
      simp only [approach, if_neg (show ¬ v.toNat < o.toNat by omega), if_pos h1, stdMax, hs, decide_eq_true_eq]
      rw [if_neg (by omega)]
    refine ⟨?_, by rw [hr, hs], by rw [hr, hs]; omega⟩
    rw [approachSpec, if_pos (by omega)]

example : (0#32).toNat < (5#32).toNat ∧ (5#32).toNat < (10#32).toNat := by decide

/-- C21 fails on signed types whenever the step overflows: undefined behaviour, although the objective is within reach. -/
theorem C21_approach_signed_violated {w : Nat} (v o i : Int) (ho : -(2 ^ (w - 1) : Int) ≤ o ∧ o < 2 ^ (w - 1)) :
    (v < o → 2 ^ (w - 1) ≤ v + i → approachSigned w v o i = .error .ub ∧ approachSpec v o i = o) ∧
    (o < v → v - i < -(2 ^ (w - 1) : Int) → approachSigned w v o i = .error .ub ∧ approachSpec v o i = o) := by
  constructor
  · intro h1 h2
    constructor
    · simp only [approachSigned, if_pos h1]
      rw [sRes, if_neg (by omega)]
      rfl
    · rw [approachSpec, if_pos (by omega)]
  · intro h1 h2
    constructor
    · simp only [approachSigned, if_neg (show ¬ v < o by omega), gt_iff_lt, if_pos h1]
      rw [sRes, if_neg (by omega)]
      rfl
    · rw [approachSpec, if_pos (by omega)]

/-! ### NumberEquals (C22) -/

theorem toNat_of_toInt {w : Nat} (x : BitVec w) :
    (0 ≤ x.toInt → (x.toNat : Int) = x.toInt) ∧ (x.toInt < 0 → (x.toNat : Int) = x.toInt + ((2 ^ w : Nat) : Int)) := by
  have hx : (x.toNat : Int) < ((2 ^ w : Nat) : Int) := by exact_mod_cast x.isLt
  rw [BitVec.toInt_eq_toNat_cond]
  constructor <;> split <;> omega

/-- C22 fails on signed types narrower than `int` for all numbers of opposite signs: `NumberEquals` says that they are equal, whatever the tolerance. -/
theorem C22_numberEquals_signed_violated {w : Nat} (hw : w < 32) (a b d : BitVec w) (hs : a.toInt < 0 ∧ 0 ≤ b.toInt ∨ 0 ≤ a.toInt ∧ b.toInt < 0) :
    numberEqualsSigned a b d = true := by
  have hrange : ∀ x y : BitVec w, 0 ≤ x.toInt → y.toInt < 0 → (x.toNat : Int) - y.toNat < 0 := by
    intro x y hx hy
    have h1 := (toNat_of_toInt x).1 hx
    have h2 := (toNat_of_toInt y).2 hy
    have h3 := BitVec.toInt_lt (x := x)
    have h4 := BitVec.le_toInt (x := y)
    rcases Nat.eq_zero_or_pos w with rfl | hw0
    · rw [BitVec.eq_nil y] at hy; simp at hy
    · have : (2 : Int) ^ w = 2 * 2 ^ (w - 1) := by rw [← pow_succ']; congr 1; omega
      push_cast at h2
      omega
  simp only [numberEqualsSigned, hw, if_true]
  rcases hs with ⟨h1, h2⟩ | ⟨h1, h2⟩
  · rw [if_pos (by omega)]
    have := hrange b a h2 h1
    simp only [decide_eq_true_eq]
    omega
  · rw [if_neg (by omega)]
    have := hrange a b h1 h2
    simp only [decide_eq_true_eq]
    omega

example : (127#8).toInt - (-128#8 : BitVec 8).toInt = 255 ∧ (-128#8 : BitVec 8).toInt < 0 ∧ 0 ≤ (127#8).toInt := by decide

/-! ### ArithmeticRightShift (C24) -/

/-- C24, C++17 path on a compiler whose signed right shift is logical: right for every width when the shift amount has a signed type.
(Missing for the full claim: shift amounts of unsigned types, see `C24_arithmeticRightShift_violated`.) -/
theorem C24_arithmeticRightShift_logical_partial {w : Nat} (v : BitVec w) (s : Nat) (hs : s < max w 32) :
    ∃ r, arithmeticRightShift17 false true v s = .ok r ∧ r.toInt = v.toInt / 2 ^ s := by
  have hp : w ≤ promoted w := by unfold promoted; omega
  refine ⟨v.sshiftRight s, ?_, sshiftRight_floor v s⟩
  unfold arithmeticRightShift17
  have hsp : s < promoted w := by unfold promoted; omega
  have hones : (if w < 32 then implShiftRight false (BitVec.allOnes (promoted w)) s else BitVec.allOnes (promoted w) >>> s)
      = BitVec.allOnes (promoted w) >>> s := by split <;> simp [implShiftRight]
  simp only [hsp, decide_true, guardUB_true, ok_bind, pure_ok, hones, Bool.true_and]
  simp only [implShiftRight, Bool.false_eq_true, if_false]
  rw [← signExtend_shift hp]
  have bits : ∀ i, i < w → ((v.signExtend (promoted w)).sshiftRight s).getLsbD i
      = if s + i < promoted w then (v.signExtend (promoted w)).getLsbD (s + i) else v.msb := by
    intro i hi
    rw [BitVec.getLsbD_sshiftRight, msb_sext hp]
    simp [show ¬ promoted w ≤ i by omega]
  split
  · rename_i hc
    simp only [Bool.and_eq_true, decide_eq_true_eq] at hc
    have hmsb := msb_of_neg hc.1
    congr 1
    apply BitVec.eq_of_getLsbD_eq
    intro i hi
    rw [BitVec.getLsbD_setWidth, BitVec.getLsbD_setWidth, bits i hi, BitVec.getLsbD_or, BitVec.getLsbD_not, BitVec.getLsbD_ushiftRight,
      BitVec.getLsbD_ushiftRight, BitVec.getLsbD_allOnes]
    by_cases h1 : s + i < promoted w
    · simp [h1]
    · simp [h1, hmsb, show i < promoted w by omega]
  · rename_i hc
    simp only [Bool.and_eq_true, decide_eq_true_eq, not_and] at hc
    congr 1
    apply BitVec.eq_of_getLsbD_eq
    intro i hi
    rw [BitVec.getLsbD_setWidth, BitVec.getLsbD_setWidth, bits i hi, BitVec.getLsbD_ushiftRight]
    by_cases h1 : s + i < promoted w
    · simp [h1]
    · have : v.msb = false := by
        rw [BitVec.msb_eq_toInt]
        simp only [decide_eq_false_iff_not]
        intro hneg
        exact hc hneg (by omega)
      simp [h1, this, BitVec.getLsbD_of_ge (v.signExtend (promoted w)) (s + i) (by omega)]

/-- C24: shifts by as many bits or more are undefined behaviour in every version, though the quotient exists. -/
theorem C24_arithmeticRightShift_wide_violated {w : Nat} (v : BitVec w) (s : Nat) (hs : max w 32 ≤ s) :
    arithmeticRightShift20 v s = .error .ub ∧ (∀ arith shiftSigned, arithmeticRightShift17 arith shiftSigned v s = .error .ub) ∧
      ∃ r : BitVec w, r.toInt = v.toInt / 2 ^ s := by
  have hsp : ¬ s < promoted w := by unfold promoted; omega
  refine ⟨?_, fun a b => ?_, v.sshiftRight s, sshiftRight_floor v s⟩
  · simp [arithmeticRightShift20, hsp, guardUB]
  · simp [arithmeticRightShift17, hsp, guardUB]

/-- C24 on such a compiler with a shift amount of an unsigned type: right exactly if the value is not negative or the shift does not bring the zeros above the promoted
value into the result (for types of at least 32 bits: if the shift is 0). -/
theorem C24_arithmeticRightShift_violated {w : Nat} (v : BitVec w) (s : Nat) (hs : s < max w 32) :
    ∃ r, arithmeticRightShift17 false false v s = .ok r ∧ (r.toInt = v.toInt / 2 ^ s ↔ 0 ≤ v.toInt ∨ s + w ≤ promoted w) := by
  have hp : w ≤ promoted w := by unfold promoted; omega
  have hsp : s < promoted w := by unfold promoted; omega
  refine ⟨((v.signExtend (promoted w)) >>> s).setWidth w, ?_, ?_⟩
  · simp only [arithmeticRightShift17, hsp, decide_true, guardUB_true, ok_bind, pure_ok, Bool.false_and, Bool.false_eq_true, if_false, implShiftRight]
  · have hiff : (((v.signExtend (promoted w)) >>> s).setWidth w).toInt = v.toInt / 2 ^ s ↔ ((v.signExtend (promoted w)) >>> s).setWidth w = v.sshiftRight s := by
      rw [← sshiftRight_floor, BitVec.toInt_inj]
    rw [hiff, ← signExtend_shift hp]
    have bits : ∀ i, i < w → ((v.signExtend (promoted w)).sshiftRight s).getLsbD i
        = if s + i < promoted w then (v.signExtend (promoted w)).getLsbD (s + i) else v.msb := by
      intro i hi
      rw [BitVec.getLsbD_sshiftRight, msb_sext hp]
      simp [show ¬ promoted w ≤ i by omega]
    constructor
    · intro he
      by_contra hno
      simp only [not_or, not_le] at hno
      have hb := congrArg (fun x => x.getLsbD (w - 1)) he
      simp only [BitVec.getLsbD_setWidth] at hb
      rw [bits (w - 1) (by omega), if_neg (by omega), msb_of_neg hno.1, BitVec.getLsbD_ushiftRight,
        BitVec.getLsbD_of_ge _ _ (by omega)] at hb
      simp at hb
      omega
    · intro h
      apply BitVec.eq_of_getLsbD_eq
      intro i hi
      rw [BitVec.getLsbD_setWidth, BitVec.getLsbD_setWidth, bits i hi, BitVec.getLsbD_ushiftRight]
      by_cases h1 : s + i < promoted w
      · simp [h1]
      · have hv : 0 ≤ v.toInt := by rcases h with h | h <;> omega
        have : v.msb = false := by rw [BitVec.msb_eq_toInt]; simpa using hv
        simp [h1, this, BitVec.getLsbD_of_ge (v.signExtend (promoted w)) (s + i) (by omega)]

example : ¬ (0 ≤ (-8#32 : BitVec 32).toInt ∨ 2 + 32 ≤ promoted 32) := by decide

end Verif.MathUtils
