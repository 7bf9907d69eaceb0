import Verif.MathUtils.ModelSigned
import Verif.MathUtils.PropsArith
import Verif.MathUtils.PropsBits

/-! # Signed operands as bit vectors -/

namespace Verif.MathUtils
open Verif.Cpp

theorem sRes_low {p : Nat} {x : Int} (h : x < -(2 ^ (p - 1) : Int)) : sRes p x = .error .ub := by
  unfold sRes; rw [if_neg (by omega)]

theorem sRes_high {p : Nat} {x : Int} (h : (2 ^ (p - 1) : Int) ≤ x) : sRes p x = .error .ub := by
  unfold sRes; rw [if_neg (by omega)]

theorem toSigned_range {w : Nat} (hw : 1 ≤ w) {x : Int} (h1 : -(2 ^ (w - 1) : Int) ≤ x) (h2 : x < 2 ^ (w - 1)) :
    toSigned w x = x := by
  unfold toSigned
  obtain ⟨n, rfl⟩ : ∃ n, w = n + 1 := ⟨w - 1, by omega⟩
  simp only [Nat.add_sub_cancel] at h1 h2
  have e : ((2 ^ (n + 1) : Nat) : Int) = 2 * 2 ^ n := by push_cast; ring
  rw [Int.bmod_eq_of_le]
  · rw [e]; omega
  · rw [e]; omega

theorem le_promoted (w : Nat) : w ≤ promoted w := by unfold promoted; omega

theorem pow_le_promoted (w : Nat) : (2 ^ (w - 1) : Int) ≤ 2 ^ (promoted w - 1) := by
  have := le_promoted w
  exact_mod_cast Nat.pow_le_pow_right (n := 2) (by omega) (show w - 1 ≤ promoted w - 1 by omega)

theorem one_le_promoted (w : Nat) : 1 ≤ promoted w := by unfold promoted; omega

theorem toSigned_toInt {w p : Nat} (h : w ≤ p) (x : BitVec p) : toSigned w x.toInt = (x.setWidth w).toInt := by
  unfold toSigned
  rw [BitVec.toInt_setWidth, BitVec.toInt_eq_toNat_bmod,
    Int.bmod_bmod_of_dvd (by exact Nat.pow_dvd_pow 2 h)]

theorem setWidth_ofInt {w p : Nat} (h : w ≤ p) (x : Int) : (BitVec.ofInt p x).setWidth w = BitVec.ofInt w x := by
  apply BitVec.eq_of_toInt_eq
  rw [← toSigned_toInt h, BitVec.toInt_ofInt, BitVec.toInt_ofInt]
  unfold toSigned
  rw [Int.bmod_bmod_of_dvd (Nat.pow_dvd_pow 2 h)]

/-- `T(x & y)`. -/
theorem toSigned_and (w : Nat) (x y : Int) :
    toSigned w (andInt (promoted w) x y) = (BitVec.ofInt w x &&& BitVec.ofInt w y).toInt := by
  unfold andInt
  rw [toSigned_toInt (le_promoted w), BitVec.setWidth_and, setWidth_ofInt (le_promoted w), setWidth_ofInt (le_promoted w)]

/-- `T(x | y)`. -/
theorem toSigned_or (w : Nat) (x y : Int) :
    toSigned w (orInt (promoted w) x y) = (BitVec.ofInt w x ||| BitVec.ofInt w y).toInt := by
  unfold orInt
  rw [toSigned_toInt (le_promoted w), BitVec.setWidth_or, setWidth_ofInt (le_promoted w), setWidth_ofInt (le_promoted w)]

theorem smearSigned_toInt {w : Nat} (s : Nat) (v : BitVec w) :
    smearSigned w s v.toInt = (v ||| v.sshiftRight s).toInt := by
  unfold smearSigned
  rw [toSigned_or, BitVec.ofInt_toInt, BitVec.sshiftRight]

theorem ofInt_sub_one (w : Nat) (x : Int) : BitVec.ofInt w (x - 1) = BitVec.ofInt w x - 1#w := by
  apply BitVec.eq_of_toInt_eq
  rw [BitVec.toInt_sub, BitVec.toInt_ofInt, BitVec.toInt_ofInt]
  have e : (1#w) = BitVec.ofInt w 1 := rfl
  rw [e, BitVec.toInt_ofInt, ← Int.sub_bmod]

theorem toInt_range {w : Nat} (v : BitVec w) : -(2 ^ (w - 1) : Int) ≤ v.toInt ∧ v.toInt < 2 ^ (w - 1) :=
  ⟨BitVec.le_toInt v, BitVec.toInt_lt⟩

theorem toInt_ofInt_range {w : Nat} (hw : 1 ≤ w) {x : Int} (h1 : -(2 ^ (w - 1) : Int) ≤ x) (h2 : x < 2 ^ (w - 1)) :
    (BitVec.ofInt w x).toInt = x := by
  rw [BitVec.toInt_ofInt]
  exact toSigned_range hw h1 h2

theorem toNat_ofInt_nonneg {w : Nat} {x : Int} (h1 : 0 ≤ x) (h2 : x < 2 ^ w) :
    ((BitVec.ofInt w x).toNat : Int) = x := by
  rw [BitVec.toNat_ofInt]
  have e : ((2 ^ w : Nat) : Int) = 2 ^ w := by push_cast; rfl
  rw [e, Int.emod_eq_of_lt h1 h2, Int.toNat_of_nonneg h1]

theorem toNat_ofInt_neg {w : Nat} {x : Int} (h1 : -(2 ^ w : Int) ≤ x) (h2 : x < 0) :
    ((BitVec.ofInt w x).toNat : Int) = x + 2 ^ w := by
  rw [BitVec.toNat_ofInt]
  have e : ((2 ^ w : Nat) : Int) = 2 ^ w := by push_cast; rfl
  rw [e, ← Int.add_emod_right, Int.emod_eq_of_lt (by omega) (by omega), Int.toNat_of_nonneg (by omega)]

/-- The top `j` bits are set. -/
def TopSet {w : Nat} (j : Nat) (v : BitVec w) : Prop := ∀ i, i < w → w ≤ i + j → v.getLsbD i = true

theorem topSet_smear {w j : Nat} (s : Nat) {v : BitVec w} (hm : v.msb = true) (h : TopSet j v) :
    TopSet (j + s) (v ||| v.sshiftRight s) ∧ (v ||| v.sshiftRight s).msb = true := by
  constructor
  · intro i hi hj
    rw [BitVec.getLsbD_or, BitVec.getLsbD_sshiftRight]
    by_cases hs : s + i < w
    · simp [hi, hs, h (s + i) hs (by omega), Nat.not_le.mpr hi]
    · simp [hs, hm, Nat.not_le.mpr hi]
  · rw [BitVec.msb_or, hm]; rfl

theorem topSet_full {w j : Nat} (hj : w ≤ j) {v : BitVec w} (h : TopSet j v) : v = BitVec.allOnes w := by
  apply BitVec.eq_of_getLsbD_eq
  intro i hi
  rw [h i hi (by omega), BitVec.getLsbD_allOnes]; simp [hi]

/-- The smearing part of `RoundToPow2` on a signed type. -/
def smears {w : Nat} (v : BitVec w) : BitVec w :=
  let f := fun s (v : BitVec w) => v ||| v.sshiftRight s
  let v := f 4 (f 2 (f 1 v))
  let v := if w > 8 then f 8 v else v
  let v := if w > 16 then f 16 v else v
  if w > 32 then f 32 v else v

theorem smears_neg {w : Nat} (hw : IsWidth w) {v : BitVec w} (hm : v.msb = true) : smears v = BitVec.allOnes w := by
  have h0 : TopSet 1 v := by
    intro i hi hj
    have : i = w - 1 := by omega
    subst this
    rw [BitVec.msb_eq_getLsbD_last] at hm; exact hm
  obtain ⟨h1, m1⟩ := topSet_smear 1 hm h0
  obtain ⟨h2, m2⟩ := topSet_smear 2 m1 h1
  obtain ⟨h3, m3⟩ := topSet_smear 4 m2 h2
  obtain ⟨h4, m4⟩ := topSet_smear 8 m3 h3
  obtain ⟨h5, m5⟩ := topSet_smear 16 m4 h4
  obtain ⟨h6, m6⟩ := topSet_smear 32 m5 h5
  rcases hw with rfl | rfl | rfl | rfl
  · exact topSet_full (by omega) h3
  · exact topSet_full (by omega) h4
  · exact topSet_full (by omega) h5
  · exact topSet_full (by omega) h6

theorem smear_pos {w : Nat} (s : Nat) {v : BitVec w} (hm : v.msb = false) :
    (v ||| v.sshiftRight s) = smear s v ∧ (smear s v).msb = false := by
  have e : v.sshiftRight s = v >>> s := BitVec.sshiftRight_eq_of_msb_false hm
  refine ⟨by rw [e]; rfl, ?_⟩
  unfold smear
  rw [BitVec.msb_or, hm, BitVec.msb_ushiftRight]
  simp [hm]

theorem smears_pos {w : Nat} {v : BitVec w} (hm : (v - 1#w).msb = false) :
    smears (v - 1#w) + 1#w = roundToPow2 v ∧ (smears (v - 1#w)).msb = false := by
  unfold smears roundToPow2
  obtain ⟨e1, m1⟩ := smear_pos 1 hm
  obtain ⟨e2, m2⟩ := smear_pos 2 m1
  obtain ⟨e3, m3⟩ := smear_pos 4 m2
  simp only [e1, e2, e3]
  by_cases h8 : w > 8
  · obtain ⟨e4, m4⟩ := smear_pos 8 m3
    simp only [if_pos h8, e4]
    by_cases h16 : w > 16
    · obtain ⟨e5, m5⟩ := smear_pos 16 m4
      simp only [if_pos h16, e5]
      by_cases h32 : w > 32
      · obtain ⟨e6, m6⟩ := smear_pos 32 m5
        simp only [if_pos h32, e6]
        exact ⟨trivial, m6⟩
      · simp only [if_neg h32]; exact ⟨trivial, m5⟩
    · simp only [if_neg h16, if_neg (show ¬ w > 32 by omega)]; exact ⟨trivial, m4⟩
  · simp only [if_neg h8, if_neg (show ¬ w > 16 by omega), if_neg (show ¬ w > 32 by omega)]; exact ⟨trivial, m3⟩

theorem roundToPow2Signed_eq {w : Nat} (value : Int) :
    roundToPow2Signed w value =
      (stepSigned w value (-1)).bind (fun d => stepSigned w (smears (BitVec.ofInt w d)).toInt 1) := by
  unfold roundToPow2Signed
  show Except.bind _ _ = _
  rcases h : stepSigned w value (-1) with e | d
  · rfl
  · have hd : d = (BitVec.ofInt w d).toInt := by
      unfold stepSigned at h
      rcases hs : sRes (promoted w) (value + -1) with e | r
      · rw [hs] at h; cases h
      · rw [hs] at h
        injection h with h
        rw [← h, BitVec.toInt_ofInt]; unfold toSigned; rw [Int.bmod_bmod]
    show _ = stepSigned w (smears (BitVec.ofInt w d)).toInt 1
    conv => lhs; simp only [Except.bind]
    congr 1
    generalize BitVec.ofInt w d = x at hd
    subst hd
    unfold smears
    simp only [smearSigned_toInt]
    split <;> split <;> split <;> simp only [smearSigned_toInt]

end Verif.MathUtils
