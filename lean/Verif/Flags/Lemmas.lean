import Verif.Flags.Spec
import Verif.MathUtils.PropsBits
import Verif.MathUtils.PropsOrder

namespace Verif.Flags

open Verif.Cpp Verif.MathUtils

theorem isWidth (c : Cfg) : IsWidth c.width := by
  unfold Cfg.width IsWidth
  split <;> [skip; split <;> [skip; split]] <;> simp

theorem last_lt_width {c : Cfg} (h : c.last ≤ 63) : c.last < c.width := by
  unfold Cfg.width Cfg.maxValue Cfg.value
  cases c.autoFlag
  · simp only [Bool.false_eq_true, if_false]
    have h1 : ∀ k, 2 ^ c.last < 2 ^ k → c.last < k := fun k hk => (Nat.pow_lt_pow_iff_right (by omega)).mp hk
    split
    · omega
    · have := h1 5 (by omega)
      split <;> [omega; split <;> [skip; skip]]
      · have := h1 4 (by omega); omega
      · have := h1 4 (by omega); omega
  · simp only [if_true]; split <;> [omega; split <;> [omega; split <;> omega]]

theorem last_le_maxValue (c : Cfg) : c.last ≤ c.maxValue := by
  unfold Cfg.maxValue Cfg.value
  split
  · exact Nat.le_refl _
  · exact Nat.le_of_lt Nat.lt_two_pow_self

theorem valueMask_ok {c : Cfg} (h : c.maxValue < 63) :
    ∃ m, valueMask c = .ok m ∧ ∀ i, m.getLsbD i = true ↔ i ≤ c.maxValue ∧ i < c.width := by
  refine ⟨((1#64 <<< (c.maxValue + 1)) - 1#64).setWidth c.width, ?_, ?_⟩
  · have : decide (c.maxValue + 1 < 64) = true := by simp; omega
    simp only [valueMask, this, guardUB_true, ok_bind, pure_ok]
  · intro i
    have hp : 2 ^ (c.maxValue + 1) < 2 ^ 64 := Nat.pow_lt_pow_right (by omega) (by omega)
    have hn : ((1#64 <<< (c.maxValue + 1)) - 1#64).toNat = 2 ^ (c.maxValue + 1) - 1 := by
      have h1 : (1#64 <<< (c.maxValue + 1)).toNat = 2 ^ (c.maxValue + 1) := by
        rw [BitVec.toNat_shiftLeft, Nat.shiftLeft_eq]
        simp only [BitVec.toNat_ofNat, Nat.one_mod_two_pow_eq_one.mpr (by omega : 0 < 64), Nat.one_mul]
        exact Nat.mod_eq_of_lt hp
      have hpos := Nat.two_pow_pos (c.maxValue + 1)
      rw [BitVec.toNat_sub, h1]
      simp only [BitVec.toNat_ofNat, Nat.one_mod_two_pow_eq_one.mpr (by omega : 0 < 64)]
      omega
    rw [BitVec.getLsbD_setWidth, BitVec.getLsbD, hn, Nat.testBit_two_pow_sub_one]
    simp only [Bool.and_eq_true, decide_eq_true_eq]
    omega

theorem valueMask_ub {c : Cfg} (h : 63 ≤ c.maxValue) : valueMask c = .error .ub := by
  have : decide (c.maxValue + 1 < 64) = false := by simp; omega
  simp [valueMask, this]

theorem ofEnum_ok {c : Cfg} (hl : c.last ≤ 63) {i : Nat} (h : EnumOk c i) :
    ∃ v, ofEnum c (c.value i) = .ok v ∧ ∀ j, v.getLsbD j = true ↔ j = i := by
  have hw := last_lt_width hl
  have hi := h.1
  cases ha : c.autoFlag
  · refine ⟨BitVec.twoPow c.width i, ?_, ?_⟩
    · simp only [ofEnum, getFlagValue, ha, Cfg.value, Bool.false_eq_true, if_false, ok_bind, pure_ok, ofBitField]
      congr 1
      apply BitVec.eq_of_toNat_eq
      rw [BitVec.toNat_twoPow, BitVec.toNat_ofNat]
    · intro j
      rw [BitVec.getLsbD_twoPow]
      simp only [Bool.and_eq_true, decide_eq_true_eq]; omega
  · have h32 := h.2 ha
    have hlt : i < 2 ^ c.width := Nat.lt_of_lt_of_le (by omega : i < c.width) (Nat.le_of_lt Nat.lt_two_pow_self)
    have hs : (BitVec.ofNat c.width i).toNat = i := by rw [BitVec.toNat_ofNat, Nat.mod_eq_of_lt hlt]
    refine ⟨(1#32 <<< i).setWidth c.width, ?_, ?_⟩
    · have : decide (i < 32) = true := by simpa using h32
      simp only [ofEnum, getFlagValue, ha, Cfg.value, if_true, hs, this, guardUB_true, ok_bind, pure_ok, ofBitField]
    · intro j
      rw [BitVec.getLsbD_setWidth, ← BitVec.twoPow_eq, BitVec.getLsbD_twoPow]
      simp only [Bool.and_eq_true, decide_eq_true_eq]; omega

theorem shows_only {c : Cfg} {v : c.BitField} {i : Nat} (hi : i ≤ c.last) (h : ∀ j, v.getLsbD j = true ↔ j = i) :
    Shows v (only c i) := by
  intro j
  rw [h]
  constructor
  · rintro rfl; exact ⟨⟨j, by omega⟩, by simp [only], rfl⟩
  · rintro ⟨e, he, rfl⟩; simpa [only] using he

theorem Shows.mem {c : Cfg} {v : c.BitField} {s : c.Enums} (h : Shows v s) (e : Fin (c.last + 1)) :
    v.getLsbD e.val = true ↔ e ∈ s := by
  rw [h]
  constructor
  · rintro ⟨e', he, h'⟩; rwa [← Fin.ext h']
  · exact fun he => ⟨e, he, rfl⟩

theorem Shows.junk {c : Cfg} {v : c.BitField} {s : c.Enums} (h : Shows v s) {i : Nat} (hi : c.last < i) :
    v.getLsbD i = false := by
  rw [Bool.eq_false_iff]
  intro ht
  obtain ⟨e, _, rfl⟩ := (h i).mp ht
  omega

/-- Two descriptions of `Shows`: by the declared enumerators and by the absence of other bits. -/
theorem shows_iff {c : Cfg} {v : c.BitField} {s : c.Enums} :
    Shows v s ↔ (∀ e : Fin (c.last + 1), v.getLsbD e.val = true ↔ e ∈ s) ∧ ∀ i, c.last < i → v.getLsbD i = false := by
  constructor
  · exact fun h => ⟨h.mem, fun i hi => h.junk hi⟩
  · rintro ⟨h1, h2⟩ i
    by_cases hi : c.last < i
    · rw [h2 i hi]; simp only [Bool.false_eq_true, false_iff]
      rintro ⟨e, _, rfl⟩; omega
    · have := h1 ⟨i, by omega⟩
      rw [this]
      exact ⟨fun h => ⟨_, h, rfl⟩, fun ⟨e, he, h'⟩ => by subst h'; exact he⟩

theorem shows_empty (c : Cfg) : Shows (0#c.width) (∅ : c.Enums) := by intro i; simp

theorem shows_inter {c : Cfg} {v w : c.BitField} {s t : c.Enums} (hv : Shows v s) (hw : Shows w t) :
    Shows (v &&& w) (s ∩ t) := by
  rw [shows_iff] at *
  refine ⟨fun e => ?_, fun i hi => ?_⟩
  · rw [BitVec.getLsbD_and, Bool.and_eq_true, hv.1, hw.1, Finset.mem_inter]
  · rw [BitVec.getLsbD_and, hv.2 i hi, Bool.false_and]

theorem shows_union {c : Cfg} {v w : c.BitField} {s t : c.Enums} (hv : Shows v s) (hw : Shows w t) :
    Shows (v ||| w) (s ∪ t) := by
  rw [shows_iff] at *
  refine ⟨fun e => ?_, fun i hi => ?_⟩
  · rw [BitVec.getLsbD_or, Bool.or_eq_true, hv.1, hw.1, Finset.mem_union]
  · rw [BitVec.getLsbD_or, hv.2 i hi, hw.2 i hi, Bool.false_or]

theorem shows_sdiff {c : Cfg} (hl : c.last ≤ 63) {v w : c.BitField} {s t : c.Enums} (hv : Shows v s) (hw : Shows w t) :
    Shows (v &&& ~~~w) (s \ t) := by
  have hlw := last_lt_width hl
  rw [shows_iff] at *
  refine ⟨fun e => ?_, fun i hi => ?_⟩
  · have : e.val < c.width := by omega
    rw [BitVec.getLsbD_and, BitVec.getLsbD_not, Bool.and_eq_true, Bool.and_eq_true, hv.1, Finset.mem_sdiff, ← hw.1]
    simp [this]
  · rw [BitVec.getLsbD_and, hv.2 i hi, Bool.false_and]

theorem shows_symmDiff {c : Cfg} (hl : c.last ≤ 63) {v w m : c.BitField} {s t : c.Enums} (hv : Shows v s) (hw : Shows w t)
    (hm : ∀ i, m.getLsbD i = true ↔ i ≤ c.maxValue ∧ i < c.width) :
    Shows ((v ^^^ w) &&& m) (symmDiff s t) := by
  have hlw := last_lt_width hl
  have hlm := last_le_maxValue c
  rw [shows_iff] at *
  refine ⟨fun e => ?_, fun i hi => ?_⟩
  · have h1 : m.getLsbD e.val = true := (hm _).mpr (by omega)
    rw [BitVec.getLsbD_and, BitVec.getLsbD_xor, h1, Bool.and_true, Finset.mem_symmDiff, ← hv.1, ← hw.1]
    cases v.getLsbD e.val <;> cases w.getLsbD e.val <;> simp
  · rw [BitVec.getLsbD_and, BitVec.getLsbD_xor, hv.2 i hi, hw.2 i hi]; rfl

theorem shows_compl {c : Cfg} (hl : c.last ≤ 63) {v m : c.BitField} {s : c.Enums} (hv : Shows v s) (ha : c.autoFlag = true)
    (hm : ∀ i, m.getLsbD i = true ↔ i ≤ c.maxValue ∧ i < c.width) :
    Shows (~~~v &&& m) sᶜ := by
  have hlw := last_lt_width hl
  have hlm : c.maxValue = c.last := by simp [Cfg.maxValue, Cfg.value, ha]
  rw [shows_iff] at *
  refine ⟨fun e => ?_, fun i hi => ?_⟩
  · have h1 : m.getLsbD e.val = true := (hm _).mpr (by omega)
    have h2 : e.val < c.width := by omega
    rw [BitVec.getLsbD_and, BitVec.getLsbD_not, h1, Bool.and_true, Finset.mem_compl, ← hv.1]
    simp [h2]
  · have : m.getLsbD i = false := by
      rw [Bool.eq_false_iff]; intro h; have := (hm i).mp h; omega
    rw [BitVec.getLsbD_and, this, Bool.and_false]

theorem shows_raw {c : Cfg} (hl : c.last ≤ 63) {bits : Nat} (h : bits < 2 ^ (c.last + 1)) :
    Shows (BitVec.ofNat c.width bits) (Finset.univ.filter (fun e : Fin (c.last + 1) => bits.testBit e.val = true)) := by
  have hlw := last_lt_width hl
  rw [shows_iff]
  refine ⟨fun e => ?_, fun i hi => ?_⟩
  · have h2 : e.val < c.width := by omega
    rw [BitVec.getLsbD_ofNat]; simp [h2]
  · rw [BitVec.getLsbD_ofNat, Nat.testBit_lt_two_pow (Nat.lt_of_lt_of_le h (Nat.pow_le_pow_right (by omega) (by omega))),
      Bool.and_false]

theorem only_ok {c : Cfg} (hl : c.last ≤ 63) {i : Nat} (h : EnumOk c i) :
    ∃ v, ofEnum c (c.value i) = .ok v ∧ Shows v (only c i) := by
  obtain ⟨v, e, hv⟩ := ofEnum_ok hl h
  exact ⟨v, e, shows_only h.1 hv⟩

theorem xor_ok {c : Cfg} (hl : c.last ≤ 63) (hx : XorOk c) {v w : c.BitField} {s t : c.Enums} (hv : Shows v s) (hw : Shows w t) :
    ∃ r, Flags.xor v w = .ok r ∧ Shows r (symmDiff s t) := by
  obtain ⟨m, e, hm⟩ := valueMask_ok hx
  exact ⟨(v ^^^ w) &&& m, by simp [Flags.xor, e, ofBitField], shows_symmDiff hl hv hw hm⟩

theorem compl_ok {c : Cfg} (hl : c.last ≤ 63) (hx : ComplOk c) {v : c.BitField} {s : c.Enums} (hv : Shows v s) :
    ∃ r, Flags.compl v = .ok r ∧ Shows r sᶜ := by
  obtain ⟨m, e, hm⟩ := valueMask_ok hx.2
  exact ⟨~~~v &&& m, by simp [Flags.compl, e, ofBitField], shows_compl hl hv hx.1 hm⟩

theorem eval_ok {c : Cfg} (hl : c.last ≤ 63) {v : c.BitField} {s : c.Enums} (hv : Shows v s) (a : Expr) (ha : a.Ok c) :
    ∃ r, a.eval c v = .ok r ∧ Shows r (a.denote c s) := by
  induction a with
  | none => exact ⟨0#c.width, rfl, shows_empty c⟩
  | var => exact ⟨v, rfl, hv⟩
  | single i => exact only_ok hl ha
  | raw bits => exact ⟨BitVec.ofNat c.width bits, rfl, shows_raw hl ha⟩
  | compl a iha =>
    obtain ⟨x, ex, hx⟩ := iha ha.2
    obtain ⟨r, er, hr⟩ := compl_ok hl ha.1 hx
    exact ⟨r, by simp only [Expr.eval, ex, ok_bind, er], hr⟩
  | inter a b iha ihb =>
    obtain ⟨x, ex, hx⟩ := iha ha.1
    obtain ⟨y, ey, hy⟩ := ihb ha.2
    exact ⟨x &&& y, by simp only [Expr.eval, ex, ey, ok_bind, pure_ok, Flags.inter, ofBitField], shows_inter hx hy⟩
  | union a b iha ihb =>
    obtain ⟨x, ex, hx⟩ := iha ha.1
    obtain ⟨y, ey, hy⟩ := ihb ha.2
    exact ⟨x ||| y, by simp only [Expr.eval, ex, ey, ok_bind, pure_ok, Flags.union, ofBitField], shows_union hx hy⟩
  | xor a b iha ihb =>
    obtain ⟨x, ex, hx⟩ := iha ha.2.1
    obtain ⟨y, ey, hy⟩ := ihb ha.2.2
    obtain ⟨r, er, hr⟩ := xor_ok hl ha.1 hx hy
    exact ⟨r, by simp only [Expr.eval, ex, ey, ok_bind, er], hr⟩
  | enumInterFlags i b ihb =>
    obtain ⟨x, ex, hx⟩ := only_ok hl ha.1
    obtain ⟨y, ey, hy⟩ := ihb ha.2
    refine ⟨y &&& x, by simp only [Expr.eval, Flags.enumInterFlags, ex, ey, ok_bind, pure_ok, Flags.inter, ofBitField], ?_⟩
    have := shows_inter hy hx
    rwa [Finset.inter_comm] at this
  | enumUnionFlags i b ihb =>
    obtain ⟨x, ex, hx⟩ := only_ok hl ha.1
    obtain ⟨y, ey, hy⟩ := ihb ha.2
    refine ⟨y ||| x, by simp only [Expr.eval, Flags.enumUnionFlags, ex, ey, ok_bind, pure_ok, Flags.union, ofBitField], ?_⟩
    have := shows_union hy hx
    rwa [Finset.union_comm] at this
  | enumXorFlags i b ihb =>
    obtain ⟨x, ex, hx⟩ := only_ok hl ha.2.1
    obtain ⟨y, ey, hy⟩ := ihb ha.2.2
    obtain ⟨r, er, hr⟩ := xor_ok hl ha.1 hy hx
    refine ⟨r, by simp only [Expr.eval, Flags.enumXorFlags, ex, ey, ok_bind, er], ?_⟩
    rwa [symmDiff_comm] at hr
  | enumCompl i =>
    obtain ⟨x, ex, hx⟩ := only_ok hl ha.2
    obtain ⟨r, er, hr⟩ := compl_ok hl ha.1 hx
    exact ⟨r, by simp only [Expr.eval, Flags.enumCompl, ex, ok_bind, er], hr⟩
  | enumInter i j =>
    obtain ⟨x, ex, hx⟩ := only_ok hl ha.1
    obtain ⟨y, ey, hy⟩ := only_ok hl ha.2
    exact ⟨x &&& y, by simp only [Expr.eval, Flags.enumInter, ex, ey, ok_bind, pure_ok, Flags.inter, ofBitField], shows_inter hx hy⟩
  | enumUnion i j =>
    obtain ⟨x, ex, hx⟩ := only_ok hl ha.1
    obtain ⟨y, ey, hy⟩ := only_ok hl ha.2
    exact ⟨x ||| y, by simp only [Expr.eval, Flags.enumUnion, ex, ey, ok_bind, pure_ok, Flags.union, ofBitField], shows_union hx hy⟩
  | enumXor i j =>
    obtain ⟨x, ex, hx⟩ := only_ok hl ha.2.1
    obtain ⟨y, ey, hy⟩ := only_ok hl ha.2.2
    obtain ⟨r, er, hr⟩ := xor_ok hl ha.1 hx hy
    exact ⟨r, by simp only [Expr.eval, Flags.enumXor, ex, ey, ok_bind, er], hr⟩

theorem run_ok {c : Cfg} (hl : c.last ≤ 63) {v : c.BitField} {s : c.Enums} (hv : Shows v s) (o : Op) (ho : o.Ok c) :
    ∃ r, o.run c v = .ok r ∧ Shows r (o.denote c s) := by
  cases o with
  | assign a => exact eval_ok hl hv a ho
  | clear => exact ⟨0#c.width, rfl, shows_empty c⟩
  | clearFlags a =>
    obtain ⟨x, ex, hx⟩ := eval_ok hl hv a ho
    exact ⟨v &&& ~~~x, by simp only [Op.run, ex, ok_bind, pure_ok, Flags.clearFlags], shows_sdiff hl hv hx⟩
  | setFlags a =>
    obtain ⟨x, ex, hx⟩ := eval_ok hl hv a ho
    exact ⟨v ||| x, by simp only [Op.run, ex, ok_bind, pure_ok, Flags.setFlags], shows_union hv hx⟩
  | unionAssign a =>
    obtain ⟨x, ex, hx⟩ := eval_ok hl hv a ho
    exact ⟨v ||| x, by simp only [Op.run, ex, ok_bind, pure_ok, Flags.unionAssign], shows_union hv hx⟩
  | interAssign a =>
    obtain ⟨x, ex, hx⟩ := eval_ok hl hv a ho
    exact ⟨v &&& x, by simp only [Op.run, ex, ok_bind, pure_ok, Flags.interAssign], shows_inter hv hx⟩
  | xorAssign a =>
    obtain ⟨x, ex, hx⟩ := eval_ok hl hv a ho.2
    obtain ⟨m, em, hm⟩ := valueMask_ok ho.1
    exact ⟨(v ^^^ x) &&& m, by simp only [Op.run, ex, ok_bind, Flags.xorAssign, em, pure_ok], shows_symmDiff hl hv hx hm⟩

theorem runAll_ok {c : Cfg} (hl : c.last ≤ 63) (os : List Op) : ∀ {v : c.BitField} {s : c.Enums}, Shows v s → (∀ o ∈ os, o.Ok c) →
    ∃ r, runAll c os v = .ok r ∧ Shows r (denoteAll c os s) := by
  induction os with
  | nil => intro v s hv _; exact ⟨v, rfl, hv⟩
  | cons o os ih =>
    intro v s hv ho
    obtain ⟨v', e, hv'⟩ := run_ok hl hv o (ho o (by simp))
    obtain ⟨r, er, hr⟩ := ih hv' (fun o' h' => ho o' (by simp [h']))
    exact ⟨r, by simp only [runAll, e, ok_bind, er], hr⟩

/-! ## Iteration -/

theorem findFirst_lowest {w : Nat} (v : BitVec w) (h : v ≠ 0#w) :
    ∃ k, findFirstBitRuntime false v = k + 1 ∧ IsLowest v k ∧ k < w := by
  rcases C13_findFirstBit_runtime false v with ⟨h0, _⟩ | ⟨k, hk, e⟩
  · exact absurd h0 h
  · exact ⟨k, e, hk, BitVec.lt_of_getLsbD hk.1⟩

theorem iterNext_ok {c : Cfg} (v : c.BitField) (k : Nat) (e : findFirstBitRuntime false v = k + 1) (hk : k < c.width) :
    ∃ r, iterNext v = .ok r ∧ ∀ i, r.getLsbD i = if i = k then false else v.getLsbD i := by
  obtain ⟨r, er, hr⟩ := (C23_single_bit v k hk).2.1
  have hlt : k < 2 ^ c.width := Nat.lt_of_lt_of_le hk (Nat.le_of_lt Nat.lt_two_pow_self)
  have hs : (BitVec.ofNat c.width k).toNat = k := by rw [BitVec.toNat_ofNat, Nat.mod_eq_of_lt hlt]
  refine ⟨r, ?_, fun i => ?_⟩
  · simp [iterNext, e, hs, er]
  · by_cases hi : i < c.width
    · exact hr i hi
    · rw [BitVec.getLsbD_of_ge _ _ (by omega), BitVec.getLsbD_of_ge _ _ (by omega)]; simp

/-- The bits of `v`, in increasing order. -/
theorem rangeLoop_ok {c : Cfg} (n : Nat) : ∀ (lo : Nat) (v : c.BitField) (fuel : Nat), c.width - lo = n → n ≤ fuel →
    (∀ i, i < lo → v.getLsbD i = false) → (∀ i, v.getLsbD i = true → c.autoFlag = true ∨ i < 32) →
    ∃ l : List Nat, rangeLoop fuel v 0#c.width = .ok (l.map c.value) ∧ l.Pairwise (· < ·) ∧
      ∀ i, i ∈ l ↔ v.getLsbD i = true := by
  induction n using Nat.strongRecOn with
  | ind n ih =>
    intro lo v fuel hn hf hlo h32
    by_cases h0 : v = 0#c.width
    · refine ⟨[], ?_, List.Pairwise.nil, by simp [h0]⟩
      cases fuel <;> simp [rangeLoop, iterEq, h0]
    · obtain ⟨k, e, ⟨hk1, hk2⟩, hkw⟩ := findFirst_lowest v h0
      obtain ⟨r, er, hr⟩ := iterNext_ok v k e hkw
      have hlk : lo ≤ k := by
        rcases Nat.lt_or_ge k lo with hlt | hge
        · have := hlo k hlt; rw [hk1] at this; simp at this
        · exact hge
      obtain ⟨fuel, rfl⟩ : ∃ f, fuel = f + 1 := ⟨fuel - 1, by omega⟩
      obtain ⟨l, el, hp, hm⟩ := ih (c.width - (k + 1)) (by omega) (k + 1) r fuel rfl (by omega) (by
        intro i hi
        rw [hr]
        split
        · rfl
        · exact hk2 i (by omega)) (by
        intro i hi
        rw [hr] at hi
        split at hi
        · simp at hi
        · exact h32 i hi)
      refine ⟨k :: l, ?_, ?_, ?_⟩
      · have hd : iterDeref v = .ok (c.value k) := by
          cases ha : c.autoFlag
          · have hk32 : k < 32 := by
              rcases h32 k hk1 with h | h
              · rw [ha] at h; simp at h
              · exact h
            have : decide (k < 32) = true := by simpa using hk32
            have hp : (1#32 <<< k).toNat = 2 ^ k := by
              rw [← BitVec.twoPow_eq, BitVec.toNat_twoPow]
              exact Nat.mod_eq_of_lt (Nat.pow_lt_pow_right (by omega) hk32)
            simp only [iterDeref, e, ha, Cfg.value, Nat.add_sub_cancel, this, guardUB_true, hp]
            simp
          · simp [iterDeref, e, ha, Cfg.value]
        have hne : iterEq v 0#c.width = false := by simp [iterEq, h0]
        simp only [rangeLoop, hne, Bool.false_eq_true, if_false, hd, er, el, ok_bind, pure_ok, List.map_cons]
      · refine List.pairwise_cons.mpr ⟨fun i hi => ?_, hp⟩
        have h1 := (hm i).mp hi
        rw [hr] at h1
        split at h1
        · simp at h1
        · rcases Nat.lt_trichotomy i k with h | h | h
          · rw [hk2 i h] at h1; simp at h1
          · contradiction
          · exact h
      · intro i
        rw [List.mem_cons, hm, hr]
        by_cases hi : i = k
        · simp [hi, hk1]
        · simp [hi]

end Verif.Flags
