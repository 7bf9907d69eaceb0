import Mathlib.Data.Finset.Card
import Verif.Flags.Lemmas

/-!
# Properties C44 and C45 of `Nz::Flags`
-/

namespace Verif.Flags

open Verif.Cpp Verif.MathUtils

/-- An automatic enumeration of 40 enumerators (64-bit flags), and the non-automatic one of tests/src/FlagTests.cpp:21-31. -/
def cfg40 : Cfg := ⟨39, true⟩
def cfgTest2 : Cfg := ⟨2, false⟩
def cfg12 : Cfg := ⟨11, true⟩

/-! ## C44: the boolean algebra of sets of enumerators -/

/-- C44, for every enumeration of at most 64 enumerators: after every program that meets the
conditions of `Op.Ok` the flags variable shows the set of enumerators the program denotes.
Missing (see the `_violated` theorems): automatic enumerators from 32, complements of non-automatic
enumerations, `~` and `^` when the maximum is 63 or more. -/
theorem C44_history_partial {c : Cfg} (hl : c.last ≤ 63) (os : List Op) (ho : ∀ o ∈ os, o.Ok c) :
    ∃ v, runAll c os 0#c.width = .ok v ∧ Shows v (denoteAll c os ∅) :=
  runAll_ok hl os (shows_empty c) ho

/-- For an automatic enumeration of at most 32 enumerators the conditions only ask that the program
names declared enumerators. -/
def Expr.Declared (c : Cfg) : Expr → Prop
  | .none => True
  | .var => True
  | .single i => i ≤ c.last
  | .raw bits => bits < 2 ^ (c.last + 1)
  | .compl a => a.Declared c
  | .inter a b => a.Declared c ∧ b.Declared c
  | .union a b => a.Declared c ∧ b.Declared c
  | .xor a b => a.Declared c ∧ b.Declared c
  | .enumInterFlags i b => i ≤ c.last ∧ b.Declared c
  | .enumUnionFlags i b => i ≤ c.last ∧ b.Declared c
  | .enumXorFlags i b => i ≤ c.last ∧ b.Declared c
  | .enumCompl i => i ≤ c.last
  | .enumInter i j => i ≤ c.last ∧ j ≤ c.last
  | .enumUnion i j => i ≤ c.last ∧ j ≤ c.last
  | .enumXor i j => i ≤ c.last ∧ j ≤ c.last

def Op.Declared (c : Cfg) : Op → Prop
  | .assign a => a.Declared c
  | .clear => True
  | .clearFlags a => a.Declared c
  | .setFlags a => a.Declared c
  | .unionAssign a => a.Declared c
  | .interAssign a => a.Declared c
  | .xorAssign a => a.Declared c

theorem expr_ok_of_declared {c : Cfg} (ha : c.autoFlag = true) (hl : c.last ≤ 31) (a : Expr) (h : a.Declared c) : a.Ok c := by
  have hm : c.maxValue = c.last := by simp [Cfg.maxValue, Cfg.value, ha]
  have hx : XorOk c := by unfold XorOk; omega
  have hc : ComplOk c := ⟨ha, by omega⟩
  have he : ∀ i, i ≤ c.last → EnumOk c i := fun i hi => ⟨hi, fun _ => by omega⟩
  induction a with
  | none => trivial
  | var => trivial
  | single i => exact he i h
  | raw bits => exact h
  | compl a ih => exact ⟨hc, ih h⟩
  | inter a b iha ihb => exact ⟨iha h.1, ihb h.2⟩
  | union a b iha ihb => exact ⟨iha h.1, ihb h.2⟩
  | xor a b iha ihb => exact ⟨hx, iha h.1, ihb h.2⟩
  | enumInterFlags i b ih => exact ⟨he i h.1, ih h.2⟩
  | enumUnionFlags i b ih => exact ⟨he i h.1, ih h.2⟩
  | enumXorFlags i b ih => exact ⟨hx, he i h.1, ih h.2⟩
  | enumCompl i => exact ⟨hc, he i h⟩
  | enumInter i j => exact ⟨he i h.1, he j h.2⟩
  | enumUnion i j => exact ⟨he i h.1, he j h.2⟩
  | enumXor i j => exact ⟨hx, he i h.1, he j h.2⟩

/-- C44, in full for automatic enumerations of at most 32 enumerators: after every program over
declared enumerators the variable shows the set the program denotes. -/
theorem C44_history {c : Cfg} (ha : c.autoFlag = true) (hl : c.last ≤ 31) (os : List Op) (ho : ∀ o ∈ os, o.Declared c) :
    ∃ v, runAll c os 0#c.width = .ok v ∧ Shows v (denoteAll c os ∅) := by
  have hm : c.maxValue = c.last := by simp [Cfg.maxValue, Cfg.value, ha]
  refine C44_history_partial (by omega) os (fun o h => ?_)
  have := ho o h
  cases o with
  | clear => trivial
  | xorAssign a => exact ⟨by unfold XorOk; omega, expr_ok_of_declared ha hl a this⟩
  | assign a => exact expr_ok_of_declared ha hl a this
  | clearFlags a => exact expr_ok_of_declared ha hl a this
  | setFlags a => exact expr_ok_of_declared ha hl a this
  | unionAssign a => exact expr_ok_of_declared ha hl a this
  | interAssign a => exact expr_ok_of_declared ha hl a this

/-- C44: what the observers say about flags that show the sets `s` and `t`: `Test` is inclusion, `==`
is equality, the boolean conversion is non-emptiness and `Count`/`size` are the cardinality. -/
theorem C44_observers {c : Cfg} (hl : c.last ≤ 63) {v w : c.BitField} {s t : c.Enums} (hv : Shows v s) (hw : Shows w t) :
    (test v w = true ↔ t ⊆ s) ∧ (eq v w = true ↔ s = t) ∧ (ne v w = true ↔ s ≠ t) ∧
    (toBool v = true ↔ s.Nonempty) ∧ count v = s.card ∧ size v = s.card := by
  have heq : v = w ↔ s = t := by
    constructor
    · rintro rfl; ext e; rw [← hv.mem, ← hw.mem]
    · rintro rfl
      apply BitVec.eq_of_getLsbD_eq
      intro i _
      rw [Bool.eq_iff_iff, hv, hw]
  have hz : v = 0#c.width ↔ s = ∅ := by
    constructor
    · rintro rfl; ext e; rw [← hv.mem]; simp
    · rintro rfl
      apply BitVec.eq_of_getLsbD_eq
      intro i _
      rw [Bool.eq_iff_iff, hv]; simp
  have hcard : countBitsRuntime false v = s.card := by
    rw [C13_countBits_runtime_partial false v (Or.inl rfl), popcount]
    have hlw := last_lt_width hl
    rw [← Finset.card_map (f := (Fin.valEmbedding : Fin (c.last + 1) ↪ Nat)), List.countP_eq_length_filter]
    have hnd : ((List.range c.width).filter (fun i => v.getLsbD i)).Nodup := List.nodup_range.filter _
    rw [← List.toFinset_card_of_nodup hnd]
    congr 1
    ext i
    simp only [List.mem_toFinset, List.mem_filter, List.mem_range, Finset.mem_map, Fin.valEmbedding_apply]
    rw [hv]
    constructor
    · exact fun h => h.2
    · exact fun h => ⟨BitVec.lt_of_getLsbD ((hv i).mpr h), h⟩
  refine ⟨?_, ?_, ?_, ?_, hcard, hcard⟩
  · rw [test, beq_iff_eq]
    constructor
    · intro h e he
      have h1 := (hw.mem e).mpr he
      rw [← h, BitVec.getLsbD_and, Bool.and_eq_true] at h1
      exact (hv.mem e).mp h1.1
    · intro h
      apply BitVec.eq_of_getLsbD_eq
      intro i _
      rw [BitVec.getLsbD_and, Bool.eq_iff_iff, Bool.and_eq_true, hv, hw]
      exact ⟨fun h' => h'.2, fun ⟨e, he, h'⟩ => ⟨⟨e, h he, h'⟩, ⟨e, he, h'⟩⟩⟩
  · rw [eq, beq_iff_eq, heq]
  · simp only [ne, eq, Bool.not_eq_true', beq_eq_false_iff_ne, ne_eq, heq]
  · rw [toBool, bne_iff_ne, ne_eq, hz, Finset.nonempty_iff_ne_empty]

/-- C44: `Test` of one enumerator is membership. -/
theorem C44_test_partial {c : Cfg} (hl : c.last ≤ 63) {v : c.BitField} {s : c.Enums} (hv : Shows v s) (e : Fin (c.last + 1))
    (he : EnumOk c e.val) : ∃ f, ofEnum c (c.value e.val) = .ok f ∧ (test v f = true ↔ e ∈ s) := by
  obtain ⟨f, ef, hf⟩ := only_ok hl he
  refine ⟨f, ef, ?_⟩
  rw [(C44_observers hl hv hf).1]
  constructor
  · intro h; exact h (by simp [only])
  · intro h e' he'
    have : e' = e := Fin.ext (by simpa [only] using he')
    rwa [this]

/-- C44: the conversion to an integer type of at least the width of the flags has exactly the bits
of the enumerators, so the value can be rebuilt from it. -/
theorem C44_toInteger {c : Cfg} {v : c.BitField} {s : c.Enums} (hv : Shows v s) (w : Nat) (hw : c.width ≤ w) :
    (∀ i, (toInteger w v).getLsbD i = true ↔ ∃ e ∈ s, e.val = i) ∧ ofBitField ((toInteger w v).setWidth c.width) = v := by
  constructor
  · intro i
    rw [toInteger, BitVec.getLsbD_setWidth, ← hv]
    constructor
    · intro h; exact (Bool.and_eq_true _ _ ▸ h).2
    · intro h
      have := BitVec.lt_of_getLsbD h
      rw [h, Bool.and_true, decide_eq_true_eq]; omega
  · rw [toInteger, ofBitField]
    apply BitVec.eq_of_getLsbD_eq
    intro i hi
    have : i < w := by omega
    simp [hi, this]

/-- C44 fails for large automatic enumerations: naming any enumerator from 32 is undefined, because
the flag is computed as `1U << value`. -/
theorem C44_large_violated {c : Cfg} (ha : c.autoFlag = true) (hl : c.last ≤ 63) (i : Nat) (h1 : 32 ≤ i) (h2 : i ≤ c.last) :
    ofEnum c (c.value i) = .error .ub := by
  have hw := last_lt_width hl
  have hlt : i < 2 ^ c.width := Nat.lt_of_lt_of_le (by omega : i < c.width) (Nat.le_of_lt Nat.lt_two_pow_self)
  have hs : (BitVec.ofNat c.width i).toNat = i := by rw [BitVec.toNat_ofNat, Nat.mod_eq_of_lt hlt]
  have : decide (i < 32) = false := by simp; omega
  simp [ofEnum, getFlagValue, ha, Cfg.value, hs, this]

/-- C44 fails for enumerations with 64 automatic enumerators, or with a non-automatic maximum of 64
or more: `~` and `^` shift by more than 63. -/
theorem C44_mask_violated {c : Cfg} (h : 63 ≤ c.maxValue) (v w : c.BitField) :
    Flags.compl v = .error .ub ∧ Flags.xor v w = .error .ub ∧ xorAssign v w = .error .ub := by
  simp [Flags.compl, Flags.xor, xorAssign, valueMask_ub h]

/-- C44 fails for every non-automatic enumeration: a complement has the bit above the last
enumerator, which is not one of the enumeration. -/
theorem C44_complement_violated {c : Cfg} (ha : c.autoFlag = false) (hm : c.maxValue < 63) {v : c.BitField} {s : c.Enums}
    (hv : Shows v s) : ∃ r, Flags.compl v = .ok r ∧ r.getLsbD (c.last + 1) = true ∧ ¬ ∃ t : c.Enums, Shows r t := by
  obtain ⟨m, e, hbits⟩ := valueMask_ok hm
  refine ⟨~~~v &&& m, by simp [Flags.compl, e, ofBitField], ?_⟩
  have hv' : c.maxValue = 2 ^ c.last := by simp [Cfg.maxValue, Cfg.value, ha]
  have h5 : c.last < 6 := (Nat.pow_lt_pow_iff_right (a := 2) (by omega)).mp (by omega)
  have hw : c.last + 1 < c.width := by
    unfold Cfg.width
    rw [hv']
    generalize c.last = n at h5
    have : n = 0 ∨ n = 1 ∨ n = 2 ∨ n = 3 ∨ n = 4 ∨ n = 5 := by omega
    rcases this with rfl | rfl | rfl | rfl | rfl | rfl <;> decide
  have hb : (~~~v &&& m).getLsbD (c.last + 1) = true := by
    have h1 : m.getLsbD (c.last + 1) = true := (hbits _).mpr ⟨by
      have := Nat.lt_two_pow_self (n := c.last); omega, hw⟩
    rw [BitVec.getLsbD_and, BitVec.getLsbD_not, h1, hv.junk (by omega)]; simp [hw]
  refine ⟨hb, ?_⟩
  rintro ⟨t, ht⟩
  rw [ht.junk (by omega)] at hb
  simp at hb

/-- The hypotheses are met: programs with each operator on a 12-enumerator and a 40-enumerator enumeration. -/
example : ∀ o ∈ [Op.assign (.enumUnion 0 7), .setFlags (.single 11), .xorAssign (.enumCompl 3), .clearFlags (.enumUnionFlags 2 .var)],
    o.Declared cfg12 := by simp [Op.Declared, Expr.Declared, cfg12]
example : ∀ o ∈ [Op.assign (.enumUnion 0 7), .setFlags (.single 31), .xorAssign (.raw (2 ^ 39)), .clearFlags (.compl .var)],
    o.Ok cfg40 := by simp [Op.Ok, Expr.Ok, XorOk, ComplOk, EnumOk, Cfg.maxValue, Cfg.value, cfg40]
example : runAll cfg12 [.assign (.enumUnion 0 7), .setFlags (.single 11), .xorAssign (.enumCompl 3)] 0#cfg12.width =
    .ok (0b011101110110#16 : cfg12.BitField) := by decide +kernel
example : runAll cfg40 [.assign (.enumUnion 0 7), .setFlags (.raw (2 ^ 39)), .interAssign (.compl (.single 0))] 0#cfg40.width =
    .ok (0x8000000080#64 : cfg40.BitField) := by decide +kernel
example : runAll cfgTest2 [.assign (.enumUnion 0 2), .setFlags (.enumUnion 1 2)] 0#cfgTest2.width = .ok (7#8 : cfgTest2.BitField) := by
  decide +kernel
example : runAll cfgTest2 [.assign (.enumCompl 0)] 0#cfgTest2.width = .ok (0b11110#8 : cfgTest2.BitField) := by decide +kernel
example : Shows (c := cfgTest2) (BitVec.ofNat cfgTest2.width 5) {0, 2} := by
  rw [shows_iff]
  refine ⟨by decide +kernel, fun i hi => ?_⟩
  by_cases h : i < 8
  · revert hi; revert h; revert i; decide +kernel
  · exact BitVec.getLsbD_of_ge _ _ (by rw [show cfgTest2.width = 8 from rfl]; omega)

/-! ## C45: iteration -/

/-- C45: the values of `v` in `for (E v : flags)` are those of the enumerators of the set, each once
and in increasing order; 64 steps suffice.  Missing (see the `_violated` theorem): non-automatic enumerations with more than
32 enumerators. -/
theorem C45_range_partial {c : Cfg} (h : c.autoFlag = true ∨ c.last < 32) {v : c.BitField} {s : c.Enums}
    (hv : Shows v s) (fuel : Nat) (hf : 64 ≤ fuel) :
    rangeFor fuel v = .ok ((s.sort (· ≤ ·)).map (fun e => c.value e.val)) := by
  have hw : c.width ≤ 64 := by rcases isWidth c with e | e | e | e <;> omega
  obtain ⟨l, el, hp, hm⟩ := rangeLoop_ok (c := c) c.width 0 v fuel rfl (by omega) (by intro i hi; omega) (by
    intro i hi
    rcases h with h | h
    · exact Or.inl h
    · obtain ⟨e, _, rfl⟩ := (hv i).mp hi
      right; omega)
  have hl : l = (s.sort (· ≤ ·)).map Fin.val := by
    apply List.Perm.eq_of_pairwise (le := (· < ·)) (by intro a b _ _ h1 h2; omega) hp
    · rw [List.pairwise_map]
      have h1 := s.sortedLT_sort
      exact h1.pairwise
    · apply List.perm_of_nodup_nodup_toFinset_eq
      · exact hp.imp (fun h => by omega)
      · exact (Finset.sort_nodup s _).map Fin.val_injective
      · ext i
        simp only [List.mem_toFinset, List.mem_map, Finset.mem_sort, hm]
        exact hv i
  rw [rangeFor, begin', end', el, hl, List.map_map]
  rfl

/-- C45: the iteration terminates and reports the right enumerators for every value whatsoever of
automatic flags (also with bits that are not declared). -/
theorem C45_range_any {c : Cfg} (ha : c.autoFlag = true) (v : c.BitField) (fuel : Nat) (hf : 64 ≤ fuel) :
    ∃ l : List Nat, rangeFor fuel v = .ok l ∧ l.Pairwise (· < ·) ∧ ∀ i, i ∈ l ↔ v.getLsbD i = true := by
  have hw : c.width ≤ 64 := by rcases isWidth c with e | e | e | e <;> omega
  obtain ⟨l, el, hp, hm⟩ := rangeLoop_ok (c := c) c.width 0 v fuel rfl (by omega) (by intro i hi; omega) (fun _ _ => Or.inl ha)
  refine ⟨l, ?_, hp, hm⟩
  rw [rangeFor, begin', end', el]
  congr 1
  have : c.value = id := by funext i; simp [Cfg.value, ha]
  rw [this, List.map_id]

/-- C45 fails for large non-automatic enumerations: reading an iterator at an enumerator number 32
or more is undefined (`1U << bit`). -/
theorem C45_large_violated {c : Cfg} (ha : c.autoFlag = false) (v : c.BitField) (k : Nat) (hk : IsLowest v k) (h32 : 32 ≤ k)
    (fuel : Nat) (hf : 0 < fuel) : rangeFor fuel v = .error .ub := by
  obtain ⟨fuel, rfl⟩ : ∃ f, fuel = f + 1 := ⟨fuel - 1, by omega⟩
  have h0 : v ≠ 0#c.width := by rintro rfl; simp [IsLowest] at hk
  obtain ⟨k', e, hk', _⟩ := findFirst_lowest v h0
  have : k' = k := by
    rcases Nat.lt_trichotomy k' k with h | h | h
    · have := hk.2 k' h; rw [hk'.1] at this; simp at this
    · exact h
    · have := hk'.2 k h; rw [hk.1] at this; simp at this
  subst this
  have h1 : decide (k' < 32) = false := by simp; omega
  have h2 : iterEq v 0#c.width = false := by simp [iterEq, h0]
  have h3 : iterDeref v = .error .ub := by simp [iterDeref, e, ha, h1]
  simp only [rangeFor, begin', end', rangeLoop, h2, Bool.false_eq_true, if_false, h3, err_bind]

/-- C45: `it++` moves the iterator as `++it` does and returns its old position. -/
theorem C45_postfix {c : Cfg} (it it' old : c.BitField) : iterPostNext it = .ok (it', old) ↔ iterNext it = .ok it' ∧ old = it := by
  unfold iterPostNext
  cases h : iterNext it with
  | error e => simp
  | ok n =>
    rw [ok_bind]
    constructor
    · intro h'; injection h' with h'; injection h' with h1 h2; subst h1; subst h2; exact ⟨rfl, rfl⟩
    · rintro ⟨h1, rfl⟩; injection h1 with h1; subst h1; rfl

/-- C45: dereferencing or incrementing the end iterator fails an assertion. -/
theorem C45_end_assert {c : Cfg} (v : c.BitField) :
    iterDeref (end' v) = .error .assert ∧ iterNext (end' v) = .error .assert := by
  have : findFirstBitRuntime false (0#c.width) = 0 := by
    rcases C13_findFirstBit_runtime false (0#c.width) with ⟨_, h⟩ | ⟨k, hk, _⟩
    · exact h
    · simp [IsLowest] at hk
  simp [iterDeref, iterNext, end', this]

example : rangeFor (c := cfg12) 64 (0b1010_0000_0001#16 : cfg12.BitField) = .ok [0, 9, 11] := by decide +kernel
example : rangeFor (c := cfgTest2) 64 (0b101#8 : cfgTest2.BitField) = .ok [1, 4] := by decide +kernel
example : IsLowest (0x100000000#64 : (⟨40, false⟩ : Cfg).BitField) 32 := by
  refine ⟨by decide +kernel, ?_⟩
  intro j hj; revert j; decide +kernel

end Verif.Flags
