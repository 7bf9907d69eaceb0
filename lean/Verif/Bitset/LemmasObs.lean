import Verif.Bitset.LemmasOps
import Verif.MathUtils.PropsBits

/-!
# The observers of a bitset, bit by bit
-/

namespace Verif.Bitset
open Verif.Cpp

variable {w : Nat}

theorem IsBlockWidth.of_isWidth (h : MathUtils.IsWidth w) : IsBlockWidth w := by
  rcases h with rfl | rfl | rfl | rfl
  · exact ⟨3, rfl⟩
  · exact ⟨4, rfl⟩
  · exact ⟨5, rfl⟩
  · exact ⟨6, rfl⟩

theorem le_mul_nb (hw : 0 < w) (n : Nat) : n ≤ w * nb w n := by
  have h1 := Nat.div_add_mod n w
  have h2 := Nat.mod_lt n hw
  unfold nb
  rw [Nat.mul_add]
  split
  · omega
  · rw [Nat.mul_one]; omega

theorem blk_eq_zero_iff (hw : 0 < w) (l : List (BitVec w)) (k : Nat) : blk l k = 0#w ↔ ∀ m, m < w → bitAt l (w * k + m) = false := by
  constructor
  · intro h m hm
    rw [bitAt_mk hw _ _ _ hm, h]; simp
  · intro h
    apply BitVec.eq_of_getLsbD_eq
    intro m hm
    have := h m hm
    rw [bitAt_mk hw _ _ _ hm] at this
    rw [this]; simp

/-- Index `i` lies in block `i / w`. -/
theorem bitAt_false_of_blk {l : List (BitVec w)} {i : Nat} (h : blk l (i / w) = 0#w) : bitAt l i = false := by
  unfold bitAt; rw [h]; simp

/-! ### Counting -/

theorem countP_range_add (p : Nat → Bool) (a c : Nat) :
    (List.range (a + c)).countP p = (List.range a).countP p + (List.range c).countP (fun i => p (a + i)) := by
  rw [List.range_add, List.countP_append, List.countP_map]
  rfl

theorem count_ok (h : IsBlockWidth w) (b : Bitset w) (wf : WF b) :
    count b = .ok ((List.range b.bitCount).countP (bitAt b.blocks)) := by
  have hw := h.pos
  unfold count
  obtain ⟨c, e, hc⟩ := forUp_ok (σ := Nat) (fun k c => c = (List.range (w * k)).countP (bitAt b.blocks))
    (lo := 0) (n := b.blocks.length) (s := 0) (f := fun i c => do
      let x ← rd b.blocks i
      pure (c + MathUtils.countBits x)) (by simp) (by
      rintro k c hk rfl
      rw [Nat.zero_add, rd_blk hk, ok_bind]
      refine ⟨_, rfl, ?_⟩
      rw [Nat.mul_succ, countP_range_add, MathUtils.C13_countBits]
      congr 1
      unfold MathUtils.popcount
      apply List.countP_congr
      intro i hi
      rw [List.mem_range] at hi
      rw [bitAt_mk hw _ _ _ hi])
  rw [e, hc]
  congr 1
  obtain ⟨c, hc⟩ := Nat.exists_eq_add_of_le (le_mul_nb hw b.bitCount)
  rw [wf.len, hc, countP_range_add]
  have : (List.range c).countP (fun i => bitAt b.blocks (b.bitCount + i)) = 0 := by
    rw [List.countP_eq_zero]
    intro i _
    rw [wf.bit_ge (by omega)]; simp
  omega

/-! ### Searching -/

theorem findFirstFrom_ok (h : MathUtils.IsWidth w) (b : Bitset w) (k : Nat) :
    ∃ r, findFirstFrom b k = .ok r ∧
      (∀ i, r = some i → w * k ≤ i ∧ bitAt b.blocks i = true ∧ ∀ j, w * k ≤ j → j < i → bitAt b.blocks j = false) ∧
      (r = none → ∀ j, w * k ≤ j → bitAt b.blocks j = false) := by
  have hw := (IsBlockWidth.of_isWidth h).pos
  have blkle : ∀ {a c : Nat}, w * a ≤ c → a ≤ c / w := fun hc => (Nat.le_div_iff_mul_le hw).mpr (by rwa [Nat.mul_comm])
  unfold findFirstFrom
  by_cases hk : k ≥ b.blocks.length
  · refine ⟨none, by rw [if_pos hk]; rfl, by simp, ?_⟩
    intro _ j hj
    exact bitAt_false_of_blk (blk_ge (Nat.le_trans hk (blkle hj)))
  · rw [if_neg hk]
    obtain ⟨r, e, h1, h2⟩ := findUp_ok (lo := k) (n := b.blocks.length - k) (p := fun i => do
      let x ← rd b.blocks i
      pure (x != 0#w)) (fun i => blk b.blocks i != 0#w) (by
        intro i hi1 hi2
        rw [rd_blk (by omega)]; rfl)
    rw [e, ok_bind]
    cases r with
    | none =>
      refine ⟨none, rfl, by simp, ?_⟩
      intro _ j hj
      have h2 := h2 rfl (j / w) (blkle hj)
      apply bitAt_false_of_blk
      by_cases hjl : j / w < b.blocks.length
      · simpa using h2 (by have := Nat.zero_le (j / w); omega)
      · exact blk_ge (by omega)
    | some q =>
      obtain ⟨g1, g2, g3, g4⟩ := h1 q rfl
      simp only
      rw [rd_blk (by omega), ok_bind]
      obtain ⟨f, ef, hf⟩ := MathUtils.C13_findFirstBit h (blk b.blocks q)
      rw [ef, ok_bind]
      rcases hf with ⟨hz, _⟩ | ⟨m, ⟨hm1, hm2⟩, rfl⟩
      · simp [hz] at g3
      · have hm : m < w := by
          by_contra hge
          rw [BitVec.getLsbD_of_ge _ _ (by omega)] at hm1
          exact absurd hm1 (by simp)
        refine ⟨some (w * q + m), ?_, ?_, by simp⟩
        · rw [pure_ok]; congr 2; rw [Nat.mul_comm]; omega
        · rintro i hi
          injection hi with hi
          subst hi
          refine ⟨Nat.le_trans (Nat.mul_le_mul_left w g1) (Nat.le_add_right _ _), by rw [bitAt_mk hw _ _ _ hm]; exact hm1, ?_⟩
          intro j hj1 hj2
          by_cases hjq : j / w < q
          · apply bitAt_false_of_blk
            simpa using g4 (j / w) (blkle hj1) hjq
          · have hjd := Nat.div_add_mod j w
            have hjm := Nat.mod_lt j hw
            have : j / w = q := by
              apply Nat.le_antisymm _ (by omega)
              by_contra hgt
              have := Nat.mul_le_mul_left w (show q + 1 ≤ j / w by omega)
              rw [Nat.mul_succ] at this
              omega
            unfold bitAt
            rw [this] at hjd ⊢
            exact hm2 _ (by omega)

theorem findNext_ok (h : MathUtils.IsWidth w) (b : Bitset w) (wf : WF b) (k : Nat) (hk : k < b.bitCount) :
    ∃ r, findNext b k = .ok r ∧
      (∀ i, r = some i → k < i ∧ bitAt b.blocks i = true ∧ ∀ j, k < j → j < i → bitAt b.blocks j = false) ∧
      (r = none → ∀ j, k < j → bitAt b.blocks j = false) := by
  have hb := IsBlockWidth.of_isWidth h
  have hw := hb.pos
  unfold findNext
  simp only [hk, decide_true, assert_true, ok_bind]
  by_cases hend : k + 1 ≥ b.bitCount
  · refine ⟨none, by rw [if_pos hend]; rfl, by simp, ?_⟩
    intro _ j hj
    exact wf.bit_ge (by omega)
  · rw [if_neg hend]
    simp only [getBlockIndex, getBitIndex_eq hb]
    have hmod := Nat.mod_lt (k + 1) hw
    have hdm := Nat.div_add_mod (k + 1) w
    have hidx : (k + 1) / w < b.blocks.length := by rw [wf.len]; exact div_lt_nb hw (by omega)
    rw [rd_blk hidx, ok_bind, shr_ok _ hmod, ok_bind]
    generalize hq : (k + 1) / w = q at *
    generalize hr : (k + 1) % w = r at *
    -- the bits of the current block from position `r` on
    have cur : ∀ j, k < j → j < w * (q + 1) → bitAt b.blocks j = (blk b.blocks q >>> r).getLsbD (j - (k + 1)) := by
      intro j h1 h2
      rw [Nat.mul_succ] at h2
      rw [BitVec.getLsbD_ushiftRight, show j = w * q + (r + (j - (k + 1))) by omega, bitAt_mk hw _ _ _ (by omega)]
      congr 1; omega
    by_cases hz : blk b.blocks q >>> r = 0#w
    · simp only [hz, bne_self_eq_false, Bool.false_eq_true, if_false]
      obtain ⟨x, e, h1, h2⟩ := findFirstFrom_ok h b (q + 1)
      have cur0 : ∀ j, k < j → j < w * (q + 1) → bitAt b.blocks j = false := by
        intro j hj1 hj2
        rw [cur j hj1 hj2, hz]; simp
      refine ⟨x, e, ?_, ?_⟩
      · intro i hi
        obtain ⟨a1, a2, a3⟩ := h1 i hi
        refine ⟨by rw [Nat.mul_succ] at a1; omega, a2, ?_⟩
        intro j hj1 hj2
        by_cases hj : j < w * (q + 1)
        · exact cur0 j hj1 hj
        · exact a3 j (by omega) hj2
      · intro hn j hj1
        by_cases hj : j < w * (q + 1)
        · exact cur0 j hj1 hj
        · exact h2 hn j (by omega)
    · rw [if_pos (by simpa using hz)]
      obtain ⟨f, ef, hf⟩ := MathUtils.C13_findFirstBit h (blk b.blocks q >>> r)
      rw [ef, ok_bind]
      rcases hf with ⟨hz', _⟩ | ⟨m, ⟨hm1, hm2⟩, rfl⟩
      · exact absurd hz' hz
      · have hm : r + m < w := by
          by_contra hge
          rw [BitVec.getLsbD_ushiftRight, BitVec.getLsbD_of_ge _ _ (by omega)] at hm1
          exact absurd hm1 (by simp)
        refine ⟨some (k + 1 + m), ?_, ?_, by simp⟩
        · rw [pure_ok]; congr 2; omega
        · rintro i hi
          injection hi with hi
          subst hi
          have hs : w * (q + 1) = w * q + w := Nat.mul_succ ..
          refine ⟨by omega, ?_, ?_⟩
          · rw [cur _ (by omega) (by omega), show k + 1 + m - (k + 1) = m by omega]; exact hm1
          · intro j hj1 hj2
            rw [cur j hj1 (by omega)]
            exact hm2 _ (by omega)

/-! ### Iteration -/

/-- The set indices in `[i, n)`, ascending. -/
def setFrom (p : Nat → Bool) (i n : Nat) : List Nat := (List.range' i (n - i)).filter p

theorem setFrom_skip (p : Nat → Bool) (i j n : Nat) (hij : i ≤ j) (hj : j ≤ n) (hp : ∀ k, i ≤ k → k < j → p k = false) :
    setFrom p i n = setFrom p j n := by
  unfold setFrom
  obtain ⟨d, rfl⟩ := Nat.exists_eq_add_of_le hij
  rw [show n - i = d + (n - (i + d)) by omega, ← List.range'_append_1, List.filter_append,
    List.filter_eq_nil_iff.mpr, List.nil_append]
  intro k hk
  rw [List.mem_range'_1] at hk
  rw [hp k hk.1 hk.2]; simp

theorem setFrom_cons (p : Nat → Bool) (i n : Nat) (hi : i < n) (hp : p i = true) : setFrom p i n = i :: setFrom p (i + 1) n := by
  unfold setFrom
  rw [show n - i = (n - (i + 1)) + 1 by omega, List.range'_succ, List.filter_cons_of_pos hp]

theorem setFrom_none (p : Nat → Bool) (i n : Nat) (hp : ∀ k, i ≤ k → p k = false) : setFrom p i n = [] := by
  unfold setFrom
  rw [List.filter_eq_nil_iff]
  intro k hk
  rw [List.mem_range'_1] at hk
  rw [hp k hk.1]; simp

theorem iterate_ok (h : MathUtils.IsWidth w) (b : Bitset w) (wf : WF b) (fuel : Nat) (i : Nat) (hi : bitAt b.blocks i = true)
    (hf : (setFrom (bitAt b.blocks) i b.bitCount).length < fuel) :
    iterate b fuel (some i) = .ok (setFrom (bitAt b.blocks) i b.bitCount) := by
  induction fuel generalizing i with
  | zero => omega
  | succ fuel ih =>
    have hib : i < b.bitCount := by
      by_contra hge
      rw [wf.bit_ge (by omega)] at hi
      exact absurd hi (by simp)
    rw [setFrom_cons _ _ _ hib hi] at hf ⊢
    rw [List.length_cons] at hf
    obtain ⟨r, e, h1, h2⟩ := findNext_ok h b wf i hib
    simp only [iterate, e, ok_bind]
    cases r with
    | none =>
      have := setFrom_none (bitAt b.blocks) (i + 1) b.bitCount (fun k hk => h2 rfl k hk)
      rw [this]
      cases fuel with
      | zero => omega
      | succ f => rfl
    | some q =>
      obtain ⟨a1, a2, a3⟩ := h1 q rfl
      have hq : q < b.bitCount := by
        by_contra hge
        rw [wf.bit_ge (by omega)] at a2
        exact absurd a2 (by simp)
      have := setFrom_skip (bitAt b.blocks) (i + 1) q b.bitCount (by omega) (by omega) (fun k hk1 hk2 => a3 k hk1 hk2)
      rw [this] at hf ⊢
      rw [ih q a2 (by omega)]
      rfl

theorem iterBits_ok (h : MathUtils.IsWidth w) (b : Bitset w) (wf : WF b) (fuel : Nat)
    (hf : ((List.range b.bitCount).filter (bitAt b.blocks)).length < fuel) :
    iterBits b fuel = .ok ((List.range b.bitCount).filter (bitAt b.blocks)) := by
  have e0 : (List.range b.bitCount).filter (bitAt b.blocks) = setFrom (bitAt b.blocks) 0 b.bitCount := by
    unfold setFrom; rw [List.range_eq_range', Nat.sub_zero]
  rw [e0] at hf ⊢
  unfold iterBits findFirst
  obtain ⟨r, e, h1, h2⟩ := findFirstFrom_ok h b 0
  rw [e, ok_bind]
  simp only [Nat.mul_zero, Nat.zero_le, true_and, true_implies] at h1 h2
  cases r with
  | none =>
    rw [setFrom_none _ _ _ (fun k _ => h2 rfl k)]
    cases fuel with
    | zero => omega
    | succ f => rfl
  | some q =>
    obtain ⟨a2, a3⟩ := h1 q rfl
    have hq : q < b.bitCount := by
      by_contra hge
      rw [wf.bit_ge (by omega)] at a2
      exact absurd a2 (by simp)
    rw [setFrom_skip (bitAt b.blocks) 0 q b.bitCount (by omega) (by omega) (fun k _ hk2 => a3 k hk2)] at hf ⊢
    exact iterate_ok h b wf fuel q a2 hf

/-! ### Tests on all bits -/

theorem forall_bitAt_eq (hw : 0 < w) (l m : List (BitVec w)) : (∀ k, blk l k = blk m k) ↔ ∀ i, bitAt l i = bitAt m i := by
  constructor
  · intro h i; unfold bitAt; rw [h]
  · intro h k
    apply BitVec.eq_of_getLsbD_eq
    intro j hj
    have := h (w * k + j)
    rwa [bitAt_mk hw _ _ _ hj, bitAt_mk hw _ _ _ hj] at this

theorem testAny_ok (hw : 0 < w) (b : Bitset w) : ∃ r, testAny b = .ok r ∧ (r = true ↔ ∃ i, bitAt b.blocks i = true) := by
  unfold testAny
  obtain ⟨r, e, h1, h2⟩ := findUp_ok (lo := 0) (n := b.blocks.length) (p := fun i => do
      let x ← rd b.blocks i
      pure (x != 0#w)) (fun i => blk b.blocks i != 0#w) (by
        intro i hi1 hi2
        rw [rd_blk (by omega)]; rfl)
  rw [e, ok_bind]
  refine ⟨_, rfl, ?_⟩
  cases r with
  | none =>
    simp only [Option.isSome_none, Bool.false_eq_true, false_iff, not_exists]
    intro i
    rw [bitAt_false_of_blk]; · simp
    by_cases hi : i / w < b.blocks.length
    · simpa using h2 rfl (i / w) (Nat.zero_le _) (by omega)
    · exact blk_ge (by omega)
  | some q =>
    obtain ⟨g1, g2, g3, g4⟩ := h1 q rfl
    simp only [Option.isSome_some, true_iff]
    by_contra hn
    have : blk b.blocks q = 0#w := by
      rw [blk_eq_zero_iff hw]
      intro m _
      by_contra hne
      exact hn ⟨_, by simpa using hne⟩
    simp [this] at g3

theorem testAll_ok (h : IsBlockWidth w) (b : Bitset w) (wf : WF b) :
    ∃ r, testAll b = .ok r ∧ (r = true ↔ ∀ i, i < b.bitCount → bitAt b.blocks i = true) := by
  have hw := h.pos
  unfold testAll
  obtain ⟨m, em, hm⟩ := getLastBlockMask_ok h b
  rw [em, ok_bind]
  obtain ⟨r, e, h1, h2⟩ := findUp_ok (lo := 0) (n := b.blocks.length) (p := fun i => do
      let mask := if i = b.blocks.length - 1 then m else fullBitMask w
      let x ← rd b.blocks i
      pure (x != mask)) (fun i => blk b.blocks i != if i = b.blocks.length - 1 then m else fullBitMask w) (by
        intro i hi1 hi2
        simp only
        rw [rd_blk (by omega)]; rfl)
  rw [e, ok_bind]
  refine ⟨_, rfl, ?_⟩
  -- the mask of block `k` has exactly the bits below the size
  have maskbit : ∀ k j, k < b.blocks.length → j < w →
      (if k = b.blocks.length - 1 then m else fullBitMask w).getLsbD j = decide (w * k + j < b.bitCount) := by
    intro k j hk hj
    rw [wf.len] at hk ⊢
    have hdiv : (w * k + j) / w = k := by rw [Nat.mul_add_div hw, Nat.div_eq_of_lt hj, Nat.add_zero]
    have hmod : (w * k + j) % w = j := by rw [Nat.mul_add_mod, Nat.mod_eq_of_lt hj]
    have hlex := lt_lex hw (w * k + j) b.bitCount
    rw [hdiv, hmod] at hlex
    have hq := Nat.zero_le (b.bitCount / w)
    unfold nb at hk ⊢
    by_cases hlast : k = b.bitCount / w + (if b.bitCount % w = 0 then 0 else 1) - 1
    · rw [if_pos hlast, hm j hj, Bool.eq_iff_iff]
      simp only [Bool.or_eq_true, decide_eq_true_eq, hlex]
      split at hlast
      · rename_i h0; rw [if_pos h0] at hk; simp only [h0, true_or, true_iff]; omega
      · rename_i h0; rw [if_neg h0] at hk; simp only [h0, false_or]; omega
    · rw [if_neg hlast, Bool.eq_iff_iff]
      simp only [fullBitMask, BitVec.getLsbD_allOnes, hj, decide_true, true_iff, decide_eq_true_eq, hlex]
      split at hlast <;> rename_i h0
      · rw [if_pos h0] at hk; omega
      · rw [if_neg h0] at hk; omega
  cases r with
  | none =>
    simp only [Option.isNone_none, true_iff]
    intro i hi
    have hik : i / w < b.blocks.length := by rw [wf.len]; exact div_lt_nb hw hi
    have h2 := h2 rfl (i / w) (Nat.zero_le _) (by omega)
    simp only [bne_eq_false_iff_eq] at h2
    unfold bitAt
    rw [h2, maskbit _ _ hik (Nat.mod_lt i hw), Nat.div_add_mod]
    simpa using hi
  | some q =>
    obtain ⟨g1, g2, g3, g4⟩ := h1 q rfl
    simp only [Option.isNone_some, Bool.false_eq_true, false_iff]
    intro hall
    have : blk b.blocks q = if q = b.blocks.length - 1 then m else fullBitMask w := by
      apply BitVec.eq_of_getLsbD_eq
      intro j hj
      rw [maskbit q j (by omega) hj, ← bitAt_mk hw _ _ _ hj, wf.bits]
      by_cases hlt : w * q + j < b.bitCount
      · simp [hlt, hall _ hlt]
      · simp [hlt]
    rw [this] at g3
    simp at g3

theorem intersects_ok (hw : 0 < w) (a b : Bitset w) :
    ∃ r, intersects a b = .ok r ∧ (r = true ↔ ∃ i, bitAt a.blocks i = true ∧ bitAt b.blocks i = true) := by
  unfold intersects
  simp only [getBlockCount]
  obtain ⟨r, e, h1, h2⟩ := findUp_ok (lo := 0) (n := min a.blocks.length b.blocks.length) (p := fun i => do
      let p ← getBlock a i
      let q ← getBlock b i
      pure ((p &&& q) != 0#w)) (fun i => (blk a.blocks i &&& blk b.blocks i) != 0#w) (by
        intro i hi1 hi2
        rw [getBlock_ok a (by omega), ok_bind, getBlock_ok b (by omega)]; rfl)
  rw [e, ok_bind]
  refine ⟨_, rfl, ?_⟩
  cases r with
  | none =>
    simp only [Option.isSome_none, Bool.false_eq_true, false_iff, not_exists, not_and]
    intro i hia hib
    by_cases hi : i / w < min a.blocks.length b.blocks.length
    · have h2 := h2 rfl (i / w) (Nat.zero_le _) (by omega)
      simp only [bne_eq_false_iff_eq] at h2
      have := congrArg (fun x : BitVec w => x.getLsbD (i % w)) h2
      simp only [BitVec.getLsbD_and] at this
      unfold bitAt at hia hib
      rw [hia, hib] at this
      simp at this
    · rcases Nat.lt_or_ge (i / w) a.blocks.length with hl | hl
      · rw [bitAt_false_of_blk (blk_ge (by have := Nat.zero_le (i / w); omega))] at hib
        exact absurd hib (by simp)
      · rw [bitAt_false_of_blk (blk_ge hl)] at hia
        exact absurd hia (by simp)
  | some q =>
    obtain ⟨g1, g2, g3, g4⟩ := h1 q rfl
    simp only [Option.isSome_some, true_iff]
    by_contra hn
    have : blk a.blocks q &&& blk b.blocks q = 0#w := by
      apply BitVec.eq_of_getLsbD_eq
      intro m hm
      rw [BitVec.getLsbD_and]
      by_contra hne
      rw [BitVec.getLsbD_zero, Bool.not_eq_false, Bool.and_eq_true, ← bitAt_mk hw _ _ _ hm, ← bitAt_mk hw _ _ _ hm] at hne
      exact hn ⟨_, hne⟩
    simp [this] at g3

theorem equals_ok (hw : 0 < w) (a b : Bitset w) :
    ∃ r, equals a b = .ok r ∧ (r = true ↔ ∀ i, bitAt a.blocks i = bitAt b.blocks i) := by
  unfold equals
  simp only
  generalize hG : (if getBlockCount a > getBlockCount b then a else b) = G
  generalize hL : (if getBlockCount a > getBlockCount b then b else a) = L
  have hGL : (G = a ∧ L = b ∨ G = b ∧ L = a) ∧ L.blocks.length ≤ G.blocks.length := by
    by_cases hlt : getBlockCount a > getBlockCount b
    · rw [if_pos hlt] at hG hL
      subst hG hL
      exact ⟨Or.inl ⟨rfl, rfl⟩, by unfold getBlockCount at hlt; omega⟩
    · rw [if_neg hlt] at hG hL
      subst hG hL
      exact ⟨Or.inr ⟨rfl, rfl⟩, by unfold getBlockCount at hlt; omega⟩
  simp only [getBlockCount]
  have hle : L.blocks.length ≤ a.blocks.length ∧ L.blocks.length ≤ b.blocks.length := by
    rcases hGL with ⟨⟨rfl, rfl⟩ | ⟨rfl, rfl⟩, h⟩ <;> omega
  have hsym : (∀ i, bitAt a.blocks i = bitAt b.blocks i) ↔ ∀ i, bitAt G.blocks i = bitAt L.blocks i := by
    rcases hGL with ⟨⟨rfl, rfl⟩ | ⟨rfl, rfl⟩, _⟩
    · rfl
    · exact ⟨fun h i => (h i).symm, fun h i => (h i).symm⟩
  obtain ⟨r, e, h1, h2⟩ := findUp_ok (lo := 0) (n := L.blocks.length) (p := fun i => do
      let p ← getBlock a i
      let q ← getBlock b i
      pure (p != q)) (fun i => blk a.blocks i != blk b.blocks i) (by
        intro i hi1 hi2
        rw [getBlock_ok a (by omega), ok_bind, getBlock_ok b (by omega)]; rfl)
  rw [e, ok_bind]
  cases r with
  | some q =>
    refine ⟨false, rfl, ?_⟩
    obtain ⟨g1, g2, g3, g4⟩ := h1 q rfl
    simp only [Bool.false_eq_true, false_iff]
    intro hall
    rw [(forall_bitAt_eq hw _ _).mpr hall q] at g3
    simp at g3
  | none =>
    simp only [Option.isSome_none, Bool.false_eq_true, if_false]
    obtain ⟨r', e', h1', h2'⟩ := findUp_ok (lo := L.blocks.length) (n := G.blocks.length - L.blocks.length) (p := fun i => do
      let p ← getBlock G i
      pure (p != 0#w)) (fun i => blk G.blocks i != 0#w) (by
        intro i hi1 hi2
        rw [getBlock_ok G (by omega), ok_bind]; rfl)
    rw [e', ok_bind]
    refine ⟨_, rfl, ?_⟩
    rw [hsym, ← forall_bitAt_eq hw]
    have hlow : ∀ k, k < L.blocks.length → blk G.blocks k = blk L.blocks k := by
      intro k hk
      have := h2 rfl k (Nat.zero_le _) (by omega)
      simp only [bne_eq_false_iff_eq] at this
      rcases hGL with ⟨⟨rfl, rfl⟩ | ⟨rfl, rfl⟩, _⟩
      · exact this
      · exact this.symm
    cases r' with
    | none =>
      simp only [Option.isNone_none, true_iff]
      intro k
      by_cases hk : k < L.blocks.length
      · exact hlow k hk
      · rw [blk_ge (l := L.blocks) (by omega)]
        by_cases hk' : k < G.blocks.length
        · simpa using h2' rfl k (by omega) (by omega)
        · exact blk_ge (by omega)
    | some q =>
      obtain ⟨g1, g2, g3, g4⟩ := h1' q rfl
      simp only [Option.isNone_some, Bool.false_eq_true, false_iff]
      intro hall
      rw [hall q, blk_ge (l := L.blocks) (by omega)] at g3
      simp at g3

/-! ### Ordering -/

theorem less_ne (a b : Bitset w) (h : a.blocks.length ≠ b.blocks.length) : less a b = .error .assert := by
  unfold less
  by_cases hlt : getBlockCount a > getBlockCount b
  · simp only [if_pos hlt]
    simp [getBlock, getBlockCount]
  · have h' : getBlockCount b > getBlockCount a := by unfold getBlockCount at hlt ⊢; omega
    simp only [if_neg hlt, if_pos h']
    simp [getBlock, getBlockCount]

theorem less_ok (a b : Bitset w) (h : a.blocks.length = b.blocks.length) :
    ∃ r, less a b = .ok r ∧ (r = true ↔ ∃ k, (blk a.blocks k).toNat < (blk b.blocks k).toNat) := by
  unfold less
  have h1 : ¬ getBlockCount a > getBlockCount b := by unfold getBlockCount; omega
  have h2 : ¬ getBlockCount b > getBlockCount a := by unfold getBlockCount; omega
  simp only [if_neg h1, if_neg h2]
  clear h1 h2
  simp only [getBlockCount]
  obtain ⟨r, e, h1, h2⟩ := findUp_ok (lo := 0) (n := a.blocks.length) (p := fun i => do
      let index := a.blocks.length - i - 1
      let p ← getBlock a index
      let q ← getBlock b index
      pure (decide (p.toNat < q.toNat)))
      (fun i => decide ((blk a.blocks (a.blocks.length - i - 1)).toNat < (blk b.blocks (a.blocks.length - i - 1)).toNat)) (by
        intro i hi1 hi2
        simp only
        rw [getBlock_ok a (by omega), ok_bind, getBlock_ok b (by omega)]; rfl)
  rw [e, ok_bind]
  refine ⟨_, rfl, ?_⟩
  cases r with
  | none =>
    simp only [Option.isSome_none, Bool.false_eq_true, false_iff, not_exists]
    intro k
    by_cases hk : k < a.blocks.length
    · have := h2 rfl (a.blocks.length - k - 1) (Nat.zero_le _) (by omega)
      rw [show a.blocks.length - (a.blocks.length - k - 1) - 1 = k by omega] at this
      simpa using this
    · rw [blk_ge (l := a.blocks) (by omega), blk_ge (l := b.blocks) (by omega)]; simp
  | some q =>
    obtain ⟨g1, g2, g3, g4⟩ := h1 q rfl
    simp only [Option.isSome_some, true_iff]
    exact ⟨_, by simpa using g3⟩

/-! ### Integers and strings -/

theorem toInt_ok (h : IsBlockWidth w) (t : Nat) (b : Bitset w) (wf : WF b) (ht : b.bitCount ≤ t) :
    ∃ v : BitVec t, toInt t b = .ok v ∧ ∀ i, v.getLsbD i = bitAt b.blocks i := by
  have hw := h.pos
  unfold toInt
  simp only [ht, decide_true, assert_true, ok_bind]
  obtain ⟨v, e, hv⟩ := forUp_ok (σ := BitVec t) (fun k v => ∀ i, v.getLsbD i = (decide (i < w * k) && bitAt b.blocks i))
    (lo := 0) (n := b.blocks.length) (s := 0#t) (f := fun i value => do
      let x ← rd b.blocks i
      let x ← shl (x.setWidth t) (i * w)
      pure (value ||| x)) (by intro i; simp) (by
      intro k v hk hI
      have hkt : w * k < t := by
        rw [wf.len] at hk
        by_contra hge
        have : nb w b.bitCount ≤ k := by
          have := nb_mono hw (show b.bitCount ≤ w * k by omega)
          have hz := nb_mul_add hw k 0
          rw [nb_zero] at hz
          rw [Nat.add_zero] at hz
          omega
        omega
      rw [Nat.zero_add, rd_blk hk, ok_bind, Nat.mul_comm k w, shl_ok _ hkt, ok_bind]
      refine ⟨_, rfl, ?_⟩
      intro i
      rw [BitVec.getLsbD_or, hI, BitVec.getLsbD_shiftLeft, BitVec.getLsbD_setWidth, Nat.mul_succ]
      by_cases h1 : i < w * k
      · simp [h1, show i < w * k + w by omega]
      · by_cases h2 : i < w * k + w
        · have hbit : bitAt b.blocks i = (blk b.blocks k).getLsbD (i - w * k) := by
            conv => lhs; rw [show i = w * k + (i - w * k) by omega]
            rw [bitAt_mk hw _ _ _ (by omega)]
          by_cases hit : i < t
          · simp [h1, h2, hit, hbit, show i - w * k < t by omega]
          · have : bitAt b.blocks i = false := wf.bit_ge (by omega)
            simp [h1, hit, this]
        · have : (blk b.blocks k).getLsbD (i - w * k) = false := BitVec.getLsbD_of_ge _ _ (by omega)
          simp [h1, h2, this])
  refine ⟨v, e, ?_⟩
  intro i
  rw [hv]
  by_cases hi : i < w * b.blocks.length
  · simp [hi]
  · have := le_mul_nb hw b.bitCount
    rw [← wf.len] at this
    rw [wf.bit_ge (by omega)]; simp

theorem toString_ok (h : IsBlockWidth w) (b : Bitset w) (wf : WF b) :
    ∃ s, toString b = .ok s ∧ s.length = b.bitCount ∧
      ∀ i, i < b.bitCount → s[b.bitCount - 1 - i]? = some (if bitAt b.blocks i then '1' else '0') := by
  unfold toString
  obtain ⟨s, e, h1, h2⟩ := forUp_ok (σ := List Char) (fun k s => s.length = b.bitCount ∧
      ∀ i, i < b.bitCount → s[b.bitCount - 1 - i]? = some (if i < k ∧ bitAt b.blocks i then '1' else '0'))
    (lo := 0) (n := b.bitCount) (s := List.replicate b.bitCount '0') (f := fun i str => do
    let t ← test b i
    if t then wr str (b.bitCount - i - 1) '1' else pure str) (by
      refine ⟨by simp, ?_⟩
      intro i hi
      simp [List.getElem?_replicate]
      omega) (by
      rintro k s hk ⟨g1, g2⟩
      rw [Nat.zero_add, test_ok h b wf k hk, ok_bind]
      cases hb : bitAt b.blocks k with
      | true =>
        refine ⟨_, by rw [if_pos rfl, wr_ok (by omega)], by simpa using g1, ?_⟩
        intro i hi
        by_cases hik : i = k
        · subst hik
          rw [show b.bitCount - i - 1 = b.bitCount - 1 - i by omega, List.getElem?_set_self (by omega)]
          simp [hb]
        · rw [List.getElem?_set_ne (by omega), g2 i hi]
          congr 1
          have : i < k ↔ i < k + 1 := by omega
          simp [this]
      | false =>
        refine ⟨s, by simp, g1, ?_⟩
        intro i hi
        rw [g2 i hi]
        by_cases hik : i = k
        · subst hik; simp [hb]
        · have : i < k ↔ i < k + 1 := by omega
          simp [this])
  refine ⟨s, e, h1, ?_⟩
  intro i hi
  rw [h2 i hi]
  simp [hi]

end Verif.Bitset
