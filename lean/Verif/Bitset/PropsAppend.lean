import Verif.Bitset.PropsLaws

/-!
# C07, C08, C09: appending bits, reading byte streams, ordering
-/

namespace Verif.Bitset
open Verif.Cpp

variable {w : Nat}

/-! ### C07 -/

/-- C07, under `AppendAllowed` (the value has no set bit in `[n, free bits of the last block)`, and the append does not fill
a new block of 32 bits or more completely): the result is the concatenation.  Missing: the two other cases, where the code is wrong
(`PropsExact.lean`). -/
theorem C07_appendBits_partial (h : IsBlockWidth w) {b : Bitset w} (hb : Reachable b) {l : List Bool} (hl : Shows b l) {t : Nat} (v : BitVec t)
    (n : Nat) (hv : AppendAllowed w l.length v n) :
    ∃ b', appendBits b v n = .ok b' ∧ Shows b' (l ++ Seq.lowBits v n) ∧ count b' = .ok ((l ++ Seq.lowBits v n).count true) ∧ Reachable b' := by
  obtain ⟨ops, σ, k, hv1, e, rfl⟩ := hb
  obtain ⟨σ', e', hσ⟩ := C01_history h ops hv1
  rw [e] at e'
  injection e' with e'
  subst e'
  have hlen : (specRun (fun _ => []) ops k).length = l.length := (hσ k).1.symm.trans hl.1
  have hll : specRun (fun _ => []) ops k = l := by
    apply List.ext_getElem hlen
    intro i h1 h2
    have g1 := (hσ k).2 i h1
    have g2 := hl.2 i h2
    rw [g1] at g2
    injection g2
  have run_append : ∀ (x y : List (Op w)) (s s' : Nat → Bitset w), run s x = .ok s' → run s (x ++ y) = run s' y := by
    intro x y
    induction x with
    | nil => intro s s' h; injection h with h; rw [h]; rfl
    | cons o x ih =>
      intro s s' hr
      simp only [run, List.cons_append] at hr ⊢
      cases ho : o.exec s with
      | error z => rw [ho] at hr; simp at hr
      | ok s1 => rw [ho, ok_bind] at hr; rw [ok_bind]; exact ih _ _ hr
  have spec_append : ∀ (x y : List (Op w)) (s : Nat → List Bool), specRun s (x ++ y) = specRun (specRun s x) y := by
    intro x y
    induction x with
    | nil => intro s; rfl
    | cons o x ih => intro s; exact ih _
  have valid_append : ∀ (x y : List (Op w)) (s : Nat → List Bool), ValidHistory s x → ValidHistory (specRun s x) y → ValidHistory s (x ++ y) := by
    intro x y
    induction x with
    | nil => intro s _ h; exact h
    | cons o x ih => intro s h1 h2; exact ⟨h1.1, ih _ h1.2 h2⟩
  have hv2 : ValidHistory (fun _ => []) (ops ++ [Op.appendBits k t v n]) := by
    refine valid_append _ _ _ hv1 ⟨?_, trivial⟩
    simp only [Op.Valid]
    rw [hll]; exact hv
  obtain ⟨σ2, e2, hσ2⟩ := C01_history h _ hv2
  have e3 := run_append ops [Op.appendBits k t v n] _ _ e
  rw [e2] at e3
  simp only [run, Op.exec, Op.result] at e3
  cases ha : Bitset.appendBits (σ k) v n with
  | error z => rw [ha] at e3; simp at e3
  | ok b' =>
    rw [ha] at e3
    simp only [ok_bind, pure_ok] at e3
    injection e3 with e3
    have hk : σ2 k = b' := by rw [e3]; simp [upd, Op.target]
    have hr : Reachable b' := ⟨_, σ2, k, hv2, e2, hk⟩
    have hs := hσ2 k
    rw [hk, spec_append] at hs
    simp only [specRun, Op.spec, Op.specResult, Op.target, upd, if_true] at hs
    rw [hll] at hs
    exact ⟨b', rfl, hs, C02_count h hr hs, hr⟩

example : AppendAllowed 32 5 (0xDEADBEEF#32) 32 ∧ AppendAllowed 8 3 (0xABCD#16) 16 ∧ AppendAllowed 64 60 (0x1F#8) 5 := by
  unfold AppendAllowed
  decide

/-! ### C08 -/

/-- C08, under `WriteAllowed` (at least one bit, the bytes exist, the unread bits of the last byte are zero or go to a new block): `Write` appends
the next `n` bits of the stream and returns the position after them.  Missing: the other cases (`PropsExact.lean` and below). -/
theorem C08_write_partial (h : IsBlockWidth w) {b : Bitset w} (hb : Reachable b) {l : List Bool} (hl : Shows b l) (mem : List (BitVec 8))
    (seq : Sequence) (n : Nat) (hv : WriteAllowed w l.length mem seq n) :
    ∃ b' seq', write b mem seq n = .ok (b', seq') ∧ Shows b' (l ++ Seq.stream mem seq.ptr seq.bit n) ∧
      seq'.bit < 8 ∧ 8 * seq'.ptr + seq'.bit = 8 * seq.ptr + seq.bit + n := by
  have hL := hb.hasL h hl
  obtain ⟨h1, h2, h3, h4⟩ := hv
  obtain ⟨b', e, hb'⟩ := write_ok h b hL.wf mem seq n h1 h2 h3 (by rw [hL.size]; exact h4)
  refine ⟨b', _, e, ?_, Nat.mod_lt _ (by omega), ?_⟩
  · rw [hL.size] at hb'
    refine HasL.shows h (HasL.of hb' (by simp [Seq.stream]) ?_)
    intro i hi
    rw [getD_append']
    by_cases hlt : i < l.length
    · rw [if_pos hlt, if_pos hlt, hL.bit]
    · rw [if_neg hlt, if_neg hlt]
      unfold Seq.stream
      rw [getD_range_map]
      simp only [show i - l.length < n by omega, decide_true, Bool.true_and]
  · simp only
    omega

theorem stream_append (mem : List (BitVec 8)) (p s m n q r : Nat) (hr : 8 * q + r = 8 * p + s + m) :
    Seq.stream mem p s m ++ Seq.stream mem q r n = Seq.stream mem p s (m + n) := by
  unfold Seq.stream
  rw [List.range_add, List.map_append, List.map_map]
  congr 1
  apply List.map_congr_left
  intro k _
  simp only [Function.comp_apply, Seq.streamBit]
  rw [show q + (r + k) / 8 = p + (s + (m + k)) / 8 by omega, show (r + k) % 8 = (s + (m + k)) % 8 by omega]

/-- C08: two consecutive `Write` calls append the same bits and end at the same position as a single one. -/
theorem C08_write_split_partial (h : IsBlockWidth w) {b : Bitset w} (hb : Reachable b) {l : List Bool} (hl : Shows b l) (mem : List (BitVec 8))
    (seq : Sequence) (m n : Nat) (hm : WriteAllowed w l.length mem seq m) (hmn : WriteAllowed w l.length mem seq (m + n))
    (hn : WriteAllowed w (l.length + m) mem ⟨seq.ptr + (seq.bit + m) / 8, (seq.bit + m) % 8⟩ n) :
    ∃ b1 s1 b2 s2, write b mem seq m = .ok (b1, s1) ∧ write b1 mem s1 n = .ok (b2, s2) ∧ write b mem seq (m + n) = .ok (b2, s2) := by
  have hL := hb.hasL h hl
  obtain ⟨b1, e1, hb1⟩ := write_ok h b hL.wf mem seq m hm.1 hm.2.1 hm.2.2.1 (by rw [hL.size]; exact hm.2.2.2)
  obtain ⟨b2, e2, hb2⟩ := write_ok h b1 hb1.wf mem ⟨seq.ptr + (seq.bit + m) / 8, (seq.bit + m) % 8⟩ n hn.1 hn.2.1 hn.2.2.1
    (by rw [hb1.size, hL.size]; exact hn.2.2.2)
  obtain ⟨b3, e3, hb3⟩ := write_ok h b hL.wf mem seq (m + n) hmn.1 hmn.2.1 hmn.2.2.1 (by rw [hL.size]; exact hmn.2.2.2)
  have eb : b3 = b2 := by
    rw [hb1.size, show b.bitCount + m + n = b.bitCount + (m + n) by omega] at hb2
    refine Has.eq h.pos hb3 hb2 ?_
    intro i hi
    rw [hb1.bits]
    by_cases c1 : i < b.bitCount
    · simp [c1, show i < b.bitCount + m by omega]
    · rw [if_neg c1]
      by_cases c2 : i < b.bitCount + m
      · simp [c2]
      · rw [if_neg c2]
        unfold Seq.streamBit
        simp only
        rw [show seq.ptr + (seq.bit + (i - b.bitCount)) / 8 = seq.ptr + (seq.bit + m) / 8 + ((seq.bit + m) % 8 + (i - (b.bitCount + m))) / 8 by omega,
          show (seq.bit + (i - b.bitCount)) % 8 = ((seq.bit + m) % 8 + (i - (b.bitCount + m))) % 8 by omega]
  have es : (⟨seq.ptr + (seq.bit + (m + n)) / 8, (seq.bit + (m + n)) % 8⟩ : Sequence) =
      ⟨seq.ptr + (seq.bit + m) / 8 + ((seq.bit + m) % 8 + n) / 8, ((seq.bit + m) % 8 + n) % 8⟩ := by
    congr 1 <;> omega
  refine ⟨b1, _, b2, _, e1, e2, ?_⟩
  rw [e3, eb, es]

/-- C08: `FromPointer` of a number of bits whose last byte has no other bit set (in particular every multiple of 8). -/
theorem C08_fromPointer_partial (h : IsBlockWidth w) (mem : List (BitVec 8)) (p n : Nat) (hn : 0 < n) (hmem : p + (n - 1) / 8 < mem.length)
    (hc : n % 8 = 0 ∨ ∀ k, n ≤ k → k / 8 = (n - 1) / 8 → Seq.streamBit mem p k = false) :
    ∃ (b : Bitset w) (seq : Sequence), fromPointer mem p n = .ok (b, seq) ∧ Shows b (Seq.stream mem p 0 n) ∧
      seq.bit < 8 ∧ 8 * seq.ptr + seq.bit = 8 * p + n := by
  have hw : WriteAllowed w ([] : List Bool).length mem ⟨p, 0⟩ n := by
    refine ⟨Nat.zero_lt_succ 7, hn, by simpa using hmem, ?_⟩
    simp only [Nat.zero_add]
    intro k h1 h2 _ _
    rcases hc with hc | hc
    · omega
    · exact hc k h1 h2
  have hr : Reachable (empty : Bitset w) := ⟨[], _, 0, trivial, rfl, rfl⟩
  have hs : Shows (empty : Bitset w) [] := ⟨rfl, by intro i hi; simp at hi⟩
  obtain ⟨b', s', e, h1, h2, h3⟩ := C08_write_partial h hr hs mem ⟨p, 0⟩ n hw
  exact ⟨b', s', e, by simpa using h1, h2, by simpa using h3⟩

example : WriteAllowed 32 3 [0x12#8, 0x34#8, 0x56#8] ⟨0, 5⟩ 19 ∧ WriteAllowed 8 6 [0xFF#8, 0x3F#8] ⟨0, 6⟩ 8 := by
  constructor
  · refine ⟨by decide, by decide, by decide, ?_⟩
    intro k h1 h2
    simp only at h1 h2
    omega
  · refine ⟨by decide, by decide, by decide, ?_⟩
    intro k h1 h2 _ _
    simp only at h1 h2
    have : k = 14 ∨ k = 15 := by omega
    rcases this with rfl | rfl <;> decide

/-- C08 fails for `n = 0`: at a byte boundary the position advances by a byte (and that byte is read although no bit is asked for). -/
theorem C08_zero_bits_violated (b : Bitset w) (mem : List (BitVec 8)) (p : Nat) :
    (p < mem.length → ∀ r, write b mem ⟨p, 0⟩ 0 = .ok r → r.2 = ⟨p + 1, 0⟩) ∧
    (mem.length ≤ p → write b mem ⟨p, 0⟩ 0 = .error .ub) := by
  constructor
  · intro hp r hr
    simp only [write, writeHead, show ((0 : Nat) < 8) = True by simp, decide_true, assert_true, ok_bind, bne_self_eq_false, Bool.false_eq_true, if_false,
      Nat.add_zero, Nat.zero_mod, Nat.add_sub_cancel_left, forUp, rd_ok hp, pure_ok, Nat.zero_min, Nat.zero_sub] at hr
    cases ha : appendBits b mem[p] 0 with
    | error z => rw [ha] at hr; simp at hr
    | ok b1 => rw [ha] at hr; simp at hr; rw [← hr]
  · intro hp
    simp [write, writeHead, forUp, rd_ub hp]

/-- A call that succeeds: one byte of memory, nothing asked for, yet the position is past the byte. -/
example : write (empty : Bitset 8) [0x5A#8] ⟨0, 0⟩ 0 = .ok (⟨[], 0⟩, ⟨1, 0⟩) := by decide

/-! ### C09 -/

/-- The number a list of blocks represents. -/
def val (l : List (BitVec w)) : Nat := l.foldr (fun x n => 2 ^ w * n + x.toNat) 0

theorem val_testBit (hw : 0 < w) (l : List (BitVec w)) (i : Nat) : (val l).testBit i = bitAt l i := by
  induction l generalizing i with
  | nil => simp [val, bitAt, blk]
  | cons x l ih =>
    have e : val (x :: l) = 2 ^ w * val l + x.toNat := rfl
    rw [e, Nat.testBit_two_pow_mul_add _ x.isLt]
    by_cases hi : i < w
    · rw [if_pos hi]
      simp [bitAt, blk, Nat.div_eq_of_lt hi, Nat.mod_eq_of_lt hi, BitVec.testBit_toNat]
    · rw [if_neg hi, ih]
      obtain ⟨j, rfl⟩ : ∃ j, i = j + w := ⟨i - w, by omega⟩
      simp [bitAt, blk, Nat.add_div_right _ hw]

theorem val_mono (l m : List (BitVec w)) (hlen : l.length = m.length) (h : ∀ k, (blk l k).toNat ≤ (blk m k).toNat) : val l ≤ val m := by
  induction l generalizing m with
  | nil => simp [val]
  | cons x l ih =>
    cases m with
    | nil => simp at hlen
    | cons y m =>
      have e1 : val (x :: l) = 2 ^ w * val l + x.toNat := rfl
      have e2 : val (y :: m) = 2 ^ w * val m + y.toNat := rfl
      have h0 : x.toNat ≤ y.toNat := by simpa [blk] using h 0
      have h1 : val l ≤ val m := ih m (by simpa using hlen) (fun k => by simpa [blk] using h (k + 1))
      rw [e1, e2]
      exact Nat.add_le_add (Nat.mul_le_mul_left _ h1) h0

theorem toNat_eq_val (h : IsBlockWidth w) {b : Bitset w} {l : List Bool} (hL : HasL b l) : Seq.toNat l = val b.blocks := by
  apply Nat.eq_of_testBit_eq
  intro i
  rw [toNat_testBit, val_testBit h.pos, hL.bit]

/-- C09 for bitsets of one block each: the four orders are those of the numbers represented.  Missing: several blocks and different numbers of
blocks, where the code is wrong (`PropsExact.lean` and below). -/
theorem C09_one_block_partial (h : IsBlockWidth w) {a b : Bitset w} (ha : Reachable a) (hb : Reachable b) {l m : List Bool}
    (hl : Shows a l) (hm : Shows b m) (h1 : getBlockCount a = 1) (h2 : getBlockCount b = 1) :
    less a b = .ok (decide (Seq.toNat l < Seq.toNat m)) ∧ lessEq a b = .ok (decide (Seq.toNat l ≤ Seq.toNat m)) ∧
    greater a b = .ok (decide (Seq.toNat m < Seq.toNat l)) ∧ greaterEq a b = .ok (decide (Seq.toNat m ≤ Seq.toNat l)) := by
  have hL := ha.hasL h hl
  have hM := hb.hasL h hm
  have key : ∀ (a b : Bitset w) (l m : List Bool), HasL a l → HasL b m → getBlockCount a = 1 → getBlockCount b = 1 →
      less a b = .ok (decide (Seq.toNat l < Seq.toNat m)) ∧ lessEq a b = .ok (decide (Seq.toNat l ≤ Seq.toNat m)) := by
    intro a b l m hL hM h1 h2
    obtain ⟨r, e, hr⟩ := less_ok a b (show a.blocks.length = b.blocks.length from h1.trans h2.symm)
    obtain ⟨q, e', hq⟩ := equals_ok h.pos a b
    have ev1 := toNat_eq_val h hL
    have ev2 := toNat_eq_val h hM
    have hq' : q = decide (Seq.toNat l = Seq.toNat m) := by
      rw [Bool.eq_iff_iff, hq, decide_eq_true_iff]
      constructor
      · intro hall
        apply Nat.eq_of_testBit_eq
        intro i
        rw [toNat_testBit, toNat_testBit, ← hL.bit, ← hM.bit, hall]
      · intro he i
        rw [hL.bit, hM.bit, ← toNat_testBit, ← toNat_testBit, he]
    obtain ⟨ab, an⟩ := a
    obtain ⟨bb, bn⟩ := b
    simp only [getBlockCount] at h1 h2
    obtain ⟨x, rfl⟩ := List.length_eq_one_iff.mp h1
    obtain ⟨y, rfl⟩ := List.length_eq_one_iff.mp h2
    have hr' : r = decide (Seq.toNat l < Seq.toNat m) := by
      rw [Bool.eq_iff_iff, hr, decide_eq_true_iff, ev1, ev2]
      simp only [val, List.foldr_cons, List.foldr_nil, Nat.mul_zero, Nat.zero_add]
      constructor
      · rintro ⟨k, hk⟩
        cases k with
        | zero => simpa [blk] using hk
        | succ k => simp [blk] at hk
      · intro hlt; exact ⟨0, by simpa [blk] using hlt⟩
    subst hr' hq'
    refine ⟨e, ?_⟩
    simp only [lessEq, e, ok_bind]
    by_cases hlt : Seq.toNat l < Seq.toNat m
    · simp [hlt, Nat.le_of_lt hlt]
    · simp only [hlt, decide_false, Bool.false_eq_true, if_false, e']
      congr 1
      rw [decide_eq_decide]; omega
  obtain ⟨k1, k2⟩ := key a b l m hL hM h1 h2
  obtain ⟨k3, k4⟩ := key b a m l hM hL h2 h1
  exact ⟨k1, k2, k3, k4⟩

example : ∃ a b : Bitset 8, ofString "0101".toList = .ok a ∧ ofString "0110000".toList = .ok b ∧ getBlockCount a = 1 ∧ getBlockCount b = 1 ∧ less a b = .ok true :=
  ⟨⟨[5#8], 4⟩, ⟨[0x30#8], 7⟩, by decide, by decide, rfl, rfl, by decide⟩

/-- C09, one direction, for equal numbers of blocks: no smaller number is missed.  Missing: the converse (false, `PropsExact.lean`). -/
theorem C09_complete_partial (h : IsBlockWidth w) {a b : Bitset w} (ha : Reachable a) (hb : Reachable b) {l m : List Bool}
    (hl : Shows a l) (hm : Shows b m) (hc : getBlockCount a = getBlockCount b) (hlt : Seq.toNat l < Seq.toNat m) : less a b = .ok true := by
  have hL := ha.hasL h hl
  have hM := hb.hasL h hm
  obtain ⟨r, e, hr⟩ := less_ok a b hc
  rw [e]
  congr 1
  rw [hr]
  by_contra hne
  simp only [not_exists, Nat.not_lt] at hne
  have := val_mono b.blocks a.blocks hc.symm hne
  rw [← toNat_eq_val h hL, ← toNat_eq_val h hM] at this
  omega

/-- C09 is false for different numbers of blocks: every comparison fails an assertion. -/
theorem C09_block_counts_violated (a b : Bitset w) (hc : getBlockCount a ≠ getBlockCount b) :
    less a b = .error .assert ∧ lessEq a b = .error .assert ∧ greater a b = .error .assert ∧ greaterEq a b = .error .assert := by
  have h1 := less_ne a b hc
  have h2 := less_ne b a (Ne.symm hc)
  simp [lessEq, greater, greaterEq, h1, h2]

example : ∃ a b : Bitset 8, ofSize 3 true = .ok a ∧ ofSize 11 true = .ok b ∧ getBlockCount a ≠ getBlockCount b :=
  ⟨⟨[7#8], 3⟩, ⟨[0xFF#8, 0x07#8], 11⟩, by decide, by decide, by decide⟩

end Verif.Bitset
