import Verif.BitsetAlloc.Model
import Verif.Bitset.PropsAppend

/-! # Lemmas on bitsets whose allocations fail -/

namespace Verif.BitsetAlloc
open Verif.Cpp Verif.Bitset

variable {w : Nat}

/-- The outcome of an operation without failures. -/
def ofM (m : M (Bitset w)) : Out (Bitset w) Unit :=
  match m with
  | .ok b => .done b ()
  | .error e => .fail e

theorem lift_run (f : Bitset w → M (Bitset w)) (b : Bitset w) : lift f b = ofM (f b) := rfl

/-- The two outcomes of a call that grows the vector. -/
theorem resizeBlocks_cases (g : Grant) (n : Nat) (v : BitVec w) (b : Bitset w) :
    (resizeBlocks g n v b = .thrown b ∧ b.blocks.length < n ∧ g b.blocks.length n = false) ∨
      (resizeBlocks g n v b = .done { b with blocks := vresize b.blocks n v } () ∧ (n ≤ b.blocks.length ∨ g b.blocks.length n = true)) := by
  unfold resizeBlocks
  by_cases h1 : n ≤ b.blocks.length
  · right; simp [h1]
  · cases h2 : g b.blocks.length n with
    | true => right; simp
    | false => left; simp [h1]; omega

/-- `resizeBlocks` followed by code that cannot throw. -/
theorem resizeBlocks_then (g : Grant) (n : Nat) (v : BitVec w) (b : Bitset w) (f : Unit → X (Bitset w) Unit) (m : M (Bitset w))
    (hf : f () { b with blocks := vresize b.blocks n v } = ofM m) :
    ((resizeBlocks g n v >>= f) b = .thrown b ∧ b.blocks.length < n ∧ g b.blocks.length n = false) ∨
      ((resizeBlocks g n v >>= f) b = ofM m ∧ (n ≤ b.blocks.length ∨ g b.blocks.length n = true)) := by
  rcases resizeBlocks_cases g n v b with ⟨h1, h2⟩ | ⟨h1, h2⟩
  · exact Or.inl ⟨X.bind_thrown h1, h2⟩
  · exact Or.inr ⟨by rw [X.bind_done h1]; exact hf, h2⟩

/-- Either a growth from `m` to `n` blocks was refused and the bitset is as before, or the outcome is that without failures. -/
def Strong (g : Grant) (b : Bitset w) (n : Nat) (out : Out (Bitset w) Unit) (m : M (Bitset w)) : Prop :=
  (out = .thrown b ∧ b.blocks.length < n ∧ g b.blocks.length n = false) ∨ (out = ofM m ∧ (n ≤ b.blocks.length ∨ g b.blocks.length n = true))

theorem resize_strong (g : Grant) (n : Nat) (v : Bool) (b : Bitset w) (hb : 0 < getBitIndex w b.bitCount → 0 < b.blocks.length) :
    Strong g b (computeBlockCount w n) (resize g n v b) (Bitset.resize b n v) := by
  unfold resize Bitset.resize Strong
  rw [X.bind_done (X.get_run b)]
  by_cases hc : (decide (n > b.bitCount) && decide (getBitIndex w b.bitCount > 0) && v) = true
  · simp only [hc, if_true]
    have h0 : 0 < b.blocks.length := hb (by simp at hc; exact hc.1.2)
    rcases resizeBlocks_cases g (computeBlockCount w n) (if v then fullBitMask w else 0#w) b with ⟨h1, h2⟩ | ⟨h1, h2⟩
    · left
      refine ⟨?_, h2⟩
      simp only [h0, decide_true, X.guardUB_true]
      rw [X.pure_bind']
      exact X.bind_thrown h1
    · right
      refine ⟨?_, h2⟩
      simp only [h0, decide_true, X.guardUB_true, guardUB_true, pure_ok, ok_bind]
      rw [X.pure_bind', X.bind_done h1, X.bind_run, lift_run]
      dsimp only
      cases rd (vresize b.blocks (computeBlockCount w n) (if v = true then fullBitMask w else 0#w)) (b.blocks.length - 1) with
      | error e => rfl
      | ok x =>
        simp only [ok_bind]
        cases shl (fullBitMask w) (getBitIndex w b.bitCount) with
        | error e => rfl
        | ok m =>
          simp only [ok_bind]
          cases wr (vresize b.blocks (computeBlockCount w n) (if v = true then fullBitMask w else 0#w)) (b.blocks.length - 1) (x ||| m) with
          | error e => rfl
          | ok l => rfl
  · simp only [hc]
    refine resizeBlocks_then g _ _ b _ _ ?_
    rfl

theorem unboundedSet_strong (g : Grant) (i : Nat) (v : Bool) (b : Bitset w) (hb : 0 < getBitIndex w b.bitCount → 0 < b.blocks.length) (hi : b.bitCount ≤ i) (hv : v = true) :
    Strong g b (computeBlockCount w (i + 1)) (unboundedSet g i v b) (Bitset.unboundedSet b i v) := by
  unfold unboundedSet Bitset.unboundedSet
  rw [X.bind_done (X.get_run b)]
  simp only [show ¬ i < b.bitCount by omega, hv, if_false, if_true]
  rcases resize_strong g (i + 1) false b hb with ⟨h1, h2⟩ | ⟨h1, h2⟩
  · exact Or.inl ⟨X.bind_thrown h1, h2⟩
  · refine Or.inr ⟨?_, h2⟩
    rw [X.bind_run, h1]
    cases Bitset.resize b (i + 1) false <;> rfl

theorem unboundedSet_same (g : Grant) (i : Nat) (v : Bool) (b : Bitset w) (hi : i < b.bitCount ∨ v = false) :
    unboundedSet g i v b = ofM (Bitset.unboundedSet b i v) := by
  unfold unboundedSet Bitset.unboundedSet
  rw [X.bind_done (X.get_run b)]
  by_cases h : i < b.bitCount
  · simp only [h, if_true]; rfl
  · rcases hi with hi | rfl
    · omega
    · simp only [h, if_false]; rfl

theorem performsAND_strong (g : Grant) (x y : Operand w) (b : Bitset w) :
    Strong g b (max (getBlockCount (x.get b)) (getBlockCount (y.get b))) (performsAND g x y b) (Bitset.performsAND b x y) := by
  unfold performsAND
  rw [X.bind_done (X.get_run b)]
  exact resizeBlocks_then g _ _ b _ _ rfl

theorem performsNOT_strong (g : Grant) (x : Operand w) (b : Bitset w) :
    Strong g b (getBlockCount (x.get b)) (performsNOT g x b) (Bitset.performsNOT b x) := by
  unfold performsNOT
  rw [X.bind_done (X.get_run b)]
  exact resizeBlocks_then g _ _ b _ _ rfl

theorem performsMerge_strong (g : Grant) (op : BitVec w → BitVec w → BitVec w) (x y : Operand w) (b : Bitset w) :
    Strong g b (getBlockCount ((if getSize (x.get b) > getSize (y.get b) then x else y).get b)) (performsMerge g op x y b) (Bitset.performsMerge op b x y) := by
  unfold performsMerge
  rw [X.bind_done (X.get_run b)]
  exact resizeBlocks_then g _ _ b _ _ rfl

/-! ## AppendBits -/

theorem pushBlock_cases (g : Grant) (x : BitVec w) (b : Bitset w) :
    (pushBlock g x b = .thrown b ∧ g b.blocks.length (b.blocks.length + 1) = false) ∨
      (pushBlock g x b = .done { b with blocks := b.blocks ++ [x] } () ∧ g b.blocks.length (b.blocks.length + 1) = true) := by
  unfold pushBlock
  cases g b.blocks.length (b.blocks.length + 1) <;> simp

theorem value_ok {α : Type} (a : α) (b : Bitset w) : value (.ok a) b = .done b a := rfl

/-- The body of the loop of `AppendBits` without failures. -/
def pushStep {t : Nat} (s : AppendState w t) : AppendState w t :=
  ⟨s.blocks ++ [s.bits.setWidth w], if w < t then s.bits >>> w else 0#t, s.bitCount - w⟩

theorem pushLoop_cases {t : Nat} (g : Grant) (k lo : Nat) (l : List (BitVec w)) (N : Nat) (bits : BitVec t) (n : Nat) :
    (∃ extra, pushLoop g k bits n ⟨l, N⟩ = .thrown ⟨l ++ extra, N⟩ ∧ extra.length < k ∧ g (l.length + extra.length) (l.length + extra.length + 1) = false) ∨
      (∃ st : AppendState w t, forUp lo k (fun _ s => pure (pushStep s)) ⟨l, bits, n⟩ = .ok st ∧ pushLoop g k bits n ⟨l, N⟩ = .done ⟨st.blocks, N⟩ (st.bits, st.bitCount) ∧
        (∃ extra, st.blocks = l ++ extra ∧ extra.length = k) ∧ ∀ j, j < k → g (l.length + j) (l.length + j + 1) = true) := by
  induction k generalizing lo l bits n with
  | zero => exact Or.inr ⟨⟨l, bits, n⟩, rfl, rfl, ⟨[], by simp⟩, by simp⟩
  | succ k ih =>
    simp only [pushLoop]
    rcases pushBlock_cases g (bits.setWidth w) ⟨l, N⟩ with ⟨h1, h2⟩ | ⟨h1, h2⟩
    · left
      exact ⟨[], by rw [X.bind_thrown h1]; simp, by simp, by simpa using h2⟩
    · rw [X.bind_done h1, shiftOut_ok, X.bind_done (value_ok _ _)]
      rcases ih (lo + 1) (l ++ [bits.setWidth w]) (if w < t then bits >>> w else 0#t) (n - w) with ⟨extra, e1, e2, e3⟩ | ⟨st, e1, e2, ⟨extra, e3, e4⟩, e5⟩
      · left
        refine ⟨bits.setWidth w :: extra, by rw [e1]; simp, by simp; omega, ?_⟩
        simp only [List.length_append, List.length_cons, List.length_nil] at e3 ⊢
        rw [show l.length + (extra.length + 1) = l.length + (0 + 1) + extra.length by omega]; exact e3
      · right
        refine ⟨st, ?_, e2, ⟨bits.setWidth w :: extra, by rw [e3]; simp, by simp [e4]⟩, ?_⟩
        · rw [← e1]; rfl
        · intro j hj
          cases j with
          | zero => simpa using h2
          | succ j =>
            have := e5 j (by omega)
            simp only [List.length_append, List.length_cons, List.length_nil] at this
            rw [show l.length + (j + 1) = l.length + (0 + 1) + j by omega]; exact this

theorem appendTail_cases (h : IsBlockWidth w) {t : Nat} (g : Grant) (l : List (BitVec w)) (N : Nat) (bits : BitVec t) (n : Nat) :
    (∃ extra, appendTail g bits n ⟨l, N⟩ = .thrown ⟨l ++ extra, N⟩ ∧ extra.length < nb w n ∧ g (l.length + extra.length) (l.length + extra.length + 1) = false) ∨
      (appendTail g bits n ⟨l, N⟩ = .fail .ub ∧ Bitset.appendTail ⟨l, bits, n⟩ = .error .ub) ∨
      (∃ extra, appendTail g bits n ⟨l, N⟩ = .done ⟨l ++ extra, N⟩ () ∧ Bitset.appendTail ⟨l, bits, n⟩ = .ok (l ++ extra) ∧ extra.length = nb w n ∧
        ∀ j, j < nb w n → g (l.length + j) (l.length + j + 1) = true) := by
  unfold appendTail Bitset.appendTail
  simp only [shiftOut_ok, ok_bind]
  rw [computeBlockCount_eq h]
  by_cases hn : n > 0
  · have hpos := nb_pos h.pos hn
    simp only [hn, if_true]
    rcases pushLoop_cases g (nb w n - 1) 0 l N bits n with ⟨extra, e1, e2, e3⟩ | ⟨st, e1, e2, ⟨extra, e3, e4⟩, e5⟩
    · left
      exact ⟨extra, by rw [X.bind_thrown e1], by omega, e3⟩
    · have e1' : forUp 0 (nb w n - 1) (fun _ (s : AppendState w t) => (pure ⟨s.blocks ++ [s.bits.setWidth w], if w < t then s.bits >>> w else 0#t, s.bitCount - w⟩ : M _))
        ⟨l, bits, n⟩ = .ok st := e1
      rw [X.bind_done e2]
      rw [e1']
      simp only [ok_bind]
      by_cases hr : st.bitCount < promoted w
      · simp only [hr, decide_true, X.guardUB_true, guardUB_true]
        rw [X.pure_bind']
        rcases pushBlock_cases g ((st.bits &&& ((1#(promoted w) <<< st.bitCount) - 1#(promoted w)).setWidth t).setWidth w) ⟨st.blocks, N⟩ with ⟨h1, h2⟩ | ⟨h1, h2⟩
        · left
          refine ⟨extra, by rw [h1, e3], by omega, ?_⟩
          simpa [e3] using h2
        · right; right
          refine ⟨extra ++ [(st.bits &&& ((1#(promoted w) <<< st.bitCount) - 1#(promoted w)).setWidth t).setWidth w], ?_, ?_, ?_, ?_⟩
          · rw [h1]; simp [e3]
          · simp only [pure_ok, ok_bind, e3, List.append_assoc]
          · simp only [List.length_append, List.length_cons, List.length_nil]; omega
          · intro j hj
            by_cases hj' : j < nb w n - 1
            · exact e5 j hj'
            · have : j = extra.length := by omega
              subst this
              simpa [e3] using h2
      · right; left
        simp only [hr, decide_false, X.guardUB_false, guardUB_false]
        exact ⟨rfl, rfl⟩
  · right; right
    simp only [hn, if_false]
    have : n = 0 := by omega
    subst this
    exact ⟨[], by simp, by simp, by simp [nb_zero], by simp [nb_zero]⟩

/-- Completion of the last block of a bitset with the right number of blocks. -/
theorem appendHead_len (h : IsBlockWidth w) {t : Nat} (b : Bitset w) (hl : b.blocks.length = nb w b.bitCount) (v : BitVec t) (n N : Nat) :
    ∃ st, Bitset.appendHead b v n = .ok st ∧ appendHead v n (b.bitCount % w) ⟨b.blocks, N⟩ = .done ⟨st.blocks, N⟩ (st.bits, st.bitCount) ∧
      st.blocks.length = nb w b.bitCount ∧ st.bitCount = n - (w * nb w b.bitCount - b.bitCount) ∧
      ∀ i, i < b.bitCount → bitAt st.blocks i = bitAt b.blocks i := by
  have hw := h.pos
  have hgap := gap_eq hw b.bitCount
  have hmod := Nat.mod_lt b.bitCount hw
  have hdm := Nat.div_add_mod b.bitCount w
  unfold Bitset.appendHead appendHead
  simp only
  by_cases h0 : b.bitCount % w = 0
  · rw [if_pos h0] at hgap
    exact ⟨⟨b.blocks, v, n⟩, by simp [h0], by simp [h0], hl, by show n = n - _; rw [hgap]; omega, fun _ _ => rfl⟩
  · rw [if_neg h0] at hgap
    have hnb : nb w b.bitCount = b.bitCount / w + 1 := by simp [nb, h0]
    have hpos : 0 < b.blocks.length := by rw [hl, hnb]; exact Nat.succ_pos _
    have hlast : b.blocks.length - 1 < b.blocks.length := by omega
    simp only [h0, bne_iff_ne, ne_eq, not_false_eq_true, if_true, hpos, decide_true, guardUB_true, pure_ok, ok_bind, rd_blk hlast, shl_ok _ hmod, wr_ok hlast, shiftOut_ok]
    refine ⟨_, rfl, ?_, by simpa using hl, by show n - min _ n = n - _; rw [hgap]; omega, ?_⟩
    · rw [X.bind_run, lift_run]
      simp only [hpos, decide_true, guardUB_true, ok_bind, rd_blk hlast, wr_ok hlast]
      rfl
    intro i hi
    have hi' := hi
    rw [lt_lex hw] at hi
    unfold bitAt
    rw [blk_set _ _ _ _ hlast]
    by_cases hk : i / w = b.blocks.length - 1
    · rw [if_pos hk, hk, BitVec.getLsbD_or, BitVec.getLsbD_shiftLeft]
      have : i % w < b.bitCount % w := by omega
      simp [this]
    · rw [if_neg hk]

theorem nb_add (hw : 0 < w) (m n : Nat) : nb w m + nb w (n - (w * nb w m - m)) = nb w (m + n) := by
  have hle := le_mul_nb hw m
  have hgap := gap_eq hw m
  by_cases hz : n - (w * nb w m - m) = 0
  · rw [hz, nb_zero, Nat.add_zero]
    exact (nb_of_bounds hw (by omega) (by have := mul_nb_lt hw m; omega)).symm
  · rw [show m + n = w * nb w m + (n - (w * nb w m - m)) by omega, nb_mul_add hw]

/-- What `AppendBits` does to a bitset with the right number of blocks. -/
theorem appendBits_cases (h : IsBlockWidth w) {t : Nat} (g : Grant) (b : Bitset w) (hl : b.blocks.length = nb w b.bitCount) (v : BitVec t) (n : Nat) :
    (∃ b', appendBits g v n b = .thrown b' ∧ b'.bitCount = b.bitCount + n ∧ b.blocks.length ≤ b'.blocks.length ∧ b'.blocks.length < nb w (b.bitCount + n) ∧
        (∀ i, i < b.bitCount → bitAt b'.blocks i = bitAt b.blocks i) ∧ g b'.blocks.length (b'.blocks.length + 1) = false) ∨
      (appendBits g v n b = .fail .ub ∧ Bitset.appendBits b v n = .error .ub) ∨
      (∃ b', appendBits g v n b = .done b' () ∧ Bitset.appendBits b v n = .ok b' ∧ b'.bitCount = b.bitCount + n ∧ b'.blocks.length = nb w (b.bitCount + n) ∧
        (∀ i, i < b.bitCount → bitAt b'.blocks i = bitAt b.blocks i) ∧ ∀ j, b.blocks.length ≤ j → j < nb w (b.bitCount + n) → g j (j + 1) = true) := by
  have hw := h.pos
  obtain ⟨st, e1, e2, e3, e4, e5⟩ := appendHead_len h b hl v n (b.bitCount + n)
  have hsum := nb_add hw b.bitCount n
  have hbits : ∀ extra i, i < b.bitCount → bitAt (st.blocks ++ extra) i = bitAt b.blocks i := by
    intro extra i hi
    rw [← e5 i hi]
    unfold bitAt
    rw [blk_append, if_pos (by rw [e3]; exact div_lt_nb hw hi)]
  have hrun : appendBits g v n b = appendTail g st.bits st.bitCount ⟨st.blocks, b.bitCount + n⟩ := by
    unfold appendBits
    rw [X.bind_done (X.get_run b), X.bind_done (X.modify_run _ b), X.bind_done e2]
  have hrun' : Bitset.appendBits b v n = (Bitset.appendTail st >>= fun l => pure ⟨l, b.bitCount + n⟩) := by
    unfold Bitset.appendBits
    rw [e1, ok_bind]
  rw [hrun, hrun']
  rcases appendTail_cases h g st.blocks (b.bitCount + n) st.bits st.bitCount with ⟨extra, k1, k2, k3⟩ | ⟨k1, k2⟩ | ⟨extra, k1, k2, k3, k4⟩
  · left
    refine ⟨_, k1, rfl, ?_, ?_, hbits extra, by simpa using k3⟩
    · simp only [List.length_append]; omega
    · simp only [List.length_append]; rw [e4] at k2; omega
  · right; left
    exact ⟨k1, by rw [k2]; rfl⟩
  · right; right
    refine ⟨_, k1, by rw [k2]; rfl, rfl, ?_, hbits extra, ?_⟩
    · simp only [List.length_append]; rw [k3, e4]; omega
    · intro j h1 h2
      have := k4 (j - st.blocks.length) (by rw [e4]; omega)
      rwa [show st.blocks.length + (j - st.blocks.length) = j by omega] at this

/-- A bitset with fewer blocks than its size needs: reading its last bit is undefined. -/
theorem test_last_ub (h : IsBlockWidth w) (b : Bitset w) (hl : b.blocks.length < nb w b.bitCount) : test b (b.bitCount - 1) = .error .ub := by
  have hw := h.pos
  have hpos : 0 < b.bitCount := by
    by_contra h0
    have : b.bitCount = 0 := by omega
    rw [this, nb_zero] at hl
    omega
  have hidx : b.blocks.length ≤ (b.bitCount - 1) / w := by
    have h3 : nb w b.bitCount = (b.bitCount - 1) / w + 1 := by
      rw [nb_eq_ceil hw, show b.bitCount + w - 1 = b.bitCount - 1 + w by omega, Nat.add_div_right _ hw]
    omega
  simp only [test, show b.bitCount - 1 < b.bitCount by omega, decide_true, assert_true, pure_ok, ok_bind, getBlockIndex, rd_ub hidx, err_bind]

/-- Shrinking such a bitset to its old size repairs it. -/
theorem resize_repairs (h : IsBlockWidth w) (g : Grant) (b b' : Bitset w) (wf : WF b) (hs : b.bitCount ≤ b'.bitCount) (hl : b.blocks.length ≤ b'.blocks.length)
    (hbits : ∀ i, i < b.bitCount → bitAt b'.blocks i = bitAt b.blocks i) (v : Bool) : resize g b.bitCount v b' = .done b () := by
  have hw := h.pos
  have hlen : nb w b.bitCount ≤ b'.blocks.length := by rw [← wf.len]; exact hl
  unfold resize
  rw [X.bind_done (X.get_run b')]
  have hc : ¬ b.bitCount > b'.bitCount := by omega
  simp only [hc, decide_false, Bool.false_and, Bool.false_eq_true, if_false, computeBlockCount_eq h]
  obtain ⟨b2, e, hb⟩ := resetExtraBits_ok h ⟨vresize b'.blocks (nb w b.bitCount) (if v = true then fullBitMask w else 0#w), b.bitCount⟩ (by simp [vresize_length])
  have hrb : resizeBlocks g (nb w b.bitCount) (if v = true then fullBitMask w else 0#w) b' =
      .done { b' with blocks := vresize b'.blocks (nb w b.bitCount) (if v = true then fullBitMask w else 0#w) } () := by
    simp [resizeBlocks, hlen]
  rw [X.bind_done hrb, X.bind_done (X.modify_run _ _), lift_run]
  simp only
  rw [e]
  have : b2 = b := by
    refine Has.eq hw hb wf (fun i hi => ?_)
    rw [← hbits i hi]
    unfold bitAt
    have hd : i / w < nb w b.bitCount := div_lt_nb hw hi
    rw [blk_vresize, if_pos hd, if_pos (by omega)]
  rw [this]
  rfl

/-! ## Write -/

theorem readByte_ok {mem : List (BitVec 8)} {p : Nat} (hp : p < mem.length) (b : Bitset w) : readByte mem p b = .done b mem[p] := by
  simp [readByte, rd_ok hp]

/-- The state that a failed `Write` leaves. -/
structure Broken (g : Grant) (b b' : Bitset w) : Prop where
  size : b.bitCount ≤ b'.bitCount
  grown : b.blocks.length ≤ b'.blocks.length
  short : b'.blocks.length < nb w b'.bitCount
  bits : ∀ i, i < b.bitCount → bitAt b'.blocks i = bitAt b.blocks i
  refused : g b'.blocks.length (b'.blocks.length + 1) = false

/-- The state before a failure. -/
structure Sound (g : Grant) (b b' : Bitset w) : Prop where
  size : b.bitCount ≤ b'.bitCount
  grown : b.blocks.length ≤ b'.blocks.length
  len : b'.blocks.length = nb w b'.bitCount
  bits : ∀ i, i < b.bitCount → bitAt b'.blocks i = bitAt b.blocks i
  granted : ∀ j, b.blocks.length ≤ j → j < b'.blocks.length → g j (j + 1) = true

theorem Sound.refl (g : Grant) (b : Bitset w) (hl : b.blocks.length = nb w b.bitCount) : Sound g b b :=
  ⟨Nat.le_refl _, Nat.le_refl _, hl, fun _ _ => rfl, fun j h1 h2 => by omega⟩

theorem Sound.append (h : IsBlockWidth w) {t : Nat} {g : Grant} {b c : Bitset w} (hc : Sound g b c) (v : BitVec t) (n : Nat) :
    (∃ b', appendBits g v n c = .thrown b' ∧ Broken g b b') ∨ (appendBits g v n c = .fail .ub ∧ Bitset.appendBits c v n = .error .ub) ∨
      (∃ b', appendBits g v n c = .done b' () ∧ Bitset.appendBits c v n = .ok b' ∧ Sound g b b') := by
  have := hc.size
  have := hc.grown
  have := nb_add h.pos c.bitCount n
  rcases appendBits_cases h g c hc.len v n with ⟨b', e, h1, h2, h3, h4, h5⟩ | e | ⟨b', e, e', h1, h2, h3, h4⟩
  · exact Or.inl ⟨b', e, by omega, by omega, by rw [h1]; exact h3, fun i hi => (h4 i (by omega)).trans (hc.bits i hi), h5⟩
  · exact Or.inr (Or.inl e)
  · refine Or.inr (Or.inr ⟨b', e, e', by omega, by rw [h2]; have := hc.len; omega, by rw [h1]; exact h2, fun i hi => (h3 i (by omega)).trans (hc.bits i hi), ?_⟩)
    intro j j1 j2
    by_cases hj : j < c.blocks.length
    · exact hc.granted j j1 hj
    · exact h4 j (by omega) (by omega)

/-- The loop of `Write` without failures, as a recursion. -/
def writeLoopM (mem : List (BitVec 8)) : Nat → Nat → Nat → Bitset w → M (Bitset w)
  | 0, _, _, b => pure b
  | k + 1, p, n, b => do
    let x ← rd mem p
    let b ← Bitset.appendBits b x (min n 8)
    writeLoopM mem k (p + 1) (n - min n 8) b

theorem writeLoopM_eq (mem : List (BitVec 8)) (k p n : Nat) (b : Bitset w) :
    (forUp p k (fun p (s : Bitset w × Nat) => do
      let bitToRead := min s.2 8
      let x ← rd mem p
      let b ← Bitset.appendBits s.1 x bitToRead
      pure (b, s.2 - bitToRead)) (b, n) >>= fun s => pure s.1) = writeLoopM mem k p n b := by
  induction k generalizing p n b with
  | zero => rfl
  | succ k ih =>
    simp only [forUp, writeLoopM]
    cases rd mem p with
    | error e => rfl
    | ok x =>
      simp only [ok_bind]
      cases Bitset.appendBits b x (min n 8) with
      | error e => rfl
      | ok b' => simp only [ok_bind, pure_ok]; exact ih _ _ _

theorem writeLoop_cases (h : IsBlockWidth w) (g : Grant) (mem : List (BitVec 8)) (k p n : Nat) {b c : Bitset w} (hc : Sound g b c) :
    (∃ b', writeLoop g mem k p n c = .thrown b' ∧ Broken g b b') ∨ (∃ e, writeLoop g mem k p n c = .fail e ∧ writeLoopM mem k p n c = .error e) ∨
      (∃ b', writeLoop g mem k p n c = .done b' () ∧ writeLoopM mem k p n c = .ok b' ∧ Sound g b b') := by
  induction k generalizing p n c with
  | zero => exact Or.inr (Or.inr ⟨c, rfl, rfl, hc⟩)
  | succ k ih =>
    simp only [writeLoop, writeLoopM]
    by_cases hp : p < mem.length
    · rw [X.bind_done (readByte_ok hp c), rd_ok hp]
      simp only [ok_bind]
      rcases hc.append h mem[p] (min n 8) with ⟨b', e, h1⟩ | ⟨e, e'⟩ | ⟨b', e, e', h1⟩
      · exact Or.inl ⟨b', X.bind_thrown e, h1⟩
      · right; left; exact ⟨.ub, X.bind_fail e, by rw [e']; rfl⟩
      · rw [X.bind_done e, e']; exact ih _ _ h1
    · right; left
      have : readByte mem p c = .fail .ub := by simp [readByte, rd_ub (Nat.le_of_not_lt hp)]
      exact ⟨.ub, X.bind_fail this, by rw [rd_ub (Nat.le_of_not_lt hp)]; rfl⟩

theorem writeHead_cases (h : IsBlockWidth w) (g : Grant) (mem : List (BitVec 8)) (seq : Sequence) (n : Nat) {b : Bitset w} (hb : Sound g b b) :
    (∃ b', writeHead g mem seq n b = .thrown b' ∧ Broken g b b') ∨
      (∃ e, writeHead g mem seq n b = .fail e ∧ Bitset.writeHead b mem seq n = .error e) ∨
      (∃ c p k, writeHead g mem seq n b = .done c (p, k) ∧ Bitset.writeHead b mem seq n = .ok (c, p, k) ∧ Sound g b c) := by
  unfold writeHead Bitset.writeHead
  by_cases h0 : (seq.bit != 0) = true
  · simp only [h0, if_true]
    by_cases hp : seq.ptr < mem.length
    · rw [X.bind_done (readByte_ok hp b), rd_ok hp]
      simp only [ok_bind]
      rcases hb.append h (((mem[seq.ptr] &&& (~~~((1#32 <<< seq.bit) - 1#32)).setWidth 8).setWidth (promoted w)) >>> seq.bit) (min n (8 - seq.bit)) with
        ⟨b', e, h1⟩ | ⟨e, e'⟩ | ⟨b', e, e', h1⟩
      · exact Or.inl ⟨b', X.bind_thrown e, h1⟩
      · right; left; exact ⟨.ub, X.bind_fail e, by rw [e']; rfl⟩
      · right; right; rw [X.bind_done e, e']; exact ⟨b', _, _, rfl, rfl, h1⟩
    · right; left
      have : readByte mem seq.ptr b = .fail .ub := by simp [readByte, rd_ub (Nat.le_of_not_lt hp)]
      exact ⟨.ub, X.bind_fail this, by rw [rd_ub (Nat.le_of_not_lt hp)]; rfl⟩
  · simp only [h0]
    exact Or.inr (Or.inr ⟨b, _, _, rfl, rfl, hb⟩)

theorem write_cases (h : IsBlockWidth w) (g : Grant) (mem : List (BitVec 8)) (seq : Sequence) (n : Nat) {b : Bitset w} (hl : b.blocks.length = nb w b.bitCount) :
    (∃ b', write g mem seq n b = .thrown b' ∧ Broken g b b') ∨ (∃ e, write g mem seq n b = .fail e ∧ Bitset.write b mem seq n = .error e) ∨
      (∃ b' r, write g mem seq n b = .done b' r ∧ Bitset.write b mem seq n = .ok (b', r) ∧ Sound g b b') := by
  have hb := Sound.refl g b hl
  unfold write Bitset.write
  by_cases hbit : seq.bit < 8
  · simp only [hbit, decide_true, X.assert_true, assert_true, pure_ok, ok_bind]
    rw [X.pure_bind']
    rcases writeHead_cases h g mem seq n hb with ⟨b', e, h1⟩ | ⟨e, e1, e2⟩ | ⟨c, p, k, e1, e2, h1⟩
    · exact Or.inl ⟨b', X.bind_thrown e, h1⟩
    · right; left; exact ⟨e, X.bind_fail e1, by rw [e2]; rfl⟩
    · rw [X.bind_done e1, e2]
      simp only [ok_bind]
      have hM := writeLoopM_eq mem (seq.ptr + (if (seq.bit + n != 0) = true then (seq.bit + n - 1) / 8 else 0) + 1 - p) p k c
      simp only [pure_ok] at hM
      rcases writeLoop_cases h g mem (seq.ptr + (if (seq.bit + n != 0) = true then (seq.bit + n - 1) / 8 else 0) + 1 - p) p k h1 with ⟨b', e, h2⟩ | ⟨e, e3, e4⟩ | ⟨b', e3, e4, h2⟩
      · exact Or.inl ⟨b', X.bind_thrown e, h2⟩
      · right; left
        refine ⟨e, X.bind_fail e3, ?_⟩
        rw [e4] at hM
        revert hM
        cases forUp p (seq.ptr + (if (seq.bit + n != 0) = true then (seq.bit + n - 1) / 8 else 0) + 1 - p) (fun p (s : Bitset w × Nat) => do
          let bitToRead := min s.2 8
          let x ← rd mem p
          let b ← Bitset.appendBits s.1 x bitToRead
          .ok (b, s.2 - bitToRead)) (c, k) with
        | error x => intro hM; simp only [err_bind] at hM ⊢; injection hM with hM; rw [hM]
        | ok r => intro hM; cases hM
      · right; right
        refine ⟨b', _, X.bind_done e3, ?_, h2⟩
        rw [e4] at hM
        revert hM
        cases forUp p (seq.ptr + (if (seq.bit + n != 0) = true then (seq.bit + n - 1) / 8 else 0) + 1 - p) (fun p (s : Bitset w × Nat) => do
          let bitToRead := min s.2 8
          let x ← rd mem p
          let b ← Bitset.appendBits s.1 x bitToRead
          .ok (b, s.2 - bitToRead)) (c, k) with
        | error x => intro hM; cases hM
        | ok r => intro hM; simp only [ok_bind] at hM ⊢; injection hM with hM; rw [hM]
  · right; left
    simp only [hbit, decide_false, X.assert_false, assert_false]
    exact ⟨.assert, rfl, rfl⟩

end Verif.BitsetAlloc
