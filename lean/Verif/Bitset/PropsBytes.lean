import Verif.Bitset.PropsExact

/-!
# C08: the bytes that `Write` reads
-/

namespace Verif.Bitset
open Verif.Cpp

variable {w : Nat}

/-- The loop of `Write`. -/
def writeBytes (mem : List (BitVec 8)) (p k : Nat) (s : Bitset w × Nat) : M (Bitset w × Nat) :=
  forUp p k (fun p (s : Bitset w × Nat) => do
    let bitToRead := min s.2 8
    let x ← rd mem p
    let b ← appendBits s.1 x bitToRead
    pure (b, s.2 - bitToRead)) s

theorem write_eq (b : Bitset w) (mem : List (BitVec 8)) (seq : Sequence) (n : Nat) : write b mem seq n =
    (do
      assert (seq.bit < 8)
      let r ← writeHead b mem seq n
      let s ← writeBytes mem r.2.1 (seq.ptr + (if seq.bit + n != 0 then (seq.bit + n - 1) / 8 else 0) + 1 - r.2.1) (r.1, r.2.2)
      pure (s.1, ⟨seq.ptr + (if seq.bit + n != 0 then (seq.bit + n - 1) / 8 else 0) + (if (seq.bit + n) % 8 != 0 then 0 else 1), (seq.bit + n) % 8⟩)) := rfl

theorem writeBytes_ok (mem : List (BitVec 8)) (p k : Nat) (s r : Bitset w × Nat) (h : writeBytes mem p k s = .ok r) (hk : 0 < k) : p + k ≤ mem.length := by
  induction k generalizing p s with
  | zero => omega
  | succ k ih =>
    unfold writeBytes at h
    simp only [forUp] at h
    by_cases hp : p < mem.length
    · by_cases hk0 : k = 0
      · omega
      · rw [rd_ok hp] at h
        simp only [ok_bind] at h
        cases ha : appendBits s.1 mem[p] (min s.2 8) with
        | error e => rw [ha] at h; simp at h
        | ok b =>
          rw [ha] at h
          have := ih (p + 1) (b, s.2 - min s.2 8) h (by omega)
          omega
    · rw [rd_ub (Nat.le_of_not_lt hp)] at h
      simp at h

theorem writeBytes_congr (mem mem' : List (BitVec 8)) (p k : Nat) (s : Bitset w × Nat) (h : ∀ i, p ≤ i → i < p + k → mem[i]? = mem'[i]?) : writeBytes mem p k s = writeBytes mem' p k s := by
  induction k generalizing p s with
  | zero => rfl
  | succ k ih =>
    unfold writeBytes
    simp only [forUp]
    have hr : rd mem p = rd mem' p := by unfold rd; rw [h p (by omega) (by omega)]
    rw [hr]
    cases rd mem' p with
    | error e => rfl
    | ok x =>
      simp only [ok_bind]
      cases appendBits s.1 x (min s.2 8) with
      | error e => rfl
      | ok b => exact ih (p + 1) (b, s.2 - min s.2 8) (fun i h1 h2 => h i (by omega) (by omega))

/-- The only failure is undefined behaviour. -/
def UbOnly {α : Type} (m : M α) : Prop := ∀ e, m = .error e → e = .ub

theorem UbOnly.pure {α : Type} (a : α) : UbOnly (pure a : M α) := by intro e h; cases h

theorem UbOnly.ok {α : Type} (a : α) : UbOnly (.ok a : M α) := by intro e h; cases h

theorem UbOnly.ub {α : Type} : UbOnly (.error .ub : M α) := by intro e h; injection h with h; exact h.symm

theorem UbOnly.bind {α β : Type} {m : M α} {f : α → M β} (h : UbOnly m) (hf : ∀ a, UbOnly (f a)) : UbOnly (m >>= f) := by
  intro e he
  cases m with
  | error e' => exact h e (by simpa using he)
  | ok a => exact hf a e he

theorem UbOnly.forUp {σ : Type} {f : Nat → σ → M σ} (hf : ∀ i s, UbOnly (f i s)) (lo n : Nat) (s : σ) : UbOnly (Cpp.forUp lo n f s) := by
  induction n generalizing lo s with
  | zero => exact UbOnly.ok s
  | succ n ih =>
    unfold Cpp.forUp
    have := hf lo s
    cases h : f lo s with
    | error e => rw [h] at this; rw [this e rfl]; exact UbOnly.ub
    | ok s' => exact ih _ _

theorem UbOnly.rd {α : Type} (l : List α) (i : Nat) : UbOnly (Cpp.rd l i) := by
  unfold Cpp.rd; split
  · exact UbOnly.ok _
  · exact UbOnly.ub

theorem UbOnly.wr {α : Type} (l : List α) (i : Nat) (x : α) : UbOnly (Cpp.wr l i x) := by
  unfold Cpp.wr; split
  · exact UbOnly.ok _
  · exact UbOnly.ub

theorem UbOnly.guard (c : Bool) : UbOnly (guardUB c) := by
  unfold guardUB; split
  · exact UbOnly.ok _
  · exact UbOnly.ub

theorem UbOnly.shiftOut {t : Nat} (v : BitVec t) (k : Nat) : UbOnly (shiftOut v k) := by
  unfold Bitset.shiftOut; split
  · next h => rw [shr_ok _ h]; exact UbOnly.ok _
  · exact UbOnly.pure _

theorem appendBits_ubOnly {t : Nat} (b : Bitset w) (v : BitVec t) (n : Nat) : UbOnly (appendBits b v n) := by
  unfold appendBits
  refine UbOnly.bind ?_ (fun s => UbOnly.bind ?_ (fun _ => UbOnly.pure _))
  · unfold appendHead
    dsimp only
    split
    · refine UbOnly.bind (.guard _) (fun _ => UbOnly.bind (.rd _ _) (fun _ => UbOnly.bind ?_ (fun _ => UbOnly.bind (.wr _ _ _) (fun _ => UbOnly.bind (.shiftOut _ _) (fun _ => UbOnly.pure _)))))
      exact UbOnly.bind (.guard _) (fun _ => UbOnly.pure _)
    · exact UbOnly.pure _
  · unfold appendTail
    split
    · exact UbOnly.bind (UbOnly.forUp (fun _ _ => UbOnly.bind (.shiftOut _ _) (fun _ => UbOnly.pure _)) _ _ _) (fun _ => UbOnly.bind (.guard _) (fun _ => UbOnly.pure _))
    · exact UbOnly.pure _

theorem writeBytes_ubOnly (mem : List (BitVec 8)) (p k : Nat) (s : Bitset w × Nat) : UbOnly (writeBytes mem p k s) :=
  UbOnly.forUp (fun _ _ => UbOnly.bind (.rd _ _) (fun _ => UbOnly.bind (appendBits_ubOnly _ _ _) (fun _ => UbOnly.pure _))) _ _ _

theorem writeHead_ubOnly (b : Bitset w) (mem : List (BitVec 8)) (seq : Sequence) (n : Nat) : UbOnly (writeHead b mem seq n) := by
  unfold writeHead
  split
  · exact UbOnly.bind (.rd _ _) (fun _ => UbOnly.bind (appendBits_ubOnly _ _ _) (fun _ => UbOnly.pure _))
  · exact UbOnly.pure _

/-- Where the head of `Write` leaves the position. -/
theorem writeHead_pos (b : Bitset w) (mem : List (BitVec 8)) (seq : Sequence) (n : Nat) {r : Bitset w × Nat × Nat} (he : writeHead b mem seq n = .ok r) :
    (seq.bit = 0 ∧ r.2.1 = seq.ptr) ∨ (seq.bit ≠ 0 ∧ r.2.1 = seq.ptr + 1 ∧ seq.ptr < mem.length) := by
  unfold writeHead at he
  split at he
  · next hz =>
    right
    refine ⟨by simpa using hz, ?_⟩
    by_cases hp : seq.ptr < mem.length
    · rw [rd_ok hp] at he
      simp only [ok_bind] at he
      cases h2 : appendBits b (((mem[seq.ptr] &&& (~~~((1#32 <<< seq.bit) - 1#32)).setWidth 8).setWidth (promoted w)) >>> seq.bit) (min n (8 - seq.bit)) with
      | error e => rw [h2] at he; simp at he
      | ok b' => rw [h2] at he; simp at he; rw [← he]; exact ⟨rfl, hp⟩
    · rw [rd_ub (Nat.le_of_not_lt hp)] at he; simp at he
  · next hz =>
    left
    simp at hz he
    rw [← he]
    exact ⟨hz, rfl⟩

theorem write_bound (b : Bitset w) (mem : List (BitVec 8)) (seq : Sequence) (n : Nat) {r : Bitset w × Sequence} (he : write b mem seq n = .ok r) :
    seq.ptr + (if seq.bit + n != 0 then (seq.bit + n - 1) / 8 else 0) < mem.length := by
  rw [write_eq] at he
  generalize hq : (if seq.bit + n != 0 then (seq.bit + n - 1) / 8 else 0) = q at he ⊢
  by_cases hbit : seq.bit < 8
  · simp only [hbit, decide_true, assert_true, ok_bind] at he
    cases h1 : writeHead b mem seq n with
    | error e => rw [h1] at he; simp at he
    | ok r =>
      rw [h1] at he
      simp only [ok_bind] at he
      have hp := writeHead_pos b mem seq n h1
      cases h2 : writeBytes mem r.2.1 (seq.ptr + q + 1 - r.2.1) (r.1, r.2.2) with
      | error e => rw [h2] at he; simp at he
      | ok s =>
        by_cases hk : 0 < seq.ptr + q + 1 - r.2.1
        · have := writeBytes_ok mem _ _ _ _ h2 hk
          rcases hp with ⟨_, hp⟩ | ⟨_, hp, _⟩ <;> omega
        · rcases hp with ⟨_, hp⟩ | ⟨_, hp, hx⟩ <;> omega
  · simp [hbit] at he

/-- The number of bytes in which the `n` bits from bit `bit` of the first byte on lie. -/
def bytesOf (bit n : Nat) : Nat := (bit + n + 7) / 8

/-- C08: `Write` of at least one bit reads all bytes in which the bits lie (it is undefined if one of them does not exist), and succeeds if they exist.  With a
position at a byte boundary these are `ceil(n / 8)` bytes. -/
theorem C08_reads (h : IsBlockWidth w) {b : Bitset w} (hb : Reachable b) (mem : List (BitVec 8)) (seq : Sequence) (hbit : seq.bit < 8) (n : Nat) (hn : 0 < n) :
    ((∃ r, write b mem seq n = .ok r) ↔ seq.ptr + bytesOf seq.bit n ≤ mem.length) ∧ (mem.length < seq.ptr + bytesOf seq.bit n → write b mem seq n = .error .ub) := by
  have h0 : (seq.bit + n != 0) = true := by simp; omega
  have h1 : ∀ r, write b mem seq n = .ok r → seq.ptr + bytesOf seq.bit n ≤ mem.length := by
    intro r he
    have := write_bound b mem seq n he
    simp only [h0, if_true] at this
    unfold bytesOf
    omega
  refine ⟨⟨fun ⟨r, he⟩ => h1 r he, fun hm => ?_⟩, fun hm => ?_⟩
  · obtain ⟨σ, τ, k, hv, hr, hk⟩ := hb
    obtain ⟨b', e, _⟩ := write_gen h b (Reachable.wf h ⟨σ, τ, k, hv, hr, hk⟩) mem seq n hbit hn (by unfold bytesOf at hm; omega)
    exact ⟨_, e⟩
  · have hu : UbOnly (write b mem seq n) := by
      rw [write_eq]
      refine UbOnly.bind (by simp only [hbit, decide_true, assert_true]; exact UbOnly.ok _) (fun _ => UbOnly.bind (writeHead_ubOnly _ _ _ _) (fun _ => UbOnly.bind (writeBytes_ubOnly _ _ _ _) (fun _ => UbOnly.pure _)))
    cases he : write b mem seq n with
    | ok r => have := h1 r he; omega
    | error e => rw [hu e he]

/-- C08: `Write` depends on no other bytes. -/
theorem C08_reads_only (b : Bitset w) (mem mem' : List (BitVec 8)) (seq : Sequence) (n : Nat) (hn : 0 < n)
    (h : ∀ i, seq.ptr ≤ i → i < seq.ptr + bytesOf seq.bit n → mem[i]? = mem'[i]?) : write b mem seq n = write b mem' seq n := by
  unfold bytesOf at h
  have h0 : (seq.bit + n != 0) = true := by simp; omega
  rw [write_eq, write_eq]
  simp only [h0, if_true]
  by_cases hz : (seq.bit != 0) = true
  · have hr : rd mem seq.ptr = rd mem' seq.ptr := by unfold rd; rw [h seq.ptr (by omega) (by omega)]
    have hh : writeHead b mem seq n = writeHead b mem' seq n := by unfold writeHead; simp only [hz, if_true, hr]
    rw [hh]
    cases he : writeHead b mem' seq n with
    | error e => rfl
    | ok r =>
      have hp : r.2.1 = seq.ptr + 1 := by
        unfold writeHead at he
        simp only [hz, if_true] at he
        cases h1 : rd mem' seq.ptr with
        | error e => rw [h1] at he; simp at he
        | ok x =>
          rw [h1] at he
          simp only [ok_bind] at he
          cases h2 : appendBits b (((x &&& (~~~((1#32 <<< seq.bit) - 1#32)).setWidth 8).setWidth (promoted w)) >>> seq.bit) (min n (8 - seq.bit)) with
          | error e => rw [h2] at he; simp at he
          | ok b' => rw [h2] at he; simp at he; rw [← he]
      simp only [ok_bind]
      rw [writeBytes_congr mem mem' _ _ _ (fun i h1 h2 => h i (by omega) (by omega))]
  · have hh : writeHead b mem seq n = .ok (b, seq.ptr, n) := by unfold writeHead; simp only [hz]; rfl
    have hh' : writeHead b mem' seq n = .ok (b, seq.ptr, n) := by unfold writeHead; simp only [hz]; rfl
    rw [hh, hh']
    simp only [ok_bind]
    rw [writeBytes_congr mem mem' _ _ _ (fun i h1 h2 => h i (by omega) (by omega))]

/-- C08 fails for `n = 0`: a byte is read although no bit is asked for, wherever the position is; if it does not exist the call is undefined.  If the position is inside the byte and the last block of the
bitset is not full, the bits that follow the position get into this block: `Count` counts them. -/
theorem C08_zero_reads_violated (h : IsBlockWidth w) {b : Bitset w} (hb : Reachable b) {l : List Bool} (hl : Shows b l) (mem : List (BitVec 8)) (seq : Sequence) (hbit : seq.bit < 8) :
    (mem.length ≤ seq.ptr → write b mem seq 0 = .error .ub) ∧
    (∀ j, seq.ptr < mem.length → 0 < seq.bit → seq.bit + j < 8 → l.length % w ≠ 0 → j < w - l.length % w → Seq.streamBit mem seq.ptr (seq.bit + j) = true →
      ∃ b' c, write b mem seq 0 = .ok (b', seq) ∧ Shows b' l ∧ count b' = .ok c ∧ l.count true < c) := by
  constructor
  · intro hm
    have hu : UbOnly (write b mem seq 0) := by
      rw [write_eq]
      refine UbOnly.bind (by simp only [hbit, decide_true, assert_true]; exact UbOnly.ok _) (fun _ => UbOnly.bind (writeHead_ubOnly _ _ _ _) (fun _ => UbOnly.bind (writeBytes_ubOnly _ _ _ _) (fun _ => UbOnly.pure _)))
    cases he : write b mem seq 0 with
    | ok r => have := write_bound b mem seq 0 he; omega
    | error e => rw [hu e he]
  · intro j hm hpos hj hlw hjw hs
    have hv : ((((mem[seq.ptr] &&& (~~~((1#32 <<< seq.bit) - 1#32)).setWidth 8).setWidth (promoted w)) >>> seq.bit)).getLsbD j = true := by
      have h8 : seq.bit + j < promoted w := Nat.lt_of_lt_of_le hj (by unfold promoted; omega)
      rw [BitVec.getLsbD_ushiftRight, BitVec.getLsbD_setWidth, BitVec.getLsbD_and, high_mask_bit _ _ hbit hj]
      have hb : mem[seq.ptr].getLsbD (seq.bit + j) = true := by
        unfold Seq.streamBit at hs
        rwa [show (seq.bit + j) / 8 = 0 by omega, show (seq.bit + j) % 8 = seq.bit + j by omega, Nat.add_zero, List.getD_eq_getElem _ _ hm] at hs
      simp [h8, hb]
    obtain ⟨b', c, e, h1, h2, h3⟩ := C07_stray_bits_violated h hb hl (((mem[seq.ptr] &&& (~~~((1#32 <<< seq.bit) - 1#32)).setWidth 8).setWidth (promoted w)) >>> seq.bit) 0 (Or.inr (Or.inl (by simpa using hlw))) j hlw (Nat.zero_le _) hjw hv
    have hz : (seq.bit != 0) = true := by simp; omega
    have h0 : (seq.bit + 0 != 0) = true := by simp; omega
    refine ⟨b', c, ?_, by simpa [Seq.lowBits] using h1, h2, by simpa [Seq.lowBits] using h3⟩
    rw [write_eq]
    have hh : writeHead b mem seq 0 = .ok (b', seq.ptr + 1, 0) := by
      unfold writeHead
      simp only [hz, if_true, rd_ok hm, ok_bind, Nat.zero_min, e]
      rfl
    simp only [hbit, decide_true, assert_true, ok_bind, hh, h0, if_true]
    rw [show seq.ptr + (seq.bit + 0 - 1) / 8 + 1 - (seq.ptr + 1) = 0 by omega]
    simp only [writeBytes, forUp, ok_bind]
    obtain ⟨p, q⟩ := seq
    simp only at hbit hpos hz ⊢
    have : (q + 0) % 8 = q := by omega
    have hq : (q != 0) = true := hz
    rw [this, hq]
    simp only [if_true]
    rw [show (q + 0 - 1) / 8 = 0 by omega]
    rfl

/-! Examples -/

/-- 9 bits from bit 3 of byte 1 on lie in two bytes. -/
example : (∃ r, write (empty : Bitset 8) [0x00#8, 0xF8#8, 0x0F#8] ⟨1, 3⟩ 9 = .ok r) ∧ write (empty : Bitset 8) [0x00#8, 0xF8#8] ⟨1, 3⟩ 9 = .error .ub := by
  have hb : Reachable (empty : Bitset 8) := ⟨[], _, 0, trivial, rfl, rfl⟩
  exact ⟨(C08_reads ⟨3, rfl⟩ hb _ ⟨1, 3⟩ (by decide) 9 (by decide)).1.mpr (by decide), (C08_reads ⟨3, rfl⟩ hb _ ⟨1, 3⟩ (by decide) 9 (by decide)).2 (by decide)⟩

/-- Zero bits from bit 3 of a byte on, on a bitset of three bits: the hypotheses of the second part are met, `Count` is wrong afterwards. -/
example : ∃ (b b' : Bitset 8) (c : Nat), Shows b [true, false, true] ∧ write b [0xF8#8] ⟨0, 3⟩ 0 = .ok (b', ⟨0, 3⟩) ∧ Shows b' [true, false, true] ∧ count b' = .ok c ∧ 2 < c := by
  obtain ⟨b, hb, hl⟩ := C01_reachable_all (w := 8) ⟨3, rfl⟩ [true, false, true]
  obtain ⟨b', c, h1, h2, h3, h4⟩ := (C08_zero_reads_violated ⟨3, rfl⟩ hb hl [0xF8#8] ⟨0, 3⟩ (by decide)).2 0 (by decide) (by decide) (by decide) (by decide) (by decide) (by decide)
  exact ⟨b, b', c, hl, h1, h2, h3, h4⟩

end Verif.Bitset
