import Verif.Hash.PropsCall
import Verif.Hash.PropsCheck
import Verif.Hash.ThreeBits

/-!
# Property C166: CRC32 and three changed bits
-/

namespace Verif.Hash
open Verif.Cpp

private theorem crc_eq (data : List Byte) : crc32Buffer data data.length = .ok (crcSpec data) := by
  rw [C47_buffer _ _ (Nat.le_refl _), List.take_length]

private theorem bitsOf_length (a : List Byte) : (bitsOf a).length = 8 * a.length := by
  induction a with
  | nil => rfl
  | cons x a ih => rw [bitsOf_cons, List.length_append, ih]; simp; omega

private def P : BitVec 32 := 0xEDB88320#32

private theorem next_toNat (x : BitVec 32) : ThreeBits.next x.toNat = (lfsr x).toNat := by
  unfold lfsr crcBit
  show (x.toNat >>> 1) ^^^ ((x.toNat &&& 1) * 0xEDB88320) = _
  have h1 : x.toNat &&& 1 = (x.getLsbD 0).toNat := by
    rw [Nat.and_one_is_mod, BitVec.getLsbD, Nat.testBit_zero]
    rcases Nat.mod_two_eq_zero_or_one x.toNat with h | h <;> simp [h]
  rw [h1]
  cases x.getLsbD 0
  · simp
  · simp [BitVec.toNat_xor]

private theorem sequence_eq (n : Nat) : ThreeBits.sequence n = (lfsrN n P).toNat := by
  induction n with
  | zero => rfl
  | succ n ih => rw [ThreeBits.sequence, ih, next_toNat, lfsrN_add n 1]; rfl

private theorem fold_zeros (n : Nat) : ∀ r, (List.replicate n false).foldl crcBit r = lfsrN n r := by
  induction n with
  | zero => intro r; rfl
  | succ n ih => intro r; rw [List.replicate_succ, List.foldl_cons, ih]; rfl

private theorem crcBit_true (r : BitVec 32) : crcBit r true = lfsr r ^^^ P := by
  rw [crcBit_eq, lfsr_xor]
  congr 1

private theorem lfsrN_zero (n : Nat) : lfsrN n 0#32 = 0#32 := by
  induction n with
  | zero => rfl
  | succ n ih => rw [lfsrN, lfsr_zero, ih]

/-- A list of bits up to its first one. -/
private theorem first_one (l : List Bool) (n : Nat) (h : l.count true = n + 1) : ∃ k l', l = List.replicate k false ++ true :: l' ∧ l'.count true = n := by
  induction l with
  | nil => simp at h
  | cons b l ih =>
    cases b
    · obtain ⟨k, l', e, h'⟩ := ih (by simpa using h)
      exact ⟨k + 1, l', by rw [e]; rfl, h'⟩
    · exact ⟨0, l, rfl, by simpa using h⟩

private theorem no_one (l : List Bool) (h : l.count true = 0) : l = List.replicate l.length false := by
  rw [List.eq_replicate_iff]
  refine ⟨rfl, fun b hb => ?_⟩
  cases b
  · rfl
  · exact absurd hb (List.count_eq_zero.mp h)

/-- The register after three ones. -/
private theorem three (p i j k : Nat) :
    (List.replicate p false ++ true :: (List.replicate i false ++ true :: (List.replicate j false ++ true :: List.replicate k false))).foldl crcBit 0#32 =
      lfsrN k (lfsrN (i + j + 2) P ^^^ lfsrN (j + 1) P ^^^ P) := by
  have h0 : crcBit 0#32 true = P := by decide
  have hs : ∀ n x, lfsr (lfsrN n x) = lfsrN (n + 1) x := fun n x => by rw [lfsrN_add n 1]; rfl
  simp only [List.foldl_append, List.foldl_cons, fold_zeros, lfsrN_zero, h0]
  rw [crcBit_true, crcBit_true, hs, hs, lfsrN_xor (j + 1), ← lfsrN_add (i + 1) (j + 1), show i + 1 + (j + 1) = i + j + 2 by omega]

private theorem crc_diff (a b : List Byte) (hl : a.length = b.length) :
    crcSpec a = crcSpec b ↔ (List.zipWith (· != ·) (bitsOf a) (bitsOf b)).foldl crcBit 0#32 = 0#32 := by
  have h := foldl_crcBit_xor (bitsOf a) (bitsOf b) (BitVec.allOnes 32) (BitVec.allOnes 32) (by rw [bitsOf_length, bitsOf_length, hl])
  rw [BitVec.xor_self] at h
  have e : (0 : BitVec 32) = 0#32 := rfl
  rw [h]
  unfold crcSpec crcRegister
  rw [BitVec.not_inj]
  constructor
  · intro h; rw [h, BitVec.xor_self]
  · intro h
    exact xor_left_cancel' (z := List.foldl crcBit (BitVec.allOnes 32) (bitsOf b)) (by rw [h, BitVec.xor_self])

/-- C166: CRC32 tells apart any two messages of the same length, of up to 11454 bytes, that differ in exactly three bits. -/
theorem C166_three (a b : List Byte) (hl : a.length = b.length) (h3 : differingBits a b = 3) (hn : a.length ≤ 11454) :
    ∃ x y, crc32Buffer a a.length = .ok x ∧ crc32Buffer b b.length = .ok y ∧ x ≠ y := by
  refine ⟨_, _, crc_eq _, crc_eq _, ?_⟩
  rw [Ne, crc_diff a b hl]
  have hlen : (List.zipWith (· != ·) (bitsOf a) (bitsOf b)).length = 8 * a.length := by
    rw [List.length_zipWith, bitsOf_length, bitsOf_length, hl, Nat.min_self]
  unfold differingBits at h3
  generalize List.zipWith (· != ·) (bitsOf a) (bitsOf b) = l at h3 hlen
  obtain ⟨p, l1, rfl, h2⟩ := first_one l 2 h3
  obtain ⟨i, l2, rfl, h1⟩ := first_one l1 1 h2
  obtain ⟨j, l3, rfl, h0⟩ := first_one l2 0 h1
  rw [no_one l3 h0, three]
  simp only [List.length_append, List.length_cons, List.length_replicate] at hlen
  intro e
  have e := lfsrN_injective l3.length _ _ (e.trans (lfsrN_zero _).symm)
  have e' : lfsrN (i + j + 2) P ^^^ lfsrN (j + 1) P = P := by
    apply xor_left_cancel' (z := P)
    rw [e, BitVec.xor_self]
  apply ThreeBits.no_sum (i + j + 2) (j + 1) (by omega) (by omega)
  rw [sequence_eq, sequence_eq, sequence_eq, ← BitVec.toNat_xor, e']
  rfl

private theorem bitsOf_zeros (n : Nat) : bitsOf (List.replicate n 0#8) = List.replicate (8 * n) false := by
  induction n with
  | zero => rfl
  | succ n ih =>
    rw [List.replicate_succ, bitsOf_cons, ih, show 8 * (n + 1) = 8 + 8 * n by omega, ← List.replicate_append_replicate]
    congr 1

private theorem changed_length (a : List Byte) (d : List Byte) (h : a.length = d.length) : (changed a d).length = a.length := by
  rw [changed, List.length_zipWith, h, Nat.min_self]

private theorem diff_changed (a : List Byte) : ∀ d : List Byte, a.length = d.length → List.zipWith (· != ·) (bitsOf a) (bitsOf (changed a d)) = bitsOf d := by
  induction a with
  | nil => intro d h; rw [List.length_eq_zero_iff.mp h.symm]; rfl
  | cons x a ih =>
    intro d h
    cases d with
    | nil => simp at h
    | cons y d =>
      simp only [List.length_cons, Nat.add_right_cancel_iff] at h
      show List.zipWith _ _ (bitsOf ((x ^^^ y) :: changed a d)) = _
      rw [bitsOf_cons, bitsOf_cons, bitsOf_cons, List.zipWith_append (by simp), ih d h]
      congr 1
      simp [List.zipWith_map]

private theorem bits_lists : bitsOf [1#8] = true :: List.replicate 7 false ∧ bitsOf [2#8] = [false] ++ true :: List.replicate 6 false ∧ bitsOf [0x80#8] = List.replicate 7 false ++ [true] := by decide

private theorem join (m n : Nat) (l : List Bool) : List.replicate m false ++ (List.replicate n false ++ l) = List.replicate (m + n) false ++ l := by
  rw [← List.append_assoc, List.replicate_append_replicate]

private theorem bits_three (m k n : Nat) :
    bitsOf ([1#8] ++ (List.replicate m 0#8 ++ ([2#8] ++ (List.replicate k 0#8 ++ ([0x80#8] ++ List.replicate n 0#8))))) =
      List.replicate 0 false ++ true :: (List.replicate (8 * m + 8) false ++ true :: (List.replicate (8 * k + 13) false ++ true :: List.replicate (8 * n) false)) := by
  obtain ⟨h1, h2, h3⟩ := bits_lists
  rw [bitsOf_append, bitsOf_append, bitsOf_append, bitsOf_append, bitsOf_append, bitsOf_zeros, bitsOf_zeros, bitsOf_zeros, h1, h2, h3]
  have e1 : [false] = List.replicate 1 false := rfl
  rw [e1]
  simp only [List.cons_append, List.append_assoc, List.nil_append, List.replicate_zero, join]
  rw [show 7 + (8 * m + 1) = 8 * m + 8 by omega, show 6 + (8 * k + 7) = 8 * k + 13 by omega]

/-- C166: longer messages do not have this protection: each message of at least 11455 bytes has another one that differs in three bits and has the same CRC32. -/
theorem C166_limit (a : List Byte) (hn : 11455 ≤ a.length) :
    ∃ b x, a.length = b.length ∧ differingBits a b = 3 ∧ crc32Buffer a a.length = .ok x ∧ crc32Buffer b b.length = .ok x := by
  obtain ⟨m, k, n, hn, hm, hk⟩ : ∃ m k n, a.length = 1 + (m + (1 + (k + (1 + n)))) ∧ m = 6244 ∧ k = 5208 := ⟨6244, 5208, a.length - 11455, by omega, rfl, rfl⟩
  have hd : a.length = ([1#8] ++ (List.replicate m 0#8 ++ ([2#8] ++ (List.replicate k 0#8 ++ ([0x80#8] ++ List.replicate n 0#8))))).length := by
    simp only [List.length_append, List.length_replicate, List.length_singleton]; exact hn
  have hb := bits_three m k n
  generalize ([1#8] ++ (List.replicate m 0#8 ++ ([2#8] ++ (List.replicate k 0#8 ++ ([0x80#8] ++ List.replicate n 0#8)))) : List Byte) = d at hd hb
  have hc := (changed_length a d hd).symm
  refine ⟨changed a d, _, hc, ?_, crc_eq _, ?_⟩
  · unfold differingBits
    rw [diff_changed a d hd, hb]
    simp [List.count_replicate]
  · rw [crc_eq]
    congr 1
    symm
    rw [crc_diff a _ hc, diff_changed a d hd, hb, three]
    have e : lfsrN (8 * m + 8 + (8 * k + 13) + 2) P ^^^ lfsrN (8 * k + 13 + 1) P = P := by
      apply BitVec.eq_of_toNat_eq
      rw [BitVec.toNat_xor, ← sequence_eq, ← sequence_eq, show 8 * m + 8 + (8 * k + 13) + 2 = 91639 by omega, show 8 * k + 13 + 1 = 41678 by omega, ThreeBits.sum, sequence_eq]
      rfl
    rw [e, BitVec.xor_self, lfsrN_zero]

/-- C166: a message sent together with its CRC32, as a receiver checks it by the CRC32 of everything received: no change of three bits, in the message or in the CRC32, passes the check as long as the two together have at most 11454 bytes. -/
theorem C166_received (a b : List Byte) (x : BitVec 32) (ha : crc32Buffer a a.length = .ok x) (hl : (a ++ littleEndian x).length = b.length)
    (h3 : differingBits (a ++ littleEndian x) b = 3) (hn : b.length ≤ 11454) : crc32Buffer b b.length ≠ .ok 0x2144DF1C#32 := by
  obtain ⟨u, v, hu, hv, huv⟩ := C166_three _ b hl h3 (by omega)
  obtain ⟨crc, hc, hr⟩ := C164_residue a
  obtain rfl : crc = x := by rw [hc] at ha; injection ha
  intro h
  rw [hr] at hu
  rw [h] at hv
  injection hu with hu
  injection hv with hv
  exact huv (hu.symm.trans hv)

example : differingBits [0x61#8, 0x62#8] [0x63#8, 0x61#8] = 3 := by decide

end Verif.Hash
