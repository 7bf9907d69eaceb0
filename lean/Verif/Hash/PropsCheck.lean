import Verif.Hash.Props

/-!
# Property C164: messages followed by their CRC32

A receiver may compute the CRC32 of a message together with the CRC32 that follows it, instead of comparing the two.
-/

namespace Verif.Hash
open Verif.Cpp

private theorem crc_eq (data : List Byte) : crc32Buffer data data.length = .ok (crcSpec data) := by
  rw [C47_buffer _ _ (Nat.le_refl _), List.take_length]

private theorem word_getLsbD (bs : List Bool) : ∀ i, bs.length ≤ 32 → (word bs).getLsbD i = (bs[i]?).getD false := by
  induction bs with
  | nil => intro i _; simp [word]
  | cons b bs ih =>
    intro i h
    simp only [List.length_cons] at h
    rw [word, BitVec.getLsbD_xor, BitVec.getLsbD_shiftLeft]
    cases i with
    | zero => cases b <;> simp
    | succ i =>
      rw [Nat.add_sub_cancel, ih i (by omega)]
      have h1 : (if b = true then 1#32 else 0#32).getLsbD (i + 1) = false := by cases b <;> simp [BitVec.getLsbD_one]
      rw [h1]
      by_cases hi : i < 31
      · have : i + 1 < 32 := by omega
        simp [this]
      · simp [show ¬ i + 1 < 32 by omega]
        rw [List.getElem?_eq_none (by omega)]; rfl

private theorem bitsOf_littleEndian (v : BitVec 32) : bitsOf (littleEndian v) = (List.range 32).map v.getLsbD := by
  simp only [bitsOf, littleEndian, List.range, List.range.loop, List.map_cons, List.map_nil, List.flatMap_cons, List.flatMap_nil, BitVec.getLsbD_extractLsb']
  simp

private theorem word_littleEndian (v : BitVec 32) : word (bitsOf (littleEndian v)) = v := by
  rw [bitsOf_littleEndian]
  apply BitVec.eq_of_getLsbD_eq
  intro i hi
  rw [word_getLsbD _ _ (by simp)]
  simp [hi]

private theorem bitsOf_length (a : List Byte) : (bitsOf a).length = 8 * a.length := by
  induction a with
  | nil => rfl
  | cons x a ih => rw [bitsOf_cons, List.length_append, ih]; simp; omega

private theorem bitsOf_injective (a : List Byte) : ∀ b : List Byte, bitsOf a = bitsOf b → a = b := by
  induction a with
  | nil =>
    intro b h
    have := congrArg List.length h
    rw [bitsOf_length, bitsOf_length] at this
    cases b with
    | nil => rfl
    | cons => simp at this
  | cons x a ih =>
    intro b h
    cases b with
    | nil =>
      have := congrArg List.length h
      rw [bitsOf_length, bitsOf_length] at this
      simp at this
    | cons y b =>
      rw [bitsOf_cons, bitsOf_cons] at h
      have h2 := List.append_inj h (by simp)
      rw [ih b h2.2]
      congr 1
      apply BitVec.eq_of_getLsbD_eq
      intro i hi
      have := congrArg (fun l : List Bool => l[i]?) h2.1
      simpa [hi] using this

/-- The register after a message with four bytes in it. -/
private theorem register_four (pre s post : List Byte) (hs : s.length = 4) :
    crcRegister (bitsOf (pre ++ s ++ post)) = (bitsOf post).foldl crcBit (lfsrN 32 (crcRegister (bitsOf pre) ^^^ word (bitsOf s))) := by
  have hl : (bitsOf s).length = 32 := by rw [bitsOf_length, hs]
  unfold crcRegister
  rw [bitsOf_append, bitsOf_append, List.foldl_append, List.foldl_append, foldl_crcBit (bitsOf s) _ (by omega), hl]

/-- C164: the CRC32 of a message that is followed by its CRC32, least significant byte first, is the same for all messages. -/
theorem C164_residue (data : List Byte) : ∃ crc, crc32Buffer data data.length = .ok crc ∧
    crc32Buffer (data ++ littleEndian crc) (data ++ littleEndian crc).length = .ok 0x2144DF1C#32 := by
  refine ⟨crcSpec data, crc_eq _, ?_⟩
  rw [crc_eq, crcSpec]
  have := register_four data (littleEndian (crcSpec data)) [] rfl
  rw [List.append_nil] at this
  have hx : ∀ r : BitVec 32, r ^^^ ~~~r = BitVec.allOnes 32 := by
    intro r
    apply BitVec.eq_of_getLsbD_eq
    intro i hi
    rw [BitVec.getLsbD_xor, BitVec.getLsbD_not, BitVec.getLsbD_allOnes]
    cases r.getLsbD i <;> simp [hi]
  rw [this, word_littleEndian, crcSpec, hx]
  have hc : ~~~(lfsrN 32 (BitVec.allOnes 32)) = 0x2144DF1C#32 := by decide +kernel
  rw [← hc, show bitsOf [] = [] from rfl, List.foldl_nil]

/-- C164: wherever four bytes are in a message, each CRC32 is that of exactly one choice of these bytes. -/
theorem C164_four_bytes (pre post : List Byte) (target : BitVec 32) :
    ∃! s : List Byte, s.length = 4 ∧ crc32Buffer (pre ++ s ++ post) (pre ++ s ++ post).length = .ok target := by
  have hinj : Function.Injective (fun v : BitVec 32 => ~~~((bitsOf post).foldl crcBit (lfsrN 32 (crcRegister (bitsOf pre) ^^^ v)))) := by
    intro v v' h
    have h := BitVec.not_inj.mp h
    exact xor_right_cancel' (lfsrN_injective _ _ _ (foldl_crcBit_injective _ _ _ h))
  have : Finite (BitVec 32) := Finite.of_injective BitVec.toFin (fun _ _ h => BitVec.toFin_inj.mp h)
  obtain ⟨v, hv⟩ := (Finite.injective_iff_surjective.mp hinj) target
  refine ⟨littleEndian v, ⟨rfl, ?_⟩, ?_⟩
  · rw [crc_eq, crcSpec, register_four _ _ _ rfl, word_littleEndian]
    exact congrArg _ hv
  · rintro s ⟨hs, e⟩
    rw [crc_eq, crcSpec, register_four _ _ _ hs] at e
    have e' : word (bitsOf s) = v := hinj ((Except.ok.inj e).trans hv.symm)
    apply bitsOf_injective
    apply word_injective
    · rw [bitsOf_length, bitsOf_length, hs]; rfl
    · rw [bitsOf_length, hs]
    · rw [e', word_littleEndian]

/-- C164: so four bytes after a message pass this test exactly if they are its CRC32. -/
theorem C164_check (data s : List Byte) (hs : s.length = 4) :
    crc32Buffer (data ++ s) (data ++ s).length = .ok 0x2144DF1C#32 ↔ ∃ crc, crc32Buffer data data.length = .ok crc ∧ s = littleEndian crc := by
  obtain ⟨crc, e, h⟩ := C164_residue data
  constructor
  · intro h'
    refine ⟨crc, e, ?_⟩
    have u := C164_four_bytes data [] 0x2144DF1C#32
    exact u.unique ⟨hs, by rw [List.append_nil]; exact h'⟩ ⟨rfl, by rw [List.append_nil]; exact h⟩
  · rintro ⟨crc', e', rfl⟩
    rw [e] at e'
    rw [← Except.ok.inj e']
    exact h

/-- C164: texts that end alike have the same CRC32 or FNV-1a hashes exactly if what is before has. -/
theorem C164_suffix (a b post : List Byte) :
    (crc32Buffer (a ++ post) (a ++ post).length = crc32Buffer (b ++ post) (b ++ post).length ↔ crc32Buffer a a.length = crc32Buffer b b.length) ∧
    (fnv32Buffer (a ++ post) (a ++ post).length = fnv32Buffer (b ++ post) (b ++ post).length ↔ fnv32Buffer a a.length = fnv32Buffer b b.length) ∧
    (fnv64Buffer (a ++ post) (a ++ post).length = fnv64Buffer (b ++ post) (b ++ post).length ↔ fnv64Buffer a a.length = fnv64Buffer b b.length) := by
  refine ⟨?_, ?_, ?_⟩
  · simp only [crc_eq, Except.ok.injEq]
    unfold crcSpec crcRegister
    simp only [BitVec.not_inj, bitsOf_append, List.foldl_append]
    exact ⟨foldl_crcBit_injective _ _ _, fun h => by rw [h]⟩
  · simp only [fnv32Buffer, fnvBuffer_eq _ _ _ _ _ (Nat.le_refl _), List.take_length, Except.ok.injEq, List.foldl_append]
    exact ⟨foldl_fnv_injective _ _ prime32_inv _ _ _ _, fun h => by rw [h]⟩
  · simp only [fnv64Buffer, fnvBuffer_eq _ _ _ _ _ (Nat.le_refl _), List.take_length, Except.ok.injEq, List.foldl_append]
    exact ⟨foldl_fnv_injective _ _ prime64_inv _ _ _ _, fun h => by rw [h]⟩

/-- The register is linear in the bits and in its first value. -/
theorem foldl_crcBit_xor (u : List Bool) : ∀ (v : List Bool) (x y : BitVec 32), u.length = v.length →
    (List.zipWith (fun a b => a != b) u v).foldl crcBit (x ^^^ y) = u.foldl crcBit x ^^^ v.foldl crcBit y := by
  induction u with
  | nil => intro v x y h; cases v with
    | nil => rfl
    | cons => simp at h
  | cons a u ih =>
    intro v x y h
    cases v with
    | nil => simp at h
    | cons b v =>
      simp only [List.length_cons, Nat.add_right_cancel_iff] at h
      simp only [List.zipWith_cons_cons, List.foldl_cons]
      rw [← ih v _ _ h]
      congr 1
      rw [crcBit_eq, crcBit_eq, crcBit_eq, ← lfsr_xor]
      congr 1
      apply BitVec.eq_of_getLsbD_eq
      intro i hi
      cases a <;> cases b <;> simp
      all_goals (cases x.getLsbD i <;> cases y.getLsbD i <;> simp)

private theorem bitsOf_changed (a : List Byte) : ∀ d : List Byte, a.length = d.length →
    bitsOf (changed a d) = List.zipWith (fun a b => a != b) (bitsOf a) (bitsOf d) := by
  induction a with
  | nil => intro d _; cases d <;> rfl
  | cons x a ih =>
    intro d h
    cases d with
    | nil => simp at h
    | cons y d =>
      simp only [List.length_cons, Nat.add_right_cancel_iff] at h
      show bitsOf ((x ^^^ y) :: changed a d) = _
      rw [bitsOf_cons, bitsOf_cons, bitsOf_cons, ih d h, List.zipWith_append (by simp)]
      congr 1
      simp [List.zipWith_map]

/-- C164: the same bits changed in two messages of the same length change their CRC32 alike. -/
theorem C164_change (a b d : List Byte) (ha : a.length = d.length) (hb : b.length = d.length) :
    ∃ x y x' y', crc32Buffer a a.length = .ok x ∧ crc32Buffer b b.length = .ok y ∧
      crc32Buffer (changed a d) (changed a d).length = .ok x' ∧ crc32Buffer (changed b d) (changed b d).length = .ok y' ∧ x ^^^ x' = y ^^^ y' := by
  refine ⟨_, _, _, _, crc_eq _, crc_eq _, crc_eq _, crc_eq _, ?_⟩
  have key : ∀ a : List Byte, a.length = d.length → crcSpec a ^^^ crcSpec (changed a d) = (bitsOf d).foldl crcBit 0#32 := by
    intro a ha
    unfold crcSpec crcRegister
    rw [bitsOf_changed a d ha]
    have := foldl_crcBit_xor (bitsOf a) (bitsOf d) (BitVec.allOnes 32) 0#32 (by rw [bitsOf_length, bitsOf_length, ha])
    rw [BitVec.xor_zero] at this
    rw [this]
    generalize List.foldl crcBit (BitVec.allOnes 32) (bitsOf a) = p
    generalize List.foldl crcBit 0#32 (bitsOf d) = q
    apply BitVec.eq_of_getLsbD_eq
    intro i hi
    simp only [BitVec.getLsbD_xor, BitVec.getLsbD_not, hi, decide_true, Bool.true_and]
    cases p.getLsbD i <;> cases q.getLsbD i <;> rfl
  rw [key a ha, key b hb]

/-- The bytes of a CRC32. -/
example : littleEndian 0xCBF43926#32 = [0x26, 0x39, 0xF4, 0xCB] := by decide

/-- "123456789" and its CRC32. -/
example : crc32Buffer ([0x31, 0x32, 0x33, 0x34, 0x35, 0x36, 0x37, 0x38, 0x39] ++ [0x26, 0x39, 0xF4, 0xCB]) 13 = .ok 0x2144DF1C#32 := by
  have h := (C164_check [0x31, 0x32, 0x33, 0x34, 0x35, 0x36, 0x37, 0x38, 0x39] [0x26, 0x39, 0xF4, 0xCB] rfl).2
    ⟨0xCBF43926#32, by rw [C47_buffer _ _ (Nat.le_refl _)]; decide +kernel, by decide⟩
  exact h

end Verif.Hash
