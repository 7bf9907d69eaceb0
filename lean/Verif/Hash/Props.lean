import Verif.Hash.Lemmas

/-!
# Properties C47-C50 and C70 of the hash functions
-/

namespace Verif.Hash

open Verif.Cpp Polynomial

/-! ## C47: CRC-32 -/

/-- C47: CRC32 of a buffer is the bit-by-bit CRC, for every byte sequence. -/
theorem C47_buffer (data : List Byte) (size : Nat) (h : size ≤ data.length) :
    crc32Buffer data size = .ok (crcSpec (data.take size)) := by
  obtain ⟨t, e, _, ht⟩ := generateTable_ok
  have hb := bufferLoop_ok (fun crc c => crcStep t crc (c.setWidth 32)) (fun r b => ((List.range 8).map b.getLsbD).foldl crcBit r)
    (fun _ => True) (fun s c _ => ⟨crcStep_eq ht s _ c (by simp), trivial⟩) data size h 0xFFFFFFFF#32 trivial
  simp only [crc32Buffer, e, ok_bind, hb, pure_ok, foldl_bits, crcSpec, crcRegister]
  rw [allOnes_eq]

/-- C47: CRC32 of a string view is the bit-by-bit CRC, whatever the signedness of `char`. -/
theorem C47_view (charSigned : Bool) (str : List Byte) : crc32View charSigned str = .ok (crcSpec str) := by
  obtain ⟨t, e, _, ht⟩ := generateTable_ok
  have hb := bufferLoop_ok (fun crc c => crcStep t crc (charTo charSigned 32 c)) (fun r b => ((List.range 8).map b.getLsbD).foldl crcBit r)
    (fun _ => True) (fun s c _ => ⟨crcStep_eq ht s _ c (charTo_setWidth _ _), trivial⟩) str str.length (Nat.le_refl _) 0xFFFFFFFF#32 trivial
  simp only [crc32View, e, ok_bind, hb, pure_ok, foldl_bits, crcSpec, crcRegister, List.take_length]
  rw [allOnes_eq]

/-- C47: CRC32 of a C string is the bit-by-bit CRC of the characters before the first null. -/
theorem C47_cstr (charSigned : Bool) (str rest : List Byte) (h0 : ∀ c ∈ str, c ≠ 0#8) :
    crc32CStr charSigned (str ++ 0#8 :: rest) = .ok (crcSpec str) := by
  obtain ⟨t, e, _, ht⟩ := generateTable_ok
  have hb := cstrLoop_ok (fun crc c => crcStep t crc (charTo charSigned 32 c)) (fun r b => ((List.range 8).map b.getLsbD).foldl crcBit r)
    (fun _ => True) (fun s c _ => ⟨crcStep_eq ht s _ c (charTo_setWidth _ _), trivial⟩) str rest h0 0xFFFFFFFF#32 trivial
  simp only [crc32CStr, e, ok_bind, hb, pure_ok, foldl_bits, crcSpec, crcRegister]
  rw [allOnes_eq]

/-- The check values of CRC-32: "123456789" and the two entries of the `static_assert` (Hash.inl:43-48). -/
example : crcSpec [0x31, 0x32, 0x33, 0x34, 0x35, 0x36, 0x37, 0x38, 0x39] = 0xCBF43926#32 := by decide +kernel
example : tableEntry defaultPolynomial 1 = .ok 0x77073096#32 ∧ tableEntry defaultPolynomial 255 = .ok 0x2D02EF8D#32 := by decide +kernel

/-! ### The polynomial reading -/

theorem registerPoly_coeff (v : BitVec 32) (n : Nat) :
    (registerPoly v).coeff n = if n < 32 ∧ v.getLsbD (31 - n) = true then 1 else 0 := by
  unfold registerPoly
  rw [finsetSum_coeff]
  have : ∀ i, (if v.getLsbD (31 - i) = true then (X : (ZMod 2)[X]) ^ i else 0).coeff n =
      if i = n then (if v.getLsbD (31 - n) = true then 1 else 0) else 0 := by
    intro i
    by_cases h : i = n
    · subst h; cases v.getLsbD (31 - i) <;> simp
    · cases v.getLsbD (31 - i) <;> simp [coeff_X_pow, h, Ne.symm h]
  simp only [this, Finset.sum_ite_eq', Finset.mem_range]
  by_cases h : n < 32 <;> simp [h]

theorem registerPoly_degree (v : BitVec 32) : (registerPoly v).degree < 32 := by
  rw [show (32 : WithBot Nat) = ((32 : Nat) : WithBot Nat) by rfl, degree_lt_iff_coeff_zero]
  intro m hm
  rw [registerPoly_coeff, if_neg (by omega)]

theorem zmod2_add (a b : Bool) : (if (a != b) = true then (1 : ZMod 2) else 0) = (if a = true then 1 else 0) + (if b = true then 1 else 0) := by
  cases a <;> cases b <;> decide

theorem registerPoly_xor (a b : BitVec 32) : registerPoly (a ^^^ b) = registerPoly a + registerPoly b := by
  ext n
  rw [coeff_add, registerPoly_coeff, registerPoly_coeff, registerPoly_coeff]
  by_cases h : n < 32
  · simp only [h, true_and, BitVec.getLsbD_xor]
    exact zmod2_add _ _
  · simp [h]

theorem registerPoly_shift (v : BitVec 32) :
    registerPoly (v >>> 1) = X * registerPoly v + if v.getLsbD 0 then X ^ 32 else 0 := by
  ext n
  rw [coeff_add, registerPoly_coeff]
  cases n with
  | zero =>
    rw [coeff_X_mul_zero]
    have : (v >>> 1).getLsbD (31 - 0) = false := by
      rw [BitVec.getLsbD_ushiftRight]; exact BitVec.getLsbD_of_ge _ _ (by omega)
    rw [this]
    cases v.getLsbD 0 <;> simp
  | succ n =>
    rw [coeff_X_mul, registerPoly_coeff, BitVec.getLsbD_ushiftRight]
    rcases Nat.lt_trichotomy n 31 with h | h | h
    · have h1 : 1 + (31 - (n + 1)) = 31 - n := by omega
      have h2 : (if v.getLsbD 0 = true then (X : (ZMod 2)[X]) ^ 32 else 0).coeff (n + 1) = 0 := by
        cases v.getLsbD 0
        · simp
        · simp only [if_true, coeff_X_pow]; rw [if_neg (by omega)]
      rw [h1, h2, add_zero]
      have h3 : n + 1 < 32 := by omega
      have h4 : n < 32 := by omega
      simp only [h3, h4, true_and]
    · subst h
      have e : (1 : ZMod 2) + 1 = 0 := by decide
      cases v.getLsbD 0 <;> simp [e]
    · have h2 : (if v.getLsbD 0 = true then (X : (ZMod 2)[X]) ^ 32 else 0).coeff (n + 1) = 0 := by
        cases v.getLsbD 0
        · simp
        · simp only [if_true, coeff_X_pow]; rw [if_neg (by omega)]
      rw [h2, if_neg (by omega), if_neg (by omega), add_zero]

theorem registerPoly_generator : X ^ 32 + registerPoly 0xEDB88320#32 = generator := by
  unfold generator registerPoly
  rw [← Finset.sum_filter]
  have hf : (Finset.range 32).filter (fun i => (0xEDB88320#32).getLsbD (31 - i) = true) =
      {26, 23, 22, 16, 12, 11, 10, 8, 7, 5, 4, 2, 1, 0} := by decide +kernel
  rw [hf]
  repeat rw [Finset.sum_insert (by decide)]
  rw [Finset.sum_singleton, pow_one, pow_zero]
  simp only [add_assoc]

theorem two_eq_zero' : (2 : (ZMod 2)[X]) = 0 := CharTwo.two_eq_zero

theorem registerPoly_one : registerPoly 1#32 = X ^ 31 := by
  ext n
  rw [registerPoly_coeff, coeff_X_pow, BitVec.getLsbD_one]
  by_cases h : n = 31
  · subst h; simp
  · rw [if_neg (by simp; omega), if_neg h]

theorem registerPoly_zero : registerPoly 0#32 = 0 := by
  ext n; rw [registerPoly_coeff]; simp

theorem registerPoly_lfsr (v : BitVec 32) :
    registerPoly (lfsr v) = X * registerPoly v + if v.getLsbD 0 then generator else 0 := by
  unfold lfsr crcBit
  cases h : v.getLsbD 0
  · simp only [Bool.bne_false, Bool.false_eq_true, if_false, registerPoly_shift, h]
  · simp only [Bool.bne_false, if_true, registerPoly_xor, registerPoly_shift, h]
    rw [add_assoc, registerPoly_generator]

theorem registerPoly_crcBit (v : BitVec 32) (b : Bool) : ∃ c : (ZMod 2)[X],
    registerPoly (crcBit v b) = X * registerPoly v + (if b then 1 else 0) * X ^ 32 + c * generator := by
  rw [crcBit_eq, registerPoly_lfsr, registerPoly_xor]
  refine ⟨if (v ^^^ (if b then 1#32 else 0#32)).getLsbD 0 then 1 else 0, ?_⟩
  cases b
  · cases (v ^^^ (if false = true then 1#32 else 0#32)).getLsbD 0 <;> simp [registerPoly_zero]
  · cases (v ^^^ (if true = true then 1#32 else 0#32)).getLsbD 0
    · simp [registerPoly_one]; ring
    · simp [registerPoly_one]; ring

theorem registerPoly_foldl (bits : List Bool) : ∀ (v : BitVec 32) (p : (ZMod 2)[X]),
    (∃ c, registerPoly v = p + c * generator) →
    ∃ c : (ZMod 2)[X], registerPoly (bits.foldl crcBit v) =
      bits.foldl (fun p b => X * p + (if b then 1 else 0) * X ^ 32) p + c * generator := by
  induction bits with
  | nil => exact fun v p h => h
  | cons b bs ih =>
    rintro v p ⟨c, hc⟩
    obtain ⟨d, hd⟩ := registerPoly_crcBit v b
    refine ih _ _ ⟨X * c + d, ?_⟩
    rw [hd, hc]; ring

theorem foldl_horner (bits : List Bool) : ∀ (p m : (ZMod 2)[X]),
    bits.foldl (fun p b => X * p + (if b then 1 else 0) * X ^ 32) (p + m * X ^ 32) =
      X ^ bits.length * p + bits.foldl (fun p b => X * p + if b then 1 else 0) m * X ^ 32 := by
  induction bits with
  | nil => intro p m; simp
  | cons b bs ih =>
    intro p m
    simp only [List.foldl_cons, List.length_cons]
    rw [show X * (p + m * X ^ 32) + (if b = true then 1 else 0) * X ^ 32 =
      X * p + (X * m + if b = true then 1 else 0) * X ^ 32 by ring, ih]
    ring

theorem generator_monic : generator.Monic ∧ generator.degree = 32 := by
  have hd : (registerPoly 0xEDB88320#32).degree < ((X : (ZMod 2)[X]) ^ 32).degree := by
    rw [degree_X_pow]; exact registerPoly_degree _
  rw [← registerPoly_generator]
  exact ⟨(monic_X_pow 32).add_of_left hd, by rw [degree_add_eq_left_of_degree_lt hd, degree_X_pow]; rfl⟩

/-- C47: the complement of CRC32, read as a polynomial over GF(2), is the remainder of the message
times `X ^ 32` plus the initial register (all ones) times `X ^ (number of bits)`, modulo the
generator polynomial of CRC-32. -/
theorem C47_polynomial (data : List Byte) : ∃ crc, crc32Buffer data data.length = .ok crc ∧
    registerPoly (~~~crc) = (X ^ (bitsOf data).length * registerPoly (BitVec.allOnes 32) + bitsPoly (bitsOf data) * X ^ 32) %ₘ generator := by
  refine ⟨crcSpec data, by rw [C47_buffer data _ (Nat.le_refl _), List.take_length], ?_⟩
  have hn : ~~~(crcSpec data) = crcRegister (bitsOf data) := by
    unfold crcSpec; exact BitVec.not_not
  rw [hn, crcRegister]
  obtain ⟨c, hc⟩ := registerPoly_foldl (bitsOf data) (BitVec.allOnes 32) (registerPoly (BitVec.allOnes 32) + 0 * X ^ 32) ⟨0, by simp⟩
  rw [foldl_horner] at hc
  have huniq := div_modByMonic_unique (f := X ^ (bitsOf data).length * registerPoly (BitVec.allOnes 32) + bitsPoly (bitsOf data) * X ^ 32)
    (g := generator) (q := c) (r := registerPoly ((bitsOf data).foldl crcBit (BitVec.allOnes 32))) generator_monic.1
    ⟨by
      rw [hc, bitsPoly]
      have h0 : c * generator + c * generator = 0 := CharTwo.add_self_eq_zero _
      rw [add_assoc, mul_comm generator c, h0, add_zero], by rw [generator_monic.2]; exact registerPoly_degree _⟩
  exact huniq.2.symm

/-! ## C48: single-byte differences and concatenation -/

theorem bitsOf_append (a b : List Byte) : bitsOf (a ++ b) = bitsOf a ++ bitsOf b := by simp [bitsOf]

theorem bitsOf_cons (x : Byte) (b : List Byte) : bitsOf (x :: b) = (List.range 8).map x.getLsbD ++ bitsOf b := rfl

theorem crc_byte_injective (r : BitVec 32) (x y : Byte)
    (h : ((List.range 8).map x.getLsbD).foldl crcBit r = ((List.range 8).map y.getLsbD).foldl crcBit r) : x = y := by
  rw [foldl_crcBit _ _ (by simp), foldl_crcBit _ _ (by simp)] at h
  simp only [List.length_map, List.length_range] at h
  have := xor_right_cancel' (lfsrN_injective 8 _ _ h)
  rw [word_byte, word_byte] at this
  have := congrArg (fun z : BitVec 32 => z.setWidth 8) this
  simpa using this

/-- C48: CRC32 tells apart inputs that differ in one byte. -/
theorem C48_crc32 (a b : List Byte) (h : DifferInOneByte a b) : ∃ x y, crc32Buffer a a.length = .ok x ∧
    crc32Buffer b b.length = .ok y ∧ x ≠ y := by
  refine ⟨crcSpec a, crcSpec b, by rw [C47_buffer _ _ (Nat.le_refl _), List.take_length],
    by rw [C47_buffer _ _ (Nat.le_refl _), List.take_length], ?_⟩
  obtain ⟨pre, x, y, post, hne, rfl, rfl⟩ := h
  intro he
  unfold crcSpec crcRegister at he
  have he := BitVec.not_inj.mp he
  rw [bitsOf_append, bitsOf_append, bitsOf_cons, bitsOf_cons] at he
  simp only [List.foldl_append] at he
  exact hne (crc_byte_injective _ x y (foldl_crcBit_injective _ _ _ he))

theorem setWidth_inj {w : Nat} (hw : 8 ≤ w) (x y : Byte) (h : x.setWidth w = y.setWidth w) : x = y := by
  have := congrArg BitVec.toNat h
  simp only [BitVec.toNat_setWidth] at this
  have h256 : 2 ^ 8 ≤ 2 ^ w := Nat.pow_le_pow_right (by omega) hw
  have hx := x.isLt
  have hy := y.isLt
  rw [Nat.mod_eq_of_lt (by omega), Nat.mod_eq_of_lt (by omega)] at this
  exact BitVec.eq_of_toNat_eq this

theorem signExtend_inj {w : Nat} (hw : 8 ≤ w) (x y : Byte) (h : x.signExtend w = y.signExtend w) : x = y := by
  apply BitVec.eq_of_getLsbD_eq
  intro i hi
  have := congrArg (fun z : BitVec w => z.getLsbD i) h
  change (x.signExtend w).getLsbD i = (y.signExtend w).getLsbD i at this
  rw [BitVec.getLsbD_signExtend, BitVec.getLsbD_signExtend] at this
  simpa only [hi, show i < w by omega, if_true, decide_true, Bool.true_and] using this

theorem charTo_inj {w : Nat} (s : Bool) (hw : 8 ≤ w) (x y : Byte) (h : charTo s w x = charTo s w y) : x = y := by
  cases s
  · exact setWidth_inj hw x y (by simpa [charTo] using h)
  · exact signExtend_inj hw x y (by simpa [charTo] using h)

/-- The FNV-1a loops with any injective reading of the bytes. -/
theorem fnv_differ {w : Nat} (k i : BitVec w) (hk : k * i = 1#w) (f : Byte → BitVec w) (hf : ∀ x y, f x = f y → x = y)
    (basis : BitVec w) (a b : List Byte) (h : DifferInOneByte a b) :
    a.foldl (fun s c => fnvStep k s (f c)) basis ≠ b.foldl (fun s c => fnvStep k s (f c)) basis := by
  obtain ⟨pre, x, y, post, hne, rfl, rfl⟩ := h
  intro he
  simp only [List.foldl_append, List.foldl_cons] at he
  have := fnvStep_inj k i hk (foldl_fnv_injective k i hk f post _ _ he)
  exact hne (hf x y (xor_right_cancel' this))

theorem fnvBuffer_eq {w : Nat} (k basis : BitVec w) (f : Byte → BitVec w) (data : List Byte) (size : Nat) (h : size ≤ data.length) :
    bufferLoop (fun s c => .ok (fnvStep k s (f c))) data size basis =
      .ok ((data.take size).foldl (fun s c => fnvStep k s (f c)) basis) :=
  bufferLoop_ok _ _ (fun _ => True) (fun _ _ _ => ⟨rfl, trivial⟩) data size h basis trivial

theorem fnvCStr_eq {w : Nat} (k basis : BitVec w) (f : Byte → BitVec w) (data rest : List Byte) (h : ∀ c ∈ data, c ≠ 0#8) :
    cstrLoop (fun s c => .ok (fnvStep k s (f c))) (data ++ 0#8 :: rest) basis =
      .ok (data.foldl (fun s c => fnvStep k s (f c)) basis) :=
  cstrLoop_ok _ _ (fun _ => True) (fun _ _ _ => ⟨rfl, trivial⟩) data rest h basis trivial

/-- C48: FNV1a32 and FNV1a64 (buffers and string views) tell apart inputs that differ in one byte. -/
theorem C48_fnv (charSigned : Bool) (a b : List Byte) (h : DifferInOneByte a b) :
    (∃ x y, fnv32Buffer a a.length = .ok x ∧ fnv32Buffer b b.length = .ok y ∧ x ≠ y) ∧
    (∃ x y, fnv32View charSigned a = .ok x ∧ fnv32View charSigned b = .ok y ∧ x ≠ y) ∧
    (∃ x y, fnv64Buffer a a.length = .ok x ∧ fnv64Buffer b b.length = .ok y ∧ x ≠ y) ∧
    (∃ x y, fnv64View charSigned a = .ok x ∧ fnv64View charSigned b = .ok y ∧ x ≠ y) := by
  refine ⟨⟨_, _, fnvBuffer_eq _ _ _ a _ (Nat.le_refl _), fnvBuffer_eq _ _ _ b _ (Nat.le_refl _), ?_⟩,
    ⟨_, _, fnvBuffer_eq _ _ _ a _ (Nat.le_refl _), fnvBuffer_eq _ _ _ b _ (Nat.le_refl _), ?_⟩,
    ⟨_, _, fnvBuffer_eq _ _ _ a _ (Nat.le_refl _), fnvBuffer_eq _ _ _ b _ (Nat.le_refl _), ?_⟩,
    ⟨_, _, fnvBuffer_eq _ _ _ a _ (Nat.le_refl _), fnvBuffer_eq _ _ _ b _ (Nat.le_refl _), ?_⟩⟩ <;>
    rw [List.take_length, List.take_length]
  · exact fnv_differ _ _ prime32_inv _ (setWidth_inj (by omega)) _ a b h
  · exact fnv_differ _ _ prime32_inv _ (charTo_inj _ (by omega)) _ a b h
  · exact fnv_differ _ _ prime64_inv _ (setWidth_inj (by omega)) _ a b h
  · exact fnv_differ _ _ prime64_inv _ (charTo_inj _ (by omega)) _ a b h

/-- C48: each hash of a concatenation is a function of the hash of the first part and of the
second part: hashing can be resumed. -/
theorem C48_concat :
    (∃ resume : BitVec 32 → List Byte → BitVec 32, ∀ a b : List Byte, ∃ x, crc32Buffer a a.length = .ok x ∧
      crc32Buffer (a ++ b) (a ++ b).length = .ok (resume x b) ∧ resume x [] = x) ∧
    (∃ resume : BitVec 32 → List Byte → BitVec 32, ∀ a b : List Byte, ∃ x, fnv32Buffer a a.length = .ok x ∧
      fnv32Buffer (a ++ b) (a ++ b).length = .ok (resume x b) ∧ resume x [] = x) ∧
    (∃ resume : BitVec 64 → List Byte → BitVec 64, ∀ a b : List Byte, ∃ x, fnv64Buffer a a.length = .ok x ∧
      fnv64Buffer (a ++ b) (a ++ b).length = .ok (resume x b) ∧ resume x [] = x) := by
  refine ⟨⟨fun x b => ~~~((bitsOf b).foldl crcBit (~~~x)), fun a b => ⟨crcSpec a, ?_, ?_, ?_⟩⟩,
    ⟨fun x b => b.foldl (fun s c => fnvStep fnvPrime32 s (c.setWidth 32)) x, fun a b => ⟨_, fnvBuffer_eq _ _ _ a _ (Nat.le_refl _), ?_, List.foldl_nil⟩⟩,
    ⟨fun x b => b.foldl (fun s c => fnvStep fnvPrime64 s (c.setWidth 64)) x, fun a b => ⟨_, fnvBuffer_eq _ _ _ a _ (Nat.le_refl _), ?_, List.foldl_nil⟩⟩⟩
  · rw [C47_buffer _ _ (Nat.le_refl _), List.take_length]
  · rw [C47_buffer _ _ (Nat.le_refl _), List.take_length, crcSpec, crcSpec, crcRegister, crcRegister, bitsOf_append,
      List.foldl_append]
    dsimp only
    rw [BitVec.not_not]
  · simp [bitsOf]
  · rw [fnv32Buffer, fnvBuffer_eq _ _ _ _ _ (Nat.le_refl _), List.take_length, List.foldl_append, List.take_length]
  · rw [fnv64Buffer, fnvBuffer_eq _ _ _ _ _ (Nat.le_refl _), List.take_length, List.foldl_append, List.take_length]

/-- C48: the FNV-1a hashes of buffers are the textbook functions, for every byte sequence. -/
theorem C48_fnv_value (data : List Byte) :
    (∃ x, fnv32Buffer data data.length = .ok x ∧ x.toNat = fnvSpec 32 2166136261 16777619 data) ∧
    (∃ x, fnv64Buffer data data.length = .ok x ∧ x.toNat = fnvSpec 64 14695981039346656037 1099511628211 data) := by
  have key : ∀ (w : Nat) (hw : 8 ≤ w) (k : BitVec w) (l : List Byte) (h : BitVec w),
      (l.foldl (fun s c => fnvStep k s (c.setWidth w)) h).toNat = l.foldl (fun h b => (h ^^^ b.toNat) * k.toNat % 2 ^ w) h.toNat := by
    intro w hw k l
    induction l with
    | nil => intro h; rfl
    | cons c cs ih =>
      intro h
      rw [List.foldl_cons, ih, List.foldl_cons]
      congr 1
      have h256 : 2 ^ 8 ≤ 2 ^ w := Nat.pow_le_pow_right (by omega) hw
      have hc := c.isLt
      rw [fnvStep, BitVec.toNat_mul, BitVec.toNat_xor, BitVec.toNat_setWidth, Nat.mod_eq_of_lt (show c.toNat < 2 ^ w by omega)]
  refine ⟨⟨_, fnvBuffer_eq _ _ _ data _ (Nat.le_refl _), ?_⟩, ⟨_, fnvBuffer_eq _ _ _ data _ (Nat.le_refl _), ?_⟩⟩ <;> rw [List.take_length]
  · rw [key 32 (by omega)]; rfl
  · rw [key 64 (by omega)]; rfl

example : DifferInOneByte [1, 2, 3] [1, 7, 3] := ⟨[1], 2, 7, [3], by decide, rfl, rfl⟩

/-! ## C49: the overloads agree -/

/-- C49: CRC32 of the same bytes is the same through every overload (C strings without null
characters), for both kinds of `char`. -/
theorem C49_crc32 (charSigned : Bool) (data rest : List Byte) :
    crc32View charSigned data = crc32Buffer data data.length ∧
    ((∀ c ∈ data, c ≠ 0#8) → crc32CStr charSigned (data ++ 0#8 :: rest) = crc32Buffer data data.length) := by
  rw [C47_view, C47_buffer _ _ (Nat.le_refl _), List.take_length]
  exact ⟨rfl, fun h => by rw [C47_cstr _ _ _ h]⟩

theorem charTo_small {w : Nat} (s : Bool) (c : Byte) (h : s = false ∨ c.toNat < 128) : charTo s w c = c.setWidth w := by
  cases s
  · rfl
  · rcases h with h | h
    · simp at h
    · simp only [charTo, if_true]
      rw [BitVec.signExtend_eq_setWidth_of_msb_false]
      rw [BitVec.msb_eq_decide]; simp; omega

theorem foldl_congr' {α β : Type} (f g : β → α → β) (l : List α) (h : ∀ s, ∀ c ∈ l, f s c = g s c) : ∀ s, l.foldl f s = l.foldl g s := by
  induction l with
  | nil => intro s; rfl
  | cons c cs ih =>
    intro s
    rw [List.foldl_cons, List.foldl_cons, h s c (by simp), ih (fun s c hc => h s c (by simp [hc]))]

/-- C49: FNV1a of the same bytes is the same through every overload where `char` is unsigned or all
bytes are below 0x80.  Missing (see the `_violated` theorem): bytes from 0x80 where `char` is signed. -/
theorem C49_fnv_partial (charSigned : Bool) (data rest : List Byte) (h : charSigned = false ∨ ∀ c ∈ data, c.toNat < 128) :
    fnv32View charSigned data = fnv32Buffer data data.length ∧ fnv64View charSigned data = fnv64Buffer data data.length ∧
    ((∀ c ∈ data, c ≠ 0#8) → fnv32CStr charSigned (data ++ 0#8 :: rest) = fnv32Buffer data data.length ∧
      fnv64CStr charSigned (data ++ 0#8 :: rest) = fnv64Buffer data data.length) := by
  have hc : ∀ (w : Nat) (c : Byte), c ∈ data → charTo charSigned w c = c.setWidth w := fun w c hc =>
    charTo_small _ _ (h.imp id (fun h => h c hc))
  refine ⟨?_, ?_, fun h0 => ⟨?_, ?_⟩⟩
  · rw [fnv32View, fnv32Buffer, fnvBuffer_eq _ _ _ _ _ (Nat.le_refl _), fnvBuffer_eq _ _ _ _ _ (Nat.le_refl _), List.take_length,
      foldl_congr' _ _ _ (fun s c h => by rw [hc 32 c h])]
  · rw [fnv64View, fnv64Buffer, fnvBuffer_eq _ _ _ _ _ (Nat.le_refl _), fnvBuffer_eq _ _ _ _ _ (Nat.le_refl _), List.take_length,
      foldl_congr' _ _ _ (fun s c h => by rw [hc 64 c h])]
  · rw [fnv32CStr, fnv32Buffer, fnvCStr_eq _ _ _ _ _ h0, fnvBuffer_eq _ _ _ _ _ (Nat.le_refl _), List.take_length,
      foldl_congr' _ _ _ (fun s c h => by rw [hc 32 c h])]
  · rw [fnv64CStr, fnv64Buffer, fnvCStr_eq _ _ _ _ _ h0, fnvBuffer_eq _ _ _ _ _ (Nat.le_refl _), List.take_length,
      foldl_congr' _ _ _ (fun s c h => by rw [hc 64 c h])]

/-- C49 fails for FNV1a where `char` is signed: every input with exactly one byte from 0x80 hashes
differently as a string view and as a buffer. -/
theorem C49_fnv_violated (pre post : List Byte) (b : Byte) (hpre : ∀ c ∈ pre, c.toNat < 128) (hpost : ∀ c ∈ post, c.toNat < 128)
    (hb : 128 ≤ b.toNat) :
    fnv32View true (pre ++ b :: post) ≠ fnv32Buffer (pre ++ b :: post) (pre ++ b :: post).length ∧
    fnv64View true (pre ++ b :: post) ≠ fnv64Buffer (pre ++ b :: post) (pre ++ b :: post).length := by
  have key : ∀ (w : Nat) (hw : 9 ≤ w) (k i basis : BitVec w) (hk : k * i = 1#w),
      (pre ++ b :: post).foldl (fun s c => fnvStep k s (charTo true w c)) basis ≠
      (pre ++ b :: post).foldl (fun s c => fnvStep k s (c.setWidth w)) basis := by
    intro w hw k i basis hk he
    simp only [List.foldl_append, List.foldl_cons] at he
    rw [foldl_congr' (fun s c => fnvStep k s (charTo true w c)) (fun s c => fnvStep k s (c.setWidth w)) pre
        (fun s c hc => by rw [charTo_small true c (Or.inr (hpre c hc))]),
      foldl_congr' (fun s c => fnvStep k s (charTo true w c)) (fun s c => fnvStep k s (c.setWidth w)) post
        (fun s c hc => by rw [charTo_small true c (Or.inr (hpost c hc))])] at he
    have h1 := xor_right_cancel' (fnvStep_inj k i hk (foldl_fnv_injective k i hk (fun c => c.setWidth w) post _ _ he))
    have h2 := congrArg (fun z : BitVec w => z.getLsbD 8) h1
    simp only [charTo, if_true, BitVec.getLsbD_signExtend, BitVec.getLsbD_setWidth] at h2
    have h3 : b.msb = true := by rw [BitVec.msb_eq_decide]; simpa using hb
    simp [show 8 < w by omega, h3] at h2
  constructor
  · rw [fnv32View, fnv32Buffer, fnvBuffer_eq _ _ _ _ _ (Nat.le_refl _), fnvBuffer_eq _ _ _ _ _ (Nat.le_refl _), List.take_length]
    intro he
    exact key 32 (by omega) _ _ _ prime32_inv (by injection he)
  · rw [fnv64View, fnv64Buffer, fnvBuffer_eq _ _ _ _ _ (Nat.le_refl _), fnvBuffer_eq _ _ _ _ _ (Nat.le_refl _), List.take_length]
    intro he
    exact key 64 (by omega) _ _ _ prime64_inv (by injection he)

/-- C49: the overloads for arrays hash all `N` characters, the terminating null of a literal
included, as the overload for buffers does with size `N` (plain calls with a literal choose the
overload for `const char*`, which stops before the null).  FNV1a under the condition above. -/
theorem C49_array_partial (charSigned : Bool) (str : List Byte) :
    crc32Array charSigned str = crc32Buffer str str.length ∧
    ((charSigned = false ∨ ∀ c ∈ str, c.toNat < 128) →
      fnv32Array charSigned str = fnv32Buffer str str.length ∧ fnv64Array charSigned str = fnv64Buffer str str.length) :=
  ⟨(C49_crc32 charSigned str []).1, fun h => ⟨(C49_fnv_partial charSigned str [] h).1, (C49_fnv_partial charSigned str [] h).2.1⟩⟩

/-- C49: a C string without terminating null is read past its end. -/
theorem C49_unterminated_ub (charSigned : Bool) (str : List Byte) (h0 : ∀ c ∈ str, c ≠ 0#8) :
    fnv32CStr charSigned str = .error .ub ∧ fnv64CStr charSigned str = .error .ub := by
  have key : ∀ (σ : Type) (f : σ → Byte → σ) (s : σ), cstrLoop (fun s c => .ok (f s c)) str s = .error .ub := by
    intro σ f
    induction str with
    | nil => intro s; rfl
    | cons c cs ih =>
      intro s
      simp only [cstrLoop, h0 c (by simp), if_false]
      exact ih (fun c' h => h0 c' (by simp [h])) _
  exact ⟨key _ _ _, key _ _ _⟩

example : ∀ c ∈ ([0x61, 0xE9, 0x62] : List Byte), c ≠ 0#8 := by decide

/-! ## C50: HashCombine -/

/-- C50: for every seed, `HashCombine` is a bijection of the hash of the combined value. -/
theorem C50_bijective (seed : BitVec 64) : Function.Bijective (hashCombine seed) := by
  have hinj : Function.Injective (hashCombine seed) := by
    intro x y h
    unfold hashCombine at h
    have h1 := mul_inj _ _ kMul_inv _ _ h
    have h2 := congrArg (fun z : BitVec 64 => z ^^^ (z >>> 47)) h1
    simp only [xorshift_involutive] at h2
    have h3 := xor_right_cancel' (mul_inj _ _ kMul_inv _ _ h2)
    have h4 := congrArg (fun z : BitVec 64 => z ^^^ (z >>> 47)) h3
    simp only [xorshift_involutive] at h4
    exact xor_left_cancel' (mul_inj _ _ kMul_inv _ _ h4)
  have mul_surj : ∀ z : BitVec 64, ∃ x, x * kMul = z := by
    intro z
    refine ⟨z * 0xdc56e6f5090b32d9#64, ?_⟩
    rw [BitVec.mul_assoc, BitVec.mul_comm 0xdc56e6f5090b32d9#64, kMul_inv, BitVec.mul_one]
  have shift_surj : ∀ z : BitVec 64, ∃ x : BitVec 64, x ^^^ (x >>> 47) = z := fun z => ⟨z ^^^ (z >>> 47), xorshift_involutive z⟩
  refine ⟨hinj, fun z => ?_⟩
  obtain ⟨z1, rfl⟩ := mul_surj z
  obtain ⟨z2, rfl⟩ := shift_surj z1
  obtain ⟨z3, rfl⟩ := mul_surj z2
  obtain ⟨z4, e4⟩ := shift_surj (seed ^^^ z3)
  obtain ⟨z5, e5⟩ := mul_surj z4
  refine ⟨z5 ^^^ seed, ?_⟩
  have h1 : z5 ^^^ seed ^^^ seed = z5 := by rw [BitVec.xor_assoc, BitVec.xor_self, BitVec.xor_zero]
  have h2 : seed ^^^ (seed ^^^ z3) = z3 := by rw [← BitVec.xor_assoc, BitVec.xor_self, BitVec.zero_xor]
  simp only [hashCombine, h1, e5, e4, h2]

/-- C50: the variadic form tells apart tuples whose last elements have different hashes and whose
other elements have the same hashes, if `std::hash<std::size_t>` is injective (as in the usual
standard libraries, where it is the identity). -/
theorem C50_last (hashSize : BitVec 64 → BitVec 64) (hinj : Function.Injective hashSize) (pre : List (BitVec 64)) (x y : BitVec 64)
    (hne : x ≠ y) (h : BitVec 64) :
    hashCombineAll hashSize h (pre ++ [x]) ≠ hashCombineAll hashSize h (pre ++ [y]) := by
  induction pre generalizing h with
  | nil =>
    intro e
    simp only [List.nil_append, hashCombineAll] at e
    exact hne (hinj ((C50_bijective h).1 e))
  | cons p ps ih =>
    intro e
    simp only [List.cons_append, hashCombineAll] at e
    exact ih p (hinj ((C50_bijective h).1 e))

example : hashCombine 1#64 2#64 ≠ hashCombine 1#64 3#64 := fun h => by have := (C50_bijective 1#64).1 h; simp at this

/-! ## C70: bursts -/

/-- C70: CRC32 tells apart all inputs of the same length that differ only within 32 consecutive bits. -/
theorem C70_burst (a b : List Byte) (h : DifferInBurst a b) : ∃ x y, crc32Buffer a a.length = .ok x ∧
    crc32Buffer b b.length = .ok y ∧ x ≠ y := by
  refine ⟨crcSpec a, crcSpec b, by rw [C47_buffer _ _ (Nat.le_refl _), List.take_length],
    by rw [C47_buffer _ _ (Nat.le_refl _), List.take_length], ?_⟩
  obtain ⟨pre, u, v, post, hl, h32, hne, ea, eb⟩ := h
  intro he
  unfold crcSpec crcRegister at he
  have he := BitVec.not_inj.mp he
  rw [ea, eb] at he
  simp only [List.foldl_append] at he
  have h1 := foldl_crcBit_injective _ _ _ he
  rw [foldl_crcBit u _ h32, foldl_crcBit v _ (by omega), ← hl] at h1
  exact hne (word_injective u v hl h32 (xor_right_cancel' (lfsrN_injective _ _ _ h1)))

/-- Four consecutive bytes are such a window. -/
example : DifferInBurst [9, 1, 2, 3, 4, 9] [9, 5, 6, 7, 8, 9] := by
  refine ⟨bitsOf [9], bitsOf [1, 2, 3, 4], bitsOf [5, 6, 7, 8], bitsOf [9], by decide, by decide, by decide, by decide, by decide⟩

end Verif.Hash
