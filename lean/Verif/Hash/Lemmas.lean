import Verif.Hash.Spec
import Mathlib.Tactic.Ring
import Mathlib.Algebra.CharP.Two

namespace Verif.Hash

open Verif.Cpp

theorem xor_left_cancel' {w : Nat} {x y z : BitVec w} (h : x ^^^ z = y ^^^ z) : x = y := by
  have := congrArg (· ^^^ z) h
  simpa [BitVec.xor_assoc] using this

theorem xor_right_cancel' {w : Nat} {x y z : BitVec w} (h : z ^^^ x = z ^^^ y) : x = y := by
  rw [BitVec.xor_comm z x, BitVec.xor_comm z y] at h
  exact xor_left_cancel' h

/-! ## Loops -/

theorem bufferLoop_ok {σ : Type} (step : σ → Byte → M σ) (f : σ → Byte → σ) (I : σ → Prop)
    (hstep : ∀ s c, I s → step s c = .ok (f s c) ∧ I (f s c)) (data : List Byte) (size : Nat) (hsz : size ≤ data.length) (s : σ) (hs : I s) :
    bufferLoop step data size s = .ok ((data.take size).foldl f s) := by
  have := forUp_ok (σ := σ) (fun k s' => I s' ∧ s' = (data.take k).foldl f s) (lo := 0) (n := size)
    (f := fun i s => do let c ← rd data i; step s c) (s := s) ⟨hs, rfl⟩ (by
      rintro k s' hk ⟨hI, he⟩
      have hkl : 0 + k < data.length := by omega
      obtain ⟨h1, h2⟩ := hstep s' data[0 + k] hI
      refine ⟨f s' data[0 + k], ?_, h2, ?_⟩
      · simp only [rd_ok hkl, ok_bind, h1]
      · have : data.take (k + 1) = data.take k ++ [data[0 + k]] := by
          rw [List.take_succ_eq_append_getElem (by omega)]; simp
        rw [this, List.foldl_append, ← he]; rfl)
  obtain ⟨s', e, _, h⟩ := this
  rw [bufferLoop, e, h]

theorem cstrLoop_ok {σ : Type} (step : σ → Byte → M σ) (f : σ → Byte → σ) (I : σ → Prop)
    (hstep : ∀ s c, I s → step s c = .ok (f s c) ∧ I (f s c)) (data rest : List Byte) (h0 : ∀ c ∈ data, c ≠ 0#8) :
    ∀ s, I s → cstrLoop step (data ++ 0#8 :: rest) s = .ok (data.foldl f s) := by
  induction data with
  | nil => intro s _; simp [cstrLoop]
  | cons c cs ih =>
    intro s hs
    have hc : c ≠ 0#8 := h0 c (by simp)
    obtain ⟨h1, h2⟩ := hstep s c hs
    simp only [List.cons_append, cstrLoop, hc, if_false, h1, List.foldl_cons]
    exact ih (fun c' h' => h0 c' (by simp [h'])) _ h2

/-! ## The table -/

/-- One bit step without message bit. -/
def lfsr (x : BitVec 32) : BitVec 32 := crcBit x false

theorem tableStep_eq (x : BitVec 32) : tableStep defaultPolynomial x = lfsr x := by
  unfold tableStep lfsr crcBit defaultPolynomial
  have h : x &&& 1#32 = if x.getLsbD 0 then 1#32 else 0#32 := by
    apply BitVec.eq_of_getLsbD_eq
    intro i hi
    rw [BitVec.getLsbD_and, BitVec.getLsbD_one]
    by_cases h0 : i = 0
    · subst h0; cases x.getLsbD 0 <;> simp
    · cases x.getLsbD 0 <;> simp [h0]
  dsimp only
  rw [h]
  cases x.getLsbD 0
  · simp
  · simp

/-- `lfsr` iterated. -/
def lfsrN : Nat → BitVec 32 → BitVec 32
  | 0, x => x
  | n + 1, x => lfsrN n (lfsr x)

theorem tableEntry_eq (byte : Nat) : tableEntry defaultPolynomial byte = .ok (lfsrN 8 (BitVec.ofNat 32 byte)) := by
  simp only [tableEntry, forUp, tableStep_eq, lfsrN]

theorem generateTable_ok : ∃ t, generateTable defaultPolynomial = .ok t ∧ t.length = 256 ∧
    ∀ i, i < 256 → t[i]? = some (lfsrN 8 (BitVec.ofNat 32 i)) := by
  obtain ⟨t, e, h1, h2⟩ := forUp_ok (σ := List (BitVec 32))
    (fun k t => t.length = 256 ∧ ∀ i, i < k → t[i]? = some (lfsrN 8 (BitVec.ofNat 32 i))) (lo := 0) (n := 256)
    (f := fun byte table => do let crc ← tableEntry defaultPolynomial byte; wr table byte crc)
    (s := List.replicate 256 0#32) ⟨List.length_replicate, by intro i hi; omega⟩ (by
      rintro k t hk ⟨hl, ht⟩
      have hk' : 0 + k < t.length := by omega
      refine ⟨t.set (0 + k) (lfsrN 8 (BitVec.ofNat 32 (0 + k))), ?_, by simpa using hl, ?_⟩
      · simp only [tableEntry_eq, ok_bind, wr_ok hk']
      · intro i hi
        rw [List.getElem?_set]
        by_cases he : 0 + k = i
        · subst he; rw [if_pos rfl, if_pos hk']
        · rw [if_neg he]; exact ht i (by omega))
  exact ⟨t, e, h1, fun i hi => h2 i hi⟩

/-! ## The linear register -/

theorem crcBit_eq (r : BitVec 32) (b : Bool) : crcBit r b = lfsr (r ^^^ (if b then 1#32 else 0#32)) := by
  unfold lfsr crcBit
  have h1 : (r ^^^ (if b then 1#32 else 0#32)).getLsbD 0 = (r.getLsbD 0 != b) := by cases b <;> simp
  have h2 : (r ^^^ (if b then 1#32 else 0#32)) >>> 1 = r >>> 1 := by
    apply BitVec.eq_of_getLsbD_eq
    intro i hi
    cases b <;> simp [BitVec.getLsbD_one]
  rw [h1, h2]
  simp

theorem lfsr_xor (x y : BitVec 32) : lfsr (x ^^^ y) = lfsr x ^^^ lfsr y := by
  unfold lfsr crcBit
  simp only [Bool.bne_false, BitVec.getLsbD_xor]
  rw [show (x ^^^ y) >>> 1 = x >>> 1 ^^^ y >>> 1 by
    apply BitVec.eq_of_getLsbD_eq; intro i hi; simp]
  cases x.getLsbD 0 <;> cases y.getLsbD 0 <;> simp
  · rw [BitVec.xor_assoc]
  · rw [BitVec.xor_assoc, BitVec.xor_assoc]; congr 1; rw [BitVec.xor_comm]
  · apply BitVec.eq_of_getLsbD_eq
    intro i hi
    simp only [BitVec.getLsbD_xor]
    cases (x >>> 1).getLsbD i <;> cases (y >>> 1).getLsbD i <;> simp

theorem lfsr_zero : lfsr 0#32 = 0#32 := by decide

theorem lfsr_shiftLeft (y : BitVec 32) (h : y.getLsbD 31 = false) : lfsr (y <<< 1) = y := by
  unfold lfsr crcBit
  have h0 : (y <<< 1).getLsbD 0 = false := by simp
  rw [h0]
  simp only [bne_self_eq_false, Bool.false_eq_true, if_false]
  apply BitVec.eq_of_getLsbD_eq
  intro i hi
  rw [BitVec.getLsbD_ushiftRight, BitVec.getLsbD_shiftLeft]
  by_cases h31 : i = 31
  · subst h31; rw [h]; simp
  · simp; omega

theorem lfsr_injective (x y : BitVec 32) (h : lfsr x = lfsr y) : x = y := by
  have hbit : ∀ z : BitVec 32, (lfsr z).getLsbD 31 = z.getLsbD 0 := by
    intro z
    unfold lfsr crcBit
    cases hz : z.getLsbD 0 <;> simp
  have h0 : x.getLsbD 0 = y.getLsbD 0 := by rw [← hbit, ← hbit, h]
  have h1 : x >>> 1 = y >>> 1 := by
    unfold lfsr crcBit at h
    rw [h0] at h
    split at h
    · exact xor_left_cancel' h
    · exact h
  apply BitVec.eq_of_getLsbD_eq
  intro i hi
  cases i with
  | zero => exact h0
  | succ i =>
    have := congrArg (fun z : BitVec 32 => z.getLsbD i) h1
    simpa [BitVec.getLsbD_ushiftRight, Nat.add_comm] using this

theorem crcBit_injective (x y : BitVec 32) (b : Bool) (h : crcBit x b = crcBit y b) : x = y := by
  rw [crcBit_eq, crcBit_eq] at h
  have := lfsr_injective _ _ h
  exact xor_left_cancel' this

theorem foldl_crcBit_injective (bits : List Bool) : ∀ (x y : BitVec 32), bits.foldl crcBit x = bits.foldl crcBit y → x = y := by
  induction bits with
  | nil => exact fun x y h => h
  | cons b bs ih => intro x y h; exact crcBit_injective x y b (ih _ _ h)

theorem lfsrN_injective (n : Nat) : ∀ x y, lfsrN n x = lfsrN n y → x = y := by
  induction n with
  | zero => exact fun x y h => h
  | succ n ih => intro x y h; exact lfsr_injective x y (ih _ _ h)

theorem lfsrN_xor (n : Nat) : ∀ x y, lfsrN n (x ^^^ y) = lfsrN n x ^^^ lfsrN n y := by
  induction n with
  | zero => exact fun x y => rfl
  | succ n ih => intro x y; rw [lfsrN, lfsr_xor, ih]; rfl

/-- The bits of a list as a number, the first bit least significant. -/
def word : List Bool → BitVec 32
  | [] => 0#32
  | b :: bs => (if b then 1#32 else 0#32) ^^^ (word bs <<< 1)

theorem word_high (bs : List Bool) : ∀ i, bs.length ≤ i → (word bs).getLsbD i = false := by
  induction bs with
  | nil => intro i _; simp [word]
  | cons b bs ih =>
    intro i hi
    simp only [List.length_cons] at hi
    rw [word, BitVec.getLsbD_xor, BitVec.getLsbD_shiftLeft, ih (i - 1) (by omega)]
    cases b <;> simp [BitVec.getLsbD_one]; omega

theorem foldl_crcBit (bits : List Bool) : ∀ (r : BitVec 32), bits.length ≤ 32 → bits.foldl crcBit r = lfsrN bits.length (r ^^^ word bits) := by
  induction bits with
  | nil => intro r _; simp [word, lfsrN]
  | cons b bs ih =>
    intro r h
    simp only [List.length_cons] at h ⊢
    rw [List.foldl_cons, ih _ (by omega), lfsrN, word, ← BitVec.xor_assoc, lfsr_xor, ← crcBit_eq,
      lfsr_shiftLeft _ (word_high bs 31 (by omega))]

theorem word_injective (u : List Bool) : ∀ v : List Bool, u.length = v.length → u.length ≤ 32 → word u = word v → u = v := by
  induction u with
  | nil => intro v h _ _; cases v with
    | nil => rfl
    | cons => simp at h
  | cons a u ih =>
    intro v h hl he
    cases v with
    | nil => simp at h
    | cons b v =>
      simp only [List.length_cons] at h hl
      have h0 : a = b := by
        have := congrArg (fun z : BitVec 32 => z.getLsbD 0) he
        cases a <;> cases b <;> simp [word] at this ⊢
      subst h0
      have h1 : word u <<< 1 = word v <<< 1 := xor_right_cancel' he
      have h2 : word u = word v := by
        have := congrArg lfsr h1
        rwa [lfsr_shiftLeft _ (word_high u 31 (by omega)), lfsr_shiftLeft _ (word_high v 31 (by omega))] at this
      rw [ih v (by omega) (by omega) h2]

theorem word_byte : ∀ b : Byte, word ((List.range 8).map b.getLsbD) = b.setWidth 32 := by
  intro b
  apply BitVec.eq_of_getLsbD_eq
  have h : ∀ b : Byte, word ((List.range 8).map b.getLsbD) = b.setWidth 32 := by decide +kernel
  intro i _
  rw [h]

/-- The step of the code on a byte is eight bit steps. -/
theorem crcStep_eq {t : List (BitVec 32)} (ht : ∀ i, i < 256 → t[i]? = some (lfsrN 8 (BitVec.ofNat 32 i)))
    (crc x : BitVec 32) (b : Byte) (hx : x.setWidth 8 = b) :
    crcStep t crc x = .ok (((List.range 8).map b.getLsbD).foldl crcBit crc) := by
  have hlt : ((crc ^^^ x) &&& 0xFF#32).toNat < 256 := by
    rw [BitVec.toNat_and]
    exact Nat.lt_of_le_of_lt Nat.and_le_right (by decide)
  have hr : rd t ((crc ^^^ x) &&& 0xFF#32).toNat = .ok (lfsrN 8 ((crc ^^^ x) &&& 0xFF#32)) := by
    simp only [rd, ht _ hlt]
    rw [BitVec.ofNat_toNat, BitVec.setWidth_eq]
  have hff : ∀ i, (0xFF#32).getLsbD i = decide (i < 8) := by
    intro i
    by_cases hi : i < 32
    · have : ∀ i : Fin 32, (0xFF#32).getLsbD i.val = decide (i.val < 8) := by decide
      exact this ⟨i, hi⟩
    · rw [BitVec.getLsbD_of_ge _ _ (by omega)]; simp; omega
  have hsplit : crc ^^^ b.setWidth 32 = ((crc ^^^ x) &&& 0xFF#32) ^^^ ((crc >>> 8) <<< 8) := by
    apply BitVec.eq_of_getLsbD_eq
    intro i hi
    rw [BitVec.getLsbD_xor, BitVec.getLsbD_xor, BitVec.getLsbD_and, BitVec.getLsbD_xor, hff, BitVec.getLsbD_shiftLeft,
      BitVec.getLsbD_ushiftRight, BitVec.getLsbD_setWidth, ← hx, BitVec.getLsbD_setWidth]
    by_cases h8 : i < 8
    · simp [h8, hi]
    · simp [h8, hi]
      congr 1; omega
  have hshift : ∀ z : BitVec 32, lfsrN 8 ((z >>> 8) <<< 8) = z >>> 8 := by
    intro z
    have hz : ∀ i, 24 ≤ i → (z >>> 8).getLsbD i = false := by
      intro i hi
      rw [BitVec.getLsbD_ushiftRight]
      exact BitVec.getLsbD_of_ge _ _ (by omega)
    generalize z >>> 8 = y at hz
    have key : ∀ n, n ≤ 8 → lfsrN n (y <<< n) = y := by
      intro n
      induction n with
      | zero => intro _; simp [lfsrN]
      | succ n ih =>
        intro hn
        rw [lfsrN, show y <<< (n + 1) = (y <<< n) <<< 1 by rw [BitVec.shiftLeft_add], lfsr_shiftLeft, ih (by omega)]
        rw [BitVec.getLsbD_shiftLeft, hz (31 - n) (by omega)]; simp
    exact key 8 (Nat.le_refl _)
  rw [foldl_crcBit _ _ (by simp), word_byte, hsplit]
  simp only [crcStep, hr, ok_bind, pure_ok, List.length_map, List.length_range]
  rw [lfsrN_xor, hshift]

/-- The three loops of CRC32 compute the bitwise specification. -/
theorem foldl_bits (bytes : List Byte) : ∀ r, bytes.foldl (fun r b => ((List.range 8).map b.getLsbD).foldl crcBit r) r =
    (bitsOf bytes).foldl crcBit r := by
  induction bytes with
  | nil => intro r; rfl
  | cons b bs ih =>
    intro r
    rw [List.foldl_cons, ih]
    simp only [bitsOf, List.flatMap_cons, List.foldl_append]

theorem charTo_setWidth (s : Bool) (c : Byte) : (charTo s 32 c).setWidth 8 = c := by
  unfold charTo
  cases s
  · simp
  · simp only [if_true]
    apply BitVec.eq_of_getLsbD_eq
    intro i hi
    have : i < 32 := by omega
    rw [BitVec.getLsbD_setWidth, BitVec.getLsbD_signExtend]
    simp only [hi, this, decide_true, if_true, Bool.true_and]

theorem allOnes_eq : 0xFFFFFFFF#32 = BitVec.allOnes 32 := by decide

/-! ## Injectivity of the steps -/

theorem mul_inj {w : Nat} (k i : BitVec w) (h : k * i = 1#w) (x y : BitVec w) (e : x * k = y * k) : x = y := by
  have := congrArg (· * i) e
  simpa [BitVec.mul_assoc, h] using this

theorem prime32_inv : fnvPrime32 * 0x359c449b#32 = 1#32 := by decide
theorem prime64_inv : fnvPrime64 * 0xce965057aff6957b#64 = 1#64 := by decide
theorem kMul_inv : kMul * 0xdc56e6f5090b32d9#64 = 1#64 := by decide

theorem fnvStep_inj {w : Nat} (k i : BitVec w) (h : k * i = 1#w) {x y a b : BitVec w} (e : fnvStep k x a = fnvStep k y b) :
    x ^^^ a = y ^^^ b := mul_inj k i h _ _ e

theorem foldl_fnv_injective {w : Nat} (k i : BitVec w) (h : k * i = 1#w) (f : Byte → BitVec w) (l : List Byte) :
    ∀ x y, l.foldl (fun s c => fnvStep k s (f c)) x = l.foldl (fun s c => fnvStep k s (f c)) y → x = y := by
  induction l with
  | nil => exact fun x y e => e
  | cons c cs ih =>
    intro x y e
    exact xor_left_cancel' (fnvStep_inj k i h (ih _ _ e))

theorem xorshift_involutive (x : BitVec 64) : (x ^^^ (x >>> 47)) ^^^ ((x ^^^ (x >>> 47)) >>> 47) = x := by
  apply BitVec.eq_of_getLsbD_eq
  intro i hi
  simp only [BitVec.getLsbD_xor, BitVec.getLsbD_ushiftRight]
  rw [BitVec.getLsbD_of_ge x (47 + (47 + i)) (by omega)]
  cases x.getLsbD i <;> cases x.getLsbD (47 + i) <;> rfl

end Verif.Hash
