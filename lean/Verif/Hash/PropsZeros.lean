import Mathlib.Data.ZMod.Basic
import Mathlib.GroupTheory.OrderOfElement
import Mathlib.Algebra.Order.Ring.Nat
import Mathlib.Tactic.Ring
import Verif.Hash.PropsTwoBits
import Verif.Hash.PropsCheck

/-!
# Property C168: zero bytes that are inserted or left out
-/

namespace Verif.Hash
open Verif.Cpp

private theorem crc_eq (data : List Byte) : crc32Buffer data data.length = .ok (crcSpec data) := by
  rw [C47_buffer _ _ (Nat.le_refl _), List.take_length]

private theorem bitsOf_zeros (n : Nat) : bitsOf (List.replicate n 0#8) = List.replicate (8 * n) false := by
  induction n with
  | zero => rfl
  | succ n ih =>
    rw [List.replicate_succ, bitsOf_cons, ih, show 8 * (n + 1) = 8 + 8 * n by omega, ← List.replicate_append_replicate]
    congr 1

private theorem fold_zeros (n : Nat) : ∀ r, (List.replicate n false).foldl crcBit r = lfsrN n r := by
  induction n with
  | zero => intro r; rfl
  | succ n ih => intro r; rw [List.replicate_succ, List.foldl_cons, ih]; rfl

/-- C168: zero bytes inserted anywhere into a message, or left out, change its CRC32, unless their number is a multiple of 2^32 - 1 or the part of the message before them has the CRC32 0xFFFFFFFF. -/
theorem C168_crc32 (pre post : List Byte) (n : Nat) : ∃ x y z, crc32Buffer (pre ++ List.replicate n 0#8 ++ post) (pre ++ List.replicate n 0#8 ++ post).length = .ok x ∧
    crc32Buffer (pre ++ post) (pre ++ post).length = .ok y ∧ crc32Buffer pre pre.length = .ok z ∧ (x = y ↔ z = 0xFFFFFFFF#32 ∨ 2 ^ 32 - 1 ∣ n) := by
  refine ⟨_, _, _, crc_eq _, crc_eq _, crc_eq _, ?_⟩
  unfold crcSpec crcRegister
  rw [BitVec.not_inj, bitsOf_append, bitsOf_append, bitsOf_append, List.foldl_append, List.foldl_append, List.foldl_append, bitsOf_zeros, fold_zeros]
  have h1 : ∀ r : BitVec 32, ~~~r = 0xFFFFFFFF#32 ↔ r = 0#32 := by
    intro r
    rw [show 0xFFFFFFFF#32 = ~~~0#32 by decide, BitVec.not_inj]
  have h2 : 4294967295 ∣ 8 * n ↔ 2 ^ 32 - 1 ∣ n := by
    rw [show 2 ^ 32 - 1 = 4294967295 by norm_num]
    exact Nat.Coprime.dvd_mul_left (by decide)
  rw [h1, ← h2, ← lfsrN_fixed]
  exact ⟨fun h => foldl_crcBit_injective _ _ _ h, fun h => by rw [h]⟩

/-! ## Powers of the primes -/

private def square (m p : Nat) : Nat → Nat
  | 0 => p % m
  | k + 1 => square m p k * square m p k % m

private theorem square_eq (m p k : Nat) : p ^ 2 ^ k % m = square m p k := by
  induction k with
  | zero => simp [square]
  | succ k ih => rw [square, ← ih, pow_succ, pow_mul, pow_two, Nat.mul_mod]

private theorem order (w p k : Nat) (hw : 1 < 2 ^ w) (h1 : square (2 ^ w) p k ≠ 1) (h2 : square (2 ^ w) p (k + 1) = 1) (n : Nat) :
    p ^ n % 2 ^ w = 1 ↔ 2 ^ (k + 1) ∣ n := by
  have hz : ∀ n, ((p : ZMod (2 ^ w)) ^ n = 1 ↔ p ^ n % 2 ^ w = 1) := by
    intro n
    have := ZMod.natCast_eq_natCast_iff' (p ^ n) 1 (2 ^ w)
    rw [Nat.mod_eq_of_lt hw] at this
    simpa using this
  have ho : orderOf (p : ZMod (2 ^ w)) = 2 ^ (k + 1) := by
    apply orderOf_eq_prime_pow
    · rw [hz, square_eq]; exact h1
    · rw [hz, square_eq]; exact h2
  rw [← hz, ← ho, orderOf_dvd_iff_pow_eq_one]

private theorem raise (a k : Nat) (h : 2 ^ k ∣ a) (j : Nat) (hk : 1 ≤ k) : 2 ^ (k + j) ∣ (a + 1) ^ 2 ^ j - 1 := by
  induction j with
  | zero => simpa using h
  | succ j ih =>
    obtain ⟨c, hc⟩ := ih
    have h1 : 1 ≤ (a + 1) ^ 2 ^ j := Nat.one_le_pow _ _ (by omega)
    have h2 : (a + 1) ^ 2 ^ j = 2 ^ (k + j) * c + 1 := by omega
    rw [pow_succ 2 j, pow_mul, h2]
    obtain ⟨d, hd⟩ : ∃ d, 2 ^ (k + j) = 2 * d := ⟨2 ^ (k + j - 1), by rw [← pow_succ']; congr 1; omega⟩
    refine ⟨c * (d * c + 1), ?_⟩
    rw [show k + (j + 1) = k + j + 1 by omega, pow_succ 2 (k + j), hd]
    have : (2 * d * c + 1) ^ 2 = 2 * d * 2 * (c * (d * c + 1)) + 1 := by ring
    omega

private theorem odd_part (h : Nat) (hne : h ≠ 0) : ∃ v o, Odd o ∧ h = 2 ^ v * o := by
  induction h using Nat.strong_induction_on with
  | _ h ih =>
    rcases Nat.even_or_odd h with he | ho
    · obtain ⟨c, rfl⟩ := he
      obtain ⟨v, o, ho, e⟩ := ih c (by omega) (by omega)
      exact ⟨v + 1, o, ho, by rw [pow_succ, Nat.mul_right_comm, ← e]; ring⟩
    · exact ⟨0, h, ho, by simp⟩

/-- A hash that is not a multiple of `2 ^ (j + 1)` comes back after a multiple of `2 ^ (k + 1 - j)` steps only. -/
private theorem returns (w p k : Nat) (hw : 1 < 2 ^ w) (h1 : square (2 ^ w) p k ≠ 1) (h2 : square (2 ^ w) p (k + 1) = 1) (hp : 1 ≤ p) (h n j : Nat) (hj : j < w) (hh : ¬ 2 ^ (j + 1) ∣ h)
    (e : h * p ^ n % 2 ^ w = h % 2 ^ w) : 2 ^ (k + 1) ∣ n * 2 ^ j := by
  rw [← order w p k hw h1 h2, pow_mul]
  have hpn : 1 ≤ p ^ n := Nat.one_le_pow _ _ hp
  have hd : 2 ^ w ∣ h * (p ^ n - 1) := by
    rw [Nat.mul_sub, Nat.mul_one]
    exact (Nat.modEq_iff_dvd' (Nat.le_mul_of_pos_right _ hpn)).mp e.symm
  have hd' : 2 ^ (w - j) ∣ p ^ n - 1 := by
    have hne : h ≠ 0 := by rintro rfl; exact hh (Nat.dvd_zero _)
    obtain ⟨v, o, ho, rfl⟩ := odd_part h hne
    have hv : v ≤ j := by
      by_contra hv
      exact hh ((pow_dvd_pow 2 (by omega)).trans (Nat.dvd_mul_right _ _))
    rw [show w = v + (w - v) by omega, pow_add, Nat.mul_assoc] at hd
    have := Nat.dvd_of_mul_dvd_mul_left (by positivity) hd
    have := (Nat.Coprime.dvd_mul_left (Nat.Coprime.pow_left _ (Nat.coprime_two_left.mpr ho))).mp this
    exact (pow_dvd_pow 2 (by omega)).trans this
  have := raise _ _ hd' j (by omega)
  rw [Nat.sub_add_cancel hpn, show w - j + j = w by omega] at this
  have h3 : 1 ≤ (p ^ n) ^ 2 ^ j := Nat.one_le_pow _ _ hpn
  have := (Nat.modEq_iff_dvd' h3).mpr this
  rw [← this, Nat.mod_eq_of_lt hw]

/-! ## FNV-1a -/

private def foldFnv {w : Nat} (p : BitVec w) (x : BitVec w) (text : List Byte) : BitVec w := text.foldl (fun s c => fnvStep p s (c.setWidth w)) x

private theorem fnv32_eq (data : List Byte) : fnv32Buffer data data.length = .ok (foldFnv fnvPrime32 fnvBasis32 data) := by
  unfold fnv32Buffer
  rw [fnvBuffer_eq _ _ _ data _ (Nat.le_refl _), List.take_length]; rfl
private theorem fnv64_eq (data : List Byte) : fnv64Buffer data data.length = .ok (foldFnv fnvPrime64 fnvBasis64 data) := by
  unfold fnv64Buffer
  rw [fnvBuffer_eq _ _ _ data _ (Nat.le_refl _), List.take_length]; rfl

private theorem fold_zero_bytes {w : Nat} (p : BitVec w) (n : Nat) : ∀ x, (foldFnv p x (List.replicate n 0#8)).toNat = x.toNat * p.toNat ^ n % 2 ^ w := by
  induction n with
  | zero => intro x; simp [foldFnv, Nat.mod_eq_of_lt x.isLt]
  | succ n ih =>
    intro x
    rw [List.replicate_succ]
    show (foldFnv p (fnvStep p x _) _).toNat = _
    rw [ih, fnvStep]
    simp [BitVec.toNat_mul, pow_succ', Nat.mul_assoc]

private theorem fold_append {w : Nat} (p x : BitVec w) (a b : List Byte) : foldFnv p x (a ++ b) = foldFnv p (foldFnv p x a) b := List.foldl_append

private theorem inserted {w : Nat} (p i basis : BitVec w) (hi : p * i = 1#w) (k : Nat) (hw : 1 < 2 ^ w) (h1 : square (2 ^ w) p.toNat k ≠ 1) (h2 : square (2 ^ w) p.toNat (k + 1) = 1) (hp : 1 ≤ p.toNat)
    (pre post : List Byte) (n j : Nat) (hj : j ≤ k) (hkw : k < w) (hn0 : 0 < n) (hn : n < 2 ^ (k + 1 - j)) (hh : ¬ 2 ^ (j + 1) ∣ (foldFnv p basis pre).toNat) :
    foldFnv p basis (pre ++ List.replicate n 0#8 ++ post) ≠ foldFnv p basis (pre ++ post) := by
  intro e
  rw [fold_append, fold_append, fold_append] at e
  have e := congrArg BitVec.toNat (foldl_fnv_injective p i hi _ post _ _ e)
  rw [fold_zero_bytes] at e
  have := returns w p.toNat k hw h1 h2 hp _ n j (by omega) hh (by rw [e, Nat.mod_eq_of_lt (BitVec.isLt _)])
  rw [show k + 1 = k + 1 - j + j by omega, pow_add] at this
  have := Nat.le_of_dvd hn0 (Nat.dvd_of_mul_dvd_mul_right (by positivity) this)
  omega

/-- C168: zero bytes inserted into a message, or left out, change its FNV-1a hash of 32 bits as long as they are less than 2^(30 - j) and the hash of the part of the message before them is not a multiple of
2^(j + 1): less than 2^30 after a part with an odd hash, less than 2^29 if the hash is not a multiple of four, and so on. -/
theorem C168_fnv32_partial (pre post : List Byte) (n j : Nat) (hj : j ≤ 29) (hn : 0 < n ∧ n < 2 ^ (30 - j)) (z : BitVec 32) (hz : fnv32Buffer pre pre.length = .ok z) (hd : ¬ 2 ^ (j + 1) ∣ z.toNat) :
    ∃ x y, fnv32Buffer (pre ++ List.replicate n 0#8 ++ post) (pre ++ List.replicate n 0#8 ++ post).length = .ok x ∧ fnv32Buffer (pre ++ post) (pre ++ post).length = .ok y ∧ x ≠ y := by
  rw [fnv32_eq] at hz
  injection hz with hz
  subst hz
  exact ⟨_, _, fnv32_eq _, fnv32_eq _, inserted fnvPrime32 0x359c449b#32 fnvBasis32 (by decide) 29 (by norm_num) (by decide) (by decide) (by decide) pre post n j hj (by omega) hn.1 hn.2 hd⟩

/-- C168: the same for the hash of 64 bits, up to 2^62 bytes. -/
theorem C168_fnv64_partial (pre post : List Byte) (n j : Nat) (hj : j ≤ 61) (hn : 0 < n ∧ n < 2 ^ (62 - j)) (z : BitVec 64) (hz : fnv64Buffer pre pre.length = .ok z) (hd : ¬ 2 ^ (j + 1) ∣ z.toNat) :
    ∃ x y, fnv64Buffer (pre ++ List.replicate n 0#8 ++ post) (pre ++ List.replicate n 0#8 ++ post).length = .ok x ∧ fnv64Buffer (pre ++ post) (pre ++ post).length = .ok y ∧ x ≠ y := by
  rw [fnv64_eq] at hz
  injection hz with hz
  subst hz
  exact ⟨_, _, fnv64_eq _, fnv64_eq _, inserted fnvPrime64 0xce965057aff6957b#64 fnvBasis64 (by decide) 61 (by norm_num) (by decide) (by decide) (by decide) pre post n j hj (by omega) hn.1 hn.2 hd⟩

/-- C168: zero bytes before a message: less than 2^32 - 1 of them change the CRC32, less than 2^30 the FNV-1a hash of 32 bits, less than 2^62 that of 64 bits, whatever the message. -/
theorem C168_before (data : List Byte) (n : Nat) (hn : 0 < n) :
    (∃ x y, crc32Buffer (List.replicate n 0#8 ++ data) (List.replicate n 0#8 ++ data).length = .ok x ∧ crc32Buffer data data.length = .ok y ∧ (n < 2 ^ 32 - 1 → x ≠ y)) ∧
    (∃ x y, fnv32Buffer (List.replicate n 0#8 ++ data) (List.replicate n 0#8 ++ data).length = .ok x ∧ fnv32Buffer data data.length = .ok y ∧ (n < 2 ^ 30 → x ≠ y)) ∧
    (∃ x y, fnv64Buffer (List.replicate n 0#8 ++ data) (List.replicate n 0#8 ++ data).length = .ok x ∧ fnv64Buffer data data.length = .ok y ∧ (n < 2 ^ 62 → x ≠ y)) := by
  refine ⟨?_, ?_, ?_⟩
  · obtain ⟨x, y, z, hx, hy, hz, h⟩ := C168_crc32 [] data n
    refine ⟨x, y, hx, hy, fun hl e => ?_⟩
    rcases h.mp e with h | h
    · subst h
      rw [crc_eq] at hz
      exact absurd (Except.ok.inj hz) (by decide)
    · have := Nat.le_of_dvd hn h
      omega
  · by_cases hl : n < 2 ^ 30
    · obtain ⟨x, y, hx, hy, h⟩ := C168_fnv32_partial [] data n 0 (by omega) ⟨hn, hl⟩ fnvBasis32 rfl (by decide)
      exact ⟨x, y, hx, hy, fun _ => h⟩
    · exact ⟨_, _, fnv32_eq _, fnv32_eq _, fun h => absurd h hl⟩
  · by_cases hl : n < 2 ^ 62
    · obtain ⟨x, y, hx, hy, h⟩ := C168_fnv64_partial [] data n 0 (by omega) ⟨hn, hl⟩ fnvBasis64 rfl (by decide)
      exact ⟨x, y, hx, hy, fun _ => h⟩
    · exact ⟨_, _, fnv64_eq _, fnv64_eq _, fun h => absurd h hl⟩

private theorem zero_stays {w : Nat} (p : BitVec w) (n : Nat) : foldFnv p 0#w (List.replicate n 0#8) = 0#w := by
  apply BitVec.eq_of_toNat_eq
  rw [fold_zero_bytes]; simp

/-- C168: but there are parts after which zero bytes never matter: every message can be continued by four bytes (and by no other four) after which CRC32 does not see any number of zero bytes. -/
theorem C168_crc32_violated (data : List Byte) : ∃! s : List Byte, s.length = 4 ∧
    ∀ n post, crc32Buffer (data ++ s ++ List.replicate n 0#8 ++ post) (data ++ s ++ List.replicate n 0#8 ++ post).length = crc32Buffer (data ++ s ++ post) (data ++ s ++ post).length := by
  obtain ⟨s, ⟨hl, hs⟩, hu⟩ := C164_four_bytes data [] 0xFFFFFFFF#32
  rw [List.append_nil] at hs
  refine ⟨s, ⟨hl, fun n post => ?_⟩, fun s' ⟨hl', hs'⟩ => hu s' ⟨hl', ?_⟩⟩
  · obtain ⟨x, y, z, hx, hy, hz, h⟩ := C168_crc32 (data ++ s) post n
    rw [hx, hy, h.mpr (Or.inl (Except.ok.inj (hz.symm.trans hs)))]
  · obtain ⟨x, y, z, hx, hy, hz, h⟩ := C168_crc32 (data ++ s') [] 1
    have := hs' 1 []
    have := Except.ok.inj (hx.symm.trans (this.trans hy))
    rw [List.append_nil, hz]
    rcases h.mp this with h | h
    · rw [h]
    · exact absurd (Nat.le_of_dvd (by omega) h) (by norm_num)

/-- C168: and there are messages of four and eight bytes with the FNV-1a hash zero, which any number of zero bytes after them leaves as it is. -/
theorem C168_fnv_violated :
    (∃ data : List Byte, data.length = 4 ∧ ∀ n post, fnv32Buffer (data ++ List.replicate n 0#8 ++ post) (data ++ List.replicate n 0#8 ++ post).length = fnv32Buffer (data ++ post) (data ++ post).length) ∧
    (∃ data : List Byte, data.length = 8 ∧ ∀ n post, fnv64Buffer (data ++ List.replicate n 0#8 ++ post) (data ++ List.replicate n 0#8 ++ post).length = fnv64Buffer (data ++ post) (data ++ post).length) := by
  refine ⟨⟨[0xcc#8, 0x24#8, 0x31#8, 0xc4#8], rfl, fun n post => ?_⟩, ⟨[0xd5#8, 0x6b#8, 0xb9#8, 0x53#8, 0x42#8, 0x87#8, 0x08#8, 0x36#8], rfl, fun n post => ?_⟩⟩
  · rw [fnv32_eq, fnv32_eq, fold_append, fold_append, fold_append, show foldFnv fnvPrime32 fnvBasis32 [0xcc#8, 0x24#8, 0x31#8, 0xc4#8] = 0#32 by decide, zero_stays]
  · rw [fnv64_eq, fnv64_eq, fold_append, fold_append, fold_append, show foldFnv fnvPrime64 fnvBasis64 [0xd5#8, 0x6b#8, 0xb9#8, 0x53#8, 0x42#8, 0x87#8, 0x08#8, 0x36#8] = 0#64 by decide, zero_stays]

example : ∃ z, fnv32Buffer [0x61#8] 1 = .ok z ∧ ¬ 2 ^ (3 + 1) ∣ z.toNat := ⟨0xe40c292c#32, by decide, by decide⟩

end Verif.Hash
