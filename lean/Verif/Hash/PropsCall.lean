import Verif.Hash.ModelCall
import Verif.Hash.Props

/-!
# Property C131: the hash of a text and the way in which it is passed
-/

namespace Verif.Hash

open Verif.Cpp

/-! ## Specification -/

/-- The text that the arguments denote: for arrays and pointers, the characters up to the first null. -/
def Arg.text : Arg → List Byte
  | .literal m | .array m | .constPtr m | .ptr m => m.takeWhile (· != 0#8)
  | .view s | .string s => s
  | .bytes m n => m.take n

/-- The arguments denote a text: C strings are terminated, buffers are large enough. -/
def Arg.Good : Arg → Prop
  | .literal m | .array m | .constPtr m | .ptr m => 0#8 ∈ m
  | .view _ | .string _ => True
  | .bytes m n => n ≤ m.length

/-- The argument is an array of `char` that is not const. -/
def Arg.IsCharArray : Arg → Prop
  | .array _ => True
  | _ => False

/-- The characters of the text are widened to themselves: `char` is unsigned, or bytes are passed, or the text is ASCII. -/
def Arg.Plain (charSigned : Bool) (a : Arg) : Prop := charSigned = false ∨ (∃ m n, a = .bytes m n) ∨ ∀ c ∈ a.text, c.toNat < 128

/-- FNV-1a of 32 bits. -/
def fnv32Spec (l : List Byte) : Nat := fnvSpec 32 2166136261 16777619 l
/-- FNV-1a of 64 bits. -/
def fnv64Spec (l : List Byte) : Nat := fnvSpec 64 14695981039346656037 1099511628211 l

/-! ## Lemmas -/

theorem split_text (m : List Byte) (h : 0#8 ∈ m) : ∃ rest, m = m.takeWhile (· != 0#8) ++ 0#8 :: rest ∧ ∀ c ∈ m.takeWhile (· != 0#8), c ≠ 0#8 := by
  induction m with
  | nil => simp at h
  | cons c cs ih =>
    by_cases hc : c = 0#8
    · subst hc
      exact ⟨cs, by simp, by simp⟩
    · obtain ⟨rest, e, h2⟩ := ih (by
        rcases List.mem_cons.1 h with h | h
        · exact absurd h.symm hc
        · exact h)
      have ht : (c :: cs).takeWhile (· != 0#8) = c :: cs.takeWhile (· != 0#8) := by simp [hc]
      rw [ht]
      refine ⟨rest, by rw [List.cons_append, ← e], ?_⟩
      intro d hd
      rcases List.mem_cons.1 hd with rfl | hd
      · exact hc
      · exact h2 d hd

theorem crc_cstr (cs : Bool) (m : List Byte) (h : 0#8 ∈ m) : crc32CStr cs m = .ok (crcSpec (m.takeWhile (· != 0#8))) := by
  obtain ⟨rest, e, h2⟩ := split_text m h
  generalize m.takeWhile (· != 0#8) = s at *
  subst e
  exact C47_cstr cs s rest h2

theorem fnv_view (cs : Bool) (s : List Byte) (h : cs = false ∨ ∀ c ∈ s, c.toNat < 128) :
    (∃ x, fnv32View cs s = .ok x ∧ x.toNat = fnv32Spec s) ∧ ∃ x, fnv64View cs s = .ok x ∧ x.toNat = fnv64Spec s := by
  obtain ⟨h1, h2, -⟩ := C49_fnv_partial cs s [] h
  rw [h1, h2]
  exact C48_fnv_value s

theorem fnv_cstr (cs : Bool) (m : List Byte) (h0 : 0#8 ∈ m) (h : cs = false ∨ ∀ c ∈ m.takeWhile (· != 0#8), c.toNat < 128) :
    (∃ x, fnv32CStr cs m = .ok x ∧ x.toNat = fnv32Spec (m.takeWhile (· != 0#8))) ∧
      ∃ x, fnv64CStr cs m = .ok x ∧ x.toNat = fnv64Spec (m.takeWhile (· != 0#8)) := by
  obtain ⟨rest, e, h2⟩ := split_text m h0
  generalize m.takeWhile (· != 0#8) = s at *
  subst e
  obtain ⟨-, -, h3⟩ := C49_fnv_partial cs s rest h
  obtain ⟨h4, h5⟩ := h3 h2
  rw [h4, h5]
  exact C48_fnv_value s

theorem fnv_buffer (m : List Byte) (n : Nat) (hn : n ≤ m.length) :
    (∃ x, fnv32Buffer m n = .ok x ∧ x.toNat = fnv32Spec (m.take n)) ∧ ∃ x, fnv64Buffer m n = .ok x ∧ x.toNat = fnv64Spec (m.take n) := by
  have hl : (m.take n).length = n := by simp [hn]
  have h := C48_fnv_value (m.take n)
  have e : ∀ (w : Nat) (p b : BitVec w), bufferLoop (fun h c => .ok (fnvStep p h (c.setWidth w))) m n b =
      bufferLoop (fun h c => .ok (fnvStep p h (c.setWidth w))) (m.take n) (m.take n).length b := by
    intro w p b
    rw [fnvBuffer_eq _ _ _ _ _ hn, fnvBuffer_eq _ _ _ _ _ (Nat.le_refl _), List.take_length]
  unfold fnv32Buffer fnv64Buffer at h ⊢
  rw [e, e]
  exact h

theorem resolve_literal (m : List Byte) : (Arg.literal m).resolve = some .cstr := rfl
theorem resolve_array (m : List Byte) : (Arg.array m).resolve = some .array := rfl
theorem resolve_constPtr (m : List Byte) : (Arg.constPtr m).resolve = some .cstr := rfl
theorem resolve_ptr (m : List Byte) : (Arg.ptr m).resolve = some .cstr := rfl
theorem resolve_view (m : List Byte) : (Arg.view m).resolve = some .view := rfl
theorem resolve_string (m : List Byte) : (Arg.string m).resolve = some .view := rfl
theorem resolve_bytes (m : List Byte) (n : Nat) : (Arg.bytes m n).resolve = some .buffer := rfl

/-- The register is never the same after a null byte, unless it is 0. -/
theorem lfsr_fixed (r : BitVec 32) (h : lfsr r = r) : r = 0#32 := by
  have hb : ∀ i, i < 32 → r.getLsbD i = (r.getLsbD (i + 1) != ((0xEDB88320#32).getLsbD i && r.getLsbD 0)) := by
    intro i _
    have := congrArg (fun v => BitVec.getLsbD v i) h
    unfold lfsr crcBit at this
    simp only [Bool.bne_false] at this
    rw [← this]
    cases r.getLsbD 0 <;> simp [Nat.add_comm 1 i]
  have h32 : r.getLsbD 32 = false := BitVec.getLsbD_of_ge _ _ (by omega)
  have hall : ∀ k, k ≤ 32 → r.getLsbD (32 - k) = ((List.range k).foldl (fun x j => x != (0xEDB88320#32).getLsbD (31 - j)) false && r.getLsbD 0) := by
    intro k
    induction k with
    | zero => intro _; simp
    | succ k ih =>
      intro hk
      rw [hb (32 - (k + 1)) (by omega), show 32 - (k + 1) + 1 = 32 - k by omega, ih (by omega), List.range_succ, List.foldl_append, show 32 - (k + 1) = 31 - k by omega]
      generalize (List.range k).foldl _ false = x
      simp only [List.foldl_cons, List.foldl_nil]
      generalize (0xEDB88320#32).getLsbD (31 - k) = y
      generalize r.getLsbD 0 = z
      cases x <;> cases y <;> cases z <;> rfl
  have h0 : r.getLsbD 0 = false := by
    have := hall 32 (Nat.le_refl _)
    rw [show (List.range 32).foldl (fun x j => x != (0xEDB88320#32).getLsbD (31 - j)) false = false by decide, Bool.false_and] at this
    exact this
  apply BitVec.eq_of_getLsbD_eq
  intro i hi
  have := hall (32 - i) (by omega)
  rw [h0, Bool.and_false, show 32 - (32 - i) = i by omega] at this
  simpa using this

theorem lfsrN_add (m n : Nat) : ∀ x, lfsrN (m + n) x = lfsrN n (lfsrN m x) := by
  induction m with
  | zero => intro x; simp [lfsrN]
  | succ m ih => intro x; rw [Nat.succ_add]; simp only [lfsrN]; exact ih _

theorem lfsrN_fixed_double (m : Nat) (h : ∀ r, lfsrN m r = r → r = 0#32) (r : BitVec 32) (hr : lfsrN (m + m) r = r) : r = 0#32 := by
  apply h
  have : lfsrN m r ^^^ r = 0#32 := by
    apply h
    rw [lfsrN_xor, ← lfsrN_add, hr, BitVec.xor_comm]
  have h2 := congrArg (· ^^^ r) this
  simpa [BitVec.xor_assoc] using h2

theorem lfsr8_fixed (r : BitVec 32) : lfsrN 8 r = r ↔ r = 0#32 := by
  constructor
  · exact lfsrN_fixed_double 4 (lfsrN_fixed_double 2 (lfsrN_fixed_double 1 lfsr_fixed)) r
  · rintro rfl; decide

theorem crcSpec_null (s : List Byte) : crcSpec (s ++ [0#8]) = crcSpec s ↔ crcSpec s = 0xFFFFFFFF#32 := by
  have h : crcRegister (bitsOf (s ++ [0#8])) = lfsrN 8 (crcRegister (bitsOf s)) := by
    unfold crcRegister bitsOf
    rw [List.flatMap_append, List.foldl_append]
    rfl
  unfold crcSpec
  rw [h]
  generalize crcRegister (bitsOf s) = r
  constructor
  · intro e
    rw [(lfsr8_fixed r).1 (BitVec.not_inj.1 e)]
    decide
  · intro e
    have : r = 0#32 := by
      have := congrArg (~~~ ·) e
      simpa using this
    rw [this]
    decide

theorem fnvSpec_null (w b p : Nat) (s : List Byte) : fnvSpec w b p (s ++ [0#8]) = fnvSpec w b p s * p % 2 ^ w := by
  unfold fnvSpec
  rw [List.foldl_append]
  simp

theorem fnvSpec_lt (w b p : Nat) (hb : b < 2 ^ w) (s : List Byte) : fnvSpec w b p s < 2 ^ w := by
  unfold fnvSpec
  induction s using List.reverseRecOn with
  | nil => exact hb
  | append_singleton s c _ => rw [List.foldl_append]; exact Nat.mod_lt _ (Nat.two_pow_pos w)

/-- Multiplying by an odd prime that is 3 modulo 4 leaves few numbers as they are. -/
theorem mul_fixed (w m v : Nat) (h : v < 2 ^ (w + 1)) : v * (2 * (2 * m + 1) + 1) % 2 ^ (w + 1) = v ↔ v % 2 ^ w = 0 := by
  have hpow : 2 ^ (w + 1) = 2 * 2 ^ w := by rw [Nat.pow_succ]; omega
  have hexp : v * (2 * (2 * m + 1) + 1) = 2 * ((2 * m + 1) * v) + v := by
    rw [Nat.mul_add, Nat.mul_one, Nat.mul_left_comm, Nat.mul_comm v]
  rw [hexp]
  constructor
  · intro e
    have h1 : 2 * 2 ^ w ∣ 2 * ((2 * m + 1) * v) := by
      have := Nat.div_add_mod (2 * ((2 * m + 1) * v) + v) (2 ^ (w + 1))
      rw [e] at this
      rw [← hpow]
      exact ⟨(2 * ((2 * m + 1) * v) + v) / 2 ^ (w + 1), (Nat.add_right_cancel this).symm⟩
    have h2 : 2 ^ w ∣ (2 * m + 1) * v := Nat.dvd_of_mul_dvd_mul_left (by decide) h1
    have h3 : Nat.Coprime (2 ^ w) (2 * m + 1) := Nat.Coprime.pow_left w (by
      rw [Nat.coprime_two_left]; exact ⟨m, rfl⟩)
    exact Nat.mod_eq_zero_of_dvd (h3.dvd_of_dvd_mul_left h2)
  · intro e
    obtain ⟨k, hk⟩ := Nat.dvd_of_mod_eq_zero e
    rw [show 2 * ((2 * m + 1) * v) = 2 ^ (w + 1) * ((2 * m + 1) * k) by rw [hpow, hk, Nat.mul_left_comm (2 * m + 1), Nat.mul_assoc],
      Nat.mul_add_mod, Nat.mod_eq_of_lt h]

/-! ## C131 -/

/-- C131: every way to pass a text compiles, and selects: the overload of C strings for literals and pointers, the overload of views for views and strings, that of buffers for
bytes with a size, and that of arrays for arrays of `char` only. -/
theorem C131_select (a : Arg) : ∃ o, a.resolve = some o ∧
    (o = .array ↔ a.IsCharArray) ∧ (o = .cstr ↔ ∃ m, a = .literal m ∨ a = .constPtr m ∨ a = .ptr m) ∧
    (o = .view ↔ ∃ s, a = .view s ∨ a = .string s) ∧ (o = .buffer ↔ ∃ m n, a = .bytes m n) := by
  cases a
  · exact ⟨.cstr, rfl, by simp [Arg.IsCharArray], by simp, by simp, by simp⟩
  · exact ⟨.array, rfl, by simp [Arg.IsCharArray], by simp, by simp, by simp⟩
  · exact ⟨.cstr, rfl, by simp [Arg.IsCharArray], by simp, by simp, by simp⟩
  · exact ⟨.cstr, rfl, by simp [Arg.IsCharArray], by simp, by simp, by simp⟩
  · exact ⟨.view, rfl, by simp [Arg.IsCharArray], by simp, by simp, by simp⟩
  · exact ⟨.view, rfl, by simp [Arg.IsCharArray], by simp, by simp, by simp⟩
  · exact ⟨.buffer, rfl, by simp [Arg.IsCharArray], by simp, by simp, by simp⟩

/-- C131 for CRC-32, but for arrays of `char`: the result is the CRC-32 of the text, directly, through the functor and through `HashFunctor` (reduced to the size of
`std::size_t`). -/
theorem C131_crc32_partial (charSigned : Bool) (n : Nat) (a : Arg) (hg : a.Good) (ha : ¬ a.IsCharArray) :
    crc32Call charSigned a = some (.ok (crcSpec a.text)) ∧ crc32Hash charSigned a = some (.ok (crcSpec a.text)) ∧
      hashFunctor n (crc32Hash charSigned) a = some (.ok ((crcSpec a.text).setWidth n)) := by
  have h : crc32Call charSigned a = some (.ok (crcSpec a.text)) := by
    unfold crc32Call callWith
    cases a with
    | array m => exact absurd trivial ha
    | literal m => rw [resolve_literal]; exact congrArg some (crc_cstr charSigned m hg)
    | constPtr m => rw [resolve_constPtr]; exact congrArg some (crc_cstr charSigned m hg)
    | ptr m => rw [resolve_ptr]; exact congrArg some (crc_cstr charSigned m hg)
    | view s => rw [resolve_view]; exact congrArg some (C47_view charSigned s)
    | string s => rw [resolve_string]; exact congrArg some (C47_view charSigned s)
    | bytes m k => rw [resolve_bytes]; exact congrArg some (C47_buffer m k hg)
  refine ⟨h, h, ?_⟩
  unfold hashFunctor
  rw [show crc32Hash charSigned a.forward = _ from h]
  rfl

/-- C131 for FNV-1a, but for arrays of `char`, and for texts whose characters are not negative: the result is the FNV-1a of the text, directly, through the functor and through
`HashFunctor`. -/
theorem C131_fnv_partial (charSigned : Bool) (n : Nat) (a : Arg) (hg : a.Good) (ha : ¬ a.IsCharArray) (hp : a.Plain charSigned) :
    (∃ x, fnv32Call charSigned a = some (.ok x) ∧ x.toNat = fnv32Spec a.text ∧ fnv32Hash charSigned a = some (.ok x) ∧
      hashFunctor n (fnv32Hash charSigned) a = some (.ok (x.setWidth n))) ∧
    ∃ x, fnv64Call charSigned a = some (.ok x) ∧ x.toNat = fnv64Spec a.text ∧ fnv64Hash charSigned a = some (.ok x) ∧
      hashFunctor n (fnv64Hash charSigned) a = some (.ok (x.setWidth n)) := by
  have h : (∃ x, fnv32Call charSigned a = some (.ok x) ∧ x.toNat = fnv32Spec a.text) ∧ ∃ x, fnv64Call charSigned a = some (.ok x) ∧ x.toNat = fnv64Spec a.text := by
    have hp' : (∃ m n, a = .bytes m n) ∨ (charSigned = false ∨ ∀ c ∈ a.text, c.toNat < 128) := by
      rcases hp with h | h | h
      · exact Or.inr (Or.inl h)
      · exact Or.inl h
      · exact Or.inr (Or.inr h)
    unfold fnv32Call fnv64Call callWith
    cases a with
    | array m => exact absurd trivial ha
    | literal m =>
      rw [resolve_literal]
      obtain ⟨⟨x, e, hx⟩, y, f, hy⟩ := fnv_cstr charSigned m hg (by rcases hp' with ⟨_, _, h⟩ | h <;> [cases h; exact h])
      exact ⟨⟨x, congrArg some e, hx⟩, y, congrArg some f, hy⟩
    | constPtr m =>
      rw [resolve_constPtr]
      obtain ⟨⟨x, e, hx⟩, y, f, hy⟩ := fnv_cstr charSigned m hg (by rcases hp' with ⟨_, _, h⟩ | h <;> [cases h; exact h])
      exact ⟨⟨x, congrArg some e, hx⟩, y, congrArg some f, hy⟩
    | ptr m =>
      rw [resolve_ptr]
      obtain ⟨⟨x, e, hx⟩, y, f, hy⟩ := fnv_cstr charSigned m hg (by rcases hp' with ⟨_, _, h⟩ | h <;> [cases h; exact h])
      exact ⟨⟨x, congrArg some e, hx⟩, y, congrArg some f, hy⟩
    | view s =>
      rw [resolve_view]
      obtain ⟨⟨x, e, hx⟩, y, f, hy⟩ := fnv_view charSigned s (by rcases hp' with ⟨_, _, h⟩ | h <;> [cases h; exact h])
      exact ⟨⟨x, congrArg some e, hx⟩, y, congrArg some f, hy⟩
    | string s =>
      rw [resolve_string]
      obtain ⟨⟨x, e, hx⟩, y, f, hy⟩ := fnv_view charSigned s (by rcases hp' with ⟨_, _, h⟩ | h <;> [cases h; exact h])
      exact ⟨⟨x, congrArg some e, hx⟩, y, congrArg some f, hy⟩
    | bytes m k =>
      rw [resolve_bytes]
      obtain ⟨⟨x, e, hx⟩, y, f, hy⟩ := fnv_buffer m k hg
      exact ⟨⟨x, congrArg some e, hx⟩, y, congrArg some f, hy⟩
  obtain ⟨⟨x, e, hx⟩, y, f, hy⟩ := h
  refine ⟨⟨x, e, hx, e, ?_⟩, y, f, hy, f, ?_⟩
  · unfold hashFunctor
    rw [show fnv32Hash charSigned a.forward = _ from e]
    rfl
  · unfold hashFunctor
    rw [show fnv64Hash charSigned a.forward = _ from f]
    rfl

/-- C131, arrays of `char`: all characters of the array are hashed, the text with its null and what follows. -/
theorem C131_array_exact (charSigned : Bool) (m : List Byte) :
    crc32Call charSigned (.array m) = some (.ok (crcSpec m)) ∧
    ((charSigned = false ∨ ∀ c ∈ m, c.toNat < 128) →
      (∃ x, fnv32Call charSigned (.array m) = some (.ok x) ∧ x.toNat = fnv32Spec m) ∧
      ∃ x, fnv64Call charSigned (.array m) = some (.ok x) ∧ x.toNat = fnv64Spec m) := by
  refine ⟨congrArg some (C47_view charSigned m), fun h => ?_⟩
  obtain ⟨⟨x, e, hx⟩, y, f, hy⟩ := fnv_view charSigned m h
  exact ⟨⟨x, congrArg some e, hx⟩, y, congrArg some f, hy⟩

/-- C131 is violated for arrays of `char`: an array initialised with a text of `n` characters and its null has another hash than the literal of the text, for every text but those
of few particular hashes. -/
theorem C131_array_violated (charSigned : Bool) (s : List Byte) (h0 : 0#8 ∉ s) :
    (crc32Call charSigned (.array (s ++ [0#8])) = crc32Call charSigned (.literal (s ++ [0#8])) ↔ crcSpec s = 0xFFFFFFFF#32) ∧
    ((charSigned = false ∨ ∀ c ∈ s, c.toNat < 128) →
      (fnv32Call charSigned (.array (s ++ [0#8])) = fnv32Call charSigned (.literal (s ++ [0#8])) ↔ fnv32Spec s % 2 ^ 31 = 0) ∧
      (fnv64Call charSigned (.array (s ++ [0#8])) = fnv64Call charSigned (.literal (s ++ [0#8])) ↔ fnv64Spec s % 2 ^ 63 = 0)) := by
  have ht : (Arg.literal (s ++ [0#8])).text = s := by
    show (s ++ [0#8]).takeWhile (· != 0#8) = s
    rw [List.takeWhile_append_of_pos (by intro c hc; simp; rintro rfl; exact h0 hc)]
    simp
  have hg : (Arg.literal (s ++ [0#8])).Good := by show 0#8 ∈ s ++ [0#8]; simp
  refine ⟨?_, fun h => ?_⟩
  · rw [(C131_array_exact charSigned _).1, (C131_crc32_partial charSigned 64 _ hg id).1, ht]
    rw [← crcSpec_null]
    constructor
    · intro e; injection e with e; injection e
    · intro e; rw [e]
  · have h' : charSigned = false ∨ ∀ c ∈ s ++ [0#8], c.toNat < 128 := by
      rcases h with h | h
      · exact Or.inl h
      · right
        intro c hc
        rcases List.mem_append.1 hc with hc | hc
        · exact h c hc
        · rw [List.mem_singleton.1 hc]; decide
    obtain ⟨⟨x, e, hx⟩, y, f, hy⟩ := (C131_array_exact charSigned (s ++ [0#8])).2 h'
    obtain ⟨⟨x', e', hx', -⟩, y', f', hy', -⟩ := C131_fnv_partial charSigned 64 _ hg id (by
      rcases h with h | h
      · exact Or.inl h
      · exact Or.inr (Or.inr (by rw [ht]; exact h)))
    rw [ht] at hx' hy'
    have hlt := fnvSpec_lt 32 2166136261 16777619 (by decide) s
    have hlt' := fnvSpec_lt 64 14695981039346656037 1099511628211 (by decide) s
    unfold fnv32Spec fnv64Spec at *
    rw [fnvSpec_null] at hx hy
    constructor
    · rw [e, e']
      have : some (Except.ok (ε := Err) x) = some (Except.ok x') ↔ x.toNat = x'.toNat := by
        rw [BitVec.toNat_inj]
        exact ⟨fun e => by injection e with e; injection e, fun e => by rw [e]⟩
      rw [this, hx, hx']
      exact mul_fixed 31 4194404 _ hlt
    · rw [f, f']
      have : some (Except.ok (ε := Err) y) = some (Except.ok y') ↔ y.toNat = y'.toNat := by
        rw [BitVec.toNat_inj]
        exact ⟨fun e => by injection e with e; injection e, fun e => by rw [e]⟩
      rw [this, hy, hy']
      exact mul_fixed 63 274877907052 _ hlt'

/-- C131, e.g.: `char buf[] = "abc"` has another CRC-32 than `"abc"`. -/
example : crc32Call true (.array [97#8, 98#8, 99#8, 0#8]) ≠ crc32Call true (.literal [97#8, 98#8, 99#8, 0#8]) := by
  intro h
  have := (C131_array_violated true [97#8, 98#8, 99#8] (by decide)).1.1 h
  revert this
  decide +kernel

/-- The hypotheses of the theorems hold e.g. of a literal with an embedded null, which ends the text, and of a view of the same characters, whose text goes on. -/
example : (Arg.literal [97#8, 0#8, 98#8, 0#8]).Good ∧ ¬ (Arg.literal [97#8, 0#8, 98#8, 0#8]).IsCharArray ∧ (Arg.literal [97#8, 0#8, 98#8, 0#8]).Plain true ∧
    (Arg.literal [97#8, 0#8, 98#8, 0#8]).text = [97#8] ∧ (Arg.view [97#8, 0#8, 98#8]).Good ∧ (Arg.view [97#8, 0#8, 98#8]).text = [97#8, 0#8, 98#8] := by
  refine ⟨?_, id, ?_, by decide, trivial, rfl⟩
  · show (0#8 : Byte) ∈ [97#8, 0#8, 98#8, 0#8]; decide
  · refine Or.inr (Or.inr ?_); decide

/-! ## C50 with a `std::size_t` of 32 bits -/

/-- C50 needs a `std::size_t` of 64 bits: with 32 bits, `HashCombine` merges distinct hashes. -/
theorem C50_size32_violated : ∃ seed x y : BitVec 32, x ≠ y ∧ hashCombine32 seed x = hashCombine32 seed y :=
  ⟨0#32, 26683#32, 67536#32, by decide, by decide +kernel⟩

end Verif.Hash
