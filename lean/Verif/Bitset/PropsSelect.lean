import Verif.Bitset.ModelSelect
import Verif.Bitset.PropsExact

/-!
# C154: making bitsets from texts, numbers and counts
-/

namespace Verif.Bitset.Select
open Verif.Cpp

variable {w : Nat}

/-- The texts that are taken: `const char*`, string literals, `std::string`, `std::string_view`. -/
def IsText : Src → List Char → Prop
  | .constChars s, s' => s = s'
  | .string s, s' => s = s'
  | .stringView s, s' => s = s'
  | _, _ => False

/-- Other expressions that convert to one of these types. -/
def IsOtherText : Src → Prop
  | .chars _ => True
  | .textClass a b c _ => a = true ∨ b = true ∨ c = true
  | _ => False

/-- Makes, without failure, the bitset whose bits are the characters of the text, the last one being bit 0. -/
def MakesText (m : Made w) (s : List Char) : Prop :=
  ∃ b : Bitset w, m = .makes (.ok b) ∧ getSize b = s.length ∧ ∀ (i : Nat) (hi : i < s.length), test b i = .ok (s[s.length - 1 - i] == '1')

/-- C154: `Bitset b(text)` and `b = text`. -/
theorem C154_text_partial (h : IsBlockWidth w) {x : Src} {s : List Char} (hx : IsText x s) (hs : ∀ c ∈ s, c = '0' ∨ c = '1') :
    MakesText (direct [x] : Made w) s ∧ MakesText (assign x : Made w) s := by
  obtain ⟨b, e, h1, h2⟩ := C05_ofString (w := w) h s hs
  cases x <;> simp only [IsText] at hx
  all_goals subst hx
  all_goals exact ⟨⟨b, by rw [← e]; rfl, h1, h2⟩, ⟨b, by rw [← e]; rfl, h1, h2⟩⟩

/-- C154: no other expression that converts to a text can be used, not even `char*` and arrays of `char`: the constructor template is preferred, and does not compile. -/
theorem C154_other_text_violated {x : Src} (hx : IsOtherText x) :
    (direct [x] : Made w) = .error ∧ (copyInit x : Made w) = .error ∧ (assign x : Made w) = .error := by
  cases x with
  | chars s => exact ⟨rfl, rfl, rfl⟩
  | textClass a b c s => cases a <;> cases b <;> cases c <;> exact ⟨rfl, rfl, rfl⟩
  | _ => exact hx.elim

/-- C154: texts do not convert to bitsets implicitly (the constructors are `explicit`); the conversion is accepted, through the template, and does not compile. -/
theorem C154_convert_violated {x : Src} {s : List Char} (hx : IsText x s) : (copyInit x : Made w) = .error := by
  cases x <;> simp only [IsText] at hx <;> rfl

private theorem resolve_integral (sg : Bool) (t : Nat) (v : BitVec t) : resolve ctors [.integral sg t v] = some ⟨[.deduced], false⟩ := by
  by_cases h : sg = false ∧ t = 64 <;> simp [resolve, ctors, ranks, conv, h]

private theorem direct_integral (sg : Bool) (t : Nat) (v : BitVec t) : (direct [.integral sg t v] : Made w) = .makes (ofInt sg v) := by
  rw [direct, resolve_integral]; rfl

/-- C154: integers make the bitset of their binary digits, in every form: `b(x)`, `b = x` and where a bitset is expected. -/
theorem C154_integer (h : IsBlockWidth w) {t : Nat} (ht : 0 < t) (v : BitVec t) (sg : Bool) (hv : sg = true → 0 ≤ v.toInt ∨ w ≤ t) :
    ∃ (b : Bitset w) (l : List Bool), (direct [.integral sg t v] : Made w) = .makes (.ok b) ∧ (copyInit (.integral sg t v) : Made w) = .makes (.ok b) ∧
      (assign (.integral sg t v) : Made w) = .makes (.ok b) ∧ Reachable b ∧ Shows b l ∧ Seq.toNat l = v.toNat := by
  have key : ∃ (b : Bitset w) (l : List Bool), ofInt sg v = .ok b ∧ Reachable b ∧ Shows b l ∧ Seq.toNat l = v.toNat := by
    cases sg with
    | false =>
      obtain ⟨b, l, e, h1, h2, h3, _⟩ := C06_ofInt (w := w) h ht v
      exact ⟨b, l, e, h1, h2, h3⟩
    | true =>
      obtain ⟨b, l, e, h1, h2, h3, _⟩ := C06_signed_partial (w := w) h ht v (hv rfl)
      exact ⟨b, l, e, h1, h2, h3⟩
  obtain ⟨b, l, e, h1, h2, h3⟩ := key
  refine ⟨b, l, ?_, ?_, ?_, h1, h2, h3⟩
  · rw [direct_integral, e]
  · have : resolve (ctors.filter (fun c => !c.isExplicit)) [.integral sg t v] = some ⟨[.deduced], false⟩ := by
      by_cases h : sg = false ∧ t = 64 <;> simp [resolve, ctors, ranks, conv, h]
    rw [copyInit, this, ← e]; rfl
  · have : resolve assigns [.integral sg t v] = some ⟨[.deduced], false⟩ := rfl
    rw [assign, this]
    simp only [if_true, Src.asVariable]
    rw [direct_integral, e]

/-- C154: the literal 0 and the truth values are numbers too, of 32 and of 8 bits. -/
theorem C154_zero_bool (h : IsBlockWidth w) (v : Bool) :
    (∃ (b : Bitset w) (l : List Bool), (direct [.literalZero] : Made w) = .makes (.ok b) ∧ (copyInit .literalZero : Made w) = .makes (.ok b) ∧
      (assign .literalZero : Made w) = .makes (.ok b) ∧ Shows b l ∧ Seq.toNat l = 0) ∧
    (∃ (b : Bitset w) (l : List Bool), (direct [.boolean v] : Made w) = .makes (.ok b) ∧ (copyInit (.boolean v) : Made w) = .makes (.ok b) ∧
      (assign (.boolean v) : Made w) = .makes (.ok b) ∧ Shows b l ∧ Seq.toNat l = v.toNat) := by
  constructor
  · obtain ⟨b, l, e, _, h2, h3, _⟩ := C06_signed_partial (w := w) h (t := 32) (by decide) 0#32 (.inl (by decide))
    exact ⟨b, l, by rw [← e]; rfl, by rw [← e]; rfl, by rw [← e]; rfl, h2, h3⟩
  · obtain ⟨b, l, e, _, h2, h3, _⟩ := C06_ofInt (w := w) h (t := 8) (by decide) (BitVec.ofNat 8 v.toNat)
    exact ⟨b, l, by rw [← e]; rfl, by rw [← e]; rfl, by rw [← e]; rfl, h2, by rw [h3]; cases v <;> rfl⟩

private theorem ofT_ne (x : Src) : (ofT x : Made w) ≠ .noMatch := by
  cases x <;> simp [ofT]
  split <;> simp

private theorem copyInit_eq (x : Src) : (copyInit x : Made w) = ofT x := by
  cases x with
  | textClass a b c s => cases a <;> cases b <;> cases c <;> rfl
  | _ => rfl

private theorem direct_ne (x : Src) : (direct [x] : Made w) ≠ .noMatch := by
  cases x with
  | integral sg t v => rw [direct_integral]; simp
  | floating t v z => exact ofT_ne (.floating t v z)
  | textClass a b c s => rw [show (direct [.textClass a b c s] : Made w) = .error by cases a <;> cases b <;> cases c <;> rfl]; simp
  | _ => exact fun hh => by cases hh

/-- C154: everything is accepted by overload resolution in every form (`std::is_constructible_v<Bitset, X>`, `std::is_convertible_v<X, Bitset>` and `std::is_assignable_v<Bitset&, X>` hold for all
types), also what does not compile. -/
theorem C154_accepts_violated (x : Src) :
    (direct [x] : Made w) ≠ .noMatch ∧ (copyInit x : Made w) ≠ .noMatch ∧ (assign x : Made w) ≠ .noMatch ∧
      ((direct [.other] : Made w) = .error ∧ (copyInit .other : Made w) = .error ∧ (assign .other : Made w) = .error) := by
  refine ⟨direct_ne x, by rw [copyInit_eq]; exact ofT_ne x, ?_, rfl, rfl, rfl⟩
  cases x with
  | stringView s => exact fun hh => by cases hh
  | textClass a b c s => rw [show (assign (.textClass a b c s) : Made w) = .error by cases a <;> cases b <;> cases c <;> rfl]; simp
  | integral sg t v => exact direct_ne (.integral sg t v)
  | boolean v => exact direct_ne (.boolean v)
  | literalZero => exact direct_ne (.integral true 32 0)
  | floating t v z => exact direct_ne (.floating t v z)
  | constChars s => exact direct_ne (.constChars s)
  | chars s => exact direct_ne (.chars s)
  | string s => exact direct_ne (.string s)
  | other => exact direct_ne .other

private theorem floatTo_ok {t n : Nat} (hn : n < 2 ^ t) : floatTo t (some (n : Int)) = .ok n := by
  show (if 0 ≤ (n : Int) ∧ (n : Int) < 2 ^ t then Except.ok (n : Int).toNat else Except.error Err.ub) = _
  rw [if_pos ⟨by omega, by exact_mod_cast hn⟩]; simp

private theorem floatTo_bad {t : Nat} {r : Option Int} (hr : ∀ n, r = some n → n < 0 ∨ 2 ^ t ≤ n) : floatTo t r = .error .ub := by
  cases r with
  | none => rfl
  | some n =>
    have := hr n rfl
    show (if 0 ≤ n ∧ n < 2 ^ t then Except.ok n.toNat else Except.error Err.ub) = _
    rw [if_neg (fun h => by rcases this with h' | h' <;> omega)]

/-- C154: a floating point number that is not wider than a block makes, in every form and without a cast, a bitset of its width with the digits of its integral part (a number that a block cannot
hold is undefined behaviour); a wider one does not compile. -/
theorem C154_floating_violated (t : Nat) (z : Bool) :
    (∀ v : Option Int, w < t →
      (direct [.floating t v z] : Made w) = .error ∧ (copyInit (.floating t v z) : Made w) = .error ∧ (assign (.floating t v z) : Made w) = .error) ∧
    (∀ v : Option Int, t ≤ w → (∀ n, v = some n → n < 0 ∨ 2 ^ w ≤ n) → (direct [.floating t v z] : Made w) = .makes (.error .ub)) ∧
    (t ≤ w → IsBlockWidth w → ∀ n : Nat, n < 2 ^ w → ∃ b : Bitset w, (direct [.floating t (some n) z] : Made w) = .makes (.ok b) ∧
      (copyInit (.floating t (some n) z) : Made w) = .makes (.ok b) ∧ (assign (.floating t (some n) z) : Made w) = .makes (.ok b) ∧
      getSize b = t ∧ ∀ (i : Nat), i < t → test b i = .ok (n.testBit i)) := by
  refine ⟨fun v h => ?_, fun v h hv => ?_, fun h hw n hn => ?_⟩
  · have : (ofT (.floating t v z) : Made w) = .error := by simp [ofT, Nat.not_le.2 h]
    exact ⟨this, this, this⟩
  · show (ofT (.floating t v z) : Made w) = _
    have hf := floatTo_bad hv
    simp [ofT, h, hf]
  · have hf := floatTo_ok hn
    have : (ofT (.floating t (some n) z) : Made w) = .makes (.ok ⟨[BitVec.ofNat w n], t⟩) := by
      simp only [ofT, if_pos h, hf]; rfl
    refine ⟨⟨[BitVec.ofNat w n], t⟩, this, this, this, rfl, fun i hi => ?_⟩
    have hiw : i < w := by omega
    have hd : i / w = 0 := Nat.div_eq_of_lt hiw
    have hm : i % w = i := Nat.mod_eq_of_lt hiw
    have hidx : i / w < [BitVec.ofNat w n].length := by rw [hd]; simp
    have hmod : i % w < w := by rw [hm]; exact hiw
    simp only [test, hi, decide_true, assert_true, ok_bind, getBlockIndex, getBitIndex_eq hw, rd_blk hidx, shl_ok _ hmod, pure_ok, and_mask_ne _ _ hmod]
    rw [hd, hm]
    show Except.ok ((BitVec.ofNat w n).getLsbD i) = _
    rw [BitVec.getLsbD_ofNat]
    simp [hiw]

private theorem ofSize_shows (h : IsBlockWidth w) (n : Nat) (v : Bool) : ∃ b : Bitset w, ofSize n v = .ok b ∧ Shows b (List.replicate n v) := by
  obtain ⟨b, e, hb⟩ := result_ok h (fun _ => empty) (fun _ => []) (fun _ => HasL.empty w) (.ofSize 0 n v) trivial
  exact ⟨b, e, hb.shows h⟩

/-- The value of an integer of `t` bits, converted to `size_t`. -/
def sizeValue {t : Nat} (sg : Bool) (n : BitVec t) : Nat := ((if sg then n.toInt else (n.toNat : Int)) % 2 ^ 64).toNat

/-- An integer that is not negative, of at most 64 bits, is itself. -/
theorem C154_sizeValue {t : Nat} (ht : t ≤ 64) (n : BitVec t) : sizeValue false n = n.toNat ∧ (0 ≤ n.toInt → sizeValue true n = n.toNat) := by
  have hp : (2 : Nat) ^ t ≤ 2 ^ 64 := Nat.pow_le_pow_right (by decide) ht
  have hlt : n.toNat < 2 ^ 64 := Nat.lt_of_lt_of_le n.isLt hp
  have e : ((n.toNat : Int) % 2 ^ 64).toNat = n.toNat := by
    rw [Int.emod_eq_of_lt (by omega) (by exact_mod_cast hlt)]; simp
  refine ⟨by simpa [sizeValue] using e, fun h => ?_⟩
  have : n.toInt = n.toNat := by
    rw [BitVec.toInt_eq_toNat_cond] at h ⊢
    split
    · rfl
    · rename_i hh
      rw [if_neg hh] at h
      have := n.isLt
      omega
  simpa [sizeValue, this] using e

private theorem toSize_eq {t : Nat} (sg : Bool) (n : BitVec t) : (Src.integral sg t n).toSize = .ok (sizeValue sg n) := by
  cases sg with
  | true => simp [Src.toSize, sizeValue, BitVec.signExtend, BitVec.toNat_ofInt]
  | false =>
    simp only [Src.toSize, sizeValue, BitVec.toNat_setWidth, Bool.false_eq_true, if_false]
    congr 1

private theorem resolve_fill (x y : Src) (hx : (∃ sg t n, x = .integral sg t n) ∨ ∃ t v z, x = .floating t v z)
    (hy : (∃ v, y = .boolean v) ∨ (∃ sg' t' v, y = .integral sg' t' v) ∨ y = .literalZero ∨ (∃ t v z, y = .floating t v z) ∨ (∃ s, y = .constChars s) ∨ ∃ s, y = .chars s) :
    resolve ctors [x, y] = some ⟨[.sizeT, .bool], true⟩ := by
  rcases hx with ⟨sg, t, n, rfl⟩ | ⟨t, v, z, rfl⟩
  · rcases hy with ⟨v, rfl⟩ | ⟨sg', t', v, rfl⟩ | rfl | ⟨t', v', z', rfl⟩ | ⟨s, rfl⟩ | ⟨s, rfl⟩ <;> by_cases h : sg = false ∧ t = 64 <;> simp [resolve, ctors, ranks, conv, h]
  · rcases hy with ⟨v, rfl⟩ | ⟨sg', t', v, rfl⟩ | rfl | ⟨t', v', z', rfl⟩ | ⟨s, rfl⟩ | ⟨s, rfl⟩ <;> simp [resolve, ctors, ranks, conv]

private theorem direct_fill (sg : Bool) (t : Nat) (n : BitVec t) (y : Src)
    (hy : (∃ v, y = .boolean v) ∨ (∃ sg' t' v, y = .integral sg' t' v) ∨ y = .literalZero ∨ (∃ t v z, y = .floating t v z) ∨ (∃ s, y = .constChars s) ∨ ∃ s, y = .chars s) :
    (direct [.integral sg t n, y] : Made w) = .makes (ofSize (sizeValue sg n) y.toBool) := by
  rw [direct, resolve_fill _ _ (.inl ⟨sg, t, n, rfl⟩) hy]
  show Made.makes (do let n ← (Src.integral sg t n).toSize; ofSize n y.toBool) = _
  rw [toSize_eq, ok_bind]

/-- C154: `Bitset b(n, v)` has `n` bits of value `v`, for every integer `n` but the literal 0, and every truth value or integer `v` (all but 0 being true); for the literal 0 if `v` is a truth value. -/
theorem C154_fill_partial (h : IsBlockWidth w) {t : Nat} (n : BitVec t) (sg : Bool) :
    (∀ v : Bool, ∃ b : Bitset w, (direct [.integral sg t n, .boolean v] : Made w) = .makes (.ok b) ∧ Shows b (List.replicate (sizeValue sg n) v)) ∧
    (∀ (sg' : Bool) (t' : Nat) (v : BitVec t'), ∃ b : Bitset w, (direct [.integral sg t n, .integral sg' t' v] : Made w) = .makes (.ok b) ∧
      Shows b (List.replicate (sizeValue sg n) (v != 0))) ∧
    (∀ v : Bool, ∃ b : Bitset w, (direct [.literalZero, .boolean v] : Made w) = .makes (.ok b) ∧ Shows b []) := by
  refine ⟨fun v => ?_, fun sg' t' v => ?_, fun v => ?_⟩
  · obtain ⟨b, e, hb⟩ := ofSize_shows h (sizeValue sg n) v
    exact ⟨b, by rw [direct_fill _ _ _ _ (.inl ⟨v, rfl⟩), ← e]; rfl, hb⟩
  · obtain ⟨b, e, hb⟩ := ofSize_shows h (sizeValue sg n) (v != 0)
    exact ⟨b, by rw [direct_fill _ _ _ _ (.inr (.inl ⟨sg', t', v, rfl⟩)), ← e]; rfl, hb⟩
  · obtain ⟨b, e, hb⟩ := ofSize_shows h 0 v
    exact ⟨b, by rw [← e]; rfl, hb⟩

/-- C154: a text or a floating point number is taken as the value of the bits: a text (whatever it is) is true, and so are all numbers but 0. -/
theorem C154_fill_text_violated (h : IsBlockWidth w) {t : Nat} (n : BitVec t) (sg : Bool) (s : List Char) :
    (∃ b : Bitset w, (direct [.integral sg t n, .constChars s] : Made w) = .makes (.ok b) ∧ Shows b (List.replicate (sizeValue sg n) true)) ∧
    (∃ b : Bitset w, (direct [.integral sg t n, .chars s] : Made w) = .makes (.ok b) ∧ Shows b (List.replicate (sizeValue sg n) true)) ∧
    ∀ t' v z, ∃ b : Bitset w, (direct [.integral sg t n, .floating t' v z] : Made w) = .makes (.ok b) ∧ Shows b (List.replicate (sizeValue sg n) z) := by
  refine ⟨?_, ?_, fun t' v z => ?_⟩
  · obtain ⟨b, e, hb⟩ := ofSize_shows h (sizeValue sg n) true
    exact ⟨b, by rw [direct_fill _ _ _ _ (.inr (.inr (.inr (.inr (.inl ⟨s, rfl⟩))))), ← e]; rfl, hb⟩
  · obtain ⟨b, e, hb⟩ := ofSize_shows h (sizeValue sg n) true
    exact ⟨b, by rw [direct_fill _ _ _ _ (.inr (.inr (.inr (.inr (.inr ⟨s, rfl⟩))))), ← e]; rfl, hb⟩
  · obtain ⟨b, e, hb⟩ := ofSize_shows h (sizeValue sg n) z
    exact ⟨b, by rw [direct_fill _ _ _ _ (.inr (.inr (.inr (.inl ⟨t', v, z, rfl⟩)))), ← e]; rfl, hb⟩

/-- C154: a floating point number as the number of bits is rounded towards zero; it is undefined behaviour if the integral part is no `size_t`. -/
theorem C154_fill_floating_violated (h : IsBlockWidth w) (t : Nat) (z v : Bool) :
    (∀ n : Nat, n < 2 ^ 64 → ∃ b : Bitset w, (direct [.floating t (some n) z, .boolean v] : Made w) = .makes (.ok b) ∧ Shows b (List.replicate n v)) ∧
    ∀ r : Option Int, (∀ n, r = some n → n < 0 ∨ 2 ^ 64 ≤ n) → (direct [.floating t r z, .boolean v] : Made w) = .makes (.error .ub) := by
  constructor
  · intro n hn
    obtain ⟨b, e, hb⟩ := ofSize_shows h n v
    refine ⟨b, ?_, hb⟩
    rw [direct, resolve_fill _ _ (.inr ⟨t, some n, z, rfl⟩) (.inl ⟨v, rfl⟩)]
    show Made.makes (do let n ← floatTo 64 (some (n : Int)); ofSize n v) = _
    rw [floatTo_ok hn, ok_bind, e]
  · intro r hr
    rw [direct, resolve_fill _ _ (.inr ⟨t, r, z, rfl⟩) (.inl ⟨v, rfl⟩)]
    show Made.makes (do let n ← floatTo 64 r; ofSize n v) = _
    rw [floatTo_bad hr, err_bind]

/-- C154: `Bitset b(0, v)` with an integer `v` is ambiguous between a count and a null text; if `v` is a `size_t` it is a text of that length, read from a null pointer. -/
theorem C154_fill_violated {t : Nat} (sg : Bool) (v : BitVec t) :
    (¬ (sg = false ∧ t = 64) → (direct [.literalZero, .integral sg t v] : Made w) = .noMatch) ∧
    (direct [.literalZero, .literalZero] : Made w) = .noMatch ∧
    (∀ n : BitVec 64, n ≠ 0 → (direct [.literalZero, .integral false 64 n] : Made w) = .makes (.error .ub)) ∧
    (direct [.literalZero, .integral false 64 0] : Made w) = .makes (.ok ⟨[], 0⟩) := by
  refine ⟨fun h => ?_, rfl, fun n hn => ?_, ?_⟩
  · have : resolve ctors [.literalZero, .integral sg t v] = none := by simp [resolve, ctors, ranks, conv, h, better, Cand.isTemplate]
    rw [direct, this]
  · have : resolve ctors [.literalZero, .integral false 64 n] = some ⟨[.constCharPtr, .sizeT], false⟩ := rfl
    rw [direct, this]
    have hz : n.toNat ≠ 0 := fun hh => hn (BitVec.eq_of_toNat_eq (by simpa using hh))
    simp [construct, Src.toSize, hz]
  · have : resolve ctors [.literalZero, .integral false 64 0] = some ⟨[.constCharPtr, .sizeT], false⟩ := rfl
    rw [direct, this]
    have he : (ofString [] : M (Bitset w)) = .ok ⟨[], 0⟩ := by
      simp [ofString, computeBlockCount, getBlockIndex, getBitIndex, vresize, forUp]
    simp [construct, Src.toSize, he]

/-- C154: `Bitset b(text, n)` has the first `n` characters of the text, also for `char*` and for objects that convert to `const char*`. -/
theorem C154_prefix (h : IsBlockWidth w) {s : List Char} (x : Src) (hx : x = .constChars s ∨ x = .chars s ∨ ∃ v u, x = .textClass true v u s) {t : Nat} (sg : Bool) (n : BitVec t)
    (hn : (sizeValue sg n) ≤ s.length) (hs : ∀ c ∈ s, c = '0' ∨ c = '1') :
    MakesText (direct [x, .integral sg t n] : Made w) (s.take (sizeValue sg n)) := by
  obtain ⟨b, e, h1, h2⟩ := C05_ofString (w := w) h (s.take (sizeValue sg n)) (fun c hc => hs c (List.mem_of_mem_take hc))
  refine ⟨b, ?_, h1, h2⟩
  have : resolve ctors [x, .integral sg t n] = some ⟨[.constCharPtr, .sizeT], false⟩ := by
    rcases hx with rfl | rfl | ⟨v, u, rfl⟩ <;> by_cases h : sg = false ∧ t = 64 <;> simp [resolve, ctors, ranks, conv, h]
  rw [direct, this, ← e]
  rcases hx with rfl | rfl | ⟨v, u, rfl⟩ <;> simp [construct, Src.text, toSize_eq, hn]

/-- C154: objects that do not convert to `const char*` cannot be given with a number of characters: strings, views and objects that convert to them are refused. -/
theorem C154_prefix_refused {s : List Char} (x : Src) (hx : x = .string s ∨ x = .stringView s ∨ x = .other ∨ ∃ v u, x = .textClass false v u s) {t : Nat} (sg : Bool) (n : BitVec t) :
    (direct [x, .integral sg t n] : Made w) = .noMatch := by
  have : resolve ctors [x, .integral sg t n] = none := by
    rcases hx with rfl | rfl | rfl | ⟨v, u, rfl⟩ <;> by_cases h : sg = false ∧ t = 64 <;> simp [resolve, ctors, ranks, conv, h]
  rw [direct, this]

/-- A literal, a string, a character array and a number. -/
example : MakesText (direct [.constChars "1101".toList] : Made 8) "1101".toList ∧ MakesText (assign (.string "1101".toList) : Made 8) "1101".toList ∧
    (direct [.chars "1101".toList] : Made 8) = .error ∧ MakesText (direct [.chars "1101".toList, .integral true 32 3#32] : Made 8) "110".toList ∧
    (direct [.floating 32 (some 2) true] : Made 64) = .makes (.ok ⟨[2#64], 32⟩) :=
  ⟨(C154_text_partial (x := .constChars "1101".toList) ⟨3, rfl⟩ rfl (by decide)).1, (C154_text_partial (x := .string "1101".toList) ⟨3, rfl⟩ rfl (by decide)).2,
    (C154_other_text_violated (x := .chars "1101".toList) trivial).1,
    C154_prefix (s := "1101".toList) ⟨3, rfl⟩ _ (.inr (.inl rfl)) true 3#32 (by decide) (by decide), rfl⟩

example : IsOtherText (.textClass false true false "01".toList) := .inr (.inl rfl)

end Verif.Bitset.Select
