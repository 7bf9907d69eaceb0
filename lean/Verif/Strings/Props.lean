import Verif.Strings.Model

/-!
# Strings: hashing for heterogeneous lookup, UTF-8 conversions
-/

namespace Verif.Strings
open Verif.Cpp

/-! ## C89: StringHash agrees with equality

A container with `StringHash` and `std::equal_to<>` looks up a key of one type among keys of another.  It finds it only if
texts that compare equal have the same hash, for each combination of types. -/

/-- What a string type shows to `==`: a C string its text up to the first null, a view or string all its code units. -/
inductive Key (C : Type) where
  | c (array : List C)
  | view (text : List C)
  | string (text : List C)

section
variable {C H : Type} [DecidableEq C] [Zero C]

/-- `Text k t`: `k` reads as the code units `t`, `t` has to be followed by a null in the array of a C string. -/
inductive Text : Key C → List C → Prop where
  | c (t rest : List C) : (0 : C) ∉ t → Text (.c (t ++ 0 :: rest)) t
  | view (t : List C) : Text (.view t) t
  | string (t : List C) : Text (.string t) t

/-- The hash of a key. -/
def hashKey (hash : List C → H) : Key C → M H
  | .c a => hashC hash (some a)
  | .view t => .ok (hashView hash t)
  | .string t => .ok (hashString hash t)

theorem cText_append (t rest : List C) (h : (0 : C) ∉ t) : cText (some (t ++ 0 :: rest)) = .ok t := by
  have h1 : (t ++ 0 :: rest).takeWhile (· ≠ 0) = t := by
    rw [List.takeWhile_append_of_pos]
    · simp
    · intro a ha
      simp only [ne_eq, decide_not, Bool.not_eq_true', decide_eq_false_iff_not]
      rintro rfl
      exact h ha
  unfold cText
  dsimp only
  rw [h1, if_pos (by simp)]

/-- The hash of a key is the hash of its text, for every type of key. -/
theorem C89_hash_of_text (hash : List C → H) {k : Key C} {t : List C} (h : Text k t) : hashKey hash k = .ok (hash t) := by
  cases h with
  | c t rest h => simp [hashKey, hashC, cText_append t rest h]
  | view => rfl
  | string => rfl

/-- Keys that compare equal have the same hash, whatever their types. -/
theorem C89_equal_keys (hash : List C → H) {k k' : Key C} {t : List C} (h : Text k t) (h' : Text k' t) :
    hashKey hash k = hashKey hash k' := by
  rw [C89_hash_of_text hash h, C89_hash_of_text hash h']

/-- Conversely keys whose texts have different hashes are told apart. -/
theorem C89_different_keys (hash : List C → H) {k k' : Key C} {t t' : List C} (h : Text k t) (h' : Text k' t')
    (hne : hash t ≠ hash t') : hashKey hash k ≠ hashKey hash k' := by
  rw [C89_hash_of_text hash h, C89_hash_of_text hash h']
  intro e
  exact hne (Except.ok.inj e)

/-- A string that contains a null and the pointer `c_str()` of the same string are different keys, with the hash of the
whole and of the first part. -/
theorem C89_embedded_null (hash : List C → H) (t rest : List C) (ht : (0 : C) ∉ t) :
    hashKey hash (.string (t ++ 0 :: rest)) = .ok (hash (t ++ 0 :: rest)) ∧
    hashKey hash (.c ((t ++ 0 :: rest) ++ [0])) = .ok (hash t) := by
  refine ⟨rfl, ?_⟩
  have := C89_hash_of_text hash (Text.c t (rest ++ [0]) ht)
  simpa using this

/-- Null pointers and arrays without null are undefined. -/
theorem C89_undefined (hash : List C → H) : hashC hash none = .error .ub ∧
    ∀ a : List C, (0 : C) ∉ a → hashC hash (some a) = .error .ub := by
  refine ⟨rfl, fun a h => ?_⟩
  simp [hashC, cText, h]

end

example : Text (C := Nat) (.c [104, 105, 0, 7]) [104, 105] := Text.c [104, 105] [7] (by decide)

/-! ## C90: UTF-8 conversions keep every byte -/

/-- Strings and views keep their bytes, nulls included, in both directions and in both language versions; a view refers to
the same memory, a string has its own. -/
theorem C90_bytes (fresh : Nat) (s : Str) (v : View) :
    ((fromStr20 fresh s).bytes = s.bytes ∧ (toStr20 fresh s).bytes = s.bytes ∧
      (fromStr17 fresh s).bytes = s.bytes ∧ (toStr17 fresh s).bytes = s.bytes) ∧
    ((fromStr20 fresh s).address = fresh ∧ (toStr20 fresh s).address = fresh ∧
      (fromStr17 fresh s).address = fresh ∧ (toStr17 fresh s).address = fresh) ∧
    (fromView20 v = v ∧ toView20 v = v ∧ fromView17 v = v ∧ toView17 v = v) :=
  ⟨⟨rfl, rfl, rfl, rfl⟩, ⟨rfl, rfl, rfl, rfl⟩, ⟨rfl, rfl, rfl, rfl⟩⟩

/-- There and back gives the same bytes. -/
theorem C90_roundTrip (f g : Nat) (s : Str) (v : View) :
    (fromStr20 g (toStr20 f s)).bytes = s.bytes ∧ (toStr20 g (fromStr20 f s)).bytes = s.bytes ∧
    (fromStr17 g (toStr17 f s)).bytes = s.bytes ∧ (toStr17 g (fromStr17 f s)).bytes = s.bytes ∧
    fromView20 (toView20 v) = v ∧ toView20 (fromView20 v) = v ∧ fromView17 (toView17 v) = v ∧ toView17 (fromView17 v) = v :=
  ⟨rfl, rfl, rfl, rfl, rfl, rfl, rfl, rfl⟩

theorem viewOf_text (address : Nat) (t rest : List Byte) (ht : (0 : Byte) ∉ t) :
    viewOf (some ⟨address, t ++ 0 :: rest⟩) = .ok ⟨address, t⟩ := by
  unfold viewOf
  dsimp only
  rw [cText_append t rest ht]
  rfl

/-- C strings give the bytes before the first null: in C++20 as a view of the same memory, in C++17 as a string with its own
memory. -/
theorem C90_c_strings (fresh address : Nat) (t rest : List Byte) (ht : (0 : Byte) ∉ t) :
    fromC20 (some ⟨address, t ++ 0 :: rest⟩) = .ok ⟨address, t⟩ ∧ toC20 (some ⟨address, t ++ 0 :: rest⟩) = .ok ⟨address, t⟩ ∧
    fromC17 fresh (some ⟨address, t ++ 0 :: rest⟩) = .ok ⟨fresh, t⟩ ∧
    toC17 fresh (some ⟨address, t ++ 0 :: rest⟩) = .ok ⟨fresh, t⟩ := by
  have h := viewOf_text address t rest ht
  refine ⟨h, ?_, ?_, ?_⟩
  · unfold toC20; rw [h]; rfl
  · unfold fromC17; rw [h]; rfl
  · unfold toC17; rw [h]; rfl

/-- The null pointer is undefined for each function that takes a C string. -/
theorem C90_null (fresh : Nat) : fromC20 none = .error .ub ∧ toC20 none = .error .ub ∧ fromC17 fresh none = .error .ub ∧
    toC17 fresh none = .error .ub := ⟨rfl, rfl, rfl, rfl⟩

/-- Paths: text to path and back.  Whatever the platform, this is the platform's own conversion, unchanged; on POSIX systems
it keeps every byte. -/
theorem C90_paths (P : Platform) (fresh : Nat) (v : View) (p : posix.Path) :
    (pathToString P fresh (utf8Path P v)).bytes = P.genericU8 (P.ofU8 v.bytes) ∧
    (pathToString posix fresh (utf8Path posix v)).bytes = v.bytes ∧
    utf8Path posix ⟨0, (pathToString posix fresh p).bytes⟩ = p := ⟨rfl, rfl, rfl⟩

/-- On Windows the text of a path has `/` where the path was given with a backslash: there and back changes every text with a
backslash, and only those. -/
theorem C90_paths_windows (fresh : Nat) (v : View) :
    (pathToString windows fresh (utf8Path windows v)).bytes = v.bytes ↔ (0x5c : Byte) ∉ v.bytes := by
  show v.bytes.map (fun b => if b = 0x5c then 0x2f else b) = v.bytes ↔ _
  induction v.bytes with
  | nil => simp
  | cons b t ih =>
    simp only [List.map_cons, List.cons.injEq, List.mem_cons, not_or, ih]
    constructor
    · rintro ⟨h1, h2⟩
      refine ⟨?_, h2⟩
      rintro rfl
      simp at h1
    · rintro ⟨h1, h2⟩
      exact ⟨if_neg fun e => h1 e.symm, h2⟩

end Verif.Strings
