import Verif.Cpp

/-!
# Model of `StringHash`, `StringUtils` and `PathUtils`

StringHash.inl, StringUtils.inl, PathUtils.inl.

A string or view is the list of its code units.  A C string is what can be read from its address on: the list of the code
units up to the end of the array it points into, or null.  `std::hash<std::basic_string_view<T>>` is any function of the
code units.  Where a result is a view, the model also has the address it refers to.
-/

namespace Verif.Strings
open Verif.Cpp

/-- The code units before the first null; undefined for the null pointer and if there is no null in the array
(`std::char_traits<T>::length`, by which `std::basic_string_view<T>` is made from a C string). -/
def cText {C : Type} [DecidableEq C] [Zero C] (p : Option (List C)) : M (List C) :=
  match p with
  | none => .error .ub
  | some a => if 0 ∈ a then .ok (a.takeWhile (· ≠ 0)) else .error .ub

/-! ## StringHash -/

/-- StringHash.inl:10-14, `operator()(const T*)`: the argument of `hash_type{}(str)` is converted to a view. -/
def hashC {C H : Type} [DecidableEq C] [Zero C] (hash : List C → H) (str : Option (List C)) : M H := do
  let v ← cText str
  pure (hash v)

/-- StringHash.inl:16-20, `operator()(std::basic_string_view<T>)` -/
def hashView {C H : Type} (hash : List C → H) (str : List C) : H := hash str

/-- StringHash.inl:22-27, `operator()(const std::basic_string<T, ...>&)`: converted to a view of all its code units. -/
def hashString {C H : Type} (hash : List C → H) (str : List C) : H := hash str

/-! ## StringUtils

Code units are bytes; `reinterpret_cast` between `char` and `char8_t` keeps the byte (as `BitVec 8`). -/

abbrev Byte := BitVec 8

/-- A view: where it begins, and its bytes. -/
structure View where
  address : Nat
  bytes : List Byte
  deriving DecidableEq

/-- A C string: its address and what can be read from there on. -/
structure CStr where
  address : Nat
  array : List Byte

/-- A `std::string` or `std::u8string`: address of its buffer and its bytes. -/
structure Str where
  address : Nat
  bytes : List Byte
  deriving DecidableEq

/-- The view made from a C string. -/
def viewOf (s : Option CStr) : M View :=
  match s with
  | none => .error .ub
  | some c => do
    let t ← cText (some c.array)
    pure ⟨c.address, t⟩

/-- C++20: `FromUtf8String(const char8_t*)`, StringUtils.inl:17-20 -/
def fromC20 (s : Option CStr) : M View := viewOf s
/-- C++20: `FromUtf8String(const std::u8string&)`, StringUtils.inl:22-25; `fresh` is the address of the buffer of the new string. -/
def fromStr20 (fresh : Nat) (s : Str) : Str := ⟨fresh, s.bytes⟩
/-- C++20: `FromUtf8String(std::u8string_view)`, StringUtils.inl:27-30 -/
def fromView20 (s : View) : View := ⟨s.address, s.bytes⟩

/-- C++17: `FromUtf8String(const char*)`, StringUtils.inl:32-35 -/
def fromC17 (fresh : Nat) (s : Option CStr) : M Str := do
  let v ← viewOf s
  pure ⟨fresh, v.bytes⟩
/-- C++17: `FromUtf8String(std::string)`, StringUtils.inl:37-40 -/
def fromStr17 (fresh : Nat) (s : Str) : Str := ⟨fresh, s.bytes⟩
/-- C++17: `FromUtf8String(std::string_view)`, StringUtils.inl:42-45 -/
def fromView17 (s : View) : View := s

/-- C++20: `ToUtf8String(std::string_view)`, StringUtils.inl:66-69 -/
def toView20 (s : View) : View := ⟨s.address, s.bytes⟩
/-- C++20: `ToUtf8String(const char*)`, StringUtils.inl:56-59 -/
def toC20 (s : Option CStr) : M View := do
  let v ← viewOf s
  pure (toView20 v)
/-- C++20: `ToUtf8String(const std::string&)`, StringUtils.inl:61-64 -/
def toStr20 (fresh : Nat) (s : Str) : Str := ⟨fresh, s.bytes⟩

/-- C++17: `ToUtf8String(const char*)`, StringUtils.inl:71-74 -/
def toC17 (fresh : Nat) (s : Option CStr) : M Str := do
  let v ← viewOf s
  pure ⟨fresh, v.bytes⟩
/-- C++17: `ToUtf8String(std::string)`, StringUtils.inl:76-79 -/
def toStr17 (fresh : Nat) (s : Str) : Str := ⟨fresh, s.bytes⟩
/-- C++17: `ToUtf8String(std::string_view)`, StringUtils.inl:81-84 -/
def toView17 (s : View) : View := s

/-! ## PathUtils

`std::filesystem::path` of a platform is any type with the two conversions of the standard library between paths and
UTF-8 (`generic_u8string`, the constructor from `char8_t`).  On POSIX a path is its bytes. -/

structure Platform where
  Path : Type
  genericU8 : Path → List Byte
  ofU8 : List Byte → Path

/-- Paths are byte strings: POSIX systems. -/
def posix : Platform := ⟨List Byte, id, id⟩

/-- Windows, on paths with ASCII text: `generic_u8string` writes `/` for `\`. -/
def windows : Platform := ⟨List Byte, List.map (fun b => if b = 0x5c then 0x2f else b), id⟩

/-- PathUtils.inl:16-25, `PathToString(path)` (both branches give the bytes of `generic_u8string`) -/
def pathToString (P : Platform) (fresh : Nat) (p : P.Path) : Str := fromStr20 fresh ⟨0, P.genericU8 p⟩

/-- PathUtils.inl:33-41, `Utf8Path(path)` -/
def utf8Path (P : Platform) (s : View) : P.Path := P.ofU8 (toView20 s).bytes

end Verif.Strings
