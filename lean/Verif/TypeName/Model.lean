import Verif.Cpp

/-!
# Model of `TypeName` (TypeName.inl)

Strings are lists of characters.  `NAZARA_PRETTY_FUNCTION` (Prerequisites.hpp) is what the compiler writes for the signature of
`NzDetailTypeName<T>`; its form is a parameter, and the three forms of the compilers the code distinguishes are given below.
-/

namespace Verif.TypeName

open Verif.Cpp

abbrev Str := List Char

/-- `std::string_view::npos` -/
def npos : Nat := 2 ^ 64 - 1

/-- `s.find(pat)`: index of the first occurrence (standard library). -/
def find (pat : Str) : Str → Nat → Nat
  | [], i => if pat.isPrefixOf [] then i else npos
  | c :: s, i => if pat.isPrefixOf (c :: s) then i else find pat s (i + 1)

/-- `s.find_last_of(set, pos)`: the last index not after `pos` with a character of the set (standard library): goes down from the smaller of
`pos` and the last index. -/
def findLastOf (s set : Str) : Nat → Nat
  | 0 => match s[0]? with
    | some c => if c ∈ set then 0 else npos
    | none => npos
  | pos + 1 => match s[pos + 1]? with
    | some c => if c ∈ set then pos + 1 else findLastOf s set pos
    | none => findLastOf s set pos

/-- `s.substr(pos, n)`: throws `std::out_of_range` if `pos > s.size()` (standard library); in a constant expression this does not compile. -/
def substr (s : Str) (pos n : Nat) : M Str := if pos ≤ s.length then .ok ((s.drop pos).take n) else .error .assert

/-- Strings the compiler branch chooses, TypeName.inl:13-19, and the prefixes to strip (32-42). -/
structure Params where
  prefix' : Str
  suffixes : Str
  strip : List Str

def gnuParams : Params where
  prefix' := "T = ".toList
  suffixes := ";]".toList
  strip := []

def msvcParams : Params where
  prefix' := "NzDetailTypeName<".toList
  suffixes := ">".toList
  strip := ["class ".toList, "struct ".toList, "enum ".toList, "enum class ".toList, "enum struct".toList]

/-- The loop of TypeName.inl:34-41: removes the first of the prefixes that fits, then stops. -/
def stripFirst : List Str → Str → Str
  | [], name => name
  | p :: ps, name => if name.take p.length = p then name.drop p.length else stripFirst ps name

/-- `NzDetailTypeName<T>()`, TypeName.inl:6-45; arithmetic of `std::size_t` modulo 2^64; the assertions are static. -/
def typeName (P : Params) (pretty : Str) : M Str := do
  let b := find P.prefix' pretty 0
  Cpp.assert (b != npos)
  let rest ← substr pretty b npos
  let e := (findLastOf rest P.suffixes b + b) % 2 ^ 64
  Cpp.assert (e != npos)
  let p := (b + P.prefix'.length) % 2 ^ 64
  let name ← substr pretty p ((e + 2 ^ 64 - p) % 2 ^ 64)
  pure (stripFirst P.strip name)

/-- `__PRETTY_FUNCTION__` of GCC for a type with the given spelling. -/
def gccPretty (name : Str) : Str :=
  "constexpr std::string_view NzDetailTypeName() [with ".toList ++ ("T = ".toList ++ (name ++ "; std::string_view = std::basic_string_view<char>]".toList))

/-- `__PRETTY_FUNCTION__` of Clang. -/
def clangPretty (name : Str) : Str := "std::string_view NzDetailTypeName() [".toList ++ ("T = ".toList ++ (name ++ "]".toList))

/-- `__FUNCSIG__` of MSVC; `name` with its class key (`class `, `struct `, `enum `). -/
def msvcPretty (name : Str) : Str :=
  "class std::basic_string_view<char,struct std::char_traits<char> > __cdecl ".toList ++ ("NzDetailTypeName<".toList ++ (name ++ ">(void)".toList))

end Verif.TypeName
