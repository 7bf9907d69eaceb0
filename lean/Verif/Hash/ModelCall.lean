import Verif.Hash.Model

/-!
# Model of the calls of the hash functions and of the hash functors (Hash.hpp, Hash.inl)

`CRC32`, `FNV1a32` and `FNV1a64` have four overloads each (Hash.hpp:25-28, 36-39, 47-50).  Which of them a call selects depends on the types of the arguments, by the rules
of overload resolution: the better conversion of the argument, and then the function that is not a template.
-/

namespace Verif.Hash

open Verif.Cpp

/-- The overloads: `(const char*)`, `(std::string_view)`, `(const UInt8*, std::size_t)` and the template `(const char(&)[N])`; Hash.hpp:25-28, 36-39, 47-50. -/
inductive Overload
  | cstr | view | buffer | array
  deriving DecidableEq, Repr

/-- The arguments of a call, by their type and the characters they denote: a string literal (or another array of `const char`), an array of `char`, a `const char*` and a `char*`
(with the memory from there on), a `std::string_view`, a `std::string`, and a `const UInt8*` (with the memory from there on) with a size. -/
inductive Arg
  | literal (mem : List Byte)
  | array (mem : List Byte)
  | constPtr (mem : List Byte)
  | ptr (mem : List Byte)
  | view (str : List Byte)
  | string (str : List Byte)
  | bytes (mem : List Byte) (size : Nat)
  deriving Repr

/-- Implicit conversions as overload resolution compares them ([over.ics.rank]): the conversion of an array to a pointer is an lvalue transformation, which does not count. -/
inductive Conv
  | identity | qualification | userDefined
  deriving DecidableEq, Repr

/-- A conversion sequence is better than those it is a part of; user-defined conversions are the worst. -/
def Conv.rank : Conv → Nat
  | .identity => 0
  | .qualification => 1
  | .userDefined => 2

/-- The conversion of the arguments to the parameters of an overload, if there is one: [conv.array], [conv.qual], the reference binding of [over.ics.ref], the constructor of
`std::string_view` from a `const char*`, the conversion function of `std::string`. -/
def Arg.conv : Arg → Overload → Option Conv
  | .literal _, .cstr => some .identity
  | .literal _, .view => some .userDefined
  | .literal _, .array => some .identity
  | .array _, .cstr => some .qualification
  | .array _, .view => some .userDefined
  | .array _, .array => some .identity
  | .constPtr _, .cstr => some .identity
  | .constPtr _, .view => some .userDefined
  | .ptr _, .cstr => some .qualification
  | .ptr _, .view => some .userDefined
  | .view _, .view => some .identity
  | .string _, .view => some .userDefined
  | .bytes _ _, .buffer => some .identity
  | _, _ => none

/-- The overloads that are templates. -/
def Overload.isTemplate : Overload → Bool
  | .array => true
  | _ => false

/-- Whether overload `o` is better than `o'` for the arguments ([over.match.best]); overloads that are not viable do not compete. -/
def Arg.better (a : Arg) (o o' : Overload) : Bool :=
  match a.conv o, a.conv o' with
  | some c, some c' => c.rank < c'.rank || (c.rank == c'.rank && !o.isTemplate && o'.isTemplate)
  | some _, none => true
  | none, _ => false

/-- All overloads. -/
def overloads : List Overload := [.cstr, .view, .buffer, .array]

/-- The overload that a call selects; none: the call does not compile, because no overload is viable or none is better than all others. -/
def Arg.resolve (a : Arg) : Option Overload :=
  overloads.find? (fun o => (a.conv o).isSome && overloads.all (fun o' => o == o' || a.better o o'))

/-- The memory that the pointer or the array denotes. -/
def Arg.mem : Arg → List Byte
  | .literal m | .array m | .constPtr m | .ptr m | .view m | .string m | .bytes m _ => m

/-- The string view to which the argument is converted. -/
def Arg.viewed : Arg → List Byte
  | .literal m | .array m | .constPtr m | .ptr m => m.takeWhile (· != 0#8)
  | .view m | .string m | .bytes m _ => m

/-- The size that is passed. -/
def Arg.size : Arg → Nat
  | .bytes _ n => n
  | _ => 0

/-- A call of a function with these overloads. -/
def callWith {β : Type} (cstr view array : List Byte → M β) (buffer : List Byte → Nat → M β) (a : Arg) : Option (M β) :=
  match a.resolve with
  | some .cstr => some (cstr a.mem)
  | some .view => some (view a.viewed)
  | some .buffer => some (buffer a.mem a.size)
  | some .array => some (array a.mem)
  | none => none

/-- A call `CRC32(a)`, Hash.hpp:25-28. -/
def crc32Call (charSigned : Bool) : Arg → Option (M (BitVec 32)) :=
  callWith (crc32CStr charSigned) (crc32View charSigned) (crc32Array charSigned) crc32Buffer

/-- A call `FNV1a32(a)`, Hash.hpp:36-39. -/
def fnv32Call (charSigned : Bool) : Arg → Option (M (BitVec 32)) :=
  callWith (fnv32CStr charSigned) (fnv32View charSigned) (fnv32Array charSigned) fnv32Buffer

/-- A call `FNV1a64(a)`, Hash.hpp:47-50. -/
def fnv64Call (charSigned : Bool) : Arg → Option (M (BitVec 64)) :=
  callWith (fnv64CStr charSigned) (fnv64View charSigned) (fnv64Array charSigned) fnv64Buffer

/-- The arguments that `std::forward<Args>(args)...` passes on: of the same type and value (an array stays an array, with its const). -/
def Arg.forward (a : Arg) : Arg := a

/-- `CRC32Hash::operator()`, Hash.inl:137-141. -/
def crc32Hash (charSigned : Bool) (a : Arg) : Option (M (BitVec 32)) := crc32Call charSigned a.forward

/-- `FNV1a32Hash::operator()`, Hash.inl:189-193. -/
def fnv32Hash (charSigned : Bool) (a : Arg) : Option (M (BitVec 32)) := fnv32Call charSigned a.forward

/-- `FNV1a64Hash::operator()`, Hash.inl:241-245. -/
def fnv64Hash (charSigned : Bool) (a : Arg) : Option (M (BitVec 64)) := fnv64Call charSigned a.forward

/-- `HashFunctor<T>::operator()`, Hash.inl:93-98, for the functor `functor` and a `std::size_t` of `n` bits. -/
def hashFunctor {w : Nat} (n : Nat) (functor : Arg → Option (M (BitVec w))) (a : Arg) : Option (M (BitVec n)) :=
  (functor a.forward).map (fun r => r.map (fun x => x.setWidth n))

/-- `HashCombine(seed, v)`, Hash.inl:67-80, on a host with 32-bit `std::size_t`: the hash of the value and the seed are combined in 32 bits and then widened; the result is
truncated. -/
def hashCombine32 (seed hv : BitVec 32) : BitVec 32 :=
  let a := (hv ^^^ seed).setWidth 64 * kMul
  let a := a ^^^ (a >>> 47)
  let b := (seed.setWidth 64 ^^^ a) * kMul
  let b := b ^^^ (b >>> 47)
  (b * kMul).setWidth 32

end Verif.Hash
