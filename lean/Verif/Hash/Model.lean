import Verif.Cpp

/-!
# Model of the hash functions (Hash.hpp, Hash.inl)

Bytes are `BitVec 8`; a `char` is a byte that is converted to wider integers with or without sign extension,
depending on the platform (`charSigned`).
-/

namespace Verif.Hash

open Verif.Cpp

abbrev Byte := BitVec 8

/-- One iteration of the inner loop of `GenerateCRC32Table`, Hash.inl:27-31. -/
def tableStep (polynomial crc : BitVec 32) : BitVec 32 :=
  let mask := -(crc &&& 1#32)
  (crc >>> 1) ^^^ (polynomial &&& mask)

/-- The entry of one byte, Hash.inl:25-33. -/
def tableEntry (polynomial : BitVec 32) (byte : Nat) : M (BitVec 32) :=
  forUp 0 8 (fun _ crc => .ok (tableStep polynomial crc)) (BitVec.ofNat 32 byte)

/-- `GenerateCRC32Table`, Hash.inl:14-39. -/
def generateTable (polynomial : BitVec 32) : M (List (BitVec 32)) :=
  forUp 0 256 (fun byte table => do
    let crc ← tableEntry polynomial byte
    wr table byte crc) (List.replicate 256 0#32)

/-- The default argument of `GenerateCRC32Table`, Hash.inl:14. -/
def defaultPolynomial : BitVec 32 := 0xEDB88320#32

/-- `crc = s_crc32Table[(crc ^ x) & 0xFF] ^ (crc >> 8)`, Hash.inl:106, 116, 126; `x` is the byte
converted to 32 bits. -/
def crcStep (table : List (BitVec 32)) (crc x : BitVec 32) : M (BitVec 32) := do
  let e ← rd table ((crc ^^^ x) &&& 0xFF#32).toNat
  pure (e ^^^ (crc >>> 8))

/-- Conversion of a `char` to `w` bits. -/
def charTo (charSigned : Bool) (w : Nat) (c : Byte) : BitVec w := if charSigned then c.signExtend w else c.setWidth w

/-- The loop `for (i = 0; str[i]; ++i)` over a C string in memory: it stops at the first null
character; reading past the end of the memory is undefined. -/
def cstrLoop {σ : Type} (step : σ → Byte → M σ) : List Byte → σ → M σ
  | [], _ => .error .ub
  | c :: cs, s =>
    if c = 0#8 then .ok s
    else
      match step s c with
      | .ok s' => cstrLoop step cs s'
      | .error e => .error e

/-- The loop `for (i = 0; i < size; ++i)` over a buffer. -/
def bufferLoop {σ : Type} (step : σ → Byte → M σ) (data : List Byte) (size : Nat) (s : σ) : M σ :=
  forUp 0 size (fun i s => do
    let c ← rd data i
    step s c) s

/-- `CRC32(const char*)`, Hash.inl:101-109. -/
def crc32CStr (charSigned : Bool) (str : List Byte) : M (BitVec 32) := do
  let table ← generateTable defaultPolynomial
  let crc ← cstrLoop (fun crc c => crcStep table crc (charTo charSigned 32 c)) str 0xFFFFFFFF#32
  pure (~~~crc)

/-- `CRC32(std::string_view)`, Hash.inl:111-119. -/
def crc32View (charSigned : Bool) (str : List Byte) : M (BitVec 32) := do
  let table ← generateTable defaultPolynomial
  let crc ← bufferLoop (fun crc c => crcStep table crc (charTo charSigned 32 c)) str str.length 0xFFFFFFFF#32
  pure (~~~crc)

/-- `CRC32(const UInt8*, std::size_t)`, Hash.inl:121-129. -/
def crc32Buffer (input : List Byte) (size : Nat) : M (BitVec 32) := do
  let table ← generateTable defaultPolynomial
  let crc ← bufferLoop (fun crc c => crcStep table crc (c.setWidth 32)) input size 0xFFFFFFFF#32
  pure (~~~crc)

/-- `CRC32(const char(&)[N])`, Hash.inl:131-135: the whole array, with its terminating null. -/
def crc32Array (charSigned : Bool) (str : List Byte) : M (BitVec 32) := crc32View charSigned str

/-- One iteration of the FNV-1a loops, Hash.inl:150-151, 163-164, 176-177 (32 bits), 202-203, 215-216, 228-229 (64 bits). -/
def fnvStep {w : Nat} (prime hash x : BitVec w) : BitVec w := (hash ^^^ x) * prime

/-- `FNV1OffsetBasis_32`, Hash.inl:50. -/
def fnvBasis32 : BitVec 32 := 0x811c9dc5#32
/-- `FNV1Prime_32`, Hash.inl:51. -/
def fnvPrime32 : BitVec 32 := 0x1000193#32
/-- `FNV1OffsetBasis_64`, Hash.inl:53. -/
def fnvBasis64 : BitVec 64 := 0xcbf29ce484222325#64
/-- `FNV1Prime_64`, Hash.inl:54. -/
def fnvPrime64 : BitVec 64 := 0x100000001b3#64

/-- `FNV1a32(const char*)`, Hash.inl:144-155. -/
def fnv32CStr (charSigned : Bool) (str : List Byte) : M (BitVec 32) :=
  cstrLoop (fun h c => .ok (fnvStep fnvPrime32 h (charTo charSigned 32 c))) str fnvBasis32

/-- `FNV1a32(std::string_view)`, Hash.inl:157-168. -/
def fnv32View (charSigned : Bool) (str : List Byte) : M (BitVec 32) :=
  bufferLoop (fun h c => .ok (fnvStep fnvPrime32 h (charTo charSigned 32 c))) str str.length fnvBasis32

/-- `FNV1a32(const UInt8*, std::size_t)`, Hash.inl:170-181. -/
def fnv32Buffer (data : List Byte) (size : Nat) : M (BitVec 32) :=
  bufferLoop (fun h c => .ok (fnvStep fnvPrime32 h (c.setWidth 32))) data size fnvBasis32

/-- `FNV1a32(const char(&)[N])`, Hash.inl:183-187. -/
def fnv32Array (charSigned : Bool) (str : List Byte) : M (BitVec 32) := fnv32View charSigned str

/-- `FNV1a64(const char*)`, Hash.inl:196-207. -/
def fnv64CStr (charSigned : Bool) (str : List Byte) : M (BitVec 64) :=
  cstrLoop (fun h c => .ok (fnvStep fnvPrime64 h (charTo charSigned 64 c))) str fnvBasis64

/-- `FNV1a64(std::string_view)`, Hash.inl:209-220. -/
def fnv64View (charSigned : Bool) (str : List Byte) : M (BitVec 64) :=
  bufferLoop (fun h c => .ok (fnvStep fnvPrime64 h (charTo charSigned 64 c))) str str.length fnvBasis64

/-- `FNV1a64(const UInt8*, std::size_t)`, Hash.inl:222-233. -/
def fnv64Buffer (data : List Byte) (size : Nat) : M (BitVec 64) :=
  bufferLoop (fun h c => .ok (fnvStep fnvPrime64 h (c.setWidth 64))) data size fnvBasis64

/-- `FNV1a64(const char(&)[N])`, Hash.inl:235-239. -/
def fnv64Array (charSigned : Bool) (str : List Byte) : M (BitVec 64) := fnv64View charSigned str

/-- `kMul`, Hash.inl:70. -/
def kMul : BitVec 64 := 0x9ddfea08eb382d69#64

/-- `HashCombine(seed, v)`, Hash.inl:67-80, on a host with 64-bit `std::size_t`: the new seed, from
the seed and the value of `std::hash<T>{}(v)`. -/
def hashCombine (seed hv : BitVec 64) : BitVec 64 :=
  let a := (hv ^^^ seed) * kMul
  let a := a ^^^ (a >>> 47)
  let b := (seed ^^^ a) * kMul
  let b := b ^^^ (b >>> 47)
  b * kMul

/-- `HashCombine(v, args...)`, Hash.inl:82-91: the arguments are given by their hashes, `hashSize` is
`std::hash<std::size_t>`. -/
def hashCombineAll (hashSize : BitVec 64 → BitVec 64) (hv : BitVec 64) : List (BitVec 64) → BitVec 64
  | [] => hv
  | h :: hs => hashCombine hv (hashSize (hashCombineAll hashSize h hs))

end Verif.Hash
