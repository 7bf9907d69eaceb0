import Verif.Cpp
import Verif.MathUtils.Model

/-!
# Model of `Bitset.hpp` / `Bitset.inl`

`w` is the number of bits of `Block`.  The container is a `List` (as `std::vector`; the capacity
limit of `FixedBitset` is in `Verif.FixedBitset`).  `size_t` is `Nat`, `npos` is `none`.

Operations on blocks narrower than `int` are computed in `int` by C++ and converted back on assignment; for shifts
by less than `promoted w` this is the same as shifting the `w`-bit value (the bits shifted out are dropped by the
conversion), and larger shifts are undefined behaviour.
-/

namespace Verif.Bitset
open Verif.Cpp

/-- The data members `m_blocks` and `m_bitCount`, Bitset.hpp:142-143. -/
structure Bitset (w : Nat) where
  blocks : List (BitVec w)
  bitCount : Nat
  deriving DecidableEq, Repr

variable {w : Nat}

/-- `fullBitMask`, Bitset.hpp:119. -/
def fullBitMask (w : Nat) : BitVec w := BitVec.allOnes w

/-- `GetBitIndex`, Bitset.inl:1215-1219: `bit & (bitsPerBlock - 1)`. -/
def getBitIndex (w bit : Nat) : Nat := bit &&& (w - 1)

/-- `GetBlockIndex`, Bitset.inl:1225-1229. -/
def getBlockIndex (w bit : Nat) : Nat := bit / w

/-- `ComputeBlockCount`, Bitset.inl:1205-1209. -/
def computeBlockCount (w bitCount : Nat) : Nat :=
  getBlockIndex w bitCount + (if getBitIndex w bitCount != 0 then 1 else 0)

/-- `x << k` on blocks, converted back to `Block`. -/
def shl (x : BitVec w) (k : Nat) : M (BitVec w) := do
  guardUB (k < promoted w)
  pure (x <<< k)

/-- `x >> k` on blocks. -/
def shr (x : BitVec w) (k : Nat) : M (BitVec w) := do
  guardUB (k < promoted w)
  pure (x >>> k)

/-- `vector::resize(n, v)`. -/
def vresize {α : Type u} (l : List α) (n : Nat) (v : α) : List α := l.take n ++ List.replicate (n - l.length) v

/-- `Bitset()`, Bitset.inl:27-31. -/
def empty : Bitset w := ⟨[], 0⟩

/-- `GetLastBlockMask`, Bitset.inl:1184-1189. -/
def getLastBlockMask (b : Bitset w) : M (BitVec w) :=
  let bitIndex := getBitIndex w b.bitCount
  if bitIndex != 0 then do
    let x ← shl 1#w bitIndex
    pure (x - 1#w)
  else pure (fullBitMask w)

/-- `ResetExtraBits`, Bitset.inl:1194-1199. -/
def resetExtraBits (b : Bitset w) : M (Bitset w) :=
  if b.blocks.length != 0 then do
    let back ← rd b.blocks (b.blocks.length - 1)
    let mask ← getLastBlockMask b
    let blocks ← wr b.blocks (b.blocks.length - 1) (back &&& mask)
    pure { b with blocks := blocks }
  else pure b

/-- `Resize`, Bitset.inl:543-559. -/
def resize (b : Bitset w) (bitCount : Nat) (defaultVal : Bool) : M (Bitset w) := do
  let fill : BitVec w := if defaultVal then fullBitMask w else 0#w
  let remainingBits := getBitIndex w b.bitCount
  let blocks ←
    if bitCount > b.bitCount && remainingBits > 0 && defaultVal then do
      guardUB (0 < b.blocks.length)
      let lastBlockIndex := b.blocks.length - 1
      let blocks := vresize b.blocks (computeBlockCount w bitCount) fill
      let x ← rd blocks lastBlockIndex
      let m ← shl (fullBitMask w) remainingBits
      wr blocks lastBlockIndex (x ||| m)
    else pure (vresize b.blocks (computeBlockCount w bitCount) fill)
  resetExtraBits ⟨blocks, bitCount⟩

/-- `Bitset(bitCount, val)`, Bitset.inl:39-44. -/
def ofSize (bitCount : Nat) (val : Bool) : M (Bitset w) := resize empty bitCount val

/-- `Set(bit, val)`, Bitset.inl:630-641. -/
def set (b : Bitset w) (bit : Nat) (val : Bool) : M (Bitset w) := do
  assert (bit < b.bitCount)
  let block ← rd b.blocks (getBlockIndex w bit)
  let mask ← shl 1#w (getBitIndex w bit)
  let v : BitVec w := if val then 1#w else 0#w
  let blocks ← wr b.blocks (getBlockIndex w bit) ((block &&& ~~~mask) ||| ((-v) &&& mask))
  pure { b with blocks := blocks }

/-- `Test(bit)`, Bitset.inl:791-796, and `operator[] const`, Bitset.inl:955-959. -/
def test (b : Bitset w) (bit : Nat) : M Bool := do
  assert (bit < b.bitCount)
  let block ← rd b.blocks (getBlockIndex w bit)
  let mask ← shl 1#w (getBitIndex w bit)
  pure ((block &&& mask) != 0#w)

/-- `Bitset(const char*, bitCount)`, Bitset.inl:67-90 (also the `std::string`, `std::string_view` and
null-terminated constructors, Bitset.inl:53-57 and 97-112; `operator=(string_view)`, 980-987, swaps with such a
bitset). -/
def ofString (bits : List Char) : M (Bitset w) :=
  let n := bits.length
  forUp 0 n (fun i b => do
    let c ← rd bits i
    if c = '1' then set b (b.bitCount - i - 1) true
    else if c = '0' then pure b
    else .error .assert) ⟨vresize [] (computeBlockCount w n) 0#w, n⟩

/-- `UnboundedSet`, Bitset.inl:911-922. -/
def unboundedSet (b : Bitset w) (bit : Nat) (val : Bool) : M (Bitset w) :=
  if bit < b.bitCount then set b bit val
  else if val then do
    let b ← resize b (bit + 1) false
    set b bit true
  else pure b

/-- `UnboundedReset`, Bitset.inl:895-899. -/
def unboundedReset (b : Bitset w) (bit : Nat) : M (Bitset w) := unboundedSet b bit false

/-- `UnboundedTest`, Bitset.inl:932-939. -/
def unboundedTest (b : Bitset w) (bit : Nat) : M Bool :=
  if bit < b.bitCount then test b bit else pure false

/-- `Bitset(T value)`, Bitset.inl:119-138, for a type `T` of `t` bits; `isSigned` says whether `T` is signed (the
conversion to a wider block then extends the sign).  `operator=(T)`, 995-1003, swaps with such a bitset. -/
def ofInt {t : Nat} (isSigned : Bool) (value : BitVec t) : M (Bitset w) :=
  if t ≤ w then pure ⟨[if isSigned then value.signExtend w else value.setWidth w], t⟩
  else forUp 0 t (fun bitPos b =>
    if (value &&& (1#t <<< bitPos)) != 0#t then unboundedSet b bitPos true else pure b) empty

/-- Loop state of `AppendBits`. -/
structure AppendState (w t : Nat) where
  blocks : List (BitVec w)
  bits : BitVec t
  bitCount : Nat

/-- `(k < BitCount<T>) ? bits >> k : T(0)`, Bitset.inl:165 and 177-180 (there `k` is the width of a block and the test is made by the compiler).
A shift by the width of the promoted type or more is undefined. -/
def shiftOut {t : Nat} (bits : BitVec t) (k : Nat) : M (BitVec t) :=
  if k < t then shr bits k else pure 0#t

/-- First part of `AppendBits`, Bitset.inl:161-168: completion of the last block. -/
def appendHead {t : Nat} (b : Bitset w) (bits : BitVec t) (bitCount : Nat) : M (AppendState w t) :=
  let bitShift := b.bitCount % w
  if bitShift != 0 then do
    let remainingBits := w - bitShift
    guardUB (0 < b.blocks.length)
    let back ← rd b.blocks (b.blocks.length - 1)
    let x ← shl (bits.setWidth w) bitShift
    let blocks ← wr b.blocks (b.blocks.length - 1) (back ||| x)
    let bits ← shiftOut bits remainingBits
    pure ⟨blocks, bits, bitCount - min remainingBits bitCount⟩
  else pure ⟨b.blocks, bits, bitCount⟩

/-- Second part of `AppendBits`, Bitset.inl:170-190: new blocks. -/
def appendTail {t : Nat} (s : AppendState w t) : M (List (BitVec w)) :=
  if s.bitCount > 0 then do
    let blockCount := computeBlockCount w s.bitCount
    let s ← forUp 0 (blockCount - 1) (fun _ (s : AppendState w t) => do
      let blocks := s.blocks ++ [s.bits.setWidth w]
      let bits ← shiftOut s.bits w
      pure ⟨blocks, bits, s.bitCount - w⟩) s
    let remainingBits := s.bitCount
    guardUB (remainingBits < promoted w)
    let mask : BitVec (promoted w) := (1#(promoted w) <<< remainingBits) - 1#(promoted w)
    let bits := s.bits &&& mask.setWidth t
    pure (s.blocks ++ [bits.setWidth w])
  else pure s.blocks

/-- `AppendBits`, Bitset.inl:154-191, for an unsigned type `T` of `t` bits. -/
def appendBits {t : Nat} (b : Bitset w) (bits : BitVec t) (bitCount : Nat) : M (Bitset w) := do
  let s ← appendHead b bits bitCount
  let blocks ← appendTail s
  pure ⟨blocks, b.bitCount + bitCount⟩

/-- `Clear`, Bitset.inl:203-208. -/
def clear (_ : Bitset w) : Bitset w := ⟨[], 0⟩

/-- `Count`, Bitset.inl:215-223. -/
def count (b : Bitset w) : M Nat :=
  forUp 0 b.blocks.length (fun i c => do
    let x ← rd b.blocks i
    pure (c + MathUtils.countBits x)) 0

/-- `Flip`, Bitset.inl:230-237. -/
def flip (b : Bitset w) : M (Bitset w) :=
  resetExtraBits { b with blocks := b.blocks.map (· ^^^ fullBitMask w) }

/-- `FindFirstFrom`, Bitset.inl:1156-1178. -/
def findFirstFrom (b : Bitset w) (blockIndex : Nat) : M (Option Nat) :=
  if blockIndex ≥ b.blocks.length then pure none
  else do
    let i ← findUp blockIndex (b.blocks.length - blockIndex) (fun i => do
      let x ← rd b.blocks i
      pure (x != 0#w))
    match i with
    | none => pure none
    | some i => do
      let block ← rd b.blocks i
      let f ← MathUtils.findFirstBit block
      pure (some (f + i * w - 1))

/-- `FindFirst`, Bitset.inl:244-248. -/
def findFirst (b : Bitset w) : M (Option Nat) := findFirstFrom b 0

/-- `FindNext`, Bitset.inl:259-280. -/
def findNext (b : Bitset w) (bit : Nat) : M (Option Nat) := do
  assert (bit < b.bitCount)
  let bit := bit + 1
  if bit ≥ b.bitCount then pure none
  else do
    let blockIndex := getBlockIndex w bit
    let bitIndex := getBitIndex w bit
    let block ← rd b.blocks blockIndex
    let block ← shr block bitIndex
    if block != 0#w then do
      let f ← MathUtils.findFirstBit block
      pure (some (f + bit - 1))
    else findFirstFrom b (blockIndex + 1)

/-- `GetBlock`, Bitset.inl:290-295. -/
def getBlock (b : Bitset w) (i : Nat) : M (BitVec w) := do
  assert (i < b.blocks.length)
  rd b.blocks i

/-- `GetBlockCount`, Bitset.inl:301-305. -/
def getBlockCount (b : Bitset w) : Nat := b.blocks.length

/-- `GetSize`, Bitset.inl:321-325. -/
def getSize (b : Bitset w) : Nat := b.bitCount

/-- An operand of `PerformsAND` etc.: a reference to the target bitset itself, or to another one. -/
inductive Operand (w : Nat) where
  | self
  | other (b : Bitset w)

/-- The bitset an operand refers to, in the current state of the target. -/
def Operand.get (o : Operand w) (self : Bitset w) : Bitset w :=
  match o with
  | .self => self
  | .other b => b

/-- `m_blocks[i] = v`. -/
def setBlockRaw (b : Bitset w) (i : Nat) (v : BitVec w) : M (Bitset w) := do
  let blocks ← wr b.blocks i v
  pure { b with blocks := blocks }

/-- `PerformsAND`, Bitset.inl:407-424. -/
def performsAND (b : Bitset w) (x y : Operand w) : M (Bitset w) := do
  let lo := min (getBlockCount (x.get b)) (getBlockCount (y.get b))
  let hi := max (getBlockCount (x.get b)) (getBlockCount (y.get b))
  let b : Bitset w := { b with blocks := vresize b.blocks hi 0#w }
  let b : Bitset w := { b with bitCount := max (getSize (x.get b)) (getSize (y.get b)) }
  let b ← forUp 0 lo (fun i b => do
    let p ← getBlock (x.get b) i
    let q ← getBlock (y.get b) i
    setBlockRaw b i (p &&& q)) b
  let b ← forUp lo (hi - lo) (fun i b => setBlockRaw b i 0#w) b
  resetExtraBits b

/-- `PerformsNOT`, Bitset.inl:431-441. -/
def performsNOT (b : Bitset w) (x : Operand w) : M (Bitset w) := do
  let b : Bitset w := { b with blocks := vresize b.blocks (getBlockCount (x.get b)) 0#w }
  let b : Bitset w := { b with bitCount := getSize (x.get b) }
  let b ← forUp 0 b.blocks.length (fun i b => do
    let p ← getBlock (x.get b) i
    setBlockRaw b i (~~~p)) b
  resetExtraBits b

/-- Common body of `PerformsOR`, Bitset.inl:451-469, and `PerformsXOR`, Bitset.inl:479-497, which differ in
the block operation only. -/
def performsMerge (op : BitVec w → BitVec w → BitVec w) (b : Bitset w) (x y : Operand w) : M (Bitset w) := do
  let big := getSize (x.get b) > getSize (y.get b)
  let greater := if big then x else y
  let lesser := if big then y else x
  let maxBlockCount := getBlockCount (greater.get b)
  let minBlockCount := getBlockCount (lesser.get b)
  let b : Bitset w := { b with blocks := vresize b.blocks maxBlockCount 0#w }
  let b : Bitset w := { b with bitCount := getSize (greater.get b) }
  let b ← forUp 0 minBlockCount (fun i b => do
    let p ← getBlock (x.get b) i
    let q ← getBlock (y.get b) i
    setBlockRaw b i (op p q)) b
  let b ← forUp minBlockCount (maxBlockCount - minBlockCount) (fun i b => do
    let p ← getBlock (greater.get b) i
    setBlockRaw b i p) b
  resetExtraBits b

/-- `PerformsOR`, Bitset.inl:451-469. -/
def performsOR (b : Bitset w) (x y : Operand w) : M (Bitset w) := performsMerge (· ||| ·) b x y

/-- `PerformsXOR`, Bitset.inl:479-497. -/
def performsXOR (b : Bitset w) (x y : Operand w) : M (Bitset w) := performsMerge (· ^^^ ·) b x y

/-- `operator~`, Bitset.inl:965-972. -/
def opNot (a : Bitset w) : M (Bitset w) := performsNOT empty (.other a)
/-- `operator&`, Bitset.inl:1602-1609. -/
def opAnd (a b : Bitset w) : M (Bitset w) := performsAND empty (.other a) (.other b)
/-- `operator|`, Bitset.inl:1618-1625. -/
def opOr (a b : Bitset w) : M (Bitset w) := performsOR empty (.other a) (.other b)
/-- `operator^`, Bitset.inl:1634-1641. -/
def opXor (a b : Bitset w) : M (Bitset w) := performsXOR empty (.other a) (.other b)
/-- `operator&=`, Bitset.inl:1085-1091, the argument possibly being the target. -/
def opAndAssign (a : Bitset w) (b : Operand w) : M (Bitset w) := performsAND a .self b
/-- `operator|=`, Bitset.inl:1099-1105. -/
def opOrAssign (a : Bitset w) (b : Operand w) : M (Bitset w) := performsOR a .self b
/-- `operator^=`, Bitset.inl:1113-1119. -/
def opXorAssign (a : Bitset w) (b : Operand w) : M (Bitset w) := performsXOR a .self b

/-- `Intersects`, Bitset.inl:504-518. -/
def intersects (a b : Bitset w) : M Bool := do
  let r ← findUp 0 (min (getBlockCount a) (getBlockCount b)) (fun i => do
    let p ← getBlock a i
    let q ← getBlock b i
    pure ((p &&& q) != 0#w))
  pure r.isSome

/-- `Set(bool)`, Bitset.inl:612-618. -/
def setAll (b : Bitset w) (val : Bool) : M (Bitset w) :=
  let b' : Bitset w := { b with blocks := b.blocks.map (fun _ => if val then fullBitMask w else 0#w) }
  if val then resetExtraBits b' else pure b'

/-- `Reset()`, Bitset.inl:564-568. -/
def resetAll (b : Bitset w) : M (Bitset w) := setAll b false

/-- `Reset(bit)`, Bitset.inl:577-581. -/
def reset (b : Bitset w) (bit : Nat) : M (Bitset w) := set b bit false

/-- The loop of `Reverse`, Bitset.inl:597-604. -/
def reverseLoop (b : Bitset w) (i j : Nat) : M (Bitset w) :=
  if i < j then do
    let bit1 ← test b i
    let bit2 ← test b j
    let b ← set b i bit2
    let b ← set b j bit1
    reverseLoop b (i + 1) (j - 1)
  else pure b
termination_by j - i

/-- `Reverse`, Bitset.inl:588-605. -/
def reverse (b : Bitset w) : M (Bitset w) :=
  if b.bitCount = 0 then pure b else reverseLoop b 0 (b.bitCount - 1)

/-- `SetBlock`, Bitset.inl:651-659. -/
def setBlock (b : Bitset w) (i : Nat) (block : BitVec w) : M (Bitset w) := do
  assert (i < b.blocks.length)
  let b ← setBlockRaw b i block
  if i = b.blocks.length - 1 then resetExtraBits b else pure b

/-- The body of `ShiftLeft` on the blocks, Bitset.inl:681-710.  In the branch of whole blocks, the reverse iterator at
distance `d` from `rbegin` designates index `size - 1 - d`; the loop variable is `k = size - d`. -/
def shiftLeftBlocks (blocks : List (BitVec w)) (blockShift remainder : Nat) : M (List (BitVec w)) :=
  let size := blocks.length
  if remainder != 0 then do
    let lastIndex := size - 1
    let remaining := w - remainder
    let l ← forDown 0 (lastIndex - blockShift) (fun i l => do
      let p ← rd l i
      let q ← rd l (i - 1)
      let p ← shl p remainder
      let q ← shr q remaining
      wr l (i + blockShift) (p ||| q)) blocks
    let p ← rd l 0
    let p ← shl p remainder
    let l ← wr l blockShift p
    forUp 0 blockShift (fun i l => wr l i 0#w) l
  else
    forDown 0 size (fun k l =>
      if size - k + blockShift < size then do
        let x ← rd l (k - 1 - blockShift)
        wr l (k - 1) x
      else wr l (k - 1) 0#w) blocks

/-- `ShiftLeft`, Bitset.inl:670-713; `operator<<` and `operator<<=`, 1017-1040, call it on a copy and on the bitset. -/
def shiftLeft (b : Bitset w) (pos : Nat) : M (Bitset w) :=
  if pos = 0 then pure b
  else if pos ≥ b.bitCount then resetAll b
  else do
    guardUB (pos / w < b.blocks.length)
    let blocks ← shiftLeftBlocks b.blocks (pos / w) (pos % w)
    resetExtraBits { b with blocks := blocks }

/-- The body of `ShiftRight` on the blocks, Bitset.inl:735-764. -/
def shiftRightBlocks (blocks : List (BitVec w)) (blockShift remainder : Nat) : M (List (BitVec w)) :=
  let size := blocks.length
  if remainder != 0 then do
    let lastIndex := size - 1
    let remaining := w - remainder
    let l ← forUp blockShift (lastIndex - blockShift) (fun i l => do
      let p ← rd l i
      let q ← rd l (i + 1)
      let p ← shr p remainder
      let q ← shl q remaining
      wr l (i - blockShift) (p ||| q)) blocks
    let p ← rd l lastIndex
    let p ← shr p remainder
    let l ← wr l (lastIndex - blockShift) p
    forUp (size - blockShift) blockShift (fun i l => wr l i 0#w) l
  else
    forUp 0 size (fun i l =>
      if i + blockShift < size then do
        let x ← rd l (i + blockShift)
        wr l i x
      else wr l i 0#w) blocks

/-- `ShiftRight`, Bitset.inl:724-767; `operator>>` and `operator>>=`, 1054-1077, call it on a copy and on the bitset. -/
def shiftRight (b : Bitset w) (pos : Nat) : M (Bitset w) :=
  if pos = 0 then pure b
  else if pos ≥ b.bitCount then resetAll b
  else do
    guardUB (pos / w < b.blocks.length)
    let blocks ← shiftRightBlocks b.blocks (pos / w) (pos % w)
    resetExtraBits { b with blocks := blocks }

/-- `TestAll`, Bitset.inl:802-816. -/
def testAll (b : Bitset w) : M Bool := do
  let lastBlockMask ← getLastBlockMask b
  let r ← findUp 0 b.blocks.length (fun i => do
    let mask := if i = b.blocks.length - 1 then lastBlockMask else fullBitMask w
    let x ← rd b.blocks i
    pure (x != mask))
  pure r.isNone

/-- `TestAny`, Bitset.inl:822-835. -/
def testAny (b : Bitset w) : M Bool := do
  let r ← findUp 0 b.blocks.length (fun i => do
    let x ← rd b.blocks i
    pure (x != 0#w))
  pure r.isSome

/-- `TestNone`, Bitset.inl:841-845. -/
def testNone (b : Bitset w) : M Bool := do
  let r ← testAny b
  pure (!r)

/-- `To<T>`, Bitset.inl:853-866, for a type `T` of `t` bits. -/
def toInt (t : Nat) (b : Bitset w) : M (BitVec t) := do
  assert (b.bitCount ≤ t)
  forUp 0 b.blocks.length (fun i value => do
    let x ← rd b.blocks i
    let x ← shl (x.setWidth t) (i * w)
    pure (value ||| x)) 0#t

/-- `ToString`, Bitset.inl:872-884. -/
def toString (b : Bitset w) : M (List Char) :=
  forUp 0 b.bitCount (fun i str => do
    let t ← test b i
    if t then wr str (b.bitCount - i - 1) '1' else pure str) (List.replicate b.bitCount '0')

/-- A position in a byte sequence: `PointerSequence`, Bitset.hpp:30, the pointer being an offset. -/
structure Sequence where
  ptr : Nat
  bit : Nat
  deriving DecidableEq, Repr

/-- First part of `Write`, Bitset.inl:377-385: the bits of a byte of which some bits were read before.  Returns the
bitset, the pointer `u8Ptr` and the remaining `bitCount`. -/
def writeHead (b : Bitset w) (mem : List (BitVec 8)) (sequence : Sequence) (bitCount : Nat) : M (Bitset w × Nat × Nat) :=
  if sequence.bit != 0 then do
    let mask : BitVec 8 := (~~~((1#32 <<< sequence.bit) - 1#32)).setWidth 8
    let readCount := min bitCount (8 - sequence.bit)
    let x ← rd mem sequence.ptr
    let b ← appendBits b (((x &&& mask).setWidth (promoted w)) >>> sequence.bit) readCount
    pure (b, sequence.ptr + 1, bitCount - readCount)
  else pure (b, sequence.ptr, bitCount)

/-- `Write(sequence, bitCount)`, Bitset.inl:365-397, on the byte sequence `mem` (a read outside of it is undefined). -/
def write (b : Bitset w) (mem : List (BitVec 8)) (sequence : Sequence) (bitCount : Nat) : M (Bitset w × Sequence) := do
  assert (sequence.bit < 8)
  let totalBitCount := sequence.bit + bitCount
  let endPtr := sequence.ptr + (if totalBitCount != 0 then (totalBitCount - 1) / 8 else 0)
  let nextPtr := endPtr + (if totalBitCount % 8 != 0 then 0 else 1)
  let (b, u8Ptr, bitCount) ← writeHead b mem sequence bitCount
  let (b, _) ← forUp u8Ptr (endPtr + 1 - u8Ptr) (fun p (s : Bitset w × Nat) => do
    let bitToRead := min s.2 8
    let x ← rd mem p
    let b ← appendBits s.1 x bitToRead
    pure (b, s.2 - bitToRead)) (b, bitCount)
  pure (b, ⟨nextPtr, totalBitCount % 8⟩)

/-- `FromPointer`, Bitset.inl:1137-1148. -/
def fromPointer (mem : List (BitVec 8)) (ptr bitCount : Nat) : M (Bitset w × Sequence) :=
  write empty mem ⟨ptr, 0⟩ bitCount

/-- `operator==`, Bitset.inl:1483-1507. -/
def equals (lhs rhs : Bitset w) : M Bool := do
  let greater := if getBlockCount lhs > getBlockCount rhs then lhs else rhs
  let lesser := if getBlockCount lhs > getBlockCount rhs then rhs else lhs
  let maxBlockCount := getBlockCount greater
  let minBlockCount := getBlockCount lesser
  let r ← findUp 0 minBlockCount (fun i => do
    let p ← getBlock lhs i
    let q ← getBlock rhs i
    pure (p != q))
  if r.isSome then pure false
  else do
    let r ← findUp minBlockCount (maxBlockCount - minBlockCount) (fun i => do
      let p ← getBlock greater i
      pure (p != 0#w))
    pure r.isNone

/-- `operator!=`, Bitset.inl:1516-1520. -/
def notEquals (lhs rhs : Bitset w) : M Bool := do
  let r ← equals lhs rhs
  pure (!r)

/-- `operator<`, Bitset.inl:1529-1554.  The first loop starts at `i = maxBlockCount` and *increments*: if it is entered
its first access is `greater.GetBlock(maxBlockCount)`, which fails the assertion of `GetBlock`; so it has no second
iteration. -/
def less (lhs rhs : Bitset w) : M Bool := do
  let greater := if getBlockCount lhs > getBlockCount rhs then lhs else rhs
  let lesser := if getBlockCount lhs > getBlockCount rhs then rhs else lhs
  let maxBlockCount := getBlockCount greater
  let minBlockCount := getBlockCount lesser
  if maxBlockCount > minBlockCount then do
    let _ ← getBlock greater maxBlockCount
    .error .diverge
  else do
    let r ← findUp 0 minBlockCount (fun i => do
      let index := minBlockCount - i - 1
      let p ← getBlock lhs index
      let q ← getBlock rhs index
      pure (decide (p.toNat < q.toNat)))
    pure r.isSome

/-- `operator<=`, Bitset.inl:1563-1567. -/
def lessEq (lhs rhs : Bitset w) : M Bool := do
  let r ← less lhs rhs
  if r then pure true else equals lhs rhs

/-- `operator>`, Bitset.inl:1576-1580. -/
def greater (lhs rhs : Bitset w) : M Bool := less rhs lhs

/-- `operator>=`, Bitset.inl:1589-1593. -/
def greaterEq (lhs rhs : Bitset w) : M Bool := lessEq rhs lhs

/-! ## Bit proxies -/

/-- `Bitset::Bit`, Bitset.hpp:153-186: a reference to a block (here its index) and a mask. -/
structure Bit (w : Nat) where
  block : Nat
  mask : BitVec w

/-- The non-const `operator[]`, Bitset.inl:945-949 (no assertion, forming a reference to a missing block is undefined). -/
def index (b : Bitset w) (i : Nat) : M (Bit w) := do
  let _ ← rd b.blocks (getBlockIndex w i)
  let mask ← shl 1#w (getBitIndex w i)
  pure ⟨getBlockIndex w i, mask⟩

/-- `Bit::Flip`, Bitset.inl:1248-1254. -/
def Bit.flip (p : Bit w) (b : Bitset w) : M (Bitset w) := do
  let x ← rd b.blocks p.block
  setBlockRaw b p.block (x ^^^ p.mask)

/-- `Bit::Set(val)`, Bitset.inl:1272-1279: `-val` is the `int` 0 or -1, converted to the type of the mask. -/
def Bit.set (p : Bit w) (b : Bitset w) (val : Bool) : M (Bitset w) := do
  let x ← rd b.blocks p.block
  setBlockRaw b p.block ((x &&& ~~~p.mask) ||| ((if val then BitVec.allOnes w else 0#w) &&& p.mask))

/-- `Bit::Reset`, Bitset.inl:1260-1264. -/
def Bit.reset (p : Bit w) (b : Bitset w) : M (Bitset w) := p.set b false

/-- `Bit::Test` and `operator bool`, Bitset.inl:1285-1289 and 1311-1315. -/
def Bit.test (p : Bit w) (b : Bitset w) : M Bool := do
  let x ← rd b.blocks p.block
  pure ((x &&& p.mask) != 0#w)

/-- `Bit::operator=(bool)`, Bitset.inl:1323-1327. -/
def Bit.assign (p : Bit w) (b : Bitset w) (val : Bool) : M (Bitset w) := p.set b val

/-- `Bit::operator=(const Bit&)`, Bitset.inl:1335-1339, `q` being a bit of the bitset `c`. -/
def Bit.assignBit (p : Bit w) (b : Bitset w) (q : Bit w) (c : Bitset w) : M (Bitset w) := do
  let v ← q.test c
  p.set b v

/-- `Bit::operator|=`, Bitset.inl:1347-1360. -/
def Bit.orAssign (p : Bit w) (b : Bitset w) (val : Bool) : M (Bitset w) := do
  let v ← if val then pure true else p.test b
  p.set b v

/-- `Bit::operator&=`, Bitset.inl:1368-1381. -/
def Bit.andAssign (p : Bit w) (b : Bitset w) (val : Bool) : M (Bitset w) := do
  let v ← if val then p.test b else pure false
  p.set b v

/-- `Bit::operator^=`, Bitset.inl:1389-1402. -/
def Bit.xorAssign (p : Bit w) (b : Bitset w) (val : Bool) : M (Bitset w) := do
  let t ← p.test b
  p.set b (if val then !t else t)

/-- `Bit::operator-=`, Bitset.inl:1410-1423. -/
def Bit.subAssign (p : Bit w) (b : Bitset w) (val : Bool) : M (Bitset w) := do
  let v ← if val then pure false else p.test b
  p.set b v

/-! ## Iteration -/

/-- `for (it = begin; it != end; ++it) use(*it)` with `BitIterator`, Bitset.inl:1232-1242 and 1426-1464, from the
position `cur`, for at most `fuel` tests of the condition. -/
def iterate (b : Bitset w) : (fuel : Nat) → (cur : Option Nat) → M (List Nat)
  | 0, _ => .error .diverge
  | _ + 1, none => .ok []
  | fuel + 1, some i => do
    let next ← findNext b i
    let rest ← iterate b fuel next
    pure (i :: rest)

/-- The indices seen by `for (std::size_t i : b.IterBits())`. -/
def iterBits (b : Bitset w) (fuel : Nat) : M (List Nat) := do
  let first ← findFirst b
  iterate b fuel first

/-- `BitIterator::operator++()`, Bitset.inl:1441-1446: the new position, also returned. -/
def preIncrement (b : Bitset w) (pos : Nat) : M (Option Nat) := findNext b pos

/-- `BitIterator::operator++(int)`, Bitset.inl:1433-1439: the position of the iterator afterwards and the returned
position.  The copy is incremented and returned, not the iterator. -/
def postIncrement (b : Bitset w) (pos : Nat) : M (Option Nat × Option Nat) := do
  let copy ← preIncrement b pos
  pure (some pos, copy)

/-! ## Moves -/

/-- The defaulted move constructor, Bitset.hpp:41: the new bitset and what is left in the source.  A moved-from
`std::vector` is empty, `m_bitCount` is copied. -/
def moveConstruct (b : Bitset w) : Bitset w × Bitset w := (b, ⟨[], b.bitCount⟩)

end Verif.Bitset
