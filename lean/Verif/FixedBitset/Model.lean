import Verif.Bitset.History
import Verif.FixedVector.Model

/-!
# Model of `FixedBitset`: `Bitset` over a `FixedVector`

`FixedBitset<Block, Capacity>` (Bitset.hpp:146-147) is `Bitset` with a container of at most `N = (Capacity + 7) / 8` blocks.  The
container members the bitset calls are given here by their effect on the sequence of blocks; that this is what the model of
`FixedVector` does is proved in `Props.lean`.  The functions of `Bitset.inl` that enlarge the container are repeated with it; the
others leave the number of blocks unchanged and are those of `Verif.Bitset`.  (`operator[]`, `back` of `FixedVector` assert their
range where `std::vector` has undefined behaviour: this only changes the kind of a failure.)

`HybridBitset` (Bitset.hpp:149-150) is modelled in `Verif.HybridBitset`.
-/

namespace Verif.FixedBitset
open Verif.Cpp Verif.Bitset

variable {w : Nat}

/-- The number of blocks of the container of `FixedBitset<Block, Capacity>`, Bitset.hpp:147. -/
def maxBlocks (capacity : Nat) : Nat := (capacity + 7) / 8

/-- `m_blocks.resize(n, v)`, FixedVector.inl:587-620, on the sequence of blocks. -/
def cresize (N : Nat) (l : List (BitVec w)) (n : Nat) (v : BitVec w) : M (List (BitVec w)) := do
  assert (n ≤ N)
  pure (vresize l n v)

/-- `m_blocks.push_back(x)`, FixedVector.inl:510-534, on the sequence of blocks. -/
def cpush (N : Nat) (l : List (BitVec w)) (x : BitVec w) : M (List (BitVec w)) := do
  assert (l.length < N)
  pure (l ++ [x])

/-- `Resize`, Bitset.inl:543-559. -/
def resize (N : Nat) (b : Bitset w) (bitCount : Nat) (defaultVal : Bool) : M (Bitset w) := do
  let fill : BitVec w := if defaultVal then fullBitMask w else 0#w
  let remainingBits := getBitIndex w b.bitCount
  let blocks ←
    if bitCount > b.bitCount && remainingBits > 0 && defaultVal then do
      guardUB (0 < b.blocks.length)
      let lastBlockIndex := b.blocks.length - 1
      let blocks ← cresize N b.blocks (computeBlockCount w bitCount) fill
      let x ← rd blocks lastBlockIndex
      let m ← shl (fullBitMask w) remainingBits
      wr blocks lastBlockIndex (x ||| m)
    else cresize N b.blocks (computeBlockCount w bitCount) fill
  resetExtraBits ⟨blocks, bitCount⟩

/-- `Bitset(bitCount, val)`, Bitset.inl:39-44. -/
def ofSize (N bitCount : Nat) (val : Bool) : M (Bitset w) := resize N empty bitCount val

/-- `Bitset(const char*, bitCount)`, Bitset.inl:67-90. -/
def ofString (N : Nat) (bits : List Char) : M (Bitset w) := do
  let n := bits.length
  let blocks ← cresize N [] (computeBlockCount w n) 0#w
  forUp 0 n (fun i b => do
    let c ← rd bits i
    if c = '1' then set b (b.bitCount - i - 1) true
    else if c = '0' then pure b
    else .error .assert) ⟨blocks, n⟩

/-- `UnboundedSet`, Bitset.inl:911-922. -/
def unboundedSet (N : Nat) (b : Bitset w) (bit : Nat) (val : Bool) : M (Bitset w) :=
  if bit < b.bitCount then set b bit val
  else if val then do
    let b ← resize N b (bit + 1) false
    set b bit true
  else pure b

/-- `Bitset(T value)`, Bitset.inl:119-138. -/
def ofInt {t : Nat} (N : Nat) (isSigned : Bool) (value : BitVec t) : M (Bitset w) :=
  if t ≤ w then do
    let blocks ← cpush N [] (if isSigned then value.signExtend w else value.setWidth w)
    pure ⟨blocks, t⟩
  else forUp 0 t (fun bitPos b =>
    if (value &&& (1#t <<< bitPos)) != 0#t then unboundedSet N b bitPos true else pure b) empty

/-- Second part of `AppendBits`, Bitset.inl:170-190: new blocks. -/
def appendTail {t : Nat} (N : Nat) (s : AppendState w t) : M (List (BitVec w)) :=
  if s.bitCount > 0 then do
    let blockCount := computeBlockCount w s.bitCount
    let s ← forUp 0 (blockCount - 1) (fun _ (s : AppendState w t) => do
      let blocks ← cpush N s.blocks (s.bits.setWidth w)
      let bits ← shiftOut s.bits w
      pure ⟨blocks, bits, s.bitCount - w⟩) s
    let remainingBits := s.bitCount
    guardUB (remainingBits < promoted w)
    let mask : BitVec (promoted w) := (1#(promoted w) <<< remainingBits) - 1#(promoted w)
    let bits := s.bits &&& mask.setWidth t
    cpush N s.blocks (bits.setWidth w)
  else pure s.blocks

/-- `AppendBits`, Bitset.inl:154-191; the first part does not change the number of blocks. -/
def appendBits {t : Nat} (N : Nat) (b : Bitset w) (bits : BitVec t) (bitCount : Nat) : M (Bitset w) := do
  let s ← appendHead b bits bitCount
  let blocks ← appendTail N s
  pure ⟨blocks, b.bitCount + bitCount⟩

/-- `PerformsAND`, Bitset.inl:407-424. -/
def performsAND (N : Nat) (b : Bitset w) (x y : Operand w) : M (Bitset w) := do
  let lo := min (getBlockCount (x.get b)) (getBlockCount (y.get b))
  let hi := max (getBlockCount (x.get b)) (getBlockCount (y.get b))
  let blocks ← cresize N b.blocks hi 0#w
  let b : Bitset w := { b with blocks := blocks }
  let b : Bitset w := { b with bitCount := max (getSize (x.get b)) (getSize (y.get b)) }
  let b ← forUp 0 lo (fun i b => do
    let p ← getBlock (x.get b) i
    let q ← getBlock (y.get b) i
    setBlockRaw b i (p &&& q)) b
  let b ← forUp lo (hi - lo) (fun i b => setBlockRaw b i 0#w) b
  resetExtraBits b

/-- `PerformsNOT`, Bitset.inl:431-441. -/
def performsNOT (N : Nat) (b : Bitset w) (x : Operand w) : M (Bitset w) := do
  let blocks ← cresize N b.blocks (getBlockCount (x.get b)) 0#w
  let b : Bitset w := { b with blocks := blocks }
  let b : Bitset w := { b with bitCount := getSize (x.get b) }
  let b ← forUp 0 b.blocks.length (fun i b => do
    let p ← getBlock (x.get b) i
    setBlockRaw b i (~~~p)) b
  resetExtraBits b

/-- Common body of `PerformsOR`, Bitset.inl:451-469, and `PerformsXOR`, Bitset.inl:479-497. -/
def performsMerge (N : Nat) (op : BitVec w → BitVec w → BitVec w) (b : Bitset w) (x y : Operand w) : M (Bitset w) := do
  let big := getSize (x.get b) > getSize (y.get b)
  let greater := if big then x else y
  let lesser := if big then y else x
  let maxBlockCount := getBlockCount (greater.get b)
  let minBlockCount := getBlockCount (lesser.get b)
  let blocks ← cresize N b.blocks maxBlockCount 0#w
  let b : Bitset w := { b with blocks := blocks }
  let b : Bitset w := { b with bitCount := getSize (greater.get b) }
  let b ← forUp 0 minBlockCount (fun i b => do
    let p ← getBlock (x.get b) i
    let q ← getBlock (y.get b) i
    setBlockRaw b i (op p q)) b
  let b ← forUp minBlockCount (maxBlockCount - minBlockCount) (fun i b => do
    let p ← getBlock (greater.get b) i
    setBlockRaw b i p) b
  resetExtraBits b

/-- First part of `Write`, Bitset.inl:377-385. -/
def writeHead (N : Nat) (b : Bitset w) (mem : List (BitVec 8)) (sequence : Sequence) (bitCount : Nat) : M (Bitset w × Nat × Nat) :=
  if sequence.bit != 0 then do
    let mask : BitVec 8 := (~~~((1#32 <<< sequence.bit) - 1#32)).setWidth 8
    let readCount := min bitCount (8 - sequence.bit)
    let x ← rd mem sequence.ptr
    let b ← appendBits N b (((x &&& mask).setWidth (promoted w)) >>> sequence.bit) readCount
    pure (b, sequence.ptr + 1, bitCount - readCount)
  else pure (b, sequence.ptr, bitCount)

/-- `Write(sequence, bitCount)`, Bitset.inl:365-397. -/
def write (N : Nat) (b : Bitset w) (mem : List (BitVec 8)) (sequence : Sequence) (bitCount : Nat) : M (Bitset w × Sequence) := do
  assert (sequence.bit < 8)
  let totalBitCount := sequence.bit + bitCount
  let endPtr := sequence.ptr + (if totalBitCount != 0 then (totalBitCount - 1) / 8 else 0)
  let nextPtr := endPtr + (if totalBitCount % 8 != 0 then 0 else 1)
  let (b, u8Ptr, bitCount) ← writeHead N b mem sequence bitCount
  let (b, _) ← forUp u8Ptr (endPtr + 1 - u8Ptr) (fun p (s : Bitset w × Nat) => do
    let bitToRead := min s.2 8
    let x ← rd mem p
    let b ← appendBits N s.1 x bitToRead
    pure (b, s.2 - bitToRead)) (b, bitCount)
  pure (b, ⟨nextPtr, totalBitCount % 8⟩)

/-- Copy assignment (defaulted, Bitset.hpp:104) from the bitset itself: `m_blocks = m_blocks` clears the blocks
(FixedVector.inl:691-710), `m_bitCount = m_bitCount` does nothing. -/
def copySelf (b : Bitset w) : Bitset w := ⟨[], b.bitCount⟩

/-- The new value of the target of an operation on variables holding bitsets of at most `N` blocks.  Moves of a
`FixedVector` of integers are copies. -/
def result (N : Nat) (σ : Nat → Bitset w) : Op w → M (Bitset w)
  | .ofSize _ n v => ofSize N n v
  | .ofString _ s => ofString N s
  | .ofInt _ _ v => ofInt N false v
  | .copy d a => if a = d then .ok (copySelf (σ d)) else .ok (σ a)
  | .resize d n v => resize N (σ d) n v
  | .unboundedSet d i v => unboundedSet N (σ d) i v
  | .unboundedReset d i => unboundedSet N (σ d) i false
  | .performsAND d a b => performsAND N (σ d) (operand σ d a) (operand σ d b)
  | .performsOR d a b => performsMerge N (· ||| ·) (σ d) (operand σ d a) (operand σ d b)
  | .performsXOR d a b => performsMerge N (· ^^^ ·) (σ d) (operand σ d a) (operand σ d b)
  | .performsNOT d a => performsNOT N (σ d) (operand σ d a)
  | .opAnd _ a b => performsAND N empty (.other (σ a)) (.other (σ b))
  | .opOr _ a b => performsMerge N (· ||| ·) empty (.other (σ a)) (.other (σ b))
  | .opXor _ a b => performsMerge N (· ^^^ ·) empty (.other (σ a)) (.other (σ b))
  | .opNot _ a => performsNOT N empty (.other (σ a))
  | .appendBits d _ v n => appendBits N (σ d) v n
  | .write d mem seq n => do
      let r ← write N (σ d) mem seq n
      pure r.1
  | op => op.result σ

/-- One operation. -/
def exec (N : Nat) (σ : Nat → Bitset w) (op : Op w) : M (Nat → Bitset w) := do
  let r ← result N σ op
  match op with
  | .swap d a => pure (upd (upd σ d r) a (σ d))
  | _ => pure (upd σ op.target r)

/-- A history. -/
def run (N : Nat) (σ : Nat → Bitset w) : List (Op w) → M (Nat → Bitset w)
  | [] => .ok σ
  | op :: ops => do
    let σ ← exec N σ op
    run N σ ops

end Verif.FixedBitset
