import Verif.Exec
import Verif.Bitset.History

/-!
# Model of the operations of `Bitset` that allocate, with allocations that fail

The state (the data members of the bitset) is kept when `std::bad_alloc` leaves a call.  The container is a `std::vector`; it allocates only in calls
that make it longer, and such a call leaves it unchanged when it throws ([vector.capacity], [vector.modifiers]).  Whether an allocation succeeds is left to an
arbitrary function of the old and the new number of blocks: all such calls of an operation differ in these, so that every pattern of failures is covered.
(Whether a longer vector needs an allocation depends on its capacity, which is not modelled: a vector with enough capacity is one where the function says yes.)
-/

namespace Verif.BitsetAlloc
open Verif.Cpp Verif.Bitset

variable {w : Nat}

/-- Whether the vector may grow from `m` to `n` blocks. -/
abbrev Grant := Nat → Nat → Bool

/-- Code that does not allocate. -/
def lift (f : Bitset w → M (Bitset w)) : X (Bitset w) Unit := fun b =>
  match f b with
  | .ok b' => .done b' ()
  | .error e => .fail e

/-- Code that neither allocates nor changes the bitset. -/
def value {α : Type} (x : M α) : X (Bitset w) α := fun b =>
  match x with
  | .ok a => .done b a
  | .error e => .fail e

/-- `m_blocks.resize(n, v)` with `std::vector`. -/
def resizeBlocks (g : Grant) (n : Nat) (v : BitVec w) : X (Bitset w) Unit := fun b =>
  if n ≤ b.blocks.length || g b.blocks.length n then .done { b with blocks := vresize b.blocks n v } () else .thrown b

/-- `m_blocks.push_back(x)` with `std::vector`. -/
def pushBlock (g : Grant) (x : BitVec w) : X (Bitset w) Unit := fun b =>
  if g b.blocks.length (b.blocks.length + 1) then .done { b with blocks := b.blocks ++ [x] } () else .thrown b

/-- `Resize`, Bitset.inl:543-559. -/
def resize (g : Grant) (bitCount : Nat) (defaultVal : Bool) : X (Bitset w) Unit := do
  let b ← X.get
  let fill : BitVec w := if defaultVal then fullBitMask w else 0#w
  let remainingBits := getBitIndex w b.bitCount
  if bitCount > b.bitCount && remainingBits > 0 && defaultVal then do
    X.guardUB (0 < b.blocks.length)
    let lastBlockIndex := b.blocks.length - 1
    resizeBlocks g (computeBlockCount w bitCount) fill
    lift (fun b => do
      let x ← rd b.blocks lastBlockIndex
      let m ← shl (fullBitMask w) remainingBits
      let blocks ← wr b.blocks lastBlockIndex (x ||| m)
      pure { b with blocks := blocks })
  else resizeBlocks g (computeBlockCount w bitCount) fill
  X.modify (fun b => { b with bitCount := bitCount })
  lift resetExtraBits

/-- `UnboundedSet`, Bitset.inl:911-922. -/
def unboundedSet (g : Grant) (bit : Nat) (val : Bool) : X (Bitset w) Unit := do
  let b ← X.get
  if bit < b.bitCount then lift (fun b => set b bit val)
  else if val then do
    resize g (bit + 1) false
    lift (fun b => set b bit true)
  else pure ()

/-- `PerformsAND`, Bitset.inl:407-424. -/
def performsAND (g : Grant) (x y : Operand w) : X (Bitset w) Unit := do
  let b ← X.get
  let lo := min (getBlockCount (x.get b)) (getBlockCount (y.get b))
  let hi := max (getBlockCount (x.get b)) (getBlockCount (y.get b))
  resizeBlocks g hi 0#w
  X.modify (fun b => { b with bitCount := max (getSize (x.get b)) (getSize (y.get b)) })
  lift (fun b => do
    let b ← forUp 0 lo (fun i b => do
      let p ← getBlock (x.get b) i
      let q ← getBlock (y.get b) i
      setBlockRaw b i (p &&& q)) b
    let b ← forUp lo (hi - lo) (fun i b => setBlockRaw b i 0#w) b
    resetExtraBits b)

/-- `PerformsNOT`, Bitset.inl:431-441. -/
def performsNOT (g : Grant) (x : Operand w) : X (Bitset w) Unit := do
  let b ← X.get
  resizeBlocks g (getBlockCount (x.get b)) 0#w
  X.modify (fun b => { b with bitCount := getSize (x.get b) })
  lift (fun b => do
    let b ← forUp 0 b.blocks.length (fun i b => do
      let p ← getBlock (x.get b) i
      setBlockRaw b i (~~~p)) b
    resetExtraBits b)

/-- Common body of `PerformsOR`, Bitset.inl:451-469, and `PerformsXOR`, Bitset.inl:479-497, which differ in the block operation only. -/
def performsMerge (g : Grant) (op : BitVec w → BitVec w → BitVec w) (x y : Operand w) : X (Bitset w) Unit := do
  let b ← X.get
  let big := getSize (x.get b) > getSize (y.get b)
  let greater := if big then x else y
  let lesser := if big then y else x
  let maxBlockCount := getBlockCount (greater.get b)
  let minBlockCount := getBlockCount (lesser.get b)
  resizeBlocks g maxBlockCount 0#w
  X.modify (fun b => { b with bitCount := getSize (greater.get b) })
  lift (fun b => do
    let b ← forUp 0 minBlockCount (fun i b => do
      let p ← getBlock (x.get b) i
      let q ← getBlock (y.get b) i
      setBlockRaw b i (op p q)) b
    let b ← forUp minBlockCount (maxBlockCount - minBlockCount) (fun i b => do
      let p ← getBlock (greater.get b) i
      setBlockRaw b i p) b
    resetExtraBits b)

/-- First part of `AppendBits`, Bitset.inl:161-168: completion of the last block.  Result: the bits and the number of bits that remain. -/
def appendHead {t : Nat} (bits : BitVec t) (bitCount bitShift : Nat) : X (Bitset w) (BitVec t × Nat) :=
  if bitShift != 0 then do
    let remainingBits := w - bitShift
    lift (fun b => do
      guardUB (0 < b.blocks.length)
      let back ← rd b.blocks (b.blocks.length - 1)
      let x ← shl (bits.setWidth w) bitShift
      let blocks ← wr b.blocks (b.blocks.length - 1) (back ||| x)
      pure { b with blocks := blocks })
    let bits ← value (shiftOut bits remainingBits)
    pure (bits, bitCount - min remainingBits bitCount)
  else pure (bits, bitCount)

/-- The loop of `AppendBits`, Bitset.inl:173-183. -/
def pushLoop {t : Nat} (g : Grant) : Nat → BitVec t → Nat → X (Bitset w) (BitVec t × Nat)
  | 0, bits, bitCount => pure (bits, bitCount)
  | k + 1, bits, bitCount => do
    pushBlock g (bits.setWidth w)
    let bits ← value (shiftOut bits w)
    pushLoop g k bits (bitCount - w)

/-- Second part of `AppendBits`, Bitset.inl:170-190: new blocks. -/
def appendTail {t : Nat} (g : Grant) (bits : BitVec t) (bitCount : Nat) : X (Bitset w) Unit :=
  if bitCount > 0 then do
    let r ← pushLoop g (computeBlockCount w bitCount - 1) bits bitCount
    let remainingBits := r.2
    X.guardUB (remainingBits < promoted w)
    let mask : BitVec (promoted w) := (1#(promoted w) <<< remainingBits) - 1#(promoted w)
    let bits := r.1 &&& mask.setWidth t
    pushBlock g (bits.setWidth w)
  else pure ()

/-- `AppendBits`, Bitset.inl:154-191: `m_bitCount` changes first. -/
def appendBits {t : Nat} (g : Grant) (bits : BitVec t) (bitCount : Nat) : X (Bitset w) Unit := do
  let b ← X.get
  let bitShift := b.bitCount % w
  X.modify (fun b => { b with bitCount := b.bitCount + bitCount })
  let r ← appendHead bits bitCount bitShift
  appendTail g r.1 r.2

/-- A byte of the sequence `mem`; a read outside of it is undefined. -/
def readByte (mem : List (BitVec 8)) (p : Nat) : X (Bitset w) (BitVec 8) := fun b =>
  match rd mem p with
  | .ok x => .done b x
  | .error e => .fail e

/-- First part of `Write`, Bitset.inl:376-384. -/
def writeHead (g : Grant) (mem : List (BitVec 8)) (sequence : Sequence) (bitCount : Nat) : X (Bitset w) (Nat × Nat) :=
  if sequence.bit != 0 then do
    let mask : BitVec 8 := (~~~((1#32 <<< sequence.bit) - 1#32)).setWidth 8
    let readCount := min bitCount (8 - sequence.bit)
    let x ← readByte mem sequence.ptr
    appendBits g (((x &&& mask).setWidth (promoted w)) >>> sequence.bit) readCount
    pure (sequence.ptr + 1, bitCount - readCount)
  else pure (sequence.ptr, bitCount)

/-- The loop of `Write`, Bitset.inl:387-392, over the given number of bytes. -/
def writeLoop (g : Grant) (mem : List (BitVec 8)) : Nat → Nat → Nat → X (Bitset w) Unit
  | 0, _, _ => pure ()
  | k + 1, p, bitCount => do
    let bitToRead := min bitCount 8
    let x ← readByte mem p
    appendBits g x bitToRead
    writeLoop g mem k (p + 1) (bitCount - bitToRead)

/-- `Write(sequence, bitCount)`, Bitset.inl:365-397. -/
def write (g : Grant) (mem : List (BitVec 8)) (sequence : Sequence) (bitCount : Nat) : X (Bitset w) Sequence := do
  X.assert (sequence.bit < 8)
  let totalBitCount := sequence.bit + bitCount
  let endPtr := sequence.ptr + (if totalBitCount != 0 then (totalBitCount - 1) / 8 else 0)
  let nextPtr := endPtr + (if totalBitCount % 8 != 0 then 0 else 1)
  let r ← writeHead g mem sequence bitCount
  writeLoop g mem (endPtr + 1 - r.1) r.1 r.2
  pure ⟨nextPtr, totalBitCount % 8⟩

end Verif.BitsetAlloc
