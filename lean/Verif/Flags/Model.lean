import Verif.MathUtils.Model

/-!
# Model of `Nz::Flags` (Flags.hpp, Flags.inl)

An enumeration is described by its number of enumerators and by whether it is an automatic flag
enumeration.  Enumerator number `i` has the value `i` (automatic) or `2 ^ i` (not automatic, as in
tests/src/FlagTests.cpp:21-31); enumerations with other values are not modelled.  Undefined
behaviour in a constant expression (which the compiler must reject) is modelled as undefined
behaviour.
-/

namespace Verif.Flags

open Verif.Cpp Verif.MathUtils

/-- An enumeration enabled as flags: the number `last` of its last enumerator (counted from 0) and
`GetEnumAutoFlag`, Flags.hpp:23-36. -/
structure Cfg where
  last : Nat
  autoFlag : Bool

/-- Value of enumerator number `i`. -/
def Cfg.value (c : Cfg) (i : Nat) : Nat := if c.autoFlag then i else 2 ^ i

/-- `MaxValue`, from `GetEnumFlagMax`: Flags.hpp:38-48, 56 (the value of `max`, of `Max` or
`Count - 1`, that is of the last enumerator, TypeTraits.hpp:35-57). -/
def Cfg.maxValue (c : Cfg) : Nat := c.value c.last

/-- Width of `BitField`, Flags.hpp:59-66. -/
def Cfg.width (c : Cfg) : Nat :=
  if 32 ≤ c.maxValue then 64 else if 16 ≤ c.maxValue then 32 else if 8 ≤ c.maxValue then 16 else 8

/-- `BitField`, Flags.hpp:66. -/
abbrev Cfg.BitField (c : Cfg) := BitVec c.width

/-- `ValueMask`, Flags.hpp:97. -/
def valueMask (c : Cfg) : M c.BitField := do
  guardUB (c.maxValue + 1 < 64)
  pure (((1#64 <<< (c.maxValue + 1)) - 1#64).setWidth c.width)

/-- `GetFlagValue`, Flags.inl:281-288, of the enumerator of value `e`.  The literal `1U` is an
`unsigned int`: the shift is undefined from 32. -/
def getFlagValue (c : Cfg) (e : Nat) : M c.BitField :=
  if c.autoFlag then do
    let s := BitVec.ofNat c.width e
    guardUB (s.toNat < 32)
    pure ((1#32 <<< s.toNat).setWidth c.width)
  else pure (BitVec.ofNat c.width e)

/-- `Flags(BitField)`, Flags.inl:23-27 (and the default value, Flags.hpp:68).  A `Flags` object is
its field `m_value`. -/
def ofBitField {c : Cfg} (value : c.BitField) : c.BitField := value

/-- `Flags(E)`, Flags.inl:36-40. -/
def ofEnum (c : Cfg) (e : Nat) : M c.BitField := do
  let v ← getFlagValue c e
  pure (ofBitField v)

/-- `Clear()`, Flags.inl:47-51. -/
def clear {c : Cfg} (_ : c.BitField) : c.BitField := 0#c.width

/-- `Clear(flags)`, Flags.inl:60-64.  (Integer promotion followed by the conversion back to
`BitField` does not change the low bits; the same holds below.) -/
def clearFlags {c : Cfg} (m flags : c.BitField) : c.BitField := m &&& ~~~flags

/-- `Count`, Flags.inl:66-70: the run-time path of `CountBits`. -/
def count {c : Cfg} (m : c.BitField) : Nat := countBitsRuntime false m

/-- `size`, Flags.inl:110-114. -/
def size {c : Cfg} (m : c.BitField) : Nat := count m

/-- `Set(flags)`, Flags.inl:80-84. -/
def setFlags {c : Cfg} (m flags : c.BitField) : c.BitField := m ||| flags

/-- `Test(flags)`, Flags.inl:92-96. -/
def test {c : Cfg} (m flags : c.BitField) : Bool := m &&& flags == flags

/-- `operator bool`, Flags.inl:122-126. -/
def toBool {c : Cfg} (m : c.BitField) : Bool := m != 0#c.width

/-- `operator T` for an integer type of `w` bits, Flags.inl:134-139 (`w ≥ c.width` by the
constraint in Flags.hpp:83; value-preserving or modular conversion). -/
def toInteger {c : Cfg} (w : Nat) (m : c.BitField) : BitVec w := m.setWidth w

/-- `operator~`, Flags.inl:147-151. -/
def compl {c : Cfg} (m : c.BitField) : M c.BitField := do
  let mask ← valueMask c
  pure (ofBitField (~~~m &&& mask))

/-- `operator&`, Flags.inl:161-165. -/
def inter {c : Cfg} (m rhs : c.BitField) : c.BitField := ofBitField (m &&& rhs)

/-- `operator|`, Flags.inl:175-179. -/
def union {c : Cfg} (m rhs : c.BitField) : c.BitField := ofBitField (m ||| rhs)

/-- `operator^`, Flags.inl:190-194. -/
def xor {c : Cfg} (m rhs : c.BitField) : M c.BitField := do
  let mask ← valueMask c
  pure (ofBitField ((m ^^^ rhs) &&& mask))

/-- `operator==`, Flags.inl:204-208. -/
def eq {c : Cfg} (m rhs : c.BitField) : Bool := m == rhs

/-- `operator!=`, Flags.inl:218-222. -/
def ne {c : Cfg} (m rhs : c.BitField) : Bool := !eq m rhs

/-- `operator|=`, Flags.inl:232-238. -/
def unionAssign {c : Cfg} (m rhs : c.BitField) : c.BitField := m ||| rhs

/-- `operator&=`, Flags.inl:248-254. -/
def interAssign {c : Cfg} (m rhs : c.BitField) : c.BitField := m &&& rhs

/-- `operator^=`, Flags.inl:265-272. -/
def xorAssign {c : Cfg} (m rhs : c.BitField) : M c.BitField := do
  let v := m ^^^ rhs
  let mask ← valueMask c
  pure (v &&& mask)

/-! ## Free operators on an enumerator and flags, and on enumerators -/

/-- `operator&(E, Flags<E>)`, Flags.inl:349-353. -/
def enumInterFlags (c : Cfg) (lhs : Nat) (rhs : c.BitField) : M c.BitField := do
  let l ← ofEnum c lhs
  pure (inter rhs l)

/-- `operator|(E, Flags<E>)`, Flags.inl:364-368. -/
def enumUnionFlags (c : Cfg) (lhs : Nat) (rhs : c.BitField) : M c.BitField := do
  let l ← ofEnum c lhs
  pure (union rhs l)

/-- `operator^(E, Flags<E>)`, Flags.inl:379-383. -/
def enumXorFlags (c : Cfg) (lhs : Nat) (rhs : c.BitField) : M c.BitField := do
  let l ← ofEnum c lhs
  xor rhs l

/-- `operator~(E)`, Flags.inl:396-400. -/
def enumCompl (c : Cfg) (lhs : Nat) : M c.BitField := do
  let l ← ofEnum c lhs
  compl l

/-- `operator&(E, E)`, Flags.inl:412-416. -/
def enumInter (c : Cfg) (lhs rhs : Nat) : M c.BitField := do
  let l ← ofEnum c lhs
  let r ← ofEnum c rhs
  pure (inter l r)

/-- `operator|(E, E)`, Flags.inl:427-431. -/
def enumUnion (c : Cfg) (lhs rhs : Nat) : M c.BitField := do
  let l ← ofEnum c lhs
  let r ← ofEnum c rhs
  pure (union l r)

/-- `operator^(E, E)`, Flags.inl:443-447. -/
def enumXor (c : Cfg) (lhs rhs : Nat) : M c.BitField := do
  let l ← ofEnum c lhs
  let r ← ofEnum c rhs
  xor l r

/-! ## Iteration -/

/-- `begin`, Flags.inl:98-102.  An iterator is its field `m_remainingFlags`. -/
def begin' {c : Cfg} (m : c.BitField) : c.BitField := m

/-- `end`, Flags.inl:104-108. -/
def end' {c : Cfg} (_ : c.BitField) : c.BitField := 0#c.width

/-- `iterator::operator++`, Flags.inl:305-312. -/
def iterNext {c : Cfg} (it : c.BitField) : M c.BitField := do
  let bitIndex := findFirstBitRuntime false it
  assert (bitIndex != 0)
  clearBit it (BitVec.ofNat c.width (bitIndex - 1)).toNat

/-- `iterator::operator++(int)`, Flags.inl:297-303: the new iterator and the returned copy. -/
def iterPostNext {c : Cfg} (it : c.BitField) : M (c.BitField × c.BitField) := do
  let it' ← iterNext it
  pure (it', it)

/-- `iterator::operator==`, Flags.inl:314-318. -/
def iterEq {c : Cfg} (a b : c.BitField) : Bool := a == b

/-- `iterator::operator*`, Flags.inl:326-336: the value of the enumerator. -/
def iterDeref {c : Cfg} (it : c.BitField) : M Nat := do
  let bitIndex := findFirstBitRuntime false it
  assert (bitIndex != 0)
  if c.autoFlag then pure (bitIndex - 1)
  else do
    guardUB (bitIndex - 1 < 32)
    pure (1#32 <<< (bitIndex - 1)).toNat

/-- The loop of `for (E v : flags) ...` from iterator `it`; the result is the list of the values
of `v`.  `fuel` bounds the number of steps; without fuel the loop is considered endless. -/
def rangeLoop {c : Cfg} : (fuel : Nat) → (it stop : c.BitField) → M (List Nat)
  | 0, it, stop => if iterEq it stop then .ok [] else .error .diverge
  | fuel + 1, it, stop =>
    if iterEq it stop then .ok []
    else do
      let v ← iterDeref it
      let it' ← iterNext it
      let l ← rangeLoop fuel it' stop
      pure (v :: l)

/-- `for (E v : flags)`. -/
def rangeFor {c : Cfg} (fuel : Nat) (m : c.BitField) : M (List Nat) := rangeLoop fuel (begin' m) (end' m)

/-! ## Programs -/

/-- A C++ expression of type `Flags<E>`, that may use the variable of the program. -/
inductive Expr where
  /-- `Flags{}` -/
  | none
  /-- the current value of the variable -/
  | var
  /-- an enumerator converted to flags -/
  | single (i : Nat)
  /-- `Flags(bits)` -/
  | raw (bits : Nat)
  | compl (a : Expr)
  | inter (a b : Expr)
  | union (a b : Expr)
  | xor (a b : Expr)
  /-- the operators that take enumerators, not flags -/
  | enumInterFlags (i : Nat) (b : Expr)
  | enumUnionFlags (i : Nat) (b : Expr)
  | enumXorFlags (i : Nat) (b : Expr)
  | enumCompl (i : Nat)
  | enumInter (i j : Nat)
  | enumUnion (i j : Nat)
  | enumXor (i j : Nat)

/-- Evaluation of an expression, `v` being the value of the variable. -/
def Expr.eval (c : Cfg) (v : c.BitField) : Expr → M c.BitField
  | .none => pure (ofBitField 0#c.width)
  | .var => pure v
  | .single i => ofEnum c (c.value i)
  | .raw bits => pure (ofBitField (BitVec.ofNat c.width bits))
  | .compl a => do let x ← a.eval c v; Flags.compl x
  | .inter a b => do let x ← a.eval c v; let y ← b.eval c v; pure (Flags.inter x y)
  | .union a b => do let x ← a.eval c v; let y ← b.eval c v; pure (Flags.union x y)
  | .xor a b => do let x ← a.eval c v; let y ← b.eval c v; Flags.xor x y
  | .enumInterFlags i b => do let y ← b.eval c v; Flags.enumInterFlags c (c.value i) y
  | .enumUnionFlags i b => do let y ← b.eval c v; Flags.enumUnionFlags c (c.value i) y
  | .enumXorFlags i b => do let y ← b.eval c v; Flags.enumXorFlags c (c.value i) y
  | .enumCompl i => Flags.enumCompl c (c.value i)
  | .enumInter i j => Flags.enumInter c (c.value i) (c.value j)
  | .enumUnion i j => Flags.enumUnion c (c.value i) (c.value j)
  | .enumXor i j => Flags.enumXor c (c.value i) (c.value j)

/-- A statement that changes the variable. -/
inductive Op where
  | assign (a : Expr)
  | clear
  | clearFlags (a : Expr)
  | setFlags (a : Expr)
  | unionAssign (a : Expr)
  | interAssign (a : Expr)
  | xorAssign (a : Expr)

/-- Execution of one statement. -/
def Op.run (c : Cfg) (v : c.BitField) : Op → M c.BitField
  | .assign a => a.eval c v
  | .clear => pure (Flags.clear v)
  | .clearFlags a => do let x ← a.eval c v; pure (Flags.clearFlags v x)
  | .setFlags a => do let x ← a.eval c v; pure (Flags.setFlags v x)
  | .unionAssign a => do let x ← a.eval c v; pure (Flags.unionAssign v x)
  | .interAssign a => do let x ← a.eval c v; pure (Flags.interAssign v x)
  | .xorAssign a => do let x ← a.eval c v; Flags.xorAssign v x

/-- Execution of a program on a default-constructed variable. -/
def runAll (c : Cfg) : List Op → c.BitField → M c.BitField
  | [], v => pure v
  | o :: os, v => do let v' ← o.run c v; runAll c os v'

end Verif.Flags
