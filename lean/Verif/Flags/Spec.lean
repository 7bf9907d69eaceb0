import Mathlib.Data.Fintype.Basic
import Mathlib.Order.SymmDiff
import Mathlib.Data.Finset.Sort
import Verif.Flags.Model

/-!
# Specification of `Nz::Flags`: finite sets of enumerators

A flags value stands for a set of enumerators, given by their numbers.  The operators are those of
the boolean algebra `Finset (Fin n)`.
-/

namespace Verif.Flags

/-- The sets of enumerators of the enumeration. -/
abbrev Cfg.Enums (c : Cfg) := Finset (Fin (c.last + 1))

/-- The set with the one enumerator number `i`. -/
def only (c : Cfg) (i : Nat) : c.Enums := Finset.univ.filter (fun e => e.val = i)

/-- The set an expression denotes. -/
def Expr.denote (c : Cfg) (s : c.Enums) : Expr → c.Enums
  | .none => ∅
  | .var => s
  | .single i => only c i
  | .raw bits => Finset.univ.filter (fun e => bits.testBit e.val = true)
  | .compl a => (a.denote c s)ᶜ
  | .inter a b => a.denote c s ∩ b.denote c s
  | .union a b => a.denote c s ∪ b.denote c s
  | .xor a b => symmDiff (a.denote c s) (b.denote c s)
  | .enumInterFlags i b => only c i ∩ b.denote c s
  | .enumUnionFlags i b => only c i ∪ b.denote c s
  | .enumXorFlags i b => symmDiff (only c i) (b.denote c s)
  | .enumCompl i => (only c i)ᶜ
  | .enumInter i j => only c i ∩ only c j
  | .enumUnion i j => only c i ∪ only c j
  | .enumXor i j => symmDiff (only c i) (only c j)

/-- The effect of a statement on the set of the variable. -/
def Op.denote (c : Cfg) (s : c.Enums) : Op → c.Enums
  | .assign a => a.denote c s
  | .clear => ∅
  | .clearFlags a => s \ a.denote c s
  | .setFlags a => s ∪ a.denote c s
  | .unionAssign a => s ∪ a.denote c s
  | .interAssign a => s ∩ a.denote c s
  | .xorAssign a => symmDiff s (a.denote c s)

/-- The effect of a program. -/
def denoteAll (c : Cfg) : List Op → c.Enums → c.Enums
  | [], s => s
  | o :: os, s => denoteAll c os (o.denote c s)

/-- Enumerator number `i` exists and can be converted to flags without undefined behaviour: an
automatic enumerator is below 32. -/
def EnumOk (c : Cfg) (i : Nat) : Prop := i ≤ c.last ∧ (c.autoFlag = true → i < 32)

/-- The symmetric difference exists: the shift in `ValueMask` is defined. -/
def XorOk (c : Cfg) : Prop := c.maxValue < 63

/-- The complement exists and is the set complement: for enumerations that are not automatic,
`ValueMask` has more bits than there are enumerators. -/
def ComplOk (c : Cfg) : Prop := c.autoFlag = true ∧ c.maxValue < 63

/-- The exact conditions under which the operators of an expression behave. -/
def Expr.Ok (c : Cfg) : Expr → Prop
  | .none => True
  | .var => True
  | .single i => EnumOk c i
  | .raw bits => bits < 2 ^ (c.last + 1)
  | .compl a => ComplOk c ∧ a.Ok c
  | .inter a b => a.Ok c ∧ b.Ok c
  | .union a b => a.Ok c ∧ b.Ok c
  | .xor a b => XorOk c ∧ a.Ok c ∧ b.Ok c
  | .enumInterFlags i b => EnumOk c i ∧ b.Ok c
  | .enumUnionFlags i b => EnumOk c i ∧ b.Ok c
  | .enumXorFlags i b => XorOk c ∧ EnumOk c i ∧ b.Ok c
  | .enumCompl i => ComplOk c ∧ EnumOk c i
  | .enumInter i j => EnumOk c i ∧ EnumOk c j
  | .enumUnion i j => EnumOk c i ∧ EnumOk c j
  | .enumXor i j => XorOk c ∧ EnumOk c i ∧ EnumOk c j

/-- The same for statements. -/
def Op.Ok (c : Cfg) : Op → Prop
  | .assign a => a.Ok c
  | .clear => True
  | .clearFlags a => a.Ok c
  | .setFlags a => a.Ok c
  | .unionAssign a => a.Ok c
  | .interAssign a => a.Ok c
  | .xorAssign a => XorOk c ∧ a.Ok c

/-- What a program can see of a flags value: the integer conversion has exactly the bits of the
enumerators of the set. -/
def Shows {c : Cfg} (v : c.BitField) (s : c.Enums) : Prop :=
  ∀ i, v.getLsbD i = true ↔ ∃ e ∈ s, e.val = i

end Verif.Flags
