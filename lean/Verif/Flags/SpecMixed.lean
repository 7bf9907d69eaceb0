import Verif.Flags.Spec
import Verif.Flags.ModelMixed

/-!
# Specification of expressions with flags and enumerators: sets

An enumerator means the set with it, whether the enumeration is an `enum class` or not, and wherever it stands.
-/

namespace Verif.Flags.Mixed

variable {x : Ctx}

/-- The operation on sets. -/
def BinOp.sets {c : Cfg} : BinOp → c.Enums → c.Enums → c.Enums
  | .inter, s, t => s ∩ t
  | .union, s, t => s ∪ t
  | .xor, s, t => symmDiff s t

/-- The set that an expression of enumerators and flags means, `s` being that of the variable. -/
def Tree.set (s : x.c.Enums) : Tree x → x.c.Enums
  | .var => s
  | .enumerator i => only x.c i
  | .val _ => ∅
  | .compl a => (a.set s)ᶜ
  | .binary op a b => op.sets (a.set s) (b.set s)

/-- Expressions of enumerators and flags whose operators behave (the conditions of C44). -/
def Tree.Ok : Tree x → Prop
  | .var => True
  | .enumerator i => EnumOk x.c i
  | .val _ => False
  | .compl a => ComplOk x.c ∧ a.Ok
  | .binary op a b => (op = .xor → XorOk x.c) ∧ a.Ok ∧ b.Ok

def Stmt.effect (s : x.c.Enums) : Stmt x → x.c.Enums
  | .assign a => a.set s
  | .set a => s ∪ a.set s
  | .clear a => s \ a.set s
  | .update op a => op.sets s (a.set s)

def Stmt.Ok : Stmt x → Prop
  | .assign a => a.Ok
  | .set a => a.Ok
  | .clear a => a.Ok
  | .update op a => (op = .xor → XorOk x.c) ∧ a.Ok

/-- Runs a program, `none` if a statement does not compile. -/
def runProgram : List (Stmt x) → x.c.BitField → Option (Cpp.M x.c.BitField)
  | [], f => some (.ok f)
  | o :: os, f =>
    match o.run f with
    | none => none
    | some (.error e) => some (.error e)
    | some (.ok f') => runProgram os f'

/-- The set that it leaves in the variable. -/
def setProgram : List (Stmt x) → x.c.Enums → x.c.Enums
  | [], s => s
  | o :: os, s => setProgram os (o.effect s)

end Verif.Flags.Mixed
