import Verif.Flags.Model

/-!
# Model of expressions with flags, enumerators, numbers and other enumerations

Which constructor of `Flags<E>` or which operator an expression selects (Flags.hpp:68-69, 83-94, 131-142), and what it computes.  The types are `Flags<E>`, `E`, integers (and `bool`), floating point
numbers, other enumerations and their flags; the contents of flags of other enumerations are left out.  Left out as well: comparisons of numbers and enumerators with each other, classes that convert
to these types, braces.
-/

namespace Verif.Flags.Mixed
open Verif.Cpp

/-- An integer type: signed or not, and its number of bits; `bool` is unsigned with 1 bit. -/
structure IntTy where
  sg : Bool
  t : Nat
  deriving DecidableEq

/-- Integral promotion ([conv.prom]); `int` has 32 bits. -/
def IntTy.promote (a : IntTy) : IntTy := if a.t < 32 then ⟨true, 32⟩ else a

/-- The usual arithmetic conversions ([expr.arith.conv]) of promoted types. -/
def IntTy.common (a b : IntTy) : IntTy :=
  if a.t = b.t then ⟨a.sg && b.sg, a.t⟩ else if a.t < b.t then b else a

/-- An integer, whose evaluation may have failed. -/
structure Num where
  ty : IntTy
  v : M (BitVec ty.t)

/-- Conversion of an integer to `t` bits. -/
def widen (a : IntTy) (x : BitVec a.t) (t : Nat) : BitVec t := if a.sg then x.signExtend t else x.setWidth t

/-- An enumeration other than `E`: whether it is an `enum class`, its underlying type and whether it is enabled as flags (`IsEnumFlag`, Flags.hpp:26-30). -/
structure Other where
  isClass : Bool
  under : IntTy
  flagged : Bool

/-- The enumeration `E`, the other enumerations, and what else decides: `hidden` says that a namespace around the expression declares operators of the same names, which hide those of
`FlagsOperators` (Flags.hpp:135-147: visible in `Nz` and at global scope only; the namespace of `E` is another one); `reversed` that `a == b` also means `b == a` (C++20 without P2468). -/
structure Ctx where
  c : Cfg
  isClass : Bool
  under : IntTy
  other : Nat → Other
  hidden : Bool
  reversed : Bool

/-- Types of expressions. -/
inductive Ty where
  | flags
  | enumerator
  | foreign (k : Nat)
  | otherFlags (k : Nat)
  | int (ty : IntTy)
  | floating
  deriving DecidableEq

/-- Evaluated expressions. -/
inductive Val (x : Ctx) where
  /-- `Flags<E>` -/
  | flags (m : M x.c.BitField)
  /-- the enumerator of `E` of value `e` -/
  | enumerator (e : Nat)
  /-- an enumerator of enumeration `k` with its value -/
  | foreign (k : Nat) (v : BitVec (x.other k).under.t)
  /-- `Flags` of enumeration `k` -/
  | otherFlags (k : Nat)
  | num (n : Num)
  /-- a floating point number: its value rounded towards zero, `none` if the bit field cannot represent it -/
  | floating (trunc : Option Nat)

def Val.ty {x : Ctx} : Val x → Ty
  | .flags _ => .flags
  | .enumerator _ => .enumerator
  | .foreign k _ => .foreign k
  | .otherFlags k => .otherFlags k
  | .num n => .int n.ty
  | .floating _ => .floating

/-- The integer type that a type converts to in arithmetic: itself, or the underlying type of an unscoped enumeration. -/
def asInt (x : Ctx) : Ty → Option IntTy
  | .int a => some a
  | .enumerator => if x.isClass then none else some x.under
  | .foreign k => if (x.other k).isClass then none else some (x.other k).under
  | _ => none

/-- The integer of such an expression. -/
def Val.asNum {x : Ctx} : Val x → Num
  | .num n => n
  | .enumerator e => ⟨x.under, pure (BitVec.ofNat x.under.t e)⟩
  | .foreign k v => ⟨(x.other k).under, pure v⟩
  | _ => ⟨⟨false, 0⟩, pure 0⟩

/-- The best of the viable candidates (with the ranks of the conversions of their arguments): for no argument worse and for one better than each other one. -/
def best {α : Type} [DecidableEq α] (l : List (α × Option (List Nat))) : Option α :=
  let vs := l.filterMap (fun p => p.2.map (fun r => (p.1, r)))
  (vs.find? (fun p => vs.all (fun q => q.1 == p.1 || ((p.2.zip q.2).all (fun r => decide (r.1 ≤ r.2)) && (p.2.zip q.2).any (fun r => decide (r.1 < r.2)))))).map Prod.fst

/-! ## Conversion to `Flags<E>` -/

/-- The constructors, Flags.hpp:68-69, and the implicit copy constructor. -/
inductive Ctor where
  | bitField
  | enumerator
  | copy
  deriving DecidableEq

/-- Rank of the conversion of the argument: 0 exact, 2 conversion. -/
def ctorRank (x : Ctx) (t : Ty) : Ctor → Option (List Nat)
  | .bitField =>
    match t with
    | .floating => some [2]
    | .int a => some [if a = ⟨false, x.c.width⟩ then 0 else 2]
    | t => (asInt x t).map (fun _ => [2])
  | .enumerator => if t = .enumerator then some [0] else none
  | .copy => if t = .flags then some [0] else none

/-- The constructor for an argument. -/
def ctor (x : Ctx) (t : Ty) : Option Ctor := best (α := Ctor) ([.bitField, .enumerator, .copy].map (fun k => (k, ctorRank x t k)))

/-- `Flags<E> f(a)`, `Flags<E> f = a`, and `a` as an argument of `Set`, `Test`, `Clear` and of the operators: `none` if it does not compile.  Flags.inl:23-40. -/
def Val.toFlags {x : Ctx} (a : Val x) : Option (M x.c.BitField) :=
  match ctor x a.ty with
  | none => none
  | some .copy => some (match a with
      | .flags m => m
      | _ => .error .ub)
  | some .enumerator => some (match a with
      | .enumerator e => ofEnum x.c e
      | _ => .error .ub)
  | some .bitField => some (match a with
      | .floating (some n) => pure (ofBitField (BitVec.ofNat x.c.width n))
      | .floating none => .error .ub
      | a => do let v ← a.asNum.v; pure (ofBitField (widen a.asNum.ty v x.c.width)))

/-! ## Operators -/

inductive BinOp where
  | inter
  | union
  | xor
  deriving DecidableEq

/-- `&`, `|`, `^` of integers. -/
def BinOp.bits {w : Nat} : BinOp → BitVec w → BitVec w → BitVec w
  | .inter, a, b => a &&& b
  | .union, a, b => a ||| b
  | .xor, a, b => a ^^^ b

/-- The members, Flags.hpp:86-88. -/
def BinOp.member {c : Cfg} : BinOp → c.BitField → c.BitField → M c.BitField
  | .inter, a, b => pure (Flags.inter a b)
  | .union, a, b => pure (Flags.union a b)
  | .xor, a, b => Flags.xor a b

/-- The functions of an enumerator and flags, Flags.hpp:131-133. -/
def BinOp.enumFlags (c : Cfg) : BinOp → Nat → c.BitField → M c.BitField
  | .inter, a, b => enumInterFlags c a b
  | .union, a, b => enumUnionFlags c a b
  | .xor, a, b => enumXorFlags c a b

/-- The functions of two enumerators, Flags.hpp:139-141. -/
def BinOp.enumEnum (c : Cfg) : BinOp → Nat → Nat → M c.BitField
  | .inter, a, b => enumInter c a b
  | .union, a, b => enumUnion c a b
  | .xor, a, b => enumXor c a b

/-- The candidates for `a op b`: the member of `Flags<E>`, the templates for enumerators, the built-in operators on integers, and all of these for `Flags` of another enumeration. -/
inductive Fn where
  | member
  | enumFlags
  | enumEnum
  | builtin
  | other (k : Nat)
  deriving DecidableEq

/-- Rank of a promoted operand of a built-in operator: 0 exact, 1 promotion. -/
def promoRank : Ty → Nat
  | .int a => if a.promote = a then 0 else 1
  | _ => 1

/-- Rank of the conversion of an argument to `const Flags<E>&`: 3 user-defined conversion. -/
def flagsRank (x : Ctx) (t : Ty) : Option Nat := (ctor x t).map (fun k => if k = .copy then 0 else 3)

/-- Rank of the conversion to `Flags` of enumeration `k`, as `flagsRank`. -/
def otherRank (x : Ctx) (k : Nat) (t : Ty) : Option Nat :=
  if t = .otherFlags k then some 0 else if t = .foreign k then some 3 else if t = .floating then some 3 else (asInt x t).map (fun _ => 3)

/-- Ranks of the arguments of `a op b` for a candidate; the templates deduce their `E` from both arguments. -/
def fnRank (x : Ctx) (a b : Ty) : Fn → Option (List Nat)
  | .member => if a = .flags then (flagsRank x b).map (fun r => [0, r]) else none
  | .enumFlags => if a = .enumerator ∧ b = .flags then some [0, 0] else none
  | .enumEnum => if x.hidden = false ∧ a = .enumerator ∧ b = .enumerator then some [0, 0] else none
  | .builtin =>
    match asInt x a, asInt x b with
    | some _, some _ => some [promoRank a, promoRank b]
    | _, _ => none
  | .other k =>
    if a = .otherFlags k then (otherRank x k b).map (fun r => [0, r])
    else if a = .foreign k ∧ b = .otherFlags k then some [0, 0]
    else if x.hidden = false ∧ (x.other k).flagged = true ∧ a = .foreign k ∧ b = .foreign k then some [0, 0]
    else none

/-- The other enumeration of an operand. -/
def Ty.others : Ty → List Fn
  | .foreign k => [.other k]
  | .otherFlags k => [.other k]
  | _ => []

/-- Overload resolution for `a op b`. -/
def select (x : Ctx) (a b : Ty) : Option Fn :=
  best (α := Fn) (([Fn.member, .enumFlags, .enumEnum, .builtin] ++ a.others).map (fun f => (f, fnRank x a b f)))

/-- Built-in operators: both operands are promoted and converted to a common type. -/
def builtin (op : BinOp) (a b : Num) : Num :=
  ⟨a.ty.promote.common b.ty.promote, do
    let u ← a.v
    let v ← b.v
    pure (op.bits (widen a.ty u _) (widen b.ty v _))⟩

/-- `a op b`; `none` if it does not compile. -/
def Val.binary {x : Ctx} (op : BinOp) (a b : Val x) : Option (Val x) :=
  match select x a.ty b.ty with
  | none => none
  | some .member =>
    match a.toFlags, b.toFlags with
    | some m, some n => some (.flags (do let u ← m; let v ← n; op.member u v))
    | _, _ => none
  | some .enumFlags =>
    match a, b with
    | .enumerator e, .flags m => some (.flags (do let u ← m; op.enumFlags x.c e u))
    | _, _ => none
  | some .enumEnum =>
    match a, b with
    | .enumerator e, .enumerator e' => some (.flags (op.enumEnum x.c e e'))
    | _, _ => none
  | some .builtin => some (.num (builtin op a.asNum b.asNum))
  | some (.other k) => some (.otherFlags k)

/-- The candidates of `~a`: as above, the member Flags.hpp:85, the template Flags.hpp:138. -/
def notRank (x : Ctx) (a : Ty) : Fn → Option (List Nat)
  | .member => if a = .flags then some [0] else none
  | .enumFlags => none
  | .enumEnum => if x.hidden = false ∧ a = .enumerator then some [0] else none
  | .builtin => (asInt x a).map (fun _ => [promoRank a])
  | .other k => if a = .otherFlags k ∨ (x.hidden = false ∧ (x.other k).flagged = true ∧ a = .foreign k) then some [0] else none

/-- `~a` -/
def Val.compl {x : Ctx} (a : Val x) : Option (Val x) :=
  match best (α := Fn) (([Fn.member, .enumEnum, .builtin] ++ a.ty.others).map (fun f => (f, notRank x a.ty f))) with
  | some .member => a.toFlags.map (fun m => .flags (do let u ← m; Flags.compl u))
  | some .enumEnum =>
    match a with
    | .enumerator e => some (.flags (enumCompl x.c e))
    | _ => none
  | some .builtin => some (.num ⟨a.asNum.ty.promote, do let u ← a.asNum.v; pure (~~~(widen a.asNum.ty u _))⟩)
  | some (.other k) => some (.otherFlags k)
  | _ => none

/-- `a == b` where one of the operands is a `Flags<E>`: the member Flags.hpp:90 (Flags.inl:204-208), which in C++20 may be called with the operands exchanged. -/
def Val.equals {x : Ctx} (a b : Val x) : Option (M Bool) :=
  if a.ty = .flags then
    match a.toFlags, b.toFlags with
    | some m, some n => some (do let u ← m; let v ← n; pure (Flags.eq u v))
    | _, _ => none
  else if b.ty = .flags ∧ x.reversed = true then
    match a.toFlags, b.toFlags with
    | some m, some n => some (do let u ← m; let v ← n; pure (Flags.eq v u))
    | _, _ => none
  else none

/-! ## Conversions of `Flags<E>` -/

/-- What flags are converted to. -/
inductive Target where
  | bool
  /-- an integer type other than `bool` -/
  | int (ty : IntTy)
  | floating
  | enumerator
  deriving DecidableEq

/-- The conversion functions, Flags.hpp:82-83. -/
inductive Cast where
  | toBool
  | template
  deriving DecidableEq

/-- Whether a conversion function gives exactly the target type; the template is for integers of at least the size of the bit field (`bool` has 8 bits here). -/
def castRank (c : Cfg) (t : Target) : Cast → Option (List Nat)
  | .toBool => if t = .bool then some [0] else none
  | .template =>
    match t with
    | .bool => if c.width ≤ 8 then some [1] else none -- a function that is no template is preferred
    | .int a => if c.width ≤ a.t then some [0] else none
    | _ => none

/-- `static_cast<T>(flags)`, Flags.inl:122-139.  Implicitly (`isExplicit = false`) there is no conversion: both functions are `explicit`. -/
def cast (c : Cfg) (isExplicit : Bool) (t : Target) (m : c.BitField) : Option Num :=
  if isExplicit then
    match best (α := Cast) ([.toBool, .template].map (fun k => (k, castRank c t k))) with
    | some .toBool => some ⟨⟨false, 1⟩, pure (BitVec.ofNat 1 (Flags.toBool m).toNat)⟩
    | some .template =>
      match t with
      | .int a => some ⟨a, pure (toInteger a.t m)⟩
      | _ => some ⟨⟨false, 1⟩, pure (BitVec.ofNat 1 (Flags.toBool m).toNat)⟩
    | none => none
  else none

/-! ## Programs -/

/-- Expressions as they are written. -/
inductive Tree (x : Ctx) where
  /-- the flags variable -/
  | var
  /-- enumerator number `i` of `E` -/
  | enumerator (i : Nat)
  /-- something else -/
  | val (v : Val x)
  | compl (a : Tree x)
  | binary (op : BinOp) (a b : Tree x)

/-- The value of an expression, `none` if it does not compile. -/
def Tree.eval {x : Ctx} (f : x.c.BitField) : Tree x → Option (Val x)
  | .var => some (.flags (pure f))
  | .enumerator i => some (.enumerator (x.c.value i))
  | .val v => some v
  | .compl a => (a.eval f).bind Val.compl
  | .binary op a b => (a.eval f).bind (fun u => (b.eval f).bind (fun v => u.binary op v))

/-- An expression where a `Flags<E>` is expected. -/
def Tree.flags {x : Ctx} (f : x.c.BitField) (a : Tree x) : Option (M x.c.BitField) := (a.eval f).bind Val.toFlags

/-- Statements: `f = a`, `f.Set(a)`, `f.Clear(a)`, `f op= a`. -/
inductive Stmt (x : Ctx) where
  | assign (a : Tree x)
  | set (a : Tree x)
  | clear (a : Tree x)
  | update (op : BinOp) (a : Tree x)

/-- The compound assignments, Flags.hpp:93-95. -/
def BinOp.assign {c : Cfg} : BinOp → c.BitField → c.BitField → M c.BitField
  | .inter, a, b => pure (interAssign a b)
  | .union, a, b => pure (unionAssign a b)
  | .xor, a, b => xorAssign a b

def Stmt.run {x : Ctx} (f : x.c.BitField) : Stmt x → Option (M x.c.BitField)
  | .assign a => a.flags f
  | .set a => (a.flags f).map (fun m => do let v ← m; pure (setFlags f v))
  | .clear a => (a.flags f).map (fun m => do let v ← m; pure (clearFlags f v))
  | .update op a => (a.flags f).map (fun m => do let v ← m; op.assign f v)

end Verif.Flags.Mixed
