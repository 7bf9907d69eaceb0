import Verif.Bitset.History

/-!
# Model of the operators of `Bitset` that are written in terms of other functions

They act on the variables of a program and on an output stream (the characters written so far).
-/

namespace Verif.Bitset
open Verif.Cpp

variable {w : Nat}

/-- The defaulted move assignment, Bitset.hpp, of another bitset: the target, and what is left in the source. -/
def moveAssign (source : Bitset w) : Bitset w × Bitset w := (source, ⟨[], source.bitCount⟩)

/-- `T t = std::move(d); d = std::move(a); a = std::move(t);` on the variables `d` and `a`, as generic code exchanges two objects (the variables may be the same; a moved-from
bitset has no blocks, and its assignment to itself leaves it without blocks). -/
def exchange (σ : Nat → Bitset w) (d a : Nat) : Nat → Bitset w :=
  let t := moveConstruct (σ d)
  let σ1 := upd σ d t.2
  let m := moveAssign (σ1 a)
  let σ2 := upd (upd σ1 a m.2) d m.1
  let n := moveAssign t.1
  upd σ2 a n.1

/-- `Swap`, Bitset.inl:773-778, on the variables `d` and `a` (which may be the same): first the sizes, then the blocks. -/
def swapMembers (σ : Nat → Bitset w) (d a : Nat) : Nat → Bitset w :=
  let σ1 := upd (upd σ d { σ d with bitCount := (σ a).bitCount }) a { σ a with bitCount := (σ d).bitCount }
  upd (upd σ1 d { σ1 d with blocks := (σ1 a).blocks }) a { σ1 a with blocks := (σ1 d).blocks }

/-- `std::swap(Bitset&, Bitset&)`, Bitset.inl:1655-1659: `Swap`. -/
def swap (σ : Nat → Bitset w) (d a : Nat) : Nat → Bitset w := swapMembers σ d a

/-- `std::swap(*this, bitset)` with a local variable, which is then destroyed: the new value of `*this`.  The overload of `std::swap` for bitsets is declared, Bitset.hpp:249-251, before it is called. -/
def swapIn (b fresh : Bitset w) : Bitset w := swap (fun k => if k = 0 then b else fresh) 0 1 0

/-- `operator=(const std::string_view&)`, Bitset.inl:980-987. -/
def assignString (b : Bitset w) (s : List Char) : M (Bitset w) := do
  let fresh ← ofString s
  pure (swapIn b fresh)

/-- `operator=(T)`, Bitset.inl:995-1003, for an unsigned type. -/
def assignInt {t : Nat} (b : Bitset w) (v : BitVec t) : M (Bitset w) := do
  let fresh ← ofInt false v
  pure (swapIn b fresh)

/-- `operator<<=`, Bitset.inl:1035-1041. -/
def opShlAssign (b : Bitset w) (pos : Nat) : M (Bitset w) := shiftLeft b pos

/-- `operator<<`, Bitset.inl:1016-1021: a copy. -/
def opShl (b : Bitset w) (pos : Nat) : M (Bitset w) := opShlAssign b pos

/-- `operator>>=`, Bitset.inl:1071-1077. -/
def opShrAssign (b : Bitset w) (pos : Nat) : M (Bitset w) := shiftRight b pos

/-- `operator>>`, Bitset.inl:1052-1057: a copy. -/
def opShr (b : Bitset w) (pos : Nat) : M (Bitset w) := opShrAssign b pos

/-- `operator[](index) const`, Bitset.inl:957-961. -/
def constIndex (b : Bitset w) (i : Nat) : M Bool := test b i

/-- `Write(const void*, bitCount)`, Bitset.inl:343-347. -/
def writePtr (b : Bitset w) (mem : List (BitVec 8)) (ptr bitCount : Nat) : M (Bitset w × Sequence) := write b mem ⟨ptr, 0⟩ bitCount

/-- `operator<<(std::ostream&, const Bitset&)`, Bitset.inl:1468-1472, for a stream without width. -/
def print (out : List Char) (b : Bitset w) : M (List Char) := do
  let s ← toString b
  pure (out ++ s)

/-- Statements with these operators, and the calls of `History.lean`. -/
inductive OpX (w : Nat) where
  | call (o : Op w)
  /-- `d = a << p` -/
  | shl (d a p : Nat)
  /-- `d = a >> p` -/
  | shr (d a p : Nat)
  /-- `d <<= p` -/
  | shlAssign (d p : Nat)
  /-- `d >>= p` -/
  | shrAssign (d p : Nat)
  /-- `d = "..."` -/
  | assignString (d : Nat) (s : List Char)
  /-- `d = v` -/
  | assignInt (d t : Nat) (v : BitVec t)
  /-- `swap(d, a)` -/
  | swap (d a : Nat)
  /-- `t = std::move(d); d = std::move(a); a = std::move(t);` with a new `t` -/
  | exchange (d a : Nat)
  /-- `d.Write(ptr, n)` -/
  | writePtr (d : Nat) (mem : List (BitVec 8)) (ptr n : Nat)
  /-- `out << a` -/
  | print (a : Nat)

/-- The variables and the output. -/
structure StX (w : Nat) where
  vars : Nat → Bitset w
  out : List Char

def OpX.exec (s : StX w) : OpX w → M (StX w)
  | .call o => do let σ ← o.exec s.vars; pure ⟨σ, s.out⟩
  | .shl d a p => do let r ← opShl (s.vars a) p; pure ⟨upd s.vars d r, s.out⟩
  | .shr d a p => do let r ← opShr (s.vars a) p; pure ⟨upd s.vars d r, s.out⟩
  | .shlAssign d p => do let r ← opShlAssign (s.vars d) p; pure ⟨upd s.vars d r, s.out⟩
  | .shrAssign d p => do let r ← opShrAssign (s.vars d) p; pure ⟨upd s.vars d r, s.out⟩
  | .assignString d t => do let r ← Bitset.assignString (s.vars d) t; pure ⟨upd s.vars d r, s.out⟩
  | .assignInt d _ v => do let r ← Bitset.assignInt (s.vars d) v; pure ⟨upd s.vars d r, s.out⟩
  | .swap d a => pure ⟨Bitset.swap s.vars d a, s.out⟩
  | .exchange d a => pure ⟨Bitset.exchange s.vars d a, s.out⟩
  | .writePtr d mem ptr n => do let r ← Bitset.writePtr (s.vars d) mem ptr n; pure ⟨upd s.vars d r.1, s.out⟩
  | .print a => do let o ← Bitset.print s.out (s.vars a); pure ⟨s.vars, o⟩

def runX (s : StX w) : List (OpX w) → M (StX w)
  | [] => .ok s
  | o :: os => do
    let s ← o.exec s
    runX s os

/-! ## On sequences of booleans -/

structure SpX where
  vars : Nat → List Bool
  out : List Char

def OpX.spec (s : SpX) : OpX w → SpX
  | .call o => ⟨o.spec s.vars, s.out⟩
  | .shl d a p => ⟨upd s.vars d (Seq.shiftLeft (s.vars a) p), s.out⟩
  | .shr d a p => ⟨upd s.vars d (Seq.shiftRight (s.vars a) p), s.out⟩
  | .shlAssign d p => ⟨upd s.vars d (Seq.shiftLeft (s.vars d) p), s.out⟩
  | .shrAssign d p => ⟨upd s.vars d (Seq.shiftRight (s.vars d) p), s.out⟩
  | .assignString d t => ⟨upd s.vars d (Seq.ofString t), s.out⟩
  | .assignInt d t v => ⟨upd s.vars d (Seq.lowBits v (if t ≤ w then t else v.toNat.log2 + if v = 0#t then 0 else 1)), s.out⟩
  | .swap d a => ⟨upd (upd s.vars d (s.vars a)) a (s.vars d), s.out⟩
  | .exchange d a => ⟨upd (upd s.vars d (s.vars a)) a (s.vars d), s.out⟩
  | .writePtr d mem ptr n => ⟨upd s.vars d (s.vars d ++ Seq.stream mem ptr 0 n), s.out⟩
  | .print a => ⟨s.vars, s.out ++ Seq.toString (s.vars a)⟩

def OpX.Valid (s : SpX) : OpX w → Prop
  | .call o => o.Valid s.vars
  | .assignString _ t => ∀ c ∈ t, c = '0' ∨ c = '1'
  | .assignInt _ t _ => 0 < t
  | .writePtr d mem ptr n => WriteAllowed w (s.vars d).length mem ⟨ptr, 0⟩ n
  | _ => True

def specRunX (s : SpX) : List (OpX w) → SpX
  | [] => s
  | o :: os => specRunX (o.spec s) os

def ValidX (s : SpX) : List (OpX w) → Prop
  | [] => True
  | o :: os => o.Valid s ∧ ValidX (o.spec s) os

end Verif.Bitset
