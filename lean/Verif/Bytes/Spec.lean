import Verif.Bytes.Model

/-!
# Specification of object representations
-/

namespace Verif.Bytes
open Verif.Cpp

mutual
/-- The types that are considered: integers have 1, 2, 4 or 8 bytes. -/
def CType.Valid : CType → Prop
  | .int _ k => k = 1 ∨ k = 2 ∨ k = 4 ∨ k = 8
  | .flt _ => True
  | .bool => True
  | .struct fs => AllValid fs
def AllValid : List CType → Prop
  | [] => True
  | f :: fs => f.Valid ∧ AllValid fs
end

mutual
/-- The values of a type. -/
def HasType : CType → Val → Prop
  | .int true k, .num v => -2 ^ (8 * k - 1) ≤ v ∧ v < 2 ^ (8 * k - 1)
  | .int false k, .num v => 0 ≤ v ∧ v < 2 ^ (8 * k)
  | .flt wide, .flt _ e f => e < 2 ^ expBits wide ∧ f < 2 ^ fracBits wide
  | .bool, .num v => v = 0 ∨ v = 1
  | .struct fs, .agg vs => HaveTypes fs vs
  | _, _ => False
def HaveTypes : List CType → List Val → Prop
  | [], [] => True
  | f :: fs, v :: vs => HasType f v ∧ HaveTypes fs vs
  | _, _ => False
end

mutual
/-- No padding: the members fill the structure. -/
def CType.Packed : CType → Prop
  | .struct fs => AllPacked fs ∧ (CType.struct fs).size = sizes fs
  | _ => True
def AllPacked : List CType → Prop
  | [] => True
  | f :: fs => f.Packed ∧ AllPacked fs
/-- The sum of the sizes of some members. -/
def sizes : List CType → Nat
  | [] => 0
  | f :: fs => f.size + sizes fs
end

/-- The bytes `l` agree with `xs` where `xs` has values: padding may contain anything. -/
def Agrees (xs l : List Cell) : Prop := ∀ (j : Nat) (b : BitVec 8), xs[j]? = some (some b) → l[j]? = some (some b)

/-- There is an object of type `t` and value `v` at address `p`. -/
structure Holds (big : Bool) (m : Mem) (p : Nat) (t : CType) (v : Val) : Prop where
  typed : HasType t v
  aligned : p % t.align = 0
  lower : m.base ≤ p
  upper : p + t.size ≤ m.base + m.cells.length
  bytes : Agrees (enc big t v) (m.cells.drop (p - m.base))

/-- The byte at an address. -/
def Mem.byte (m : Mem) (a : Nat) : Option Cell := if m.base ≤ a then m.cells[a - m.base]? else none

/-- `static_cast<T>(v)` between integers: the number of the type that is congruent to `v`. -/
def wrap (signed : Bool) (k : Nat) (v : Int) : Int := if signed then Int.bmod v (2 ^ (8 * k)) else v % 2 ^ (8 * k)

end Verif.Bytes
