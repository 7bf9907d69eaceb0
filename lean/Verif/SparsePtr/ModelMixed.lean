import Verif.SparsePtr.Model

/-!
# Model of expressions with `SparsePtr`s of two types (SparsePtr.hpp:25-72, SparsePtr.inl)

Which constructors and operators overload resolution selects for operands of types `SparsePtr<T>`, `SparsePtr<U>` and `U*`, in C++17, and whether they compile.  The types and the
conversions between pointers are a parameter.
-/

namespace Verif.SparsePtr.Mixed
open Verif.Cpp

/-- The pointee types: `std::is_convertible<U*, T*>`, and the offset of the subobject `T` in `U` (0 if they differ in const only). -/
structure Types (τ : Type) where
  conv : τ → τ → Bool
  conv_refl : ∀ a, conv a a = true
  offset : τ → τ → Int

/-- An operand: a `SparsePtr<T>`, or a pointer `T*`. -/
inductive Operand (τ : Type) where
  | sparse (t : τ) (p : SPtr)
  | raw (t : τ) (address : Int)

/-- The result of an expression. -/
inductive Res (α : Type) where
  /-- refused by overload resolution -/
  | noMatch
  /-- a function is selected that does not compile -/
  | error
  | val (a : α)
  deriving DecidableEq

variable {τ : Type} [DecidableEq τ] (Y : Types τ) (sizeof : τ → Nat)

/-- Implicit conversion to `SparsePtr<T>`: SparsePtr.hpp:26 for pointers, 29 for `SparsePtr`s of every other type (no constraint; the assertion is in `Reset`, SparsePtr.inl:163-171), 30 for the
same type. -/
def toSparse (t : τ) : Operand τ → Res SPtr
  | .sparse u p =>
    if u = t then .val p
    else if Y.conv u t then .val (convert (Y.offset u t) p) else .error
  | .raw u a => if Y.conv u t then .val (ofPtr (sizeof t) (a + Y.offset u t)) else .noMatch

/-- `p == q`, `p < q` etc., SparsePtr.hpp:66-71: members, the right operand is converted. -/
def compare (op : SPtr → SPtr → Bool) (t : τ) (p : SPtr) (q : Operand τ) : Res Bool :=
  match toSparse Y sizeof t q with
  | .noMatch => .noMatch
  | .error => .error
  | .val q => .val (op p q)

/-- `p - q`: SparsePtr.hpp:54, a template over the type of `q` whose body accepts integers only (SparsePtr.inl:280-287), and 55.  The conversion of line 55 is the identity only for the same type. -/
def minus (m : Mem) (t : τ) (p : SPtr) (q : Operand τ) : Res (M Int) :=
  match q with
  | .sparse u q => if u = t then .val (diff m p q) else .error
  | .raw _ _ => .error

/-- `p = q` (SparsePtr.hpp:51) and `SparsePtr<T> p = q`. -/
def assign (t : τ) (q : Operand τ) : Res SPtr := toSparse Y sizeof t q

/-- Types of a stride: `int`, `std::size_t`, types that promote to `int` (`bool`, characters, short types), and other arithmetic types (`unsigned`, `long`, `long long`, floating point). -/
inductive StrideType where
  | int
  | sizeT
  | promoted
  | other
  deriving DecidableEq

/-- Rank of the conversion to `int` and to `std::size_t`. -/
def StrideType.ranks : StrideType → Nat × Nat
  | .int => (0, 2)
  | .sizeT => (2, 0)
  | .promoted => (1, 2)
  | .other => (2, 2)

/-- `SparsePtr<T>(ptr, stride)`, SparsePtr.hpp:27-28 (also with the deduction guides, 82-86). -/
def ofTyped (ty : StrideType) (ptr stride : Int) : Res (M SPtr) :=
  if ty.ranks.1 < ty.ranks.2 then .val (pure (ofStride ptr stride))
  else if ty.ranks.2 < ty.ranks.1 then .val (ofSizeT ptr stride.toNat)
  else .noMatch

end Verif.SparsePtr.Mixed
