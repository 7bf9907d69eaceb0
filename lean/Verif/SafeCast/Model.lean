import Verif.Cpp

/-!
# Model of `SafeCast` and the functions built on it (Algorithm.inl)

Values of integer types are their mathematical values.  The checks are those of debug builds (`NAZARA_DEBUG`, no `NDEBUG`); other
builds only do the `static_cast`.  Casts to floating point types are in `ModelFloat`.
-/

namespace Verif.SafeCast

open Verif.Cpp

/-- An integer type of the language. -/
structure Ty where
  isBool : Bool
  signed : Bool
  /-- `sizeof` -/
  bytes : Nat
  deriving DecidableEq

/-- `bool` is unsigned and has one byte; the other types have 1, 2, 4 or 8 bytes. -/
def Ty.Valid (t : Ty) : Prop :=
  (t.bytes = 1 ∨ t.bytes = 2 ∨ t.bytes = 4 ∨ t.bytes = 8) ∧ (t.isBool = true → t.signed = false ∧ t.bytes = 1)

/-- `std::numeric_limits<T>::max()` -/
def Ty.max (t : Ty) : Int :=
  if t.isBool then 1 else if t.signed then 2 ^ (8 * t.bytes - 1) - 1 else 2 ^ (8 * t.bytes) - 1

/-- `std::numeric_limits<T>::lowest()` -/
def Ty.lowest (t : Ty) : Int :=
  if t.isBool then 0 else if t.signed then -2 ^ (8 * t.bytes - 1) else 0

/-- `static_cast<T>(v)` of an integer: modulo 2^n, `bool` is "not zero". -/
def cast (t : Ty) (v : Int) : Int :=
  if t.isBool then (if v = 0 then 0 else 1)
  else if t.signed then Int.bmod v (2 ^ (8 * t.bytes))
  else v % 2 ^ (8 * t.bytes)

/-- `MaxValueType`, Algorithm.inl:216-217 -/
def maxValueType (to' from' : Ty) : Ty :=
  if (!from'.signed && to'.signed) || (from'.signed == to'.signed && from'.bytes > to'.bytes) then from' else to'

/-- `MinValueType`, Algorithm.inl:218-219 -/
def minValueType (to' from' : Ty) : Ty :=
  if (from'.signed && !to'.signed) || (from'.signed == to'.signed && from'.bytes > to'.bytes) then from' else to'

/-- The checks for `std::is_integral_v<From>` and `std::is_integral_v<To>`, Algorithm.inl:214-226 -/
def checkIntegral (to' from' : Ty) (value : Int) : M Unit := do
  if !to'.signed then Cpp.assert (value ≥ 0)
  Cpp.assert (cast (maxValueType to' from') value ≤ cast (maxValueType to' from') to'.max)
  Cpp.assert (cast (minValueType to' from') value ≥ cast (minValueType to' from') to'.lowest)

/-- What the template argument `From` of `SafeCast` is deduced to: `T` for an rvalue, `T&` for an lvalue. -/
inductive Category where
  | rvalue
  | lvalue
  deriving DecidableEq

/-- `SafeCast<To>(value)` between integer types, Algorithm.inl:197-276.  For an lvalue `From` is a reference type, for which
`std::is_enum_v`, `std::is_floating_point_v` and `std::is_integral_v` are all false: nothing is checked. -/
def safeCast (cat : Category) (to' from' : Ty) (value : Int) : M Int := do
  match cat with
  | .rvalue => checkIntegral to' from' value
  | .lvalue => pure ()
  pure (cast to' value)

/-- `SafeCast<To>(value)` from an enumeration with underlying type `from'`, Algorithm.inl:204-207 (an rvalue goes on as an rvalue of the underlying type). -/
def safeCastFromEnum (cat : Category) (to' from' : Ty) (value : Int) : M Int :=
  match cat with
  | .rvalue => safeCast .rvalue to' from' value
  | .lvalue => pure (cast to' value)

/-- `SafeCast<E>(value)` to an enumeration with underlying type `to'`, Algorithm.inl:228-231: the named parameter `value` is an lvalue. -/
def safeCastToEnum (_cat : Category) (to' from' : Ty) (value : Int) : M Int := do
  let u ← safeCast .lvalue to' from' value
  pure u

/-- `To x = SafeCaster(value)`, Algorithm.inl:37-57, 280-284: `m_from` is an lvalue. -/
def safeCaster (_cat : Category) (to' from' : Ty) (value : Int) : M Int := safeCast .lvalue to' from' value

/-- `std::uintptr_t` on a platform with 64-bit pointers. -/
def uintptr : Ty := ⟨false, false, 8⟩

/-- `PointerToInteger<T>(ptr)`, Algorithm.inl:156-160: `BitCast` gives the address, an rvalue of type `std::uintptr_t`. -/
def pointerToInteger (t : Ty) (address : Int) : M Int := safeCast .rvalue t uintptr address

/-- `IntegerToPointer<P>(ptrAsInt)`, Algorithm.inl:148-154: the parameter is an lvalue. -/
def integerToPointer (t : Ty) (value : Int) : M Int := safeCast .lvalue uintptr t value

/-! ## From floating point -/

/-- Values of a floating point type: a real value that is finite (any rational here), or an infinity or NaN. -/
inductive Float' where
  | fin (q : Rat)
  | inf (negative : Bool)
  | nan

/-- Conversion to an integer type truncates towards zero; undefined if the result is not representable. -/
def truncTo (t : Ty) (f : Float') : M Int :=
  match f with
  | .fin q =>
    let n := if 0 ≤ q then q.floor else q.ceil
    if t.lowest ≤ n ∧ n ≤ t.max then pure n else throw .ub
  | _ => throw .ub

/-- `static_cast<From>(2^n - 1)` for a floating point type with `prec` digits, round to nearest even. -/
def roundMax (prec n : Nat) : Int := if n ≤ prec then 2 ^ n - 1 else 2 ^ n

/-- `long long` -/
def longLong : Ty := ⟨false, true, 8⟩

/-- Number of value bits of an integer type. -/
def Ty.digits (t : Ty) : Nat := if t.isBool then 1 else if t.signed then 8 * t.bytes - 1 else 8 * t.bytes

/-- `SafeCast<To>(value)` from an rvalue of a floating point type with `prec` digits to an integer type, Algorithm.inl:208-213.  A conversion of a
`long long` back to the floating point type in the first comparison is exact here, since the operand was truncated from it. -/
def safeCastFromFloat (prec : Nat) (to' : Ty) (value : Float') : M Int := do
  let n ← truncTo longLong value
  match value with
  | .fin q =>
    Cpp.assert ((n : Rat) == q)
    Cpp.assert (q ≤ (roundMax prec to'.digits : Rat))
    Cpp.assert (q ≥ (to'.lowest : Rat))
    if to'.isBool then pure (if q = 0 then 0 else 1) else truncTo to' value
  | _ => throw .ub

/-! ## Pointers and references to classes -/

/-- Types as far as the checks of pointer and reference casts look at them. -/
inductive CTy (K : Type) where
  | cls (c : K)
  | ptr (t : CTy K)
  | ref (t : CTy K)

/-- `std::is_base_of_v<A, B>`: both are classes and `A` is `B` or one of its bases. -/
def isBaseOf {K : Type} (base : K → K → Bool) : CTy K → CTy K → Bool
  | .cls a, .cls b => base a b
  | _, _ => false

/-- `std::is_polymorphic_v` -/
def isPolymorphic {K : Type} (poly : K → Bool) : CTy K → Bool
  | .cls a => poly a
  | _ => false

variable {K : Type} [DecidableEq K]

/-- `SafeCast<D*>(p)` of an rvalue `p` of type `B*` (`none` is null, `some k` points to an object whose dynamic type is `k`), Algorithm.inl:259-271.
The template arguments of `std::is_base_of_v` and `std::is_polymorphic_v` are the pointer types. -/
def safeCastPtr (base : K → K → Bool) (poly : K → Bool) (d b : K) (p : Option K) : M (Option K) := do
  let From : CTy K := .ptr (.cls b)
  let To : CTy K := .ptr (.cls d)
  if b ≠ d && isBaseOf base From To && isPolymorphic poly From then
    Cpp.assert (match p with | none => true | some k => base d k)
  pure p

/-- `SafeCast<D&>(r)` of an lvalue `r` of type `B` and dynamic type `k`, Algorithm.inl:245-258: `From` is `B&`. -/
def safeCastRef (base : K → K → Bool) (poly : K → Bool) (d b : K) (k : K) : M K := do
  let From : CTy K := .ref (.cls b)
  let To : CTy K := .ref (.cls d)
  if b ≠ d && isBaseOf base From To && isPolymorphic poly From then
    Cpp.assert (base d k)
  pure k

end Verif.SafeCast
