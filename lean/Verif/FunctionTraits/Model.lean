import Verif.TypeList.Model

/-!
# Model of `FunctionTraits`, `IsFunctor` and `Overload` (FunctionTraits.hpp)

Everything in this header is evaluated by the compiler.  A type is represented in normal form: a reference (or none) to a `const`/`volatile`-qualified core.  Return and parameter types are elements of an arbitrary type `A`, classes are elements of an arbitrary type `K`.  A program that the compiler rejects has the result `none`.
-/

namespace Verif.FunctionTraits

/-- A reference qualifier, of a type or of a member function. -/
inductive Ref
  | none
  | lvalue
  | rvalue
deriving DecidableEq, Repr

/-- A function type: `Ret(Args...)`, perhaps followed by `...` in the parameter list, by `const`, `volatile`, `&` or `&&` and by `noexcept`. -/
structure Fn (A : Type) where
  ret : A
  args : List A
  variadic : Bool := false
  const : Bool := false
  volatile : Bool := false
  ref : Ref := .none
  noexc : Bool := false
deriving DecidableEq, Repr

/-- A type without reference and without cv-qualification at top level. -/
inductive Core (A K : Type)
  /-- a function type -/
  | func (f : Fn A)
  /-- pointer to a function -/
  | fptr (f : Fn A)
  /-- pointer to a member function of the class `k` -/
  | mfptr (k : K) (f : Fn A)
  /-- a class -/
  | cls (k : K)
  /-- any other type: numbers, enumerations, arrays, object pointers, pointers to data members -/
  | other (a : A)
deriving DecidableEq, Repr

/-- A type in normal form. -/
structure Ty (A K : Type) where
  ref : Ref := .none
  const : Bool := false
  volatile : Bool := false
  core : Core A K
deriving DecidableEq, Repr

/-- The type of a function or static member function, or of a non-static member function of class `k`. -/
inductive Op (A K : Type)
  | static (f : Fn A)
  | member (k : K) (f : Fn A)
deriving DecidableEq, Repr

/-- The call operators of each class, inherited ones included: `none` if there is a template among them. -/
abbrev Ops (A K : Type) := K → Option (List (Op A K))

variable {A K : Type}

/-- The type of `&T::operator()` for a class: defined if there is just one call operator. -/
def addressOfCall (ops : Ops A K) (k : K) : Option (Core A K) :=
  match ops k with
  | some [.member k' f] => some (.mfptr k' f)
  | some [.static f] => some (.fptr f)
  | _ => none

/-- The members of `FunctionTraits<Ret(Args...)>`: `ReturnType` and `ArgTypes`.  `FuncType` is `Ret(Args...)`. -/
structure Traits (A : Type) where
  ret : A
  args : List A
deriving DecidableEq, Repr

/-- The qualifiers `(const, volatile, ref, noexcept)` of the pointers to member functions that have a specialisation, FunctionTraits.hpp:48-118, in the order of the file. -/
def memberSpecs : List (Bool × Bool × Ref × Bool) :=
  [(false, false, .none, false), (false, false, .none, true),
   (false, false, .lvalue, false), (false, false, .lvalue, true),
   (false, false, .rvalue, false), (false, false, .rvalue, true),
   (true, false, .none, false), (true, false, .none, true),
   (true, false, .lvalue, false), (true, false, .lvalue, true),
   (true, false, .rvalue, false), (true, false, .rvalue, true),
   (false, true, .none, false), (false, true, .none, true),
   (false, true, .lvalue, false), (false, true, .lvalue, true),
   (false, true, .rvalue, false), (false, true, .rvalue, true),
   (true, true, .none, false), (true, true, .none, true),
   (true, true, .lvalue, false), (true, true, .lvalue, true),
   (true, true, .rvalue, false), (true, true, .rvalue, true)]

/-- The specialisation for `Ret(Args...)`, FunctionTraits.hpp:22-40. -/
def funcTraits (f : Fn A) : Option (Traits A) :=
  if (f.variadic, f.const, f.volatile, f.ref, f.noexc) = (false, false, false, Ref.none, false) then some ⟨f.ret, f.args⟩
  else none

/-- The specialisations for function pointers, FunctionTraits.hpp:42-46. -/
def fptrTraits (f : Fn A) : Option (Traits A) :=
  if (f.variadic, f.const, f.volatile, f.ref) = (false, false, false, Ref.none) ∧ f.noexc ∈ [false, true] then
    funcTraits { ret := f.ret, args := f.args }
  else none

/-- The specialisations for pointers to member functions, FunctionTraits.hpp:48-118. -/
def mfptrTraits (f : Fn A) : Option (Traits A) :=
  if f.variadic = false ∧ (f.const, f.volatile, f.ref, f.noexc) ∈ memberSpecs then
    funcTraits { ret := f.ret, args := f.args }
  else none

/-- The primary template, `FunctionTraits<decltype(&T::operator())>`, FunctionTraits.hpp:17-20, for a type whose core is given: cv-qualifiers of `T` do not matter in `T::operator()`. -/
def primary (ops : Ops A K) : Core A K → Option (Traits A)
  | .cls k =>
    match addressOfCall ops k with
    | some (.mfptr _ f) => mfptrTraits f
    | some (.fptr f) => fptrTraits f
    | _ => none
  | _ => none

/-- The specialisations for functions and pointers, FunctionTraits.hpp:22-118, which only match types without top-level cv-qualification, and the primary template for all other types. -/
def bareTraits (ops : Ops A K) (const volatile : Bool) (c : Core A K) : Option (Traits A) :=
  match const, volatile, c with
  | false, false, .func f => funcTraits f
  | false, false, .fptr f => fptrTraits f
  | false, false, .mfptr _ f => mfptrTraits f
  | _, _, c => primary ops c

/-- `FunctionTraits<const T>` (FunctionTraits.hpp:120-121) matches every `const` type and continues with the type without `const`. -/
def valueTraits (ops : Ops A K) (const volatile : Bool) (c : Core A K) : Option (Traits A) :=
  if const then bareTraits ops false volatile c else bareTraits ops const volatile c

/-- `FunctionTraits<T>`, FunctionTraits.hpp:17-133: `const T&` and `const T&&` (lines 123-127) are more specialised than `T&` and `T&&` (lines 129-133). -/
def traits (ops : Ops A K) (t : Ty A K) : Option (Traits A) :=
  match t.ref, t.const with
  | .lvalue, true => valueTraits ops false t.volatile t.core
  | .rvalue, true => valueTraits ops false t.volatile t.core
  | .lvalue, false => valueTraits ops t.const t.volatile t.core
  | .rvalue, false => valueTraits ops t.const t.volatile t.core
  | .none, _ => valueTraits ops t.const t.volatile t.core

/-- `FunctionTraits<T>::ArgCount`, FunctionTraits.hpp:29 -/
def argCount (r : Traits A) : Nat := r.args.length

/-- `FunctionTraits<T>::ArgType<I>`, FunctionTraits.hpp:31-39 -/
def argType (r : Traits A) (i : Nat) : Option A :=
  if i < argCount r then TypeList.at' r.args i else none

/-- `IsFunctor_v<T>`, FunctionTraits.hpp:137-150: a reference has no members, and `std::is_function_v` and `std::is_member_function_pointer_v` are false of references. -/
def isFunctor (ops : Ops A K) (t : Ty A K) : Bool :=
  match t.ref, t.core with
  | .none, .func _ => true
  | .none, .mfptr _ _ => true
  | .none, .cls k => (addressOfCall ops k).isSome
  | _, _ => false

/-! ### `Overload` -/

/-- The parameter of one of the call operators of `OverloadResolver`: the qualifiers `(const, ref, noexcept)` of a pointer to member function, or a pointer to function. -/
inductive Pattern
  | member (const : Bool) (ref : Ref) (noexc : Bool)
  | free (noexc : Bool)
deriving DecidableEq, Repr

/-- The call operators of `OverloadResolver`, FunctionTraits.hpp:159-241, in the order of the file. -/
def patterns : List Pattern :=
  [.member false .none false, .member false .lvalue false, .member false .rvalue false,
   .member false .none true, .member false .lvalue true, .member false .rvalue true,
   .member true .none false, .member true .lvalue false, .member true .rvalue false,
   .member true .none true, .member true .lvalue true, .member true .rvalue true,
   .free false, .free true]

/-- Deduction of `R` and `T` for one parameter from a pointer to one function ([temp.deduct.call]).  The result says whether the pointer types are the same; otherwise a function pointer conversion drops `noexcept`. -/
def matches' [DecidableEq A] (args : List A) : Pattern → Op A K → Option Bool
  | .member c r n, .member _ f =>
    if f.args = args ∧ f.variadic = false ∧ f.volatile = false ∧ f.const = c ∧ f.ref = r ∧ (n = true → f.noexc = true) then
      some (decide (f.noexc = n))
    else none
  | .free n, .static f =>
    if f.args = args ∧ f.variadic = false ∧ f.volatile = false ∧ f.const = false ∧ f.ref = .none ∧ (n = true → f.noexc = true) then
      some (decide (f.noexc = n))
    else none
  | _, _ => none

/-- Deduction of one parameter from the name of an overload set ([temp.deduct.call]/6): it succeeds if it does for just one function of the set. -/
def deduce [DecidableEq A] (args : List A) (set : List (Op A K)) (p : Pattern) : Option (Op A K × Bool) :=
  match set.filterMap (fun o => (matches' args p o).map fun exact => (o, exact)) with
  | [r] => some r
  | _ => none

/-- `Overload<Args...>(&set)`, FunctionTraits.hpp:156-244: overload resolution between the call operators for which deduction succeeds.  An identity conversion is better than a function pointer conversion ([over.ics.rank]); otherwise no candidate is better than another.  The call operators return their argument. -/
def overload [DecidableEq A] (args : List A) (set : List (Op A K)) : Option (Op A K) :=
  let viable := patterns.filterMap (deduce args set)
  match viable with
  | [r] => some r.1
  | _ =>
    match viable.filter (·.2) with
    | [r] => some r.1
    | _ => none

end Verif.FunctionTraits
