import Verif.FunctionTraits.Model

/-!
# What can be called, and with which signature

Independent of the metafunctions.
-/

namespace Verif.FunctionTraits

variable {A K : Type}

/-- The type of the function that is run when a value of the type is called: the function itself, what the pointer points to, or the only call operator of the class. -/
inductive Calls (ops : Ops A K) : Core A K → Fn A → Prop
  | func (f : Fn A) : Calls ops (.func f) f
  | fptr (f : Fn A) : Calls ops (.fptr f) f
  | mfptr (k : K) (f : Fn A) : Calls ops (.mfptr k f) f
  | member (k k' : K) (f : Fn A) : ops k = some [.member k' f] → Calls ops (.cls k) f
  | static (k : K) (f : Fn A) : ops k = some [.static f] → Calls ops (.cls k) f

/-- A function type that a free or static member function can have: no `const`, `volatile`, `&` or `&&`. -/
def Fn.Free (f : Fn A) : Prop := f.const = false ∧ f.volatile = false ∧ f.ref = .none

/-- Types that exist in C++: there are no cv-qualified function types (the qualification is dropped), no references to qualified function types and no pointers to them. -/
def Ty.WF (t : Ty A K) : Prop :=
  match t.core with
  | .func f => t.const = false ∧ t.volatile = false ∧ (t.ref = .none ∨ f.Free)
  | .fptr f => f.Free
  | _ => True

/-- Call operators that exist in C++: static ones are not qualified. -/
def Ops.WF (ops : Ops A K) : Prop := ∀ k f, ops k = some [.static f] → f.Free

/-- The function type of a member of an overload set. -/
def Op.fn : Op A K → Fn A
  | .static f => f
  | .member _ f => f

/-- Free functions and static member functions, as opposed to non-static ones. -/
def Op.isStatic : Op A K → Bool
  | .static _ => true
  | .member _ _ => false

/-- Overload sets that exist in C++: static functions are not qualified, and two functions with the same parameter list and qualifiers are the same function. -/
def SetWF (set : List (Op A K)) : Prop :=
  set.Nodup ∧ (∀ f, Op.static f ∈ set → f.Free) ∧
  ∀ o ∈ set, ∀ o' ∈ set, o.isStatic = o'.isStatic → o.fn.args = o'.fn.args → o.fn.variadic = o'.fn.variadic →
    o.fn.const = o'.fn.const → o.fn.volatile = o'.fn.volatile → o.fn.ref = o'.fn.ref → o = o'

end Verif.FunctionTraits
