import Verif.SafeCast.Model

/-!
# Model of `StaticUniquePointerCast` (Algorithm.inl:287-291) with the `std::unique_ptr`s around it

Objects have the class they were created with; a variable of type `std::unique_ptr<T>` has the static class `T` and is null or
holds the address of an object.  `std::unique_ptr` (default deleter) behaves as the standard says.  Not modelled: what
destructors of the objects do with pointers of their own.
-/

namespace Verif.UniquePtr
open Verif.Cpp

/-- The classes of a program. -/
structure Classes (K : Type) where
  /-- `base a b`: `a` is `b` or a base of `b` -/
  base : K → K → Bool
  /-- the class has a virtual destructor -/
  virt : K → Bool

structure World (K : Type) where
  /-- class of the objects that exist -/
  objects : Nat → Option K
  /-- addresses from here on have not been used -/
  next : Nat
  /-- variables: static class and pointer -/
  vars : Nat → Option (K × Option Nat)
  /-- addresses of the objects destroyed so far -/
  destroyed : List Nat

variable {K : Type} [DecidableEq K]

def World.start : World K := ⟨fun _ => none, 0, fun _ => none, []⟩

def update {β : Type} (f : Nat → β) (i : Nat) (x : β) : Nat → β := fun j => if j = i then x else f j

/-- The variable `v`; undefined if there is none. -/
def World.var (w : World K) (v : Nat) : M (K × Option Nat) :=
  match w.vars v with
  | some x => .ok x
  | none => .error .ub

def World.setVar (w : World K) (v : Nat) (x : Option (K × Option Nat)) : World K := ⟨w.objects, w.next, update w.vars v x, w.destroyed⟩

/-- `delete p` of a pointer of static class `t`: undefined if the object is gone, or if it is of another class and `t` is not a base with a
virtual destructor ([expr.delete]/3). -/
def deletePtr (C : Classes K) (t : K) (p : Option Nat) (w : World K) : M (World K) :=
  match p with
  | none => .ok w
  | some a =>
    match w.objects a with
    | none => .error .ub
    | some k =>
      if k = t || (C.base t k && C.virt t) then .ok ⟨update w.objects a none, w.next, w.vars, w.destroyed ++ [a]⟩ else .error .ub

/-- `static_cast<T*>(p)`, [expr.static.cast]/11: undefined if the object is no `T`. -/
def staticCast (C : Classes K) (t : K) (p : Option Nat) (w : World K) : M (Option Nat) :=
  match p with
  | none => .ok none
  | some a =>
    match w.objects a with
    | none => .error .ub
    | some k => if C.base t k then .ok (some a) else .error .ub

/-- `SafeCast<T*>(p)` of an rvalue pointer to `u`, Algorithm.inl:259-275: the check (`Verif.SafeCast.safeCastPtr`), then the `static_cast`. -/
def safeCast (C : Classes K) (t u : K) (p : Option Nat) (w : World K) : M (Option Nat) := do
  let _ ← SafeCast.safeCastPtr C.base C.virt t u (p.bind w.objects)
  staticCast C t p w

/-- `p.release()`: the pointer, and the variable is null. -/
def release (v : Nat) (w : World K) : M (World K × K × Option Nat) := do
  let (u, p) ← w.var v
  pure (w.setVar v (some (u, none)), u, p)

/-- `StaticUniquePointerCast<T>(std::move(v))`, Algorithm.inl:287-291: the pointer the returned `std::unique_ptr<T>` holds. -/
def staticUniquePointerCast (C : Classes K) (t : K) (v : Nat) (w : World K) : M (World K × Option Nat) := do
  let (w, u, p) ← release v w
  let q ← safeCast C t u p w
  pure (w, q)

/-! ## Programs -/

inductive Op (K : Type) where
  /-- `auto v = std::make_unique<K>();` -/
  | make (v : Nat) (c : K)
  /-- `std::unique_ptr<K> v;` -/
  | null (v : Nat) (c : K)
  /-- `auto d = StaticUniquePointerCast<K>(std::move(v));` -/
  | cast (d : Nat) (t : K) (v : Nat)
  /-- `d = StaticUniquePointerCast<T>(std::move(v));` for a `d` of type `std::unique_ptr<T>` -/
  | castAssign (d v : Nat)
  /-- `v.reset();` -/
  | reset (v : Nat)
  /-- the scope of `v` ends -/
  | leave (v : Nat)

/-- `v.reset(q)`: the new pointer is stored before the old object is deleted. -/
def resetTo (C : Classes K) (v : Nat) (q : Option Nat) (w : World K) : M (World K) := do
  let (t, old) ← w.var v
  deletePtr C t old (w.setVar v (some (t, q)))

def Op.run (C : Classes K) : Op K → World K → M (World K)
  | .make v c, w => .ok ⟨update w.objects w.next (some c), w.next + 1, update w.vars v (some (c, some w.next)), w.destroyed⟩
  | .null v c, w => .ok (w.setVar v (some (c, none)))
  | .cast d t v, w => do
    let (w, q) ← staticUniquePointerCast C t v w
    pure (w.setVar d (some (t, q)))
  | .castAssign d v, w => do
    let (t, _) ← w.var d
    let (w, q) ← staticUniquePointerCast C t v w
    resetTo C d q w
  | .reset v, w => resetTo C v none w
  | .leave v, w => do
    let (t, p) ← w.var v
    deletePtr C t p (w.setVar v none)

def run (C : Classes K) : List (Op K) → World K → M (World K)
  | [], w => .ok w
  | o :: os, w => do
    let w ← o.run C w
    run C os w

end Verif.UniquePtr
