import Verif.Exec

/-!
# Model of `FunctionRef` (FunctionRef.hpp, FunctionRef.inl)

Programs make callable objects and end their lifetime, and work on any number of `FunctionRef` variables.  Addresses are not reused; an
access to an object after its lifetime is undefined behaviour.  Callables are not const (the constructor does not compile for const objects:
`reinterpret_cast` to `void*`) and do not change `FunctionRef` variables while they are called.
-/

namespace Verif.FunctionRef

open Verif.Cpp

/-- The callable types: what a call does to the callable and what it returns (`none` for an exception). -/
structure Callables where
  /-- types of callables (closure types, function types, function pointers...) -/
  Kind : Type
  /-- states of callables -/
  S : Type
  /-- arguments -/
  A : Type
  /-- results -/
  R : Type
  invoke : Kind → S → A → S × Option R

variable (C : Callables)

/-- Members of a `FunctionRef` (FunctionRef.hpp:39-40).  The lambda stored in `m_callback` is given by the type it casts to, `none` if it is uninitialised. -/
structure Ref where
  callback : Option C.Kind
  functor : Nat

/-- Callables by address (0 is null), next free address and `FunctionRef` variables. -/
structure St where
  objs : Nat → Option (C.Kind × C.S)
  next : Nat
  refs : Nat → Option (Ref C)

def init : St C := ⟨fun _ => none, 1, fun _ => none⟩

variable {C} [DecidableEq C.Kind]

def setObj (a : Nat) (o : Option (C.Kind × C.S)) : X (St C) Unit := fun s => .done { s with objs := fun k => if k = a then o else s.objs k } ()
def setRef (i : Nat) (r : Option (Ref C)) : X (St C) Unit := fun s => .done { s with refs := fun k => if k = i then r else s.refs k } ()

/-- A callable of kind `k` comes to life. -/
def newObj (k : C.Kind) (c : C.S) : X (St C) Nat := fun s =>
  .done { s with objs := fun a => if a = s.next then some (k, c) else s.objs a, next := s.next + 1 } s.next

/-- End of lifetime of the callable at `a`. -/
def endObj (a : Nat) : X (St C) Unit := fun s =>
  match s.objs a with
  | some _ => setObj a none s
  | none => .fail .ub

/-- `FunctionRef(std::nullptr_t)`, FunctionRef.inl:12-16 -/
def ctorNull (i : Nat) : X (St C) Unit := setRef i (some ⟨none, 0⟩)

/-- `FunctionRef(F&&)`, FunctionRef.inl:18-28: `f` refers to the object at `a`. -/
def ctor (i a : Nat) : X (St C) Unit := fun s =>
  match s.objs a with
  | some (k, _) => setRef i (some ⟨some k, a⟩) s
  | none => .fail .ub

/-- `FunctionRef r(F(...));` in a declaration: the argument is a temporary, destroyed at the end of the declaration.  This is also
`FunctionRef r(&function);`, whose temporary is a function pointer. -/
def ctorTemp (i : Nat) (k : C.Kind) (c : C.S) : X (St C) Unit := do
  let a ← newObj k c
  ctor i a
  endObj a

/-- `operator()`, FunctionRef.inl:30-35: calls through `m_callback`, whose lambda (FunctionRef.inl:23-26) casts `m_functor` to the type it was made for. -/
def call (i : Nat) (x : C.A) : X (St C) C.R := fun s =>
  match s.refs i with
  | some ⟨some k, a⟩ =>
    match s.objs a with
    | some (k', c) =>
      if k' = k then
        match C.invoke k c x with
        | (c', some r) => .done { s with objs := fun b => if b = a then some (k, c') else s.objs b } r
        | (c', none) => .thrown { s with objs := fun b => if b = a then some (k, c') else s.objs b }
      else .fail .ub
    | none => .fail .ub
  | _ => .fail .ub

/-- `f(FunctionRef(F(...)))`: the function `f` calls its parameter with `x`, the temporary lives until it returns. -/
def callTemp (k : C.Kind) (c : C.S) (i : Nat) (x : C.A) : X (St C) C.R := do
  let a ← newObj k c
  ctor i a
  let r ← call i x
  endObj a
  setRef i none
  pure r

/-- `operator bool`, FunctionRef.inl:37-41 -/
def toBool (i : Nat) : X (St C) Bool := fun s =>
  match s.refs i with
  | some r => .done s (r.functor != 0)
  | none => .fail .ub

/-- Copy and move construction and assignment (FunctionRef.hpp:26-34, defaulted): memberwise; reading an uninitialised pointer is undefined. -/
def copy (i j : Nat) : X (St C) Unit := fun s =>
  match s.refs j with
  | some ⟨some k, a⟩ => setRef i (some ⟨some k, a⟩) s
  | _ => .fail .ub

/-- End of lifetime of a variable. -/
def endRef (i : Nat) : X (St C) Unit := setRef i none

inductive Op (C : Callables) where
  | newObj (k : C.Kind) (c : C.S)
  | endObj (a : Nat)
  | ctorNull (i : Nat)
  | ctor (i a : Nat)
  | copy (i j : Nat)
  | endRef (i : Nat)
  | toBool (i : Nat)
  | call (i : Nat) (x : C.A)

/-- What the program sees of an operation. -/
inductive Seen (C : Callables) where
  | nothing
  | bool (b : Bool)
  | result (r : C.R)
  | exception

def seen {α : Type} (f : α → Seen C) (m : X (St C) α) : St C → Except Err (St C × Seen C) := fun s =>
  match m s with
  | .done s a => .ok (s, f a)
  | .thrown s => .ok (s, .exception)
  | .fail e => .error e

def exec : Op C → St C → Except Err (St C × Seen C)
  | .newObj k c => seen (fun _ => .nothing) (newObj k c)
  | .endObj a => seen (fun _ => .nothing) (endObj a)
  | .ctorNull i => seen (fun _ => .nothing) (ctorNull i)
  | .ctor i a => seen (fun _ => .nothing) (ctor i a)
  | .copy i j => seen (fun _ => .nothing) (copy i j)
  | .endRef i => seen (fun _ => .nothing) (endRef i)
  | .toBool i => seen .bool (toBool i)
  | .call i x => seen .result (call i x)

/-- A program that catches exceptions. -/
def run : List (Op C) → St C → Except Err (St C × List (Seen C))
  | [], s => .ok (s, [])
  | op :: ops, s =>
    match exec op s with
    | .ok (s, o) =>
      match run ops s with
      | .ok (s, os) => .ok (s, o :: os)
      | .error e => .error e
    | .error e => .error e

end Verif.FunctionRef
