import Verif.Cpp

/-!
# Model of `FunctionRef` variables of several signatures, made from each other

A `FunctionRef` is itself a callable: `FunctionRef<long(int)>` can be made from a `FunctionRef<int(long)>` by the constructor for callables (FunctionRef.hpp:25; FunctionRef.inl:18-28), which keeps the
address of that variable, and from a `FunctionRef<long(int)>` by the copy constructor, which copies the members (FunctionRef.hpp:26-27, 34-35).  Conversions of arguments and results are left out
(C150); callables do not touch `FunctionRef` variables (C140).  An access to an object after its lifetime is undefined behaviour.
-/

namespace Verif.FunctionRef.Convert
open Verif.Cpp

/-- What a `FunctionRef` refers to: the address of a callable or of another `FunctionRef` (`m_functor`, FunctionRef.hpp:40; `m_callback` says which). -/
inductive Bind where
  | obj (a : Nat)
  | var (j : Nat)
  deriving DecidableEq

/-- Callables: their states, what a call does to the state and what it gives. -/
structure Callables where
  S : Type
  A : Type
  R : Type
  invoke : S → A → S × R

variable (C : Callables)

/-- Callables that live, by address, and `FunctionRef` variables that live. -/
structure St where
  objs : Nat → Option C.S
  vars : Nat → Option Bind

inductive Op where
  /-- a callable is made / its lifetime ends -/
  | newObj (a : Nat) (c : C.S)
  | endObj (a : Nat)
  /-- variable `i` is made from, or assigned, the callable at `a` (an lvalue) -/
  | bind (i a : Nat)
  /-- variable `i` is made from, or assigned, variable `j` -/
  | fromRef (i j : Nat)
  /-- end of lifetime of a variable -/
  | endVar (i : Nat)
  | call (i : Nat) (x : C.A)

variable {C}

def upd {α : Type} (f : Nat → α) (i : Nat) (v : α) : Nat → α := fun k => if k = i then v else f k

/-- `operator()`, FunctionRef.inl:30-35: on a stack with room for `depth` nested calls (each call through a reference to another `FunctionRef` needs one more); `diverge` if there is no room. -/
def call : (depth : Nat) → (i : Nat) → C.A → St C → M (St C × C.R)
  | 0, _, _, _ => throw .diverge
  | d + 1, i, x, s =>
    match s.vars i with
    | none => throw .ub
    | some (.obj a) =>
      match s.objs a with
      | none => throw .ub
      | some c => pure ({ s with objs := upd s.objs a (some (C.invoke c x).1) }, (C.invoke c x).2)
    | some (.var j) => call d j x s

/-- Variable `i` made from variable `j`: a copy if they have the same type (FunctionRef.hpp:26-27, 34-35), otherwise a reference to `j` (FunctionRef.inl:22). -/
def fromRef (sig : Nat → Nat) (i j : Nat) (s : St C) : M (St C) :=
  match s.vars j with
  | none => throw .ub
  | some b => pure { s with vars := upd s.vars i (some (if sig i = sig j then b else .var j)) }

/-- One statement, with the result of a call. -/
def step (sig : Nat → Nat) (depth : Nat) (s : St C) : Op C → M (St C × Option C.R)
  | .newObj a c => pure ({ s with objs := upd s.objs a (some c) }, none)
  | .endObj a => pure ({ s with objs := upd s.objs a none }, none)
  | .bind i a => pure ({ s with vars := upd s.vars i (some (.obj a)) }, none)
  | .fromRef i j => do
    let s' ← fromRef sig i j s
    pure (s', none)
  | .endVar i => pure ({ s with vars := upd s.vars i none }, none)
  | .call i x => do
    let (s', r) ← call depth i x s
    pure (s', some r)

def run (sig : Nat → Nat) (depth : Nat) : List (Op C) → St C → M (St C × List C.R)
  | [], s => pure (s, [])
  | op :: ops, s => do
    let (s', r) ← step sig depth s op
    let (s'', rs) ← run sig depth ops s'
    pure (s'', r.toList ++ rs)

def init (C : Callables) : St C := ⟨fun _ => none, fun _ => none⟩

end Verif.FunctionRef.Convert
