import Verif.FunctionRef.Model

/-!
# `FunctionRef` with callables that are programs themselves (FunctionRef.inl)

In `Model.lean` a call only changes the state of the callable.  Here the body of a callable is a program that may do everything the caller may:
make and destroy callables, bind, copy and destroy `FunctionRef` variables, among them the one it is called through, and call others or the
same one again.
-/

namespace Verif.FunctionRef

open Verif.Cpp

/-- A program over callables and `FunctionRef` variables, ending with a result or an exception (`none`).  Exceptions of calls are seen by
the program, which may go on or end with one itself. -/
inductive Prog (C : Callables) where
  | ret (r : Option C.R)
  | newObj (k : C.Kind) (c : C.S) (next : Nat → Prog C)
  | endObj (a : Nat) (next : Prog C)
  | getState (a : Nat) (next : C.S → Prog C)
  | setState (a : Nat) (c : C.S) (next : Prog C)
  | ctorNull (i : Nat) (next : Prog C)
  | ctor (i a : Nat) (next : Prog C)
  | copy (i j : Nat) (next : Prog C)
  | endRef (i : Nat) (next : Prog C)
  | toBool (i : Nat) (next : Bool → Prog C)
  | call (i : Nat) (x : C.A) (next : Option C.R → Prog C)

/-- The bodies of the callables: what the callable of this kind at this address does with this argument. -/
abbrev Bodies (C : Callables) := C.Kind → Nat → C.A → Prog C

variable {C : Callables} [DecidableEq C.Kind]

/-- Read the state of a callable in its lifetime. -/
def getState (a : Nat) : X (St C) C.S := fun s =>
  match s.objs a with
  | some (_, c) => .done s c
  | none => .fail .ub

/-- Change the state of a callable in its lifetime. -/
def setState (a : Nat) (c : C.S) : X (St C) Unit := fun s =>
  match s.objs a with
  | some (k, _) => setObj a (some (k, c)) s
  | none => .fail .ub

/-- Result of an operation that does not throw. -/
def ofX {α : Type} (m : X (St C) α) (s : St C) : Except Err (St C × α) :=
  match m s with
  | .done s a => .ok (s, a)
  | .thrown _ => .error .ub
  | .fail e => .error e

/-- `operator()`, FunctionRef.inl:30-35: reads the two members of the variable, calls the lambda of lines 23-26, which casts `m_functor` to
the type it was made for and calls it; neither the variable nor `m_functor` is used afterwards.  `invoke` runs bodies. -/
def callNested (invoke : C.Kind → Nat → C.A → St C → Except Err (St C × Option C.R)) (i : Nat) (x : C.A) (s : St C) :
    Except Err (St C × Option C.R) :=
  match s.refs i with
  | some ⟨some k, a⟩ =>
    match s.objs a with
    | some (k', _) => if k' = k then invoke k a x s else .error .ub
    | none => .error .ub
  | _ => .error .ub

/-- A program, given what calls of bodies do. -/
def runWith (invoke : C.Kind → Nat → C.A → St C → Except Err (St C × Option C.R)) : Prog C → St C → Except Err (St C × Option C.R)
  | .ret r, s => .ok (s, r)
  | .newObj k c next, s => ofX (newObj k c) s >>= fun p => runWith invoke (next p.2) p.1
  | .endObj a next, s => ofX (endObj a) s >>= fun p => runWith invoke next p.1
  | .getState a next, s => ofX (getState a) s >>= fun p => runWith invoke (next p.2) p.1
  | .setState a c next, s => ofX (setState a c) s >>= fun p => runWith invoke next p.1
  | .ctorNull i next, s => ofX (ctorNull i) s >>= fun p => runWith invoke next p.1
  | .ctor i a next, s => ofX (ctor i a) s >>= fun p => runWith invoke next p.1
  | .copy i j next, s => ofX (copy i j) s >>= fun p => runWith invoke next p.1
  | .endRef i next, s => ofX (endRef i) s >>= fun p => runWith invoke next p.1
  | .toBool i next, s => ofX (toBool i) s >>= fun p => runWith invoke (next p.2) p.1
  | .call i x next, s => callNested invoke i x s >>= fun p => runWith invoke (next p.2) p.1

/-- A program whose calls are nested at most `depth` deep; deeper ones count as not ending. -/
def runNested (B : Bodies C) : Nat → Prog C → St C → Except Err (St C × Option C.R)
  | 0 => runWith (fun _ _ _ _ => .error .diverge)
  | depth + 1 => runWith (fun k a x => runNested B depth (B k a x))

end Verif.FunctionRef
