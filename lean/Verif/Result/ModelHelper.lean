import Verif.Cpp

/-!
# Model of `Ok` and `Err` with the lifetimes of their arguments (Result.hpp:34-55, Result.inl:10-31, 42-53)

`Ok(x)` and `Err(x)` make a `ResultValue`/`ResultError` that holds a reference to `x` and the way it was passed; a `Result` gets its value from
there when it is constructed.  (In `Verif.Result.Model` both happen at once.)  Objects of the program are named by their address; a temporary is an
object that ends with the expression in which it was made.  Copies and moves do not throw here.
-/

namespace Verif.Result.Helper
open Verif.Cpp

/-- What `Ok`/`Err` make: `ResultValue<V&>`, `ResultValue<V&&>`, `ResultError<E&>` or `ResultError<E&&>`. -/
structure Helper where
  isErr : Bool
  /-- made from an rvalue -/
  rvalue : Bool
  /-- address of the argument -/
  arg : Nat
  deriving DecidableEq

structure St (T : Type) where
  /-- the objects that exist -/
  mem : Nat → Option T
  /-- variables that hold a helper (`auto h = Nz::Ok(x);`) -/
  helpers : Nat → Option Helper
  /-- variables that hold a result: is it an error, and its contents -/
  results : Nat → Option (Bool × T)

variable {T : Type}

def put {α : Type} (f : Nat → Option α) (i : Nat) (x : Option α) : Nat → Option α := fun k => if k = i then x else f k

inductive Step (T : Type) where
  /-- an object begins -/
  | begin (a : Nat) (v : T)
  /-- an object ends -/
  | finish (a : Nat)
  /-- an assignment to an object -/
  | assign (a : Nat) (v : T)
  /-- `auto h = Nz::Ok(a)` (`Nz::Ok(std::move(a))`, `Nz::Err`…) -/
  | make (h : Nat) (isErr rvalue : Bool) (a : Nat)
  /-- `Result<V, E> r = h;` or `return h;` -/
  | convert (r h : Nat)
  /-- `Result<V, E> r = Nz::Ok(a);` or `return Nz::Ok(a);`, `a` an object or a temporary -/
  | direct (r : Nat) (isErr rvalue : Bool) (a : Nat)

/-- `Ok(V&&)` and `Err(E&&)`, Result.inl:15-31. -/
def ok (isErr rvalue : Bool) (a : Nat) : Helper := ⟨isErr, rvalue, a⟩

/-- `Result(ResultValue<T>)` and `Result(ResultError<T>)`, Result.inl:42-53: `std::forward<T>(value.value)` is read, and moved from if it is an
rvalue.  `movedFrom` is the state a move leaves. -/
def construct (movedFrom : T → T) (s : St T) (r : Nat) (h : Helper) : M (St T) :=
  match s.mem h.arg with
  | none => .error .ub
  | some v => .ok { s with
      mem := if h.rvalue then put s.mem h.arg (some (movedFrom v)) else s.mem
      results := put s.results r (some (h.isErr, v)) }

def step (movedFrom : T → T) (s : St T) : Step T → M (St T)
  | .begin a v => .ok { s with mem := put s.mem a (some v) }
  | .finish a => .ok { s with mem := put s.mem a none }
  | .assign a v =>
    match s.mem a with
    | some _ => .ok { s with mem := put s.mem a (some v) }
    | none => .error .ub
  | .make h isErr rvalue a => .ok { s with helpers := put s.helpers h (some (ok isErr rvalue a)) }
  | .convert r h =>
    match s.helpers h with
    | some x => construct movedFrom s r x
    | none => .error .ub
  | .direct r isErr rvalue a => construct movedFrom s r (ok isErr rvalue a)

def run (movedFrom : T → T) : List (Step T) → St T → M (St T)
  | [], s => .ok s
  | x :: xs, s => step movedFrom s x >>= run movedFrom xs

end Verif.Result.Helper
