import Verif.Cpp

/-!
# Model of the constructors of `FunctionRef` (FunctionRef.hpp:24-27, FunctionRef.inl:11-28): which callables they accept, and which `operator()` is called

A callable is an object with any number of overloads of `operator()`.  Overload resolution is modelled for the object and for one rank of the remaining arguments (the same arguments are passed in
the check and in the call: `Args...` and `std::forward<Args>(args)...`).  Functions, and pointers to functions, have one overload that is const and has no ref-qualifier.  Volatile callables,
pointers to members and variadic functions are left out.
-/

namespace Verif.FunctionRef.Ctor

/-- ref-qualifier of an `operator()` -/
inductive RefQ where
  | none
  | lvalue
  | rvalue
  deriving DecidableEq

/-- One `operator()` of a class: const or not, ref-qualifier, how well its parameters fit the arguments (`none` if not at all, smaller is better), whether what it returns converts to `Ret`. -/
structure Over where
  const : Bool
  ref : RefQ
  rank : Option Nat
  returns : Bool
  deriving DecidableEq

/-- The expression that is called: const or not, lvalue or rvalue. -/
structure Cat where
  const : Bool
  isLvalue : Bool
  deriving DecidableEq

/-- Whether the object can be called through this overload: no const is lost; `&` takes lvalues (`const &` also rvalues), `&&` rvalues, and without ref-qualifier both. -/
def Over.takes (o : Over) (c : Cat) : Bool :=
  (o.const || !c.const) &&
    match o.ref with
    | .none => true
    | .lvalue => c.isLvalue || o.const
    | .rvalue => !c.isLvalue

/-- Whether the implicit object parameter of `o` is a better match than that of `p`: an rvalue is better bound to `&&` than to `&`; of parameters that differ only in const the one without. -/
def Over.objectBetter (o p : Over) (c : Cat) : Bool :=
  if o.ref = .rvalue ∧ p.ref = .lvalue ∧ !c.isLvalue then true
  else if o.ref = .lvalue ∧ p.ref = .rvalue then false
  else !o.const && p.const

/-- Whether `o` is a better overload than `p`: nowhere worse, somewhere better. -/
def Over.better (o p : Over) (c : Cat) : Bool :=
  match o.rank, p.rank with
  | some r, some r' =>
    decide (r ≤ r') && !p.objectBetter o c && (decide (r < r') || o.objectBetter p c)
  | _, _ => false

def Over.viable (o : Over) (c : Cat) : Bool := o.takes c && o.rank.isSome

/-- The overload that a call of a callable with the overloads `os` calls; `none` if it does not compile (none, or no best one). -/
def resolve (os : List Over) (c : Cat) : Option Over :=
  let vs := os.filter (·.viable c)
  vs.find? (fun o => (vs.filter (· == o)).length == 1 && vs.all (fun p => p == o || o.better p c))

/-- A call whose result is used as a `Ret`: `std::is_invocable_r_v<Ret, F, Args...>` for an expression of category `c`. -/
def invoke (os : List Over) (c : Cat) : Option Over :=
  match resolve os c with
  | some o => if o.returns then some o else none
  | none => none

/-- What `FunctionRef<Ret(Args...)>(f)` is. -/
inductive Made where
  /-- the constructor does not take part: `std::is_constructible_v` is false -/
  | refused
  /-- it is selected, and its body does not compile -/
  | bodyError
  /-- a `FunctionRef` whose calls call this overload of the object itself -/
  | calls (o : Over)
  deriving DecidableEq

/-- `FunctionRef(F&& f)`: FunctionRef.hpp:25 checks `F&&`; in FunctionRef.inl:22 `reinterpret_cast<void*>` of the address does not compile for const objects, and line 25 calls `*functor`, an lvalue. -/
def make (os : List Over) (f : Cat) : Made :=
  match invoke os f with
  | none => .refused
  | some _ =>
    if f.const then .bodyError
    else
      match invoke os ⟨f.const, true⟩ with
      | none => .bodyError
      | some o => .calls o

/-- A lambda: `operator() const`, or `operator()` if it is `mutable`; also (`mutable = false`) a function or a pointer to a function. -/
def lambda (mutable returns : Bool) (rank : Option Nat) : List Over := [⟨!mutable, .none, rank, returns⟩]

end Verif.FunctionRef.Ctor
