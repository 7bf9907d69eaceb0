import Verif.Cpp

/-!
# Arguments passed through `Signal` and `FunctionRef`

How the argument of a call reaches the functions that are called: `Signal::operator()`, Signal.inl:178-183, with callbacks of type `std::function<void(Args...)>`,
Signal.hpp:31, and `FunctionRef::operator()`, FunctionRef.inl:19-33.  One parameter; the others are treated in the same way.  The type of the argument
and the type in the signature are the same up to references and `const`: conversions are not modelled.
-/

namespace Verif.Args
open Verif.Cpp

/-- How a parameter of type `T` is declared: `T`, `T&`, `const T&`, `T&&`. -/
inductive Param where
  | value
  | lref
  | clref
  | rref
  deriving DecidableEq

/-- An expression of type `T`: a variable, a constant one, or an rvalue. -/
inductive Cat where
  | lvalue
  | clvalue
  | rvalue
  deriving DecidableEq

/-- Where an object is: a variable of the program, or a parameter (counted from the outermost call). -/
inductive Ref where
  | var (n : Nat)
  | par (i : Nat)
  deriving DecidableEq

/-- What happens to objects of the type `T`, recorded by the model: copy and move construction from an object, and the calls of functions (by their numbers) with the object
that they get and its value at this moment. -/
inductive Event (V : Type) where
  | copied (r : Ref)
  | moved (r : Ref)
  | called (f : Nat) (r : Ref) (v : V)
  deriving DecidableEq

structure Mem (V : Type) where
  vars : Nat → V
  pars : List V
  log : List (Event V)

/-- The type `T`: whether it has a copy constructor, and what its move constructor leaves. -/
structure Ty (V : Type) where
  copyable : Bool
  movedFrom : V → V

/-- A function with one parameter.  Its body may change all variables of the program, and its parameter unless that is a reference to a constant.  (First result: the variables.
Second result: the object of the parameter.) -/
structure Fun (V : Type) where
  id : Nat
  param : Param
  body : (Nat → V) → V → (Nat → V) × V

variable {V : Type}

def Mem.get (m : Mem V) : Ref → M V
  | .var n => .ok (m.vars n)
  | .par i => rd m.pars i

def Mem.set (m : Mem V) : Ref → V → M (Mem V)
  | .var n, v => .ok ⟨fun j => if j = n then v else m.vars j, m.pars, m.log⟩
  | .par i, v => do
    let l ← wr m.pars i v
    pure ⟨m.vars, l, m.log⟩

def Mem.record (m : Mem V) (e : Event V) : Mem V := ⟨m.vars, m.pars, m.log ++ [e]⟩

/-- The end of the life of the parameters from number `n`. -/
def Mem.leave (m : Mem V) (n : Nat) : Mem V := ⟨m.vars, m.pars.take n, m.log⟩

/-- Whether a parameter can be initialised: [dcl.init.ref], [dcl.init.general]. -/
def binds (T : Ty V) : Param → Cat → Bool
  | .value, .rvalue => true
  | .value, _ => T.copyable
  | .lref, .lvalue => true
  | .lref, _ => false
  | .clref, _ => true
  | .rref, .rvalue => true
  | .rref, _ => false

/-- Initialisation of a parameter of type `T`. -/
def construct (T : Ty V) (c : Cat) (r : Ref) (m : Mem V) : M (Ref × Mem V) := do
  let v ← m.get r
  let m ← if c = .rvalue then do
      let m ← m.set r (T.movedFrom v)
      pure (m.record (.moved r))
    else pure (m.record (.copied r))
  pure (.par m.pars.length, ⟨m.vars, m.pars ++ [v], m.log⟩)

/-- Initialisation of a parameter.  Returns the object that the parameter is or refers to.  (The program does not compile if the parameter cannot be initialised; the model has an
error then.) -/
def pass (T : Ty V) (p : Param) (c : Cat) (r : Ref) (m : Mem V) : M (Ref × Mem V) := do
  guardUB (binds T p c)
  if p = .value then construct T c r m else pure (r, m)

/-- The expression `args`: the name of a parameter is an lvalue. -/
def named : Param → Cat
  | .value => .lvalue
  | .lref => .lvalue
  | .clref => .clvalue
  | .rref => .lvalue

/-- The expression `std::forward<Args>(args)`. -/
def forwarded : Param → Cat
  | .value => .rvalue
  | .lref => .lvalue
  | .clref => .clvalue
  | .rref => .rvalue

/-- `Args&&` for a parameter of type `Args`. -/
def collapsed : Param → Param
  | .value => .rref
  | p => p

/-- A call of a function whose parameter is or refers to the object at `r`. -/
def Fun.run (f : Fun V) (r : Ref) (m : Mem V) : M (Mem V) := do
  let v ← m.get r
  let x := f.body m.vars v
  let m : Mem V := ⟨x.1, m.pars, m.log ++ [.called f.id r v]⟩
  if f.param = .clref then pure m else m.set r x.2

/-- A call of a function by its name. -/
def direct (T : Ty V) (f : Fun V) (c : Cat) (r : Ref) (m : Mem V) : M (Mem V) := do
  let n := m.pars.length
  let x ← pass T f.param c r m
  let m ← f.run x.1 x.2
  pure (m.leave n)

/-- `std::function<void(Args...)>::operator()(Args...)`, whose target is `f`, called with the expression `args`: Signal.inl:182. -/
def callSlot (T : Ty V) (p : Param) (r : Ref) (f : Fun V) (m : Mem V) : M (Mem V) := do
  let n := m.pars.length
  let x ← pass T p (named p) r m
  let m ← direct T f (forwarded p) x.1 x.2
  pure (m.leave n)

/-- The target is the closure made by `Connect` for a member function with the parameters `Args`, Signal.inl:108-170: its parameters are `Args&&`, which it forwards. -/
def callMember (T : Ty V) (p : Param) (r : Ref) (f : Fun V) (m : Mem V) : M (Mem V) := do
  let n := m.pars.length
  let x ← pass T p (named p) r m
  let y ← pass T (collapsed p) (forwarded p) x.1 x.2
  let m ← direct T f (forwarded p) y.1 y.2
  pure (m.leave n)

def callSlots (T : Ty V) (p : Param) (r : Ref) : List (Fun V) → Mem V → M (Mem V)
  | [], m => pure m
  | f :: fs, m => do
    let m ← callSlot T p r f m
    callSlots T p r fs m

/-- `Signal::operator()(Args... args)`, Signal.inl:178-183, for the slots `fs` in the order of their calls. -/
def emission (T : Ty V) (p : Param) (c : Cat) (r : Ref) (fs : List (Fun V)) (m : Mem V) : M (Mem V) := do
  let n := m.pars.length
  let x ← pass T p c r m
  let m ← callSlots T p x.1 fs x.2
  pure (m.leave n)

/-- The function can be connected to the signal: the constructor of `std::function<void(Args...)>` asks that it can be called with `std::forward<Args>(args)`. -/
def connectable (T : Ty V) (p : Param) (f : Fun V) : Bool := binds T f.param (forwarded p)

/-- The emission compiles: the call of `operator()`, and its body (also without slots). -/
def emissionCompiles (T : Ty V) (p : Param) (c : Cat) : Bool := binds T p c && binds T p (named p)

/-- `FunctionRef<Ret(Args...)>::operator()(CallArgs&&... args)`, FunctionRef.inl:28-33, for a `FunctionRef` made from `f`: the parameters of `m_callback` are initialised with
the forwarded arguments, and forwarded to `f` (24). -/
def throughRef (T : Ty V) (p : Param) (f : Fun V) (c : Cat) (r : Ref) (m : Mem V) : M (Mem V) := do
  let n := m.pars.length
  let x ← pass T p c r m
  let m ← direct T f (forwarded p) x.1 x.2
  pure (m.leave n)

/-- A `FunctionRef` can be made from the function, and called with the argument: FunctionRef.hpp:25 and 30. -/
def refCompiles (T : Ty V) (p : Param) (f : Fun V) (c : Cat) : Bool := binds T f.param (forwarded p) && binds T p c

end Verif.Args
