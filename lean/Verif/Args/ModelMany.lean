import Verif.Args.Model

/-!
# Several arguments passed through `Signal`

`Signal::operator()(Args... args)`, Signal.inl:178-183, with any number of parameters.  All parameters have types that differ in references and `const` only (as in `Verif.Args.Model`, whose
rules for the initialisation of one parameter are used).  The order in which the parameters of a call are initialised is left to the compiler; here one order of the positions is used for all
calls.  Parameters live on after their call (no function keeps a reference to them).
-/

namespace Verif.Args.Many
open Verif.Args

variable {V : Type}

/-- The objects of the type: the variables of the program and the parameters, those from `next` on not yet made; and the calls of functions, with the values they got. -/
structure Mem (V : Type) where
  vars : Nat → V
  pars : Nat → V
  next : Nat
  calls : List (Nat × List V)

def Mem.get (m : Mem V) : Ref → V
  | .var n => m.vars n
  | .par j => m.pars j

def Mem.set (m : Mem V) : Ref → V → Mem V
  | .var n, v => { m with vars := fun k => if k = n then v else m.vars k }
  | .par j, v => { m with pars := fun k => if k = j then v else m.pars k }

/-- The initialisation of the parameter at position `i`, declared as `p`, with an expression of category `c` for the object at `r`. -/
structure Init where
  i : Nat
  p : Param
  c : Cat
  r : Ref

/-- A new parameter object with the value of the object at `r`, which is moved from if the expression is an rvalue. -/
def construct (T : Ty V) (c : Cat) (r : Ref) (m : Mem V) : Ref × Mem V :=
  let v := m.get r
  let m := if c = .rvalue then m.set r (T.movedFrom v) else m
  (.par m.next, { m with pars := fun k => if k = m.next then v else m.pars k, next := m.next + 1 })

/-- The initialisation of parameters one after the other; `b` tells for each position which object the parameter is or refers to. No value if the program does not compile. -/
def bindAll (T : Ty V) : List Init → (Nat → Ref) → Mem V → Option ((Nat → Ref) × Mem V)
  | [], b, m => some (b, m)
  | e :: es, b, m =>
    if binds T e.p e.c then
      if e.p = .value then
        let x := construct T e.c e.r m
        bindAll T es (fun k => if k = e.i then x.1 else b k) x.2
      else bindAll T es (fun k => if k = e.i then e.r else b k) m
    else none

/-- A function with several parameters.  It gets the variables of the program and the values of its parameters, may change all variables and then (in the order of the positions) assign to its
parameters. -/
structure Fun (V : Type) where
  id : Nat
  params : Nat → Param
  body : (Nat → V) → List V → (Nat → V) × (Nat → Option V)

/-- Assignments to the parameters at the positions `is`; a reference to a constant is not assigned to. -/
def assignAll (params : Nat → Param) (b : Nat → Ref) (w : Nat → Option V) : List Nat → Mem V → Mem V
  | [], m => m
  | i :: is, m =>
    assignAll params b w is (match w i with
      | none => m
      | some v => if params i = .clref then m else m.set (b i) v)

/-- The body of a function of `k` parameters. -/
def Fun.run (k : Nat) (f : Fun V) (b : Nat → Ref) (m : Mem V) : Mem V :=
  let vals := (List.range k).map (fun i => m.get (b i))
  let x := f.body m.vars vals
  assignAll f.params b x.2 (List.range k) { m with vars := x.1, calls := m.calls ++ [(f.id, vals)] }

/-- A signal: the number of its parameters and how they are declared; and the order of initialisation of the compiler. -/
structure Signature where
  k : Nat
  params : Nat → Param
  order : List Nat

/-- `m_slots[i]->callback(args...)`, Signal.inl:182: the parameters of `std::function<void(Args...)>::operator()` are initialised with the names `args`, those of the function with
`std::forward<Args>(args)`. -/
def callSlot (T : Ty V) (S : Signature) (held : Nat → Ref) (f : Fun V) (m : Mem V) : Option (Mem V) := do
  let (b, m) ← bindAll T (S.order.map (fun i => ⟨i, S.params i, named (S.params i), held i⟩)) held m
  let (b', m) ← bindAll T (S.order.map (fun i => ⟨i, f.params i, forwarded (S.params i), b i⟩)) b m
  some (f.run S.k b' m)

def callSlots (T : Ty V) (S : Signature) (held : Nat → Ref) : List (Fun V) → Mem V → Option (Mem V)
  | [], m => some m
  | f :: fs, m => do
    let m ← callSlot T S held f m
    callSlots T S held fs m

/-- `signal(a0, a1, ...)`, `cat i` being the category of the i-th argument and `arg i` the variable it names (or that `std::move` is applied to). -/
def emission (T : Ty V) (S : Signature) (cat : Nat → Cat) (arg : Nat → Nat) (fs : List (Fun V)) (m : Mem V) : Option (Mem V) := do
  let (held, m) ← bindAll T (S.order.map (fun i => ⟨i, S.params i, cat i, .var (arg i)⟩)) (fun i => .var (arg i)) m
  callSlots T S held fs m

/-- A call of a `FunctionRef` made from `f` with several arguments, FunctionRef.inl:28-33: the parameters of `m_callback` are initialised with the forwarded arguments, and forwarded to `f` (24). -/
def throughRef (T : Ty V) (S : Signature) (f : Fun V) (cat : Nat → Cat) (arg : Nat → Nat) (m : Mem V) : Option (Mem V) := do
  let (b, m) ← bindAll T (S.order.map (fun i => ⟨i, S.params i, cat i, .var (arg i)⟩)) (fun i => .var (arg i)) m
  let (b', m) ← bindAll T (S.order.map (fun i => ⟨i, f.params i, forwarded (S.params i), b i⟩)) b m
  some (f.run S.k b' m)

/-- For comparison, a call of the function itself (no code of the library). -/
def direct (T : Ty V) (S : Signature) (f : Fun V) (cat : Nat → Cat) (arg : Nat → Nat) (m : Mem V) : Option (Mem V) := do
  let (b, m) ← bindAll T (S.order.map (fun i => ⟨i, f.params i, cat i, .var (arg i)⟩)) (fun i => .var (arg i)) m
  some (f.run S.k b m)

end Verif.Args.Many
