import Verif.Cpp

/-!
# Model of `CallOnExit` (CallOnExit.hpp, CallOnExit.inl)

A functor is an abstract value; calls are recorded in a log.  Functors that use guards are modelled in
`ModelNested.lean`.
-/

namespace Verif.CallOnExit

/-- What matters of the functor type: the state a move leaves behind, and whether the `n`-th call
(counted from 0) of a functor throws. -/
structure Functors (F : Type) where
  movedFrom : F → F
  throws : F → Nat → Bool

structure St (F : Type) where
  /-- existing objects and their `m_functor` (`std::optional<F>`, CallOnExit.hpp:32) -/
  objs : Nat → Option (Option F)
  /-- the calls so far -/
  calls : List F
  /-- an exception left a destructor -/
  terminated : Bool

variable {F : Type}

def St.init : St F := ⟨fun _ => none, [], false⟩

def St.set (s : St F) (i : Nat) (o : Option (Option F)) : St F := { s with objs := fun k => if k = i then o else s.objs k }

/-- `(*m_functor)()`: recorded; the result says whether it threw. -/
def St.call [DecidableEq F] (fs : Functors F) (s : St F) (f : F) : St F × Bool :=
  ({ s with calls := s.calls ++ [f] }, fs.throws f (s.calls.count f))

inductive Op (F : Type) where
  | create (i : Nat) (f : F)
  | createEmpty (i : Nat)
  | callAndReset (i : Nat)
  | reset (i : Nat)
  | moveAssign (i j : Nat)
  | destroy (i : Nat)
  deriving DecidableEq

/-- `CallAndReset` (CallOnExit.inl:38-45): the functor is reset only if the call returns. -/
def callAndReset [DecidableEq F] (fs : Functors F) (s : St F) (i : Nat) (functor : Option F) : St F :=
  match functor with
  | some f =>
    let (s, threw) := s.call fs f
    if threw then s else s.set i (some none)
  | none => s.set i (some none)

/-- Destructor (CallOnExit.inl:26-31); destructors are `noexcept`. -/
def destroy [DecidableEq F] (fs : Functors F) (s : St F) (i : Nat) (functor : Option F) : St F :=
  match functor with
  | some f =>
    let (s, threw) := s.call fs f
    if threw then { s with terminated := true } else s.set i none
  | none => s.set i none

/-- Move assignment (defaulted, CallOnExit.hpp:29) of different objects: assigns the `std::optional`, whose
source keeps a moved-from functor. -/
def moveAssign (fs : Functors F) (s : St F) (i j : Nat) (source : Option F) : St F :=
  match source with
  | some f => (s.set i (some (some f))).set j (some (some (fs.movedFrom f)))
  | none => s.set i (some none)

/-- One operation; a move assignment of an object to itself assigns the functor to itself, which is taken to leave it as it was;
impossible ones (missing objects, objects that exist already, after the end of the program) do nothing. -/
def step [DecidableEq F] (fs : Functors F) (s : St F) (op : Op F) : St F :=
  if s.terminated then s else
  match op with
  | .create i f => if s.objs i = none then s.set i (some (some f)) else s -- CallOnExit.inl:17-21
  | .createEmpty i => if s.objs i = none then s.set i (some none) else s -- CallOnExit.hpp:19
  | .callAndReset i => match s.objs i with
    | some o => callAndReset fs s i o
    | none => s
  | .reset i => match s.objs i with
    | some _ => s.set i (some none) -- CallOnExit.inl:52-56
    | none => s
  | .moveAssign i j => match s.objs i, s.objs j with
    | some _, some o => if i = j then s else moveAssign fs s i j o
    | _, _ => s
  | .destroy i => match s.objs i with
    | some o => destroy fs s i o
    | none => s

def runFrom [DecidableEq F] (fs : Functors F) (s : St F) (ops : List (Op F)) : St F := ops.foldl (step fs) s

def run [DecidableEq F] (fs : Functors F) (ops : List (Op F)) : St F := runFrom fs St.init ops

end Verif.CallOnExit
