import Verif.Cpp

/-!
# Model of `CallOnExit` (CallOnExit.hpp, CallOnExit.inl) with functors that use guards

Guard `i` was made with functor number `i`; guards are not moved and functors do not throw here (see `Model.lean` for these).  The
body of a functor is a list of calls on guards, which it reaches through its captures.
-/

namespace Verif.CallOnExit.Nested
open Verif.Cpp

/-- A call on guard `i`. -/
inductive Act where
  | callAndReset (i : Nat)
  | reset (i : Nat)
  | destroy (i : Nat)
  deriving DecidableEq

/-- What happens: functor `i` is called; the functor of guard `i` is given up without having been called (`Reset`). -/
inductive Ev where
  | called (i : Nat)
  | disarmed (i : Nat)
  deriving DecidableEq

structure St where
  /-- guard `i` exists -/
  alive : Nat → Bool
  /-- its `m_functor` (CallOnExit.hpp:32) has a value -/
  armed : Nat → Bool
  log : List Ev

def setAt (f : Nat → Bool) (i : Nat) (x : Bool) : Nat → Bool := fun k => if k = i then x else f k

/-- The body of the functor of guard `i`, a part of that guard's `m_functor`: going on after the functor was destroyed is undefined, as
the captures are used.  `f` executes a call. -/
def runBody (f : Act → St → M St) (i : Nat) : List Act → St → M St
  | [], s => .ok s
  | a :: as, s => if s.armed i then f a s >>= runBody f i as else .error .ub

/-- `if (m_functor) (*m_functor)();`, CallOnExit.inl:29-30 and 41-42; the guard is used again afterwards. -/
def invoke (f : Act → St → M St) (body : Nat → List Act) (i : Nat) (s : St) : M St :=
  if s.armed i then do
    let s ← runBody f i (body i) { s with log := s.log ++ [.called i] }
    if s.alive i then .ok s else .error .ub
  else .ok s

/-- A call, with a bound on the depth of nested calls: `diverge` when it is exceeded. -/
def exec (body : Nat → List Act) : Nat → Act → St → M St
  | 0, _, _ => .error .diverge
  | n + 1, .callAndReset i, s => -- CallOnExit.inl:38-45
    if s.alive i then do
      let s ← invoke (exec body n) body i s
      .ok { s with armed := setAt s.armed i false }
    else .error .ub
  | _ + 1, .reset i, s => -- CallOnExit.inl:52-56
    if s.alive i then
      .ok { s with armed := setAt s.armed i false, log := if s.armed i then s.log ++ [.disarmed i] else s.log }
    else .error .ub
  | n + 1, .destroy i, s => -- CallOnExit.inl:26-31
    if s.alive i then do
      let s ← invoke (exec body n) body i s
      .ok { s with alive := setAt s.alive i false, armed := setAt s.armed i false }
    else .error .ub

def execAll (body : Nat → List Act) (fuel : Nat) : List Act → St → M St
  | [], s => .ok s
  | a :: as, s => exec body fuel a s >>= execAll body fuel as

/-- `n` guards were declared (CallOnExit.inl:17-21), guard 0 first. -/
def declared (n : Nat) : St := ⟨fun i => decide (i < n), fun i => decide (i < n), []⟩

/-- The end of the scope: destructors run in the reverse order of declaration. -/
def leave : Nat → List Act
  | 0 => []
  | n + 1 => .destroy n :: leave n

/-- A scope that declares `n` guards, uses them, and ends. -/
def scope (body : Nat → List Act) (fuel n : Nat) (acts : List Act) : M St := execAll body fuel (acts ++ leave n) (declared n)

end Verif.CallOnExit.Nested
