import Verif.Signal.Model

/-!
# Specification of signals

The meaning of a history of events: which slots are connected to which signal.  The slots are numbered in the order of the calls of `Connect`.
-/

namespace Verif.Signal
open Verif.Cpp

/-- A signal is not there, or was left without meaningful contents by a move from it, or has a list of connected slots. -/
inductive Status where
  | absent
  | hollow
  | live (l : List Nat)
  deriving DecidableEq

/-- What is connected to what: for each signal, its slots in the order of their connection, and whether it has had two slots at once (or got its slots from such a signal);
for each slot, its callback; the number of slots so far. -/
structure Abs where
  conn : Nat → Status
  grown : Nat → Bool
  cb : Nat → Nat
  next : Nat

/-- The slots connected to signal `s`. -/
def Abs.slots (a : Abs) (s : Nat) : List Nat :=
  match a.conn s with
  | .live l => l
  | _ => []

def Abs.Live (a : Abs) (s : Nat) : Prop := ∃ l, a.conn s = .live l

/-- Slot `id` is connected to some signal. -/
def Abs.Connected (a : Abs) (id : Nat) : Prop := ∃ s, id ∈ a.slots s

def Status.map (f : List Nat → List Nat) : Status → Status
  | .live l => .live (f l)
  | x => x

namespace Abs

/-- No signals. -/
def empty : Abs := ⟨fun _ => .absent, fun _ => false, fun _ => 0, 0⟩

def create (a : Abs) (s : Nat) : Abs := ⟨update a.conn s (.live []), update a.grown s false, a.cb, a.next⟩
def destroy (a : Abs) (s : Nat) : Abs := ⟨update a.conn s .absent, a.grown, a.cb, a.next⟩
def clear (a : Abs) (s : Nat) : Abs := ⟨update a.conn s (.live []), a.grown, a.cb, a.next⟩
def connect (a : Abs) (s cb : Nat) : Abs :=
  ⟨update a.conn s (.live (a.slots s ++ [a.next])), update a.grown s (a.grown s || decide (1 ≤ (a.slots s).length)), update a.cb a.next cb, a.next + 1⟩
def disconnect (a : Abs) (id : Nat) : Abs := ⟨fun s => (a.conn s).map (·.filter (· ≠ id)), a.grown, a.cb, a.next⟩

/-- All slots of signal `t` go over to signal `s`, whose own slots are disconnected.  If `t` has never had two slots, and has one, it is left without
meaningful contents. -/
def move (a : Abs) (s t : Nat) : Abs :=
  ⟨update (update a.conn s (.live (a.slots t))) t (if a.grown t = false ∧ a.slots t ≠ [] then .hollow else .live []),
   update a.grown s (a.grown s || a.grown t), a.cb, a.next⟩

/-- The effect of an event. -/
def event (a : Abs) : Event → Abs
  | .connect s _ cb => a.connect s cb
  | .disconnect id => a.disconnect id
  | .clear s => a.clear s
  | .emit _ _ => a
  | .call _ _ _ _ => a
  | .done _ => a

/-- The effect of a list of events, the first event being the first to happen. -/
def events (a : Abs) (es : List Event) : Abs := es.foldl event a

end Abs

/-- The events of a program make sense: new slots are numbered in order, and only a connected slot is called, with its callback, for the signal to which it
is connected. -/
def Valid : Abs → List Event → Prop
  | _, [] => True
  | a, e :: es =>
    (match e with
      | .connect s id _ => a.Live s ∧ id = a.next
      | .call s id cb _ => id ∈ a.slots s ∧ cb = a.cb id
      | _ => True) ∧ Valid (a.event e) es

/-- The actions that are allowed in callbacks: on signals that are there and not left hollow. -/
def Action.ok (a : Abs) : Action → Prop
  | .connect s _ => a.Live s
  | .disconnect _ => True
  | .clear s => a.Live s
  | .emit s _ => a.Live s

/-- Callbacks only use signals that are there. -/
def Script.Ok (script : Script) (a : Abs) : Prop := ∀ tr, ∀ x ∈ script tr, x.ok a

/-- The same for callbacks that may throw. -/
def ActionX.ok (a : Abs) : ActionX → Prop
  | .act x => x.ok a
  | .tryEmit s _ => a.Live s
  | .throw => True

def ScriptX.Ok (script : ScriptX) (a : Abs) : Prop := ∀ tr, ∀ x ∈ script tr, x.ok a

/-- Calls of a program outside emissions. -/
inductive Op where
  | create (s : Nat)
  | destroy (s : Nat)
  | connect (s cb : Nat)
  | disconnect (id : Nat)
  | clear (s : Nat)
  | emit (script : Script) (fuel s arg : Nat)
  /-- an emission whose callbacks may throw; the caller catches the exception -/
  | emitX (script : ScriptX) (fuel s arg : Nat)
  | moveConstruct (s t : Nat)
  | moveAssign (s t : Nat)

/-- The calls of the model. -/
def Op.run : Op → World → M World
  | .create s, w => pure (newSignal s w)
  | .destroy s, w => destroySignal s w
  | .connect s cb, w => do let r ← Signal.connect s cb w; pure r.1
  | .disconnect id, w => Signal.disconnect (some id) w
  | .clear s, w => Signal.clear s w
  | .emit script fuel s arg, w => Signal.emit script fuel s arg w
  | .emitX script fuel s arg, w => do let r ← Signal.emitX script fuel s arg w; pure r.1
  | .moveConstruct s t, w => Signal.moveConstruct s t w
  | .moveAssign s t, w => Signal.moveAssign s t w

/-- The meaning of the calls.  An emission has the effect of the events `es` that happen in it. -/
def Op.spec (es : List Event) : Op → Abs → Abs
  | .create s, a => a.create s
  | .destroy s, a => a.destroy s
  | .connect s cb, a => a.connect s cb
  | .disconnect id, a => a.disconnect id
  | .clear s, a => a.clear s
  | .emit _ _ _ _, a => a.events es
  | .emitX _ _ _ _, a => a.events es
  | .moveConstruct s t, a => (a.create s).move s t
  | .moveAssign s t, a => a.move s t

/-- The calls that are allowed.  (Why not others: `C43_...violated`.) -/
def Op.ok : Op → Abs → Prop
  | .create s, a => a.conn s = .absent
  | .destroy s, a => a.conn s ≠ .absent
  | .connect s _, a => a.Live s
  | .disconnect _, _ => True
  | .clear s, a => a.conn s ≠ .absent
  | .emit script _ s _, a => a.Live s ∧ script.Ok a
  | .emitX script _ s _, a => a.Live s ∧ script.Ok a
  | .moveConstruct s t, a => a.conn s = .absent ∧ a.Live t
  | .moveAssign s t, a =>
    s ≠ t ∧ a.conn s ≠ .absent ∧ a.Live t ∧ (a.grown t = true → a.grown s = true ∨ a.slots s = []) ∧ (a.grown s = true → a.grown t = true ∨ a.slots t = [])

/-- `w` is a world that a program can reach by allowed calls, each of which ended, by an exception of a callback or not; `a` says what is connected. -/
inductive Reached : World → Abs → Prop
  | empty : Reached .empty .empty
  | step {w a w'} (o : Op) (es : List Event) (h : Reached w a) (hok : o.ok a) (hrun : o.run w = .ok w') (hes : w'.trace = w.trace ++ es) :
    Reached w' (o.spec es a)

/-- The callbacks that do nothing to signals. -/
def passive : Script := fun _ => []

/-- The callbacks do nothing but disconnect slots. -/
def Script.OnlyDisconnects (script : Script) : Prop := ∀ tr, ∀ x ∈ script tr, ∃ id, x = .disconnect id

/-- Each callback connects slots and then disconnects slots. -/
def Script.ConnectsFirst (script : Script) : Prop :=
  ∀ tr, ∃ xs ys, script tr = xs ++ ys ∧ (∀ x ∈ xs, ∃ s cb, x = .connect s cb) ∧ ∀ y ∈ ys, ∃ id, y = .disconnect id

/-- The slots called for signal `s`, in order. -/
def calls (s : Nat) (es : List Event) : List Nat :=
  es.filterMap (fun e => match e with
    | .call t id _ _ => if t = s then some id else none
    | _ => none)

end Verif.Signal
