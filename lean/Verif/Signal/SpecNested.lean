import Verif.Signal.Spec

/-! # Signals: what emissions inside callbacks should do (C67, C117)

Callbacks here do nothing but emit signals.  `Complete` describes, by the events they leave, emissions each of which calls every slot of its signal exactly
once, the emissions inside its callbacks included. -/

namespace Verif.Signal

/-- What remains to be done: emissions (signal and argument) one after the other, or calls of slots of the signal. -/
inductive Todo where
  | emissions (l : List (Nat × Nat))
  | calls (s arg : Nat) (ids : List Nat)

/-- `Complete a script tr todo tr'`: from the events `tr`, doing `todo` leads to the events `tr'`, with the connections of `a` and the callbacks of `script`. -/
inductive Complete (a : Abs) (script : Script) : List Event → Todo → List Event → Prop
  | nothing (tr : List Event) : Complete a script tr (.emissions []) tr
  | emission {tr tr1 tr2 : List Event} {s arg : Nat} {ids : List Nat} {rest : List (Nat × Nat)} :
      ids.Perm (a.slots s) → Complete a script (tr ++ [.emit s arg]) (.calls s arg ids) tr1 → Complete a script (tr1 ++ [.done s]) (.emissions rest) tr2 →
      Complete a script tr (.emissions ((s, arg) :: rest)) tr2
  | noMore (tr : List Event) (s arg : Nat) : Complete a script tr (.calls s arg []) tr
  | call {tr tr1 tr2 : List Event} {s arg id : Nat} {ids : List Nat} {inner : List (Nat × Nat)} :
      script (tr ++ [.call s id (a.cb id) arg]) = inner.map (fun e => .emit e.1 e.2) → Complete a script (tr ++ [.call s id (a.cb id) arg]) (.emissions inner) tr1 →
      Complete a script tr1 (.calls s arg ids) tr2 → Complete a script tr (.calls s arg (id :: ids)) tr2

/-- Callbacks that do nothing but emit signals, with no endless recursion: `size` decreases from an emission to those inside it. -/
def Script.Emits (script : Script) (a : Abs) (size : Nat → Nat → Nat) : Prop :=
  ∀ tr s id cb x, ∀ act ∈ script (tr ++ [.call s id cb x]), ∃ t y, act = .emit t y ∧ a.Live t ∧ size t y < size s x

/-- The levels of signals: callbacks emit signals of a lower level, or of the same level if the signals of that level have at most one slot. -/
def Script.Levelled (script : Script) (a : Abs) (level : Nat → Nat) : Prop :=
  ∀ tr s id cb x, ∀ act ∈ script (tr ++ [.call s id cb x]), ∀ t y, act = .emit t y → level t ≤ level s ∧ (level t = level s → (a.slots s).length ≤ 1)

end Verif.Signal
