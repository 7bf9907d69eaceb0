import Verif.Signal.ModelVars

/-!
# Specification of programs with variables of the classes `Signal`, `Connection` and `ConnectionGuard`

A connection or guard *names* a slot, or none.  A statement *ends* a slot (disconnects it) or *begins* one (connects it).
-/

namespace Verif.Signal
open Verif.Cpp

/-- What the variables mean: which slots are connected to which signal, which slot a connection or an existing guard names, and the slots that guards have to disconnect: those connected by
`ConnectionGuard::Connect`, unless the program takes the connection out of the guard. -/
structure VAbs where
  abs : Abs
  conn : Nat → Option Nat
  guard : Nat → Option (Option Nat)
  owned : List Nat

def VAbs.start : VAbs := ⟨.empty, fun _ => none, fun _ => none, []⟩

/-- The slot that guard `g` names. -/
def VAbs.names (A : VAbs) (g : Nat) : Option Nat := (A.guard g).join

/-- The statements that are allowed: on variables that are there, signals not left hollow by a move; a new variable has a new name.  A program disconnects slots by its connections and guards. -/
def Stmt.ok : Stmt → VAbs → Prop
  | .sig o, A => o.ok A.abs ∧ ∀ id, o ≠ .disconnect id
  | .copySignal s t, A => A.abs.conn s = .absent ∧ A.abs.conn t ≠ .absent
  | .assignSignal s t, A => A.abs.conn s ≠ .absent ∧ A.abs.conn t ≠ .absent
  | .connect _ s _, A => A.abs.Live s
  | .copyConn _ _, _ => True
  | .moveConn _ _, _ => True
  | .disconnect _, _ => True
  | .newGuard g, A => A.guard g = none
  | .guardOf g _, A => A.guard g = none
  | .guardOfMoved g _, A => A.guard g = none
  | .guardFrom g h, A => A.guard g = none ∧ A.guard h ≠ none
  | .guardConnect g s _, A => A.guard g ≠ none ∧ A.abs.Live s
  | .guardDisconnect g, A => A.guard g ≠ none
  | .guardAssign g _, A => A.guard g ≠ none
  | .guardMove g h, A => A.guard g ≠ none ∧ A.guard h ≠ none
  | .peek _ g, A => A.guard g ≠ none
  | .take _ g, A => A.guard g ≠ none
  | .put g _, A => A.guard g ≠ none
  | .destroyGuard g, A => A.guard g ≠ none

/-- Disconnect the slot that is named, if any. -/
def Abs.off (a : Abs) : Option Nat → Abs
  | none => a
  | some id => a.disconnect id

/-- The meaning of the statements; an emission has the effect of the events `es` that happen in it. -/
def Stmt.spec (es : List Event) : Stmt → VAbs → VAbs
  | .sig o, A => { A with abs := o.spec es A.abs }
  | .copySignal s _, A => { A with abs := A.abs.create s }
  | .assignSignal _ _, A => A
  | .connect c s cb, A => { A with abs := A.abs.connect s cb, conn := update A.conn c (some A.abs.next) }
  | .copyConn c d, A => { A with conn := update A.conn c (A.conn d) }
  | .moveConn c d, A => { A with conn := fun x => if x = d then none else if x = c then A.conn d else A.conn x }
  | .disconnect c, A => { A with abs := A.abs.off (A.conn c) }
  | .newGuard g, A => { A with guard := update A.guard g (some none) }
  | .guardOf g c, A => { A with guard := update A.guard g (some (A.conn c)) }
  | .guardOfMoved g c, A => { A with conn := update A.conn c none, guard := update A.guard g (some (A.conn c)) }
  | .guardFrom g h, A => { A with guard := fun x => if x = g then some (A.names h) else if x = h then some none else A.guard x }
  | .guardConnect g s cb, A =>
    { abs := (A.abs.off (A.names g)).connect s cb, conn := A.conn, guard := update A.guard g (some (some A.abs.next)), owned := A.abs.next :: A.owned }
  | .guardDisconnect g, A => { A with abs := A.abs.off (A.names g) }
  | .guardAssign g c, A => { A with abs := A.abs.off (A.names g), guard := update A.guard g (some (A.conn c)) }
  | .guardMove g h, A =>
    if g = h then A
    else { A with abs := A.abs.off (A.names g), guard := fun x => if x = g then some (A.names h) else if x = h then some none else A.guard x }
  | .peek c g, A => { A with conn := update A.conn c (A.names g) }
  | .take c g, A =>
    { A with conn := update A.conn c (A.names g), guard := update A.guard g (some none), owned := A.owned.filter (fun id => some id ≠ A.names g) }
  | .put g c, A => { A with guard := update A.guard g (some (A.conn c)), owned := A.owned.filter (fun id => some id ≠ A.names g) }
  | .destroyGuard g, A => { A with abs := A.abs.off (A.names g), guard := update A.guard g none }

/-- `p` is a state that a program can reach by allowed statements, each of which ended; `A` says what the variables mean. -/
inductive VReached : Vars → VAbs → Prop
  | start : VReached .start .start
  | step {p A p'} (o : Stmt) (es : List Event) (h : VReached p A) (hok : o.ok A) (hrun : o.run p = .ok p') (hes : p'.w.trace = p.w.trace ++ es) : VReached p' (o.spec es A)

/-- Statement `o` is no emission. -/
def Stmt.NoEmission (o : Stmt) : Prop := (∀ sc f s x, o ≠ .sig (.emit sc f s x)) ∧ ∀ sc f s x, o ≠ .sig (.emitX sc f s x)

/-- The statements (no emissions) that disconnect slot `id`, if it is connected: `Disconnect` of a connection or guard that names it; the destruction, or an assignment from elsewhere, or a `Connect`,
of a guard that names it; `Clear`, destruction or move assignment of the signal it is connected to. -/
def Stmt.Ends (A : VAbs) (id : Nat) : Stmt → Prop
  | .disconnect c => A.conn c = some id
  | .guardDisconnect g => A.guard g = some (some id)
  | .destroyGuard g => A.guard g = some (some id)
  | .guardConnect g _ _ => A.guard g = some (some id)
  | .guardAssign g _ => A.guard g = some (some id)
  | .guardMove g h => g ≠ h ∧ A.guard g = some (some id)
  | .sig (.clear s) => id ∈ A.abs.slots s
  | .sig (.destroy s) => id ∈ A.abs.slots s
  | .sig (.moveAssign s _) => id ∈ A.abs.slots s
  | _ => False

/-- The statements that connect a slot. -/
def Stmt.Begins : Stmt → Prop
  | .connect _ _ _ => True
  | .guardConnect _ _ _ => True
  | .sig (.connect _ _) => True
  | _ => False

end Verif.Signal
