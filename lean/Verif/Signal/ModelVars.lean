import Verif.Signal.Spec

/-!
# Model of programs with variables of the classes `Signal`, `Signal::Connection` and `Signal::ConnectionGuard`

The slots are those of `Model.lean`.  A connection is the value of its member `m_ptr`: `none` if it was never set or was reset, otherwise the number of a slot.  A guard is the value of its
member `m_connection`, if the guard exists.  Not modelled: `operator=(Connection&&)` of guards, which does not compile (Signal.inl:454 compares pointers of unrelated types).
-/

namespace Verif.Signal
open Verif.Cpp

/-- The variables of a program: signals (in `w`), connections, guards (`none`: there is no such guard). -/
structure Vars where
  w : World
  conn : Nat → Option Nat
  guard : Nat → Option (Option Nat)

/-- A program without any variable (connections are there from the start, default constructed, Signal.hpp:86). -/
def Vars.start : Vars := ⟨.empty, fun _ => none, fun _ => none⟩

/-- The connection of an existing guard. -/
def Vars.held (p : Vars) (g : Nat) : M (Option Nat) :=
  match p.guard g with
  | none => .error .ub
  | some c => pure c

/-- The statements of a program. -/
inductive Stmt where
  /-- a statement about signals only; for `connect` the returned connection is discarded -/
  | sig (o : Op)
  /-- `Signal s(t);` -/
  | copySignal (s t : Nat)
  /-- `s = t;` -/
  | assignSignal (s t : Nat)
  /-- `c.Connect(s, cb);` or `c = s.Connect(cb);` -/
  | connect (c s cb : Nat)
  /-- `c = d;` -/
  | copyConn (c d : Nat)
  /-- `c = std::move(d);` where `d` may be `c` -/
  | moveConn (c d : Nat)
  /-- `c.Disconnect();` -/
  | disconnect (c : Nat)
  /-- `ConnectionGuard g;` -/
  | newGuard (g : Nat)
  /-- `ConnectionGuard g(c);` -/
  | guardOf (g c : Nat)
  /-- `ConnectionGuard g(std::move(c));` -/
  | guardOfMoved (g c : Nat)
  /-- `ConnectionGuard g(std::move(h));` -/
  | guardFrom (g h : Nat)
  /-- `g.Connect(s, cb);` -/
  | guardConnect (g s cb : Nat)
  /-- `g.Disconnect();` -/
  | guardDisconnect (g : Nat)
  /-- `g = c;` -/
  | guardAssign (g c : Nat)
  /-- `g = std::move(h);` where `h` may be `g` -/
  | guardMove (g h : Nat)
  /-- `c = g.GetConnection();` -/
  | peek (c g : Nat)
  /-- `c = std::move(g.GetConnection());` -/
  | take (c g : Nat)
  /-- `g.GetConnection() = c;` -/
  | put (g c : Nat)
  /-- the end of the life of `g` -/
  | destroyGuard (g : Nat)

/-- `Signal(const Signal&)`, Signal.inl:30-34: as the default constructor. -/
def copySignal (s t : Nat) (w : World) : M World := do
  let _ ← w.sig t
  pure (newSignal s w)

/-- `operator=(const Signal&)`, Signal.inl:192-196: nothing. -/
def assignSignal (s t : Nat) (w : World) : M World := do
  let _ ← w.sig s
  let _ ← w.sig t
  pure w

/-- `Connection::operator=(Connection&&)`, Signal.inl:333-340, and the move constructor, 273-278: `m_ptr` is moved (for `c = d`, a self-move of `std::weak_ptr`, which keeps the pointer or not),
then the source is reset, also if it is the target. -/
def moveConn (c d : Nat) (conn : Nat → Option Nat) : Nat → Option Nat :=
  update (update conn c (conn d)) d none

/-- The statements: for guards, Signal.inl:354-480; for connections, 287-340. -/
def Stmt.run : Stmt → Vars → M Vars
  | .sig o, p => do let w ← o.run p.w; pure ⟨w, p.conn, p.guard⟩
  | .copySignal s t, p => do let w ← Signal.copySignal s t p.w; pure ⟨w, p.conn, p.guard⟩
  | .assignSignal s t, p => do let w ← Signal.assignSignal s t p.w; pure ⟨w, p.conn, p.guard⟩
  | .connect c s cb, p => do let r ← Signal.connect s cb p.w; pure ⟨r.1, update p.conn c (some r.2), p.guard⟩
  | .copyConn c d, p => pure ⟨p.w, update p.conn c (p.conn d), p.guard⟩
  | .moveConn c d, p => pure ⟨p.w, Signal.moveConn c d p.conn, p.guard⟩
  | .disconnect c, p => do let w ← Signal.disconnect (p.conn c) p.w; pure ⟨w, p.conn, p.guard⟩
  | .newGuard g, p => pure ⟨p.w, p.conn, update p.guard g (some none)⟩
  | .guardOf g c, p => pure ⟨p.w, p.conn, update p.guard g (some (p.conn c))⟩
  | .guardOfMoved g c, p => pure ⟨p.w, update p.conn c none, update p.guard g (some (p.conn c))⟩
  | .guardFrom g h, p => do
    let x ← p.held h
    let r := guardMoveConstruct x
    pure ⟨p.w, p.conn, update (update p.guard h (some r.2)) g (some r.1)⟩
  | .guardConnect g s cb, p => do
    let x ← p.held g
    let r ← Signal.guardConnect x s cb p.w
    pure ⟨r.1, p.conn, update p.guard g (some r.2)⟩
  | .guardDisconnect g, p => do
    let x ← p.held g
    let w ← Signal.guardDisconnect x p.w
    pure ⟨w, p.conn, p.guard⟩
  | .guardAssign g c, p => do
    let x ← p.held g
    let r ← Signal.guardAssign x (p.conn c) p.w
    pure ⟨r.1, p.conn, update p.guard g (some r.2)⟩
  | .guardMove g h, p => do
    let x ← p.held g
    let y ← p.held h
    if g = h then pure p
    else do
      let r ← guardMoveAssign x y p.w
      pure ⟨r.1, p.conn, update (update p.guard g (some r.2.1)) h (some r.2.2)⟩
  | .peek c g, p => do
    let x ← p.held g
    pure ⟨p.w, update p.conn c x, p.guard⟩
  | .take c g, p => do
    let x ← p.held g
    pure ⟨p.w, update p.conn c x, update p.guard g (some none)⟩
  | .put g c, p => do
    let _ ← p.held g
    pure ⟨p.w, p.conn, update p.guard g (some (p.conn c))⟩
  | .destroyGuard g, p => do
    let x ← p.held g
    let w ← Signal.guardDisconnect x p.w
    pure ⟨w, p.conn, update p.guard g none⟩

end Verif.Signal
