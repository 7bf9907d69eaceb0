import Verif.Signal.Spec

/-!
# Model of objects that connect their member functions

An object listens to signals through its member functions (`Connect(object, &Class::method)`) and holds the guards of these connections as members
(`NazaraSlot`, Signal.hpp:22-23).  Objects and signals may be created and destroyed at any time by the program; objects also by the member functions that are called.

Objects are at the addresses 0, 1, ...; a program asks whether there is an object or a signal before it uses it (`std::optional`, `std::unique_ptr`).  The
callback of a slot is the address of the object, the member function is the same for all slots of an object.
-/

namespace Verif.Signal
open Verif.Cpp

/-- What a program and the member functions of its objects do. -/
inductive Act where
  /-- `objects[o].emplace()`, an object with `n` guards -/
  | create (o n : Nat)
  /-- `objects[o].reset()` -/
  | destroy (o : Nat)
  /-- guard `k` of object `o` `.Connect(signal s, o, &Class::method)` -/
  | connect (o k s : Nat)
  /-- guard `k` of object `o` `.Disconnect()` -/
  | disconnect (o k : Nat)
  | newSignal (s : Nat)
  | clear (s : Nat)
  | emit (s arg : Nat)
  deriving DecidableEq

/-- What happens: an act is about to be done, or the member function of object `o` is called by signal `s`. -/
inductive Happening where
  | act (x : Act)
  | call (s o arg : Nat)
  deriving DecidableEq

/-- The signals, the objects with their guards, and the log of what has happened (which is not part of the code). -/
structure Prog where
  world : World
  objs : Nat → Option (List (Option Nat))
  log : List Happening

def Prog.empty : Prog := ⟨.empty, fun _ => none, []⟩

def Prog.record (p : Prog) (e : Happening) : Prog := ⟨p.world, p.objs, p.log ++ [e]⟩

/-- What the member function does that was called last. -/
abbrev Methods := List Happening → List Act

/-- The destructors of the guards, Signal.inl:375-379, the last member first. -/
def destroyGuards : List (Option Nat) → World → M World
  | [], w => pure w
  | c :: cs, w => do
    let w ← destroyGuards cs w
    guardDisconnect c w

/-- The destructor of an object, if there is one at `o`. -/
def destroyObj (o : Nat) (p : Prog) : M Prog :=
  match p.objs o with
  | none => pure p
  | some gs => do
    let w ← destroyGuards gs p.world
    pure ⟨w, update p.objs o none, p.log⟩

/-- `ConnectionGuard::Connect` of a guard of object `o`, Signal.inl:388-394, with the overloads of `Signal::Connect` for member functions, Signal.inl:108-170:
the callback refers to the object at `o`. -/
def connectObj (o k s : Nat) (p : Prog) : M Prog :=
  match p.objs o with
  | none => pure p
  | some gs =>
    match gs[k]? with
    | none => pure p
    | some c => do
      let r ← guardConnect c s o p.world
      pure ⟨r.1, update p.objs o (some (gs.set k r.2)), p.log⟩

/-- `ConnectionGuard::Disconnect` of a guard of object `o`, Signal.inl:400-404. -/
def disconnectObj (o k : Nat) (p : Prog) : M Prog :=
  match p.objs o with
  | none => pure p
  | some gs =>
    match gs[k]? with
    | none => pure p
    | some c => do
      let w ← guardDisconnect c p.world
      pure ⟨w, p.objs, p.log⟩

/-- One act, `em` being the emission of a signal. -/
def Act.run (em : Nat → Nat → Prog → M Prog) : Act → Prog → M Prog
  | .create o n, p => do
    let p ← destroyObj o p
    pure ⟨p.world, update p.objs o (some (List.replicate n none)), p.log⟩
  | .destroy o, p => destroyObj o p
  | .connect o k s, p => if (p.world.sigs s).isSome then connectObj o k s p else pure p
  | .disconnect o k, p => disconnectObj o k p
  | .newSignal s, p => if (p.world.sigs s).isSome then pure p else pure ⟨Signal.newSignal s p.world, p.objs, p.log⟩
  | .clear s, p =>
    if (p.world.sigs s).isSome then do
      let w ← Signal.clear s p.world
      pure ⟨w, p.objs, p.log⟩
    else pure p
  | .emit s arg, p => if (p.world.sigs s).isSome then em s arg p else pure p

def runActs (em : Nat → Nat → Prog → M Prog) : List Act → Prog → M Prog
  | [], p => pure p
  | x :: xs, p => do
    let p ← x.run em (p.record (.act x))
    runActs em xs p

/-- The loop of `operator()`, Signal.inl:181-182, with the call `(object .* method) (...)` of the callback, Signal.inl:113, 130, 147, 164: it is
undefined if there is no object. -/
def emitLoopObj (methods : Methods) : Nat → Nat → Nat → Prog → M Prog
  | 0, _, _, _ => .error .diverge
  | fuel + 1, s, arg, p => do
    let c ← currentSlot s p.world
    match c with
    | none => pure p
    | some (_, slot) => do
      guardUB (p.objs slot.callback).isSome
      let p := p.record (.call s slot.callback arg)
      let p ← runActs (fun s arg p => do
        let w ← setIter s (fun _ => some 0) p.world
        emitLoopObj methods fuel s arg ⟨w, p.objs, p.log⟩) (methods p.log) p
      let w ← setIter s iterInc p.world
      emitLoopObj methods fuel s arg ⟨w, p.objs, p.log⟩

/-- `operator()`, Signal.inl:178-183. -/
def emitObj (methods : Methods) (fuel s arg : Nat) (p : Prog) : M Prog := do
  let w ← setIter s (fun _ => some 0) p.world
  emitLoopObj methods fuel s arg ⟨w, p.objs, p.log⟩

/-- What the program does outside of emissions: acts, and `signals[s].reset()`. -/
inductive Step where
  | act (x : Act)
  | destroySignal (s : Nat)

def Step.run (methods : Methods) (fuel : Nat) : Step → Prog → M Prog
  | .act x, p => x.run (emitObj methods fuel) (p.record (.act x))
  | .destroySignal s, p =>
    if (p.world.sigs s).isSome then do
      let w ← Signal.destroySignal s p.world
      pure ⟨w, p.objs, p.log⟩
    else pure p

def runSteps (methods : Methods) (fuel : Nat) : List Step → Prog → M Prog
  | [], p => pure p
  | x :: xs, p => do
    let p ← x.run methods fuel p
    runSteps methods fuel xs p

/-- `Connect(object, &Class::method)` whose result is not kept in a guard, Signal.inl:108-170. -/
def connectPlain (o s : Nat) (p : Prog) : M Prog := do
  let r ← Signal.connect s o p.world
  pure ⟨r.1, p.objs, p.log⟩

/-- The move constructor of an object with guards (generated by the compiler), Signal.hpp:117 and Signal.inl:273-278: the new object at `o'` gets the connections. -/
def moveObj (o o' : Nat) (p : Prog) : M Prog :=
  match p.objs o with
  | none => .error .ub
  | some gs => pure ⟨p.world, update (update p.objs o' (some (gs.map (fun c => (guardMoveConstruct c).1)))) o (some (gs.map (fun c => (guardMoveConstruct c).2))), p.log⟩

/-! ## Specification -/

/-- There is an object at `o` after what the log tells. -/
def exists_ (o : Nat) (log : List Happening) : Bool :=
  log.foldl (fun b e => match e with
    | .act (.create i _) => if i = o then true else b
    | .act (.destroy i) => if i = o then false else b
    | _ => b) false

/-- Only objects that exist are called. -/
def CallsExisting (log : List Happening) : Prop := ∀ before s o arg after, log = before ++ .call s o arg :: after → exists_ o before = true

end Verif.Signal
