import Verif.StackVector.Props

/-!
# Model of the macros `NazaraStackVector`, `NazaraStackArray`, `NazaraStackArrayNoInit` and `NAZARA_ALLOCA`

The macros paste their size argument, an expression, at several places.  An expression is a function of the state of the
program: it gives the state after its evaluation and its value, an integer of a type of at most 64 bits.  `size_t` has 64 bits.
-/

namespace Verif.StackAlloc
open Verif.Cpp
open Verif.FixedVector (St Arg)

/-- The definitions of `NAZARA_ALLOCA` (and its absence). -/
inductive Platform where
  /-- MemoryHelper.hpp:12-18 -/
  | windows
  /-- MemoryHelper.hpp:20-30 -/
  | gnu
  /-- neither: StackVector.hpp:15-17.  (In that case `NazaraStackArray` does not compile: StackArray.hpp:17-18 name functions
  `Nz::OperatorNew` that do not exist.) -/
  | other
  deriving DecidableEq

/-- An integral expression: the state after its evaluation, and its value. -/
abbrev Expr (S : Type) := S → S × Int

/-- Conversion to `std::size_t`. -/
def toSize (v : Int) : Nat := (v % 2 ^ 64).toNat

/-- `(capacity) * sizeof(T)`, StackVector.hpp:14, 16, StackArray.hpp:14, 15: a product of type `size_t`. -/
def product {S : Type} (e : Expr S) (elem : Nat) : S → S × Nat := fun s =>
  let (s, v) := e s
  (s, toSize v * elem % 2 ^ 64)

/-- `NAZARA_ALLOCA(size)`, MemoryHelper.hpp:17 and 29, for the expression `product e elem`; `operator new(size)`, StackVector.hpp:16, on other
platforms.  The result is the number of bytes asked for; the memory obtained is taken to be that large. -/
def nazaraAlloca {S : Type} (p : Platform) (e : Expr S) (elem : Nat) : S → S × Nat := fun s =>
  match p with
  | .gnu =>
    let (s, n) := product e elem s
    if n > 0 then product e elem s else (s, 1)
  | .windows => product e elem s
  | .other => product e elem s

/-- The arguments of the constructor: the number of bytes behind `stackMemory`, and `capacity` (`size`). -/
structure Args where
  bytes : Nat
  capacity : Nat
  deriving DecidableEq

/-- The arguments of the constructor in `NazaraStackVector(T, e)`, StackVector.hpp:14, 16 (`NazaraStackArray`,
`NazaraStackArrayNoInit`, StackArray.hpp:14-15).  The order in which the two arguments are evaluated is unspecified: `memoryFirst`. -/
def arguments {S : Type} (p : Platform) (memoryFirst : Bool) (e : Expr S) (elem : Nat) : S → S × Args := fun s =>
  if memoryFirst then
    let (s, b) := nazaraAlloca p e elem s
    let (s, v) := e s
    (s, ⟨b, toSize v⟩)
  else
    let (s, v) := e s
    let (s, b) := nazaraAlloca p e elem s
    (s, ⟨b, toSize v⟩)

/-- The slots of the buffer for whole elements of `elem` bytes. -/
def Args.slots (a : Args) (elem : Nat) : Nat := a.bytes / elem

/-- `NazaraStackVector(T, e)`: the vector and its capacity. -/
def stackVector {S α : Type} (p : Platform) (memoryFirst : Bool) (e : Expr S) (elem : Nat) (s : S) : S × St α × Nat :=
  let (s, a) := arguments p memoryFirst e elem s
  (s, StackVector.new (a.slots elem), a.capacity)

/-- `NazaraStackArray(T, e)`: the array, or the failure of its constructor. -/
def stackArray {S α : Type} (p : Platform) (memoryFirst : Bool) (e : Expr S) (elem : Nat) (dflt : α) (s : S) : S × Out (St α) Unit :=
  let (s, a) := arguments p memoryFirst e elem s
  (s, StackVector.Arr.construct a.capacity dflt (StackVector.Arr.raw (a.slots elem)))

/-! ## How long the memory lives

`alloca` takes memory from the frame of the function that calls it; it is given back when that function returns, not when a
block ends. -/

/-- The buffers of a frame: their identity and size in bytes. -/
abbrev Frame := List (Nat × Nat)

/-- A running program: the frames of the active functions, the innermost first (the last is that of `main`), the number of
buffers made so far, and the buffer of each stack vector or array (`none`: no object of that name). -/
structure World where
  frames : List Frame
  made : Nat
  vars : Nat → Option Nat

/-- Steps of a program. -/
inductive Step where
  /-- a function is called -/
  | enter
  /-- the innermost function returns -/
  | leave
  /-- `auto v = NazaraStackVector(T, n)`, asking for that many bytes -/
  | make (v bytes : Nat)
  /-- the scope of `v` ends -/
  | drop (v : Nat)
  /-- `v = std::move(w)`, StackVector.inl (defaulted move operations of StackVector.hpp, StackArray.hpp): `v` gets the buffer of `w`; also how
  a vector is returned from a function into a variable of its caller -/
  | move (v w : Nat)
  /-- an access to memory of the buffer of `v` -/
  | access (v : Nat)
  deriving DecidableEq

def setVar (f : Nat → Option Nat) (v : Nat) (x : Option Nat) : Nat → Option Nat := fun i => if i = v then x else f i

/-- A buffer that belongs to the frame of an active function. -/
def World.holds (w : World) (b : Nat) : Bool := w.frames.any (fun f => f.any (fun x => x.1 == b))

def step (w : World) : Step → M World
  | .enter => .ok { w with frames := [] :: w.frames }
  | .leave =>
    match w.frames with
    | _ :: f :: fs => .ok { w with frames := f :: fs }
    | _ => .error .ub
  | .make v n =>
    match w.frames with
    | f :: fs => .ok ⟨((w.made, n) :: f) :: fs, w.made + 1, setVar w.vars v (some w.made)⟩
    | [] => .error .ub
  | .drop v => .ok { w with vars := setVar w.vars v none }
  | .move v u => .ok { w with vars := setVar (setVar w.vars u none) v (w.vars u) }
  | .access v =>
    match w.vars v with
    | some b => if w.holds b then .ok w else .error .ub
    | none => .error .ub

def run : List Step → World → M World
  | [], w => .ok w
  | st :: sts, w => do
    let w ← step w st
    run sts w

/-- The start of `main`. -/
def start : World := ⟨[[]], 0, fun _ => none⟩

/-- Bytes of stack in use. -/
def World.used (w : World) : Nat := (w.frames.map (fun f => (f.map (·.2)).sum)).sum

end Verif.StackAlloc
