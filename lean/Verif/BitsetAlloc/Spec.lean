import Verif.BitsetAlloc.Model

/-!
# Histories of operations on bitset variables, with allocations that fail

The program catches `std::bad_alloc` and goes on.  The operations, their meaning on sequences of booleans and the calls that are allowed are those of `Verif.Bitset.Op`.
-/

namespace Verif.BitsetAlloc
open Verif.Cpp Verif.Bitset

variable {w : Nat}

/-- A call on the variable `d`. -/
def onVar (σ : Nat → Bitset w) (d : Nat) (out : Out (Bitset w) Unit) : Out (Nat → Bitset w) Unit :=
  match out with
  | .done b _ => .done (upd σ d b) ()
  | .thrown b => .thrown (upd σ d b)
  | .fail e => .fail e

/-- A new bitset that replaces the variable `d`: an exception while it is made leaves the variable alone. -/
def onTemp (σ : Nat → Bitset w) (d : Nat) (out : Out (Bitset w) Unit) : Out (Nat → Bitset w) Unit :=
  match out with
  | .done b _ => .done (upd σ d b) ()
  | .thrown _ => .thrown σ
  | .fail e => .fail e

/-- An operation without failures. -/
def plain (σ : Nat → Bitset w) (op : Op w) : Out (Nat → Bitset w) Unit :=
  match op.exec σ with
  | .ok σ' => .done σ' ()
  | .error e => .fail e

/-- A new bitset made by code whose allocations are not told apart: one of them fails (if it makes any), or none. -/
def atomically (granted : Bool) (σ : Nat → Bitset w) (op : Op w) : Out (Nat → Bitset w) Unit :=
  if granted then plain σ op else .thrown σ

/-- One operation.  (`d = a` copies the vector first; a vector that cannot allocate for a copy keeps its elements.) -/
def exec (g : Grant) (σ : Nat → Bitset w) (op : Op w) : Out (Nat → Bitset w) Unit :=
  match op with
  | .ofSize d n v => onTemp σ d (resize g n v empty)
  | .ofString _ s => atomically (s.length = 0 || g 0 (computeBlockCount w s.length)) σ op
  | .ofInt _ _ _ => atomically (g 0 1) σ op
  | .copy d a => atomically (getBlockCount (σ a) ≤ getBlockCount (σ d) || g (getBlockCount (σ d)) (getBlockCount (σ a))) σ op
  | .resize d n v => onVar σ d (resize g n v (σ d))
  | .unboundedSet d i v => onVar σ d (unboundedSet g i v (σ d))
  | .unboundedReset d i => onVar σ d (unboundedSet g i false (σ d))
  | .performsAND d a b => onVar σ d (performsAND g (operand σ d a) (operand σ d b) (σ d))
  | .performsOR d a b => onVar σ d (performsMerge g (· ||| ·) (operand σ d a) (operand σ d b) (σ d))
  | .performsXOR d a b => onVar σ d (performsMerge g (· ^^^ ·) (operand σ d a) (operand σ d b) (σ d))
  | .performsNOT d a => onVar σ d (performsNOT g (operand σ d a) (σ d))
  | .opAnd d a b => onTemp σ d (performsAND g (.other (σ a)) (.other (σ b)) empty)
  | .opOr d a b => onTemp σ d (performsMerge g (· ||| ·) (.other (σ a)) (.other (σ b)) empty)
  | .opXor d a b => onTemp σ d (performsMerge g (· ^^^ ·) (.other (σ a)) (.other (σ b)) empty)
  | .opNot d a => onTemp σ d (performsNOT g (.other (σ a)) empty)
  | .appendBits d _ v n => onVar σ d (appendBits g v n (σ d))
  | .write d mem seq n => onVar σ d (match write g mem seq n (σ d) with
    | .done b _ => .done b ()
    | .thrown b => .thrown b
    | .fail e => .fail e)
  | _ => plain σ op

/-- The operations other than `AppendBits` and `Write`. -/
def Guarded : Op w → Prop
  | .appendBits _ _ _ _ | .write _ _ _ _ => False
  | _ => True

/-- Histories: the variables and the sequences that they should hold.  An operation that fails should change nothing; `AppendBits` and `Write` do not fail. -/
inductive Runs : (Nat → Bitset w) → (Nat → List Bool) → Prop where
  | start : Runs (fun _ => empty) (fun _ => [])
  | succeeded {σ σ' τ} (g : Grant) (op : Op w) : Runs σ τ → op.Valid τ → exec g σ op = .done σ' () → Runs σ' (op.spec τ)
  | failed {σ σ' τ} (g : Grant) (op : Op w) : Runs σ τ → op.Valid τ → Guarded op → exec g σ op = .thrown σ' → Runs σ' τ

end Verif.BitsetAlloc
