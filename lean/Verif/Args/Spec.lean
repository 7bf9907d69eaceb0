import Verif.Args.Model

/-! # What the called functions should get -/

namespace Verif.Args

variable {V : Type}

/-- The functions called, in order, with the values they got. -/
def seen : List (Event V) → List (Nat × V)
  | [] => []
  | .called f _ v :: es => (f, v) :: seen es
  | _ :: es => seen es

def copies : List (Event V) → Nat
  | [] => 0
  | .copied _ :: es => copies es + 1
  | _ :: es => copies es

def moves : List (Event V) → Nat
  | [] => 0
  | .moved _ :: es => moves es + 1
  | _ :: es => moves es

/-- The objects that the functions with parameter `p` among those called got. -/
def objects (es : List (Event V)) : List (Nat × Ref) := es.filterMap (fun e => match e with
  | .called f r _ => some (f, r)
  | _ => none)

/-- Variable `n` gets the value `v`. -/
def assign (g : Nat → V) (n : Nat) (v : V) : Nat → V := fun j => if j = n then v else g j

/-- The variables after calls of functions each of which gets an object of its own with value `v`. -/
def afterCopies (v : V) : (Nat → V) → List (Fun V) → (Nat → V)
  | g, [] => g
  | g, f :: fs => afterCopies v (f.body g v).1 fs

/-- The variables after a call of a function with a reference to variable `n`; a function that takes its parameter by value changes a copy. -/
def afterShared (n : Nat) (g : Nat → V) (f : Fun V) : Nat → V :=
  match f.param with
  | .lref => assign (f.body g (g n)).1 n (f.body g (g n)).2
  | _ => (f.body g (g n)).1

def afterAllShared (n : Nat) : (Nat → V) → List (Fun V) → (Nat → V)
  | g, [] => g
  | g, f :: fs => afterAllShared n (afterShared n g f) fs

/-- What functions see that get a reference to variable `n`: what those before have left there. -/
def seenShared (n : Nat) : (Nat → V) → List (Fun V) → List (Nat × V)
  | _, [] => []
  | g, f :: fs => (f.id, g n) :: seenShared n (afterShared n g f) fs

end Verif.Args
