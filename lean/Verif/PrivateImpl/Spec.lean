import Verif.PrivateImpl.Model

/-!
# Specification of `PrivateImpl`: variables that hold values
-/

namespace Verif.PrivateImpl

variable {T : Type}

/-- The variables: `none` does not exist, `some none` is empty (null), `some (some v)` holds the value `v`. -/
abbrev Spec (T : Type) := Nat → Option (Option T)

def Spec.set (σ : Spec T) (i : Nat) (o : Option (Option T)) : Spec T := fun k => if k = i then o else σ k

/-- The value unless making it throws, which leaves everything as it was. -/
def put (throws : T → Bool) (σ : Spec T) (i : Nat) (v : T) : Spec T := if throws v then σ else σ.set i (some (some v))

/-- Form on the heap: effect of an operation on the values, `none` for operations that are not allowed. -/
def heapStep (ty : Ty T) (σ : Spec T) : Op T → Option (Spec T)
  | .ctorNull i => if σ i = none then some (σ.set i (some none)) else none
  | .ctorPtr i v => if σ i = none then some (put ty.throws σ i v) else none
  | .ctorArgs i v => if σ i = none then some (put ty.throws σ i v) else none
  | .copyCtor i j => match σ i, σ j with
    | none, some (some v) => some (put ty.copyThrows σ i v)
    | _, _ => none
  | .moveCtor i j => match σ i, σ j with
    | none, some o => some ((σ.set j (some none)).set i (some o))
    | _, _ => none
  | .dtor i => if (σ i).isSome then some (σ.set i none) else none
  | .emplace i v => match σ i with
    | some none => some (put ty.throws σ i v)
    | _ => none
  | .reset i => if (σ i).isSome then some (σ.set i (some none)) else none
  | .copyAssign i j => match σ i, σ j with
    | some _, some (some v) =>
      if ty.copyAssignable ∨ (i ≠ j ∧ ty.copyThrows v = false) then some (put ty.copyThrows σ i v) else none
    | _, _ => none
  | .moveAssign i j => match σ i, σ j with
    | some a, some b => some ((σ.set j (some a)).set i (some b))
    | _, _ => none
  | .write i v => match σ i with
    | some (some _) => some (put ty.throws σ i v)
    | _ => none

/-- Inline form: there are no empty variables; assignments to itself and of values whose copy throws are not allowed. -/
def inlineStep (ty : Ty T) (σ : Nat → Option T) : Op T → Option (Nat → Option T)
  | .ctorArgs i v => if σ i = none then some (if ty.throws v then σ else fun k => if k = i then some v else σ k) else none
  | .copyCtor i j => match σ i, σ j with
    | none, some v => some (if ty.copyThrows v then σ else fun k => if k = i then some v else σ k)
    | _, _ => none
  | .moveCtor i j => match σ i, σ j with
    | none, some v => some (fun k => if k = i then some v else if k = j then some (ty.movedFrom v) else σ k)
    | _, _ => none
  | .dtor i => match σ i with
    | some _ => some (fun k => if k = i then none else σ k)
    | none => none
  | .copyAssign i j => match σ i, σ j with
    | some _, some v => if i ≠ j ∧ ty.copyThrows v = false then some (fun k => if k = i then some v else σ k) else none
    | _, _ => none
  | .moveAssign i j => match σ i, σ j with
    | some _, some v => if i ≠ j then some (fun k => if k = i then some v else if k = j then some (ty.movedFrom v) else σ k) else none
    | _, _ => none
  | .write i v => match σ i with
    | some _ => some (if ty.throws v then σ else fun k => if k = i then some v else σ k)
    | none => none
  | _ => none

/-- A whole program, `none` if some operation is not allowed. -/
def runSpec {S : Type} (stepF : S → Op T → Option S) : List (Op T) → S → Option S
  | [], σ => some σ
  | op :: ops, σ => match stepF σ op with
    | some σ => runSpec stepF ops σ
    | none => none

end Verif.PrivateImpl
