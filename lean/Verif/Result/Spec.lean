import Verif.Result.Model

/-!
# Specification of `Result`: an `Except E V`
-/

namespace Verif.Result

variable {V E : Type}

/-- What a result holds; nothing after an assignment that threw on the way. -/
def content : Var V E → Option (Except E V)
  | .value v => some (.ok v)
  | .error e => some (.error e)
  | .valueless => none

/-- What a result of a function without value holds. -/
def contentV : Option E → Except E Unit
  | none => .ok ()
  | some e => .error e

/-- No copy and no move of the type throws. -/
def Ty.Quiet {T : Type} (ty : Ty T) : Prop := ∀ x, ty.copyThrows x = none ∧ ty.moveThrows x = none

/-- The effect of a move on a source. -/
def movedExcept (mv : V → V) (me : E → E) : Except E V → Except E V
  | .ok v => .ok (mv v)
  | .error e => .error (me e)

/-- `Map` of a function with state: the function is run on the value, once; errors are handed on. -/
def specMap {S A B : Type} (f : A → S → S × Eff B) (x : Except E A) (s : S) : S × Eff (Except E B) :=
  match x with
  | .error e => (s, .ret (.error e))
  | .ok a =>
    match f a s with
    | (s', .ret b) => (s', .ret (.ok b))
    | (s', .thrown e) => (s', .thrown e)
    | (s', .terminate) => (s', .terminate)

/-- An outcome stands for another if both are exceptions, or both are values that stand for each other. -/
def Eff.Stands {A B : Type} (R : A → B → Prop) : Eff A → Eff B → Prop
  | .ret a, .ret b => R a b
  | .thrown e, .thrown e' => e = e'
  | .terminate, .terminate => True
  | _, _ => False

abbrev SpecStore (V E : Type) := Nat → Option (Except E V)

def SpecStore.set (σ : SpecStore V E) (i : Nat) (x : Except E V) : SpecStore V E := fun k => if k = i then some x else σ k

/-- The operations on plain `Except` values. -/
def specStep (mv : V → V) (me : E → E) (σ : SpecStore V E) : Op V E → SpecStore V E
  | .newValue i _ v => σ.set i (.ok v)
  | .newError i _ e => σ.set i (.error e)
  | .copyNew i j => match σ j with
    | some x => σ.set i x
    | none => σ
  | .moveNew i j => match σ j with
    | some x => if i = j then σ else (σ.set j (movedExcept mv me x)).set i x
    | none => σ
  | .copyAssign i j => match σ i, σ j with
    | some _, some x => σ.set i x
    | _, _ => σ
  | .moveAssign i j => match σ i, σ j with
    | some _, some x => if i = j then σ else (σ.set i x).set j (movedExcept mv me x)
    | _, _ => σ
  | .put i v => match σ i with
    | some (.ok _) => σ.set i (.ok v)
    | _ => σ
  | .take i => match σ i with
    | some (.ok v) => σ.set i (.ok (mv v))
    | _ => σ

def specRun (mv : V → V) (me : E → E) (ops : List (Op V E)) : SpecStore V E := ops.foldl (specStep mv me) (fun _ => none)

/-- Functions with state and errors, one after the other: the first error ends the sequence. -/
def specAll {S : Type} : List (V → S → S × Except E V) → V → S → S × Except E V
  | [], v, s => (s, .ok v)
  | stage :: stages, v, s =>
    match stage v s with
    | (s, .ok v) => specAll stages v s
    | (s, .error e) => (s, .error e)

/-- The same for functions without value. -/
def specAllV {S : Type} : List (S → S × Except E Unit) → S → S × Except E Unit
  | [], s => (s, .ok ())
  | stage :: stages, s =>
    match stage s with
    | (s, .ok _) => specAllV stages s
    | (s, .error e) => (s, .error e)

end Verif.Result
