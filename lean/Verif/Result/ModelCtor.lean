import Verif.Result.Model

/-!
# Which constructor of `Result<V, E>` a conversion selects (Result.hpp:66-75, 123-130)

The argument is of any type; the types are object types of the program, `void` and Results of these, nested to any depth.
Copies, moves and conversions that throw, and Results without value, are in the model of the contents (`Model.lean`).
-/

namespace Verif.Result.Ctor

/-- A type: an object type that is no Result (the `n`-th of the program), `void`, or `Result<V, E>`. -/
inductive Tp where
  | base (n : Nat)
  | void
  | result (V E : Tp)
  deriving DecidableEq

/-- The other types of the program: their values, which of them convert implicitly to which (`std::is_convertible_v`) and how, and which can be default
constructed.  None of them converts to or from a Result other than by the constructors of Result. -/
structure Env where
  Obj : Nat → Type
  conv : Nat → Nat → Bool
  cv : ∀ m n, Obj m → Obj n
  dflt : Nat → Bool

/-- The values of a type; those of a Result are what it holds. -/
def Val (env : Env) : Tp → Type
  | .base n => env.Obj n
  | .void => Unit
  | .result V E => Except (Val env E) (Val env V)

/-- Value category and constness of an argument. -/
inductive Cat where
  | lvalue
  | constLvalue
  | rvalue
  | constRvalue
  deriving DecidableEq

def Cat.isLvalue : Cat → Bool
  | .lvalue => true
  | .constLvalue => true
  | _ => false

def Cat.isConst : Cat → Bool
  | .constLvalue => true
  | .constRvalue => true
  | _ => false

/-- The constructors that take one argument which may be a value or a Result: `Result(T&&)` (Result.hpp:67), `Result(const Result<V2, E2>&)` (:72, 127),
`Result(Result<V2, E2>&&)` (:73, 128), the copy (:74, 129) and the move constructor (:75, 130). -/
inductive Which where
  | value
  | fromConst
  | fromRvalue
  | copy
  | move
  deriving DecidableEq

/-- `std::is_convertible_v<X, Y>`.  To a Result: from itself, by `Result(T&&)` if `X` is `V` (which is not `void`) and not `E`, by the conversions from other Results. -/
def convertible (env : Env) : Tp → Tp → Bool
  | X, .result V E =>
    decide (X = .result V E) || (decide (X = V) && decide (V ≠ E) && decide (V ≠ .void)) ||
      (match X with
       | .result V2 E2 => convertible env V2 V && convertible env E2 E
       | _ => false)
  | .base m, .base n => decide (m = n) || env.conv m n
  | .void, .void => true
  | _, _ => false

/-- `std::is_default_constructible_v<V>`; for Results Result.hpp:66 (`Result<void, E>` has no default constructor). -/
def defaultConstructible (env : Env) : Tp → Bool
  | .base n => env.dflt n
  | .void => false
  | .result V _ => defaultConstructible env V

/-- The parameter a constructor has for an argument: whether it is an lvalue reference, and whether it is a reference to const.  (For `T&&` it is what the
argument is.) -/
def param (cat : Cat) : Which → Bool × Bool
  | .value => (cat.isLvalue, cat.isConst)
  | .fromConst => (true, true)
  | .fromRvalue => (false, false)
  | .copy => (true, true)
  | .move => (false, false)

/-- Whether the parameter can be bound to the argument. -/
def binds (cat : Cat) (w : Which) : Bool :=
  match param cat w with
  | (true, true) => true
  | (true, false) => cat.isLvalue && !cat.isConst
  | (false, c) => !cat.isLvalue && (c || !cat.isConst)

/-- Whether a constructor of `Result<V, E>` exists for the type of the argument: the conditions of Result.hpp:67, 72-73, 127-128. -/
def enabled (env : Env) (V E X : Tp) : Which → Bool
  | .value => decide (X = V) && decide (V ≠ E) && decide (V ≠ .void)
  | .fromConst => match X with
    | .result V2 E2 => convertible env V2 V && convertible env E2 E
    | _ => false
  | .fromRvalue => match X with
    | .result V2 E2 => convertible env V2 V && convertible env E2 E
    | _ => false
  | .copy => decide (X = .result V E)
  | .move => decide (X = .result V E)

/-- The better conversion: an rvalue reference for an rvalue, else the reference to the less qualified type. -/
def betterBinding (cat : Cat) (x y : Which) : Bool :=
  let (xl, xc) := param cat x
  let (yl, yc) := param cat y
  (!cat.isLvalue && !xl && yl) || (xl == yl && !xc && yc)

def isTemplate : Which → Bool
  | .copy => false
  | .move => false
  | _ => true

/-- The rules of overload resolution: the better conversion; then a function rather than a template; then the more specialised template (`Result<V2, E2>` is more specialised
than `T`). -/
def better (cat : Cat) (x y : Which) : Bool :=
  betterBinding cat x y ||
    (!betterBinding cat y x && ((!isTemplate x && isTemplate y) || (isTemplate x && isTemplate y && x != .value && y == .value)))

/-- The constructor that `Result<V, E>(x)` calls; `none` if there is no best one. -/
def select (env : Env) (V E X : Tp) (cat : Cat) : Option Which :=
  let viable := [Which.value, .fromConst, .fromRvalue, .copy, .move].filter (fun w => enabled env V E X w && binds cat w)
  viable.find? (fun x => viable.all (fun y => x == y || better cat x y))

/-- The initialisation of an object of type `Y` by an argument of type `X`; `none` if the program does not compile.  For Results: Result.inl:33-38 (`Result(T&&)`), 70-88 (conversions, which
construct the value by default before), 297-311 (conversions of `Result<void, E>`), and the defaulted copies and moves. -/
def construct (env : Env) : (Y X : Tp) → Cat → Option (Val env X → Val env Y)
  | .base n, .base m, _ =>
    if h : m = n then some (h ▸ id) else if env.conv m n then some (env.cv m n) else none
  | .base _, _, _ => none
  | .void, .void, _ => some id
  | .void, _, _ => none
  | .result V E, X, cat =>
    match select env V E X cat with
    | none => none
    | some .copy => if h : X = .result V E then some (h ▸ id) else none
    | some .move => if h : X = .result V E then some (h ▸ id) else none
    | some .value => if h : X = V then some (fun x => .ok (h ▸ x)) else none
    | some w => match X with
      | .result V2 E2 =>
        let inner := if w = .fromConst then Cat.constLvalue else Cat.rvalue
        match construct env V V2 inner, construct env E E2 inner with
        | some f, some g =>
          if V = .void ∨ defaultConstructible env V then
            some (fun r => match r with
              | .ok v => .ok (f v)
              | .error e => .error (g e))
          else none
        | _, _ => none
      | _ => none

/-- An argument of a constructor of `std::optional<E>` or `E`. -/
inductive InitArg (E A : Type) where
  /-- `std::nullopt` -/
  | nullopt
  /-- a `std::optional` of `E` or of a type that converts to `E`, with what it holds after the conversion -/
  | optional (o : Option E)
  /-- `std::in_place` -/
  | inPlace
  /-- any other one -/
  | other (a : A)

/-- `E(args...)` for arguments of other kinds: the object, or `none` if there is no such constructor. -/
abbrev Make (E A : Type) := List (InitArg E A) → Option E

/-- The constructors of `std::optional<E>`, as specified; `none` if the program does not compile.  `E` cannot be constructed from a `std::optional` (nor from `std::nullopt`,
`std::in_place`). -/
def optionalInit {E A : Type} (make : Make E A) : List (InitArg E A) → Option (Option E)
  | [] => some none
  | .nullopt :: [] => some none
  | .optional o :: [] => some o
  | .inPlace :: args => (make args).map some
  | .other a :: [] => (make [.other a]).map some
  | _ => none

/-- `Result<void, E>(ErrorTag, args...)`, Result.inl:290-295: `m_error(std::forward<Args>(args)...)`.  What the Result holds, `none` for success. -/
def errorTagV {E A : Type} (make : Make E A) (args : List (InitArg E A)) : Option (Option E) := optionalInit make args

/-- `Result<void, E>(Err(a))`, Result.inl:278-283: `m_error(std::move(error.value))`. -/
def errV {E A : Type} (make : Make E A) (a : InitArg E A) : Option (Option E) := optionalInit make [a]

/-- `Result<V, E>(ErrorTag, args...)`, Result.inl:63-68: `m_value(std::in_place_index_t<ErrorIndex>{}, std::forward<Args>(args)...)`. -/
def errorTag {V E A : Type} (make : Make E A) (args : List (InitArg E A)) : Option (Except E V) := (make args).map .error

/-- `Result<V, E>(ValueTag, args...)`, Result.inl:56-61. -/
def valueTag {V E A : Type} (make : Make V A) (args : List (InitArg V A)) : Option (Except E V) := (make args).map .ok

/-- `Result<V, E>(Err(a))`, Result.inl:49-54. -/
def err {V E A : Type} (make : Make E A) (a : InitArg E A) : Option (Except E V) := (make [a]).map .error

/-- `Result<V, E>(Ok(a))`, Result.inl:42-47. -/
def ok {V E A : Type} (make : Make V A) (a : InitArg V A) : Option (Except E V) := (make [a]).map .ok

end Verif.Result.Ctor
