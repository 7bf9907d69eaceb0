import Verif.Cpp

/-!
# Model of `Result<V, E>` and `Result<void, E>` (Result.hpp, Result.inl)

The contained types are described by what can be observed of them: the state a move leaves behind
and which copies and moves throw (`Ty`).  References are modelled by the value they refer to; where
a call can change an object of the caller, the model returns that object, too.
-/

namespace Verif.Result

/-- Exceptions: `EnsureError` (Result.inl:258-263, 408-413), `EnsureValue` (265-270), `Expect`,
`std::bad_variant_access`, and exceptions of the user's types and functions. -/
inductive Exc where
  | notAnError
  | notAValue
  | expect (message : String)
  | badVariantAccess
  | user (n : Nat)
  deriving DecidableEq

/-- Outcome of a call: a value, an exception, or `std::terminate` (an exception leaving a `noexcept` function). -/
inductive Eff (α : Type) where
  | ret (a : α)
  | thrown (e : Exc)
  | terminate
  deriving DecidableEq

namespace Eff
protected def bind {α β : Type} (x : Eff α) (f : α → Eff β) : Eff β :=
  match x with
  | .ret a => f a
  | .thrown e => .thrown e
  | .terminate => .terminate
instance : Monad Eff where
  pure := Eff.ret
  bind := Eff.bind
@[simp] theorem ret_bind {α β : Type} (a : α) (f : α → Eff β) : (Eff.ret a >>= f) = f a := rfl
@[simp] theorem thrown_bind {α β : Type} (e : Exc) (f : α → Eff β) : (Eff.thrown e >>= f) = .thrown e := rfl
@[simp] theorem terminate_bind {α β : Type} (f : α → Eff β) : ((Eff.terminate : Eff α) >>= f) = .terminate := rfl
@[simp] theorem pure_eq {α : Type} (a : α) : (pure a : Eff α) = .ret a := rfl
end Eff

/-- What can be observed of a contained type: the state left by a move, and which copies and moves throw. -/
structure Ty (T : Type) where
  movedFrom : T → T
  /-- `some n`: copying throws exception `n` -/
  copyThrows : T → Option Nat
  moveThrows : T → Option Nat
  /-- `std::is_nothrow_copy_constructible_v` -/
  nothrowCopy : Bool
  /-- `std::is_nothrow_move_constructible_v` -/
  nothrowMove : Bool

/-- Operations declared not to throw do not throw. -/
def Ty.Wf {T : Type} (ty : Ty T) : Prop :=
  (ty.nothrowCopy = true → ∀ x, ty.copyThrows x = none) ∧ (ty.nothrowMove = true → ∀ x, ty.moveThrows x = none)

/-- Copy construction. -/
def Ty.copy {T : Type} (ty : Ty T) (x : T) : Eff T :=
  match ty.copyThrows x with
  | none => .ret x
  | some n => .thrown (.user n)

/-- Move construction: outcome and state of the source.  Simplified: a move that throws leaves the source as it was. -/
def Ty.move {T : Type} (ty : Ty T) (x : T) : T × Eff T :=
  match ty.moveThrows x with
  | none => (ty.movedFrom x, .ret x)
  | some n => (x, .thrown (.user n))

/-- A function called by `Map`, with its effect on the state `S` of the program: outcome of the call, and `noexcept`. -/
structure Fn (S A B : Type) where
  call : A → S → S × Eff B
  nothrow : Bool

/-- `noexcept` functions throw nothing. -/
def Fn.Wf {S A B : Type} (f : Fn S A B) : Prop := f.nothrow = true → ∀ a s, ∃ b, (f.call a s).2 = .ret b

/-- What is left of a computation after a call: it goes on with the value, if there is one. -/
def andThen {S α β : Type} (x : S × Eff α) (f : α → S → S × Eff β) : S × Eff β :=
  match x with
  | (s, .ret a) => f a s
  | (s, .thrown e) => (s, .thrown e)
  | (s, .terminate) => (s, .terminate)

/-- A `noexcept(b)` specification: exceptions that would leave the function end the program. -/
def noexcept {α : Type} (b : Bool) (x : Eff α) : Eff α :=
  match x with
  | .thrown e => if b then .terminate else .thrown e
  | x => x

/-- The same for a function that changes the state of the program. -/
def noexceptAt {S α : Type} (b : Bool) (x : S × Eff α) : S × Eff α := (x.1, noexcept b x.2)

/-- `std::variant<V, E>` (Result.hpp:117), with its state without value. -/
inductive Var (V E : Type) where
  | value (v : V)
  | error (e : E)
  | valueless
  deriving DecidableEq

section
variable {V E : Type}

/-- `std::variant::index`. -/
def Var.index : Var V E → Nat
  | .value _ => 0
  | .error _ => 1
  | .valueless => 2 ^ 64 - 1

/-- `std::get<ValueIndex>`. -/
def Var.get0 : Var V E → Eff V
  | .value v => .ret v
  | _ => .thrown .badVariantAccess

/-- `std::get<ErrorIndex>`. -/
def Var.get1 : Var V E → Eff E
  | .error e => .ret e
  | _ => .thrown .badVariantAccess

/-- Result.inl:125-129 -/
def isErr (r : Var V E) : Bool := r.index == 1

/-- Result.inl:131-135, and `operator bool` 222-226 -/
def isOk (r : Var V E) : Bool := r.index == 0

/-- Result.inl:258-263 -/
def ensureError (r : Var V E) : Eff Unit := if !isErr r then .thrown .notAnError else pure ()

/-- Result.inl:265-270 -/
def ensureValue (r : Var V E) : Eff Unit := if !isOk r then .thrown .notAValue else pure ()

/-- Result.inl:90-102 -/
def expect (r : Var V E) (message : String) : Eff Unit := if isErr r then .thrown (.expect message) else pure ()

/-- The three overloads of `GetError`, Result.inl:104-123. -/
def getError (r : Var V E) : Eff E := do
  ensureError r
  r.get1

/-- The overloads of `GetValue` (Result.inl:137-149, 173-178), `operator*` and `operator->` (228-256). -/
def getValue (r : Var V E) : Eff V := do
  ensureValue r
  r.get0

/-- Assignment through the reference returned by `GetValue() &` (Result.inl:137-142). -/
def putValue (r : Var V E) (v : V) : Eff (Var V E) := do
  let _ ← getValue r
  pure (.value v)

/-- `GetValueOr(T&&) const&` (Result.inl:153-161); `d` is the result of converting the forwarded default. -/
def getValueOr (tyV : Ty V) (r : Var V E) (d : Eff V) : Eff V :=
  if isOk r then do let v ← r.get0; tyV.copy v else d

/-- `GetValueOr(T&&) &&` (Result.inl:163-171), with the state of the result afterwards. -/
def getValueOrMove (tyV : Ty V) (r : Var V E) (d : Eff V) : Var V E × Eff V :=
  if isOk r then
    match r with
    | .value v => let (v', x) := tyV.move v; (.value v', x)
    | r => (r, .thrown .badVariantAccess)
  else (r, d)

/-- Value category of an argument. -/
inductive Cat where
  | lvalue
  | rvalue
  deriving DecidableEq

/-- `std::forward` into a constructor: copy or move; the state of the argument comes first. -/
def forward {T : Type} (ty : Ty T) (cat : Cat) (x : T) : T × Eff T :=
  match cat with
  | .lvalue => (x, ty.copy x)
  | .rvalue => ty.move x

/-- `Result<V, E>(Ok(x))` and `Result<V, E>(x)`: Result.inl:15-22, 35-47.  `Ok` keeps the category. -/
def fromValue (tyV : Ty V) (cat : Cat) (x : V) : V × Eff (Var V E) :=
  let (x', r) := forward tyV cat x
  (x', r >>= fun v => .ret (.value v))

/-- `Result<V, E>(Err(x))`: Result.inl:24-31, 49-54. -/
def fromError (tyE : Ty E) (cat : Cat) (x : E) : E × Eff (Var V E) :=
  let (x', r) := forward tyE cat x
  (x', r >>= fun e => .ret (.error e))

/-- Copy construction (defaulted, Result.hpp:74). -/
def copyNew (tyV : Ty V) (tyE : Ty E) : Var V E → Eff (Var V E)
  | .value v => do let v ← tyV.copy v; .ret (.value v)
  | .error e => do let e ← tyE.copy e; .ret (.error e)
  | .valueless => .ret .valueless

/-- Move construction (defaulted, Result.hpp:75), with the state of the source. -/
def moveNew (tyV : Ty V) (tyE : Ty E) : Var V E → Var V E × Eff (Var V E)
  | .value v => let (v', x) := tyV.move v; (.value v', x >>= fun v => .ret (.value v))
  | .error e => let (e', x) := tyE.move e; (.error e', x >>= fun e => .ret (.error e))
  | .valueless => (.valueless, .ret .valueless)

/-- `emplace`: the old alternative is destroyed first, so an exception leaves no value. -/
def emplace (x : Eff (Var V E)) : Var V E × Eff Unit :=
  match x with
  | .ret r => (r, .ret ())
  | .thrown e => (.valueless, .thrown e)
  | .terminate => (.valueless, .terminate)

/-- Copy assignment of the alternative that is already there.  Simplified: it throws when copy
construction throws and then leaves the target as it was. -/
def assignSame (old : Var V E) (x : Eff (Var V E)) : Var V E × Eff Unit :=
  match x with
  | .ret r => (r, .ret ())
  | .thrown e => (old, .thrown e)
  | .terminate => (old, .terminate)

/-- Copy assignment (defaulted, Result.hpp:107), as `std::variant` defines it: a different alternative is
constructed in place if its copy cannot throw or its move can throw, else copied to a temporary first. -/
def copyAssign (tyV : Ty V) (tyE : Ty E) (dst src : Var V E) : Var V E × Eff Unit :=
  match dst, src with
  | _, .valueless => (.valueless, .ret ())
  | .value w, .value v => assignSame (.value w) (tyV.copy v >>= fun v => .ret (.value v))
  | .error w, .error e => assignSame (.error w) (tyE.copy e >>= fun e => .ret (.error e))
  | dst, .value v =>
    if tyV.nothrowCopy || !tyV.nothrowMove then emplace (tyV.copy v >>= fun v => .ret (.value v))
    else
      match tyV.copy v with
      | .ret t => emplace ((tyV.move t).2 >>= fun v => .ret (.value v))
      | .thrown e => (dst, .thrown e)
      | .terminate => (dst, .terminate)
  | dst, .error v =>
    if tyE.nothrowCopy || !tyE.nothrowMove then emplace (tyE.copy v >>= fun v => .ret (.error v))
    else
      match tyE.copy v with
      | .ret t => emplace ((tyE.move t).2 >>= fun v => .ret (.error v))
      | .thrown e => (dst, .thrown e)
      | .terminate => (dst, .terminate)

/-- Move assignment (defaulted, Result.hpp:108) of two different objects: target, source, outcome. -/
def moveAssign (tyV : Ty V) (tyE : Ty E) (dst src : Var V E) : Var V E × Var V E × Eff Unit :=
  match dst, src with
  | _, .valueless => (.valueless, .valueless, .ret ())
  | .value w, .value v =>
    let (v', x) := tyV.move v
    let (d, o) := assignSame (.value w) (x >>= fun v => .ret (.value v))
    (d, .value v', o)
  | .error w, .error e =>
    let (e', x) := tyE.move e
    let (d, o) := assignSame (.error w) (x >>= fun e => .ret (.error e))
    (d, .error e', o)
  | _, .value v =>
    let (v', x) := tyV.move v
    let (d, o) := emplace (x >>= fun v => .ret (.value v))
    (d, .value v', o)
  | _, .error e =>
    let (e', x) := tyE.move e
    let (d, o) := emplace (x >>= fun e => .ret (.error e))
    (d, .error e', o)

/-- Conversion from `const Result<V2, E2>&` (Result.inl:70-88); `cv`, `ce` are the conversions of the
contents (which may throw).  The default construction of the value before is not observable. -/
def convert {V2 E2 : Type} (cv : V2 → Eff V) (ce : E2 → Eff E) (r : Var V2 E2) : Eff (Var V E) :=
  if isOk r then do
    let v ← getValue r
    let v ← cv v
    pure (.value v)
  else do
    let e ← getError r
    let e ← ce e
    pure (.error e)

variable {W S : Type}

/-- `Map(F&&) const&`, function with a result (Result.inl:180-199). -/
def map (tyW : Ty W) (tyE : Ty E) (f : Fn S V W) (r : Var V E) (s : S) : S × Eff (Var W E) :=
  noexceptAt f.nothrow (
    if isOk r then
      andThen (s, getValue r) fun v s =>
      andThen (f.call v s) fun w s =>
      (s, (tyW.move w).2 >>= fun w => .ret (.value w))
    else
      (s, getError r >>= fun e => tyE.copy e >>= fun e => .ret (.error e)))

/-- `Map(F&&) const&`, function without result (Result.inl:191-195). -/
def mapVoid (tyE : Ty E) (f : Fn S V Unit) (r : Var V E) (s : S) : S × Eff (Option E) :=
  noexceptAt f.nothrow (
    if isOk r then
      andThen (s, getValue r) fun v s =>
      andThen (f.call v s) fun _ s =>
      (s, .ret none)
    else
      (s, getError r >>= fun e => tyE.copy e >>= fun e => .ret (some e)))

/-- A function called by `Map() &&`: it gets `V&&` and leaves some state in the argument. -/
structure FnMove (S A B : Type) where
  call : A → S → S × A × Eff B
  nothrow : Bool

/-- `Map(F&&) &&`, function with a result (Result.inl:201-220): state of the program, state of the result, outcome. -/
def mapMove (tyW : Ty W) (tyE : Ty E) (f : FnMove S V W) (r : Var V E) (s : S) : S × Var V E × Eff (Var W E) :=
  if isOk r then
    match getValue r with
    | .ret v =>
      let (s', v', x) := f.call v s
      (s', .value v', noexcept f.nothrow (do
        let w ← x
        let w ← (tyW.move w).2
        pure (.value w)))
    | .thrown e => (s, r, noexcept f.nothrow (.thrown e))
    | .terminate => (s, r, .terminate)
  else
    match getError r with
    | .ret e =>
      let (e', x) := tyE.move e
      (s, .error e', noexcept f.nothrow (x >>= fun e => .ret (.error e)))
    | .thrown e => (s, r, noexcept f.nothrow (.thrown e))
    | .terminate => (s, r, .terminate)

/-- `Map(F&&) &&`, function without result (Result.inl:212-216). -/
def mapMoveVoid (tyE : Ty E) (f : FnMove S V Unit) (r : Var V E) (s : S) : S × Var V E × Eff (Option E) :=
  if isOk r then
    match getValue r with
    | .ret v =>
      let (s', v', x) := f.call v s
      (s', .value v', noexcept f.nothrow (x >>= fun _ => pure none))
    | .thrown e => (s, r, noexcept f.nothrow (.thrown e))
    | .terminate => (s, r, .terminate)
  else
    match getError r with
    | .ret e =>
      let (e', x) := tyE.move e
      (s, .error e', noexcept f.nothrow (x >>= fun e => .ret (some e)))
    | .thrown e => (s, r, noexcept f.nothrow (.thrown e))
    | .terminate => (s, r, .terminate)

/-! ## `Result<void, E>` -/

/-- Result.inl:348-352; the content is `std::optional<E>` (Result.hpp:160). -/
def isErrV (r : Option E) : Bool := r.isSome

/-- Result.inl:354-358 -/
def isOkV (r : Option E) : Bool := !isErrV r

/-- Result.inl:408-413 -/
def ensureErrorV (r : Option E) : Eff Unit := if !isErrV r then .thrown .notAnError else pure ()

/-- Result.inl:313-332 -/
def getErrorV (r : Option E) : Eff E := do
  ensureErrorV r
  match r with
  | some e => pure e
  | none => .thrown .badVariantAccess

/-- Result.inl:334-346 -/
def expectV (r : Option E) (message : String) : Eff Unit := if isErrV r then .thrown (.expect message) else pure ()

/-- `Result<void, E>(Err(x))` (Result.inl:24-31, 278-283): `std::move` whatever the category. -/
def fromErrorV (tyE : Ty E) (_cat : Cat) (x : E) : E × Eff (Option E) :=
  let (x', r) := tyE.move x
  (x', r >>= fun e => .ret (some e))

/-- Conversion from `Result<void, E2>` (Result.inl:297-311). -/
def convertV {E2 : Type} (ce : E2 → Eff E) (r : Option E2) : Eff (Option E) :=
  if !isOkV r then do
    let e ← getErrorV r
    let e ← ce e
    pure (some e)
  else pure none

/-- `Map(F&&) const&` of `Result<void, E>` (Result.inl:360-379). -/
def mapV (tyW : Ty W) (tyE : Ty E) (f : Fn S Unit W) (r : Option E) (s : S) : S × Eff (Var W E) :=
  noexceptAt f.nothrow (
    if isOkV r then
      andThen (f.call () s) fun w s =>
      (s, (tyW.move w).2 >>= fun w => .ret (.value w))
    else
      (s, getErrorV r >>= fun e => tyE.copy e >>= fun e => .ret (.error e)))

/-- The same for a function without result (Result.inl:371-375). -/
def mapVVoid (tyE : Ty E) (f : Fn S Unit Unit) (r : Option E) (s : S) : S × Eff (Option E) :=
  noexceptAt f.nothrow (
    if isOkV r then
      andThen (f.call () s) fun _ s =>
      (s, .ret none)
    else
      (s, getErrorV r >>= fun e => tyE.copy e >>= fun e => .ret (some e)))

/-- `Map(F&&) &&` of `Result<void, E>` (Result.inl:381-400): state of the program, state of the result, outcome. -/
def mapVMove (tyW : Ty W) (tyE : Ty E) (f : Fn S Unit W) (r : Option E) (s : S) : S × Option E × Eff (Var W E) :=
  if isOkV r then
    let (s', x) := f.call () s
    (s', r, noexcept f.nothrow (do
      let w ← x
      let w ← (tyW.move w).2
      pure (.value w)))
  else
    match getErrorV r with
    | .ret e =>
      let (e', x) := tyE.move e
      (s, some e', noexcept f.nothrow (x >>= fun e => .ret (.error e)))
    | .thrown e => (s, r, noexcept f.nothrow (.thrown e))
    | .terminate => (s, r, .terminate)

/-- The same for a function without result (Result.inl:391-395). -/
def mapVMoveVoid (tyE : Ty E) (f : Fn S Unit Unit) (r : Option E) (s : S) : S × Option E × Eff (Option E) :=
  if isOkV r then
    let (s', x) := f.call () s
    (s', r, noexcept f.nothrow (x >>= fun _ => pure none))
  else
    match getErrorV r with
    | .ret e =>
      let (e', x) := tyE.move e
      (s, some e', noexcept f.nothrow (x >>= fun e => .ret (some e)))
    | .thrown e => (s, r, noexcept f.nothrow (.thrown e))
    | .terminate => (s, r, .terminate)

/-! ## The macros -/

/-- `NAZARA_TRY_VALUE(var, expr); rest` (Result.hpp:26-30) in a function with result `Result<W, E>`:
`expr` and `rest` work on a state `S` of the program. -/
def tryValue {S : Type} (tyV : Ty V) (tyE : Ty E) (expr : S → S × Eff (Var V E)) (rest : V → S → S × Eff (Var W E)) :
    S → S × Eff (Var W E) := fun s =>
  match expr s with
  | (s, .thrown e) => (s, .thrown e)
  | (s, .terminate) => (s, .terminate)
  | (s, .ret r) =>
    if !isOk r then
      (s, getError r >>= fun e => (fromError tyE .rvalue e).2)
    else
      match getValue r >>= fun v => (tyV.move v).2 with
      | .ret v => rest v s
      | .thrown e => (s, .thrown e)
      | .terminate => (s, .terminate)

/-- A sequence of `NAZARA_TRY_VALUE`, each expression using the value before it, ended by `return Ok(value)`. -/
def tryAll {S : Type} (tyV : Ty V) (tyE : Ty E) : List (V → S → S × Eff (Var V E)) → V → S → S × Eff (Var V E)
  | [], v, s => (s, (fromValue tyV .rvalue v).2)
  | stage :: stages, v, s => tryValue tyV tyE (stage v) (fun v => tryAll tyV tyE stages v) s

/-- `NAZARA_TRY(expr); rest` (Result.hpp:17-24), used with `Result<void, E>` in a function with result `Result<void, E>`. -/
def tryV {S : Type} (tyE : Ty E) (expr : S → S × Eff (Option E)) (rest : S → S × Eff (Option E)) : S → S × Eff (Option E) := fun s =>
  match expr s with
  | (s, .thrown e) => (s, .thrown e)
  | (s, .terminate) => (s, .terminate)
  | (s, .ret r) =>
    if !isOkV r then (s, getErrorV r >>= fun e => (fromErrorV tyE .rvalue e).2)
    else rest s

/-- A sequence of `NAZARA_TRY` ended by `return Ok()`. -/
def tryAllV {S : Type} (tyE : Ty E) : List (S → S × Eff (Option E)) → S → S × Eff (Option E)
  | [], s => (s, .ret none)
  | stage :: stages, s => tryV tyE stage (tryAllV tyE stages) s

end

/-! ## Programs over many results -/

/-- Operations on variables of type `Result<V, E>`; `newX i` declares (or replaces) variable `i`. -/
inductive Op (V E : Type) where
  | newValue (i : Nat) (cat : Cat) (v : V)
  | newError (i : Nat) (cat : Cat) (e : E)
  | copyNew (i j : Nat)
  | moveNew (i j : Nat)
  | copyAssign (i j : Nat)
  | moveAssign (i j : Nat)
  /-- `r[i].GetValue() = v` -/
  | put (i : Nat) (v : V)
  /-- `V x = std::move(r[i]).GetValue()` -/
  | take (i : Nat)

abbrev Store (V E : Type) := Nat → Option (Var V E)

/-- Replace variable `i`. -/
def Store.set {V E : Type} (σ : Store V E) (i : Nat) (r : Var V E) : Store V E := fun k => if k = i then some r else σ k

/-- A new variable exists only if its constructor ended normally. -/
def Store.create {V E : Type} (σ : Store V E) (i : Nat) (x : Eff (Var V E)) : Store V E :=
  match x with
  | .ret r => σ.set i r
  | _ => σ

/-- One operation; exceptions are caught by the program, which goes on.  Operations on missing
variables do nothing; `moveNew i i` and `moveAssign i i` are not programs we consider and do nothing. -/
def step {V E : Type} (tyV : Ty V) (tyE : Ty E) (σ : Store V E) : Op V E → Store V E
  | .newValue i cat v => σ.create i (fromValue tyV cat v).2
  | .newError i cat e => σ.create i (fromError tyE cat e).2
  | .copyNew i j =>
    match σ j with
    | some r => σ.create i (copyNew tyV tyE r)
    | none => σ
  | .moveNew i j =>
    match σ j with
    | some r => if i = j then σ else let (r', x) := moveNew tyV tyE r; (σ.set j r').create i x
    | none => σ
  | .copyAssign i j =>
    match σ i, σ j with
    | some d, some r => σ.set i (copyAssign tyV tyE d r).1
    | _, _ => σ
  | .moveAssign i j =>
    match σ i, σ j with
    | some d, some r => if i = j then σ else let (d', r', _) := moveAssign tyV tyE d r; (σ.set i d').set j r'
    | _, _ => σ
  | .put i v =>
    match σ i with
    | some r => match putValue r v with
      | .ret r => σ.set i r
      | _ => σ
    | none => σ
  | .take i =>
    match σ i with
    | some r => match getValue r with
      | .ret v => σ.set i (.value (tyV.move v).1)
      | _ => σ
    | none => σ

def run {V E : Type} (tyV : Ty V) (tyE : Ty E) (ops : List (Op V E)) : Store V E := ops.foldl (step tyV tyE) (fun _ => none)

end Verif.Result
