import Verif.Result.ModelCtor

/-!
# C142, C143: what a Result holds that is made from a value, from another Result, or in place
-/

namespace Verif.Result.Ctor

variable (env : Env)

/-- The value type converts to the Result. -/
theorem convertible_value {V E : Tp} (h1 : V ≠ E) (h0 : V ≠ .void) : convertible env V (.result V E) = true := by
  cases V <;> simp [convertible, h1] at h0 ⊢

/-- The constructor selected, if the argument is of the value type and not a Result of this type itself. -/
theorem select_value {V E : Tp} (hE : V ≠ E) (h0 : V ≠ .void) (cat : Cat) :
    select env V E V cat =
      if enabled env V E V .fromConst = true ∧ (cat = .constLvalue ∨ cat = .rvalue) then
        (if cat = .rvalue then some .fromRvalue else some .fromConst)
      else some .value := by
  have hne : V ≠ Tp.result V E := by
    intro h
    have := congrArg sizeOf h
    simp at this
    omega
  have e1 : enabled env V E V .value = true := by simp [enabled, hE, h0]
  have e2 : enabled env V E V .copy = false := by simp [enabled, hne]
  have e3 : enabled env V E V .move = false := by simp [enabled, hne]
  have e4 : enabled env V E V .fromRvalue = enabled env V E V .fromConst := rfl
  cases h : enabled env V E V .fromConst <;> cases cat <;> simp only [select, List.filter, e1, e2, e3, e4, h] <;> rfl

/-- A Result of the same type is copied or moved. -/
theorem select_same (V E : Tp) (cat : Cat) :
    select env V E (.result V E) cat = if cat = .rvalue then some .move else some .copy := by
  have e1 : enabled env V E (.result V E) .value = false := by
    have hne : Tp.result V E ≠ V := by
      intro h
      have := congrArg sizeOf h
      simp at this
      omega
    simp [enabled, hne]
  have e2 : enabled env V E (.result V E) .copy = true := by simp [enabled]
  have e3 : enabled env V E (.result V E) .move = true := by simp [enabled]
  have e4 : enabled env V E (.result V E) .fromRvalue = enabled env V E (.result V E) .fromConst := rfl
  cases h : enabled env V E (.result V E) .fromConst <;> cases cat <;> simp only [select, List.filter, e1, e2, e3, e4, h] <;> rfl

/-- Another Result, which is not of the value type either, is converted. -/
theorem select_other {V E V2 E2 : Tp} (h1 : Tp.result V2 E2 ≠ .result V E) (h2 : Tp.result V2 E2 ≠ V) (cat : Cat) :
    select env V E (.result V2 E2) cat =
      if (convertible env V2 V && convertible env E2 E) = true then (if cat = .rvalue then some .fromRvalue else some .fromConst) else none := by
  have e1 : enabled env V E (.result V2 E2) .value = false := by simp [enabled, h2]
  have e2 : enabled env V E (.result V2 E2) .copy = false := by simp only [enabled, h1, decide_false]
  have e3 : enabled env V E (.result V2 E2) .move = false := by simp only [enabled, h1, decide_false]
  have e4 : enabled env V E (.result V2 E2) .fromRvalue = enabled env V E (.result V2 E2) .fromConst := rfl
  have e5 : enabled env V E (.result V2 E2) .fromConst = (convertible env V2 V && convertible env E2 E) := rfl
  cases h : (convertible env V2 V && convertible env E2 E) <;> cases cat <;> simp only [select, List.filter, e1, e2, e3, e4, e5, h] <;> rfl

/-- A value that is not a Result makes a successful Result with this value, however it is passed.  (The property is also for values that are Results; see `C142_nested_violated`.) -/
theorem C142_value_partial (n : Nat) (E : Tp) (hE : Tp.base n ≠ E) (cat : Cat) :
    construct env (.result (.base n) E) (.base n) cat = some Except.ok := by
  have hs := select_value env hE (by intro h; cases h) cat
  rw [if_neg (by simp [enabled])] at hs
  simp only [construct, hs, dite_true]
  rfl

/-- A value that is a Result makes a successful Result with this value if it is an lvalue that is not const (or a const rvalue). -/
theorem C142_nested_lvalue_partial (V' E' E : Tp) (hE : Tp.result V' E' ≠ E) (cat : Cat) (hc : cat = .lvalue ∨ cat = .constRvalue) :
    construct env (.result (.result V' E') E) (.result V' E') cat = some Except.ok := by
  have hs := select_value env hE (by intro h; cases h) cat
  rw [if_neg (by rcases hc with rfl | rfl <;> simp)] at hs
  simp only [construct, hs, dite_true]
  rfl

/-- Nested Results, passed as const lvalues or rvalues: the contents are converted. -/
theorem construct_nested {V' E' E : Tp} (h1 : V' ≠ E') (h0 : V' ≠ .void) (hE : Tp.result V' E' ≠ E) (hd : defaultConstructible env V' = true)
    (hconv : convertible env E' E = true) {cat : Cat} (hc : cat = .constLvalue ∨ cat = .rvalue) {f : Val env V' → Val env (.result V' E')}
    (hf : construct env (.result V' E') V' cat = some f) {g : Val env E' → Val env E} (hg : construct env E E' cat = some g) :
    ∃ F : Val env (.result V' E') → Val env (.result (.result V' E') E),
      construct env (.result (.result V' E') E) (.result V' E') cat = some F ∧
      (∀ e, F (.error e) = .error (g e)) ∧ ∀ v, F (.ok v) = .ok (f v) := by
  have hs := select_value env hE (by intro h; cases h) cat
  rw [if_pos ⟨by simp only [enabled, convertible_value env h1 h0, hconv, Bool.and_self], hc⟩] at hs
  have hdd : defaultConstructible env (.result V' E') = true := hd
  rw [construct, hs]
  rcases hc with rfl | rfl
  · simp only [reduceCtorEq, if_false, if_true, hf, hg, hdd, or_true]
    exact ⟨_, rfl, fun e => rfl, fun v => rfl⟩
  · simp only [reduceCtorEq, if_false, if_true, hf, hg, hdd, or_true]
    exact ⟨_, rfl, fun e => rfl, fun v => rfl⟩

/-- The other ways to pass it: if its value type is neither its error type nor void, and its error converts to the error type of the outer Result, then the constructor that converts Results is
selected.  An error inside becomes an error outside: the outer Result has failed although it was given a value. -/
theorem C142_nested_violated (n : Nat) (E' E : Tp) (h1 : Tp.base n ≠ E') (hE : Tp.result (.base n) E' ≠ E) (hd : env.dflt n = true)
    (hconv : convertible env E' E = true) (cat : Cat) (hc : cat = .constLvalue ∨ cat = .rvalue) {g : Val env E' → Val env E}
    (hg : construct env E E' cat = some g) :
    ∃ f : Val env (.result (.base n) E') → Val env (.result (.result (.base n) E') E),
      construct env (.result (.result (.base n) E') E) (.result (.base n) E') cat = some f ∧
      (∀ e, f (.error e) = .error (g e)) ∧ ∀ v, f (.ok v) = .ok (.ok v) :=
  construct_nested env h1 (by intro h; cases h) hE hd hconv hc (C142_value_partial env n E' h1 cat) hg

/-- If the value type inside cannot be default constructed, passing the Result in these ways does not compile. -/
theorem C142_nested_default_violated (V' E' E : Tp) (h1 : V' ≠ E') (h0 : V' ≠ .void) (hE : Tp.result V' E' ≠ E) (hd : defaultConstructible env V' = false)
    (hconv : convertible env E' E = true) (cat : Cat) (hc : cat = .constLvalue ∨ cat = .rvalue) :
    construct env (.result (.result V' E') E) (.result V' E') cat = none := by
  have hs := select_value env hE (by intro h; cases h) cat
  have hcv : convertible env V' (.result V' E') = true := convertible_value env h1 h0
  rw [if_pos ⟨by simp only [enabled, hcv, hconv, Bool.and_self], hc⟩] at hs
  have hdd : defaultConstructible env (.result V' E') = false := hd
  rw [construct, hs]
  rcases hc with rfl | rfl <;> simp only [reduceCtorEq, if_false, if_true, hdd, false_or, Bool.false_eq_true] <;> split <;> rfl

/-- If the value type and the error type are the same, a value cannot be converted to a Result: only `Ok`, `Err` and the tags make one. -/
theorem C142_same_types (n : Nat) (cat : Cat) : construct env (.result (.base n) (.base n)) (.base n) cat = none := by
  have hs : select env (.base n) (.base n) (.base n) cat = none := by cases cat <;> simp [select, enabled]
  rw [construct, hs]

/-- A Result of another type that is not the value type is converted: success stays success, errors stay errors, with their contents converted. -/
theorem C142_convert {V E V2 E2 : Tp} (h2 : Tp.result V2 E2 ≠ V) (cat : Cat)
    {f : Val env (.result V2 E2) → Val env (.result V E)} (h : construct env (.result V E) (.result V2 E2) cat = some f) :
    (∀ v, ∃ v', f (.ok v) = .ok v') ∧ (∀ e, ∃ e', f (.error e) = .error e') ∧
    ((V2 = V ∧ E2 = E) ∨ ∃ (cat' : Cat) (gv : Val env V2 → Val env V) (ge : Val env E2 → Val env E),
      construct env V V2 cat' = some gv ∧ construct env E E2 cat' = some ge ∧ (cat' = .rvalue ↔ cat = .rvalue) ∧
      (∀ v, f (.ok v) = .ok (gv v)) ∧ ∀ e, f (.error e) = .error (ge e)) := by
  by_cases h1 : Tp.result V2 E2 = .result V E
  · obtain ⟨rfl, rfl⟩ := Tp.result.inj h1
    have hs := select_same env V2 E2 cat
    rw [construct, hs] at h
    have hf : f = id := by
      by_cases hr : cat = .rvalue
      · simp only [hr, if_true, dite_true, Option.some.injEq] at h
        exact h.symm
      · simp only [hr, if_false, dite_true, Option.some.injEq] at h
        exact h.symm
    subst hf
    exact ⟨fun v => ⟨v, rfl⟩, fun e => ⟨e, rfl⟩, Or.inl ⟨rfl, rfl⟩⟩
  · have hs := select_other env h1 h2 cat
    rw [construct, hs] at h
    by_cases hc : (convertible env V2 V && convertible env E2 E) = true
    · have key : ∀ (w : Which) (cat' : Cat), (cat' = .rvalue ↔ cat = .rvalue) →
          (match construct env V V2 cat', construct env E E2 cat' with
            | some f, some g => if V = .void ∨ defaultConstructible env V = true then
                some (fun r : Val env (.result V2 E2) => (match r with
                  | .ok v => .ok (f v)
                  | .error e => .error (g e) : Val env (.result V E))) else none
            | _, _ => none) = some f →
          (∀ v, ∃ v', f (.ok v) = .ok v') ∧ (∀ e, ∃ e', f (.error e) = .error e') ∧
          ((V2 = V ∧ E2 = E) ∨ ∃ (cat' : Cat) (gv : Val env V2 → Val env V) (ge : Val env E2 → Val env E),
            construct env V V2 cat' = some gv ∧ construct env E E2 cat' = some ge ∧ (cat' = .rvalue ↔ cat = .rvalue) ∧
            (∀ v, f (.ok v) = .ok (gv v)) ∧ ∀ e, f (.error e) = .error (ge e)) := by
        intro _ cat' hcat h
        split at h
        · rename_i gv ge hgv hge
          split at h
          · cases h
            exact ⟨fun v => ⟨gv v, rfl⟩, fun e => ⟨ge e, rfl⟩, Or.inr ⟨cat', gv, ge, hgv, hge, hcat, fun _ => rfl, fun _ => rfl⟩⟩
          · cases h
        · cases h
      by_cases hr : cat = .rvalue
      · subst hr
        simp only [hc, if_true, reduceCtorEq, if_false] at h
        exact key .fromRvalue .rvalue Iff.rfl h
      · simp only [hc, if_true, hr, if_false] at h
        exact key .fromConst .constLvalue ⟨(by intro h; cases h), (fun h => absurd h hr)⟩ h
    · simp only [hc] at h
      exact absurd h (by simp)

/-- `std::is_convertible_v<X, Result<V, E>>`, on which the conditions of the constructors depend, says whether an rvalue of type `X` can be passed: whether there is a best constructor for it. -/
theorem C142_convertible (V E X : Tp) : convertible env X (.result V E) = (select env V E X .rvalue).isSome := by
  have hc : convertible env X (.result V E) = (enabled env V E X .move || enabled env V E X .value || enabled env V E X .fromRvalue) := by
    cases X <;> simp only [convertible, enabled, Bool.or_false]
  have h1 : enabled env V E X .fromConst = enabled env V E X .fromRvalue := rfl
  have h2 : enabled env V E X .copy = enabled env V E X .move := rfl
  rw [hc]
  simp only [select, List.filter, h1, h2]
  cases enabled env V E X .move <;> cases enabled env V E X .value <;> cases enabled env V E X .fromRvalue <;> decide

/-! ### Nested to any depth -/

/-- `Result<Result<...Result<T, E>..., E>, E>`, `d` deep. -/
def tower (n e : Nat) : Nat → Tp
  | 0 => .base n
  | d + 1 => .result (tower n e d) (.base e)

/-- What a Result of this type holds: at which depth there is an error, and which; or the value at the bottom. -/
def holds (env : Env) (n e : Nat) : (d : Nat) → Val env (tower n e d) → (Nat × env.Obj e) ⊕ env.Obj n
  | 0, v => .inr v
  | _ + 1, .error x => .inl (0, x)
  | d + 1, .ok v => match holds env n e d v with
    | .inl (k, x) => .inl (k + 1, x)
    | .inr y => .inr y

/-- A Result of depth `d`, passed as an rvalue (or const lvalue) to make a Result of depth `d + 1`: if there is an error it is one level further out than in the Result
that holds the given one. -/
theorem C142_tower_violated {n e : Nat} (hne : n ≠ e) (hd : env.dflt n = true) (cat : Cat) (hc : cat = .constLvalue ∨ cat = .rvalue) (d : Nat) :
    ∃ f : Val env (tower n e d) → Val env (tower n e (d + 1)),
      construct env (tower n e (d + 1)) (tower n e d) cat = some f ∧ ∀ x, holds env n e (d + 1) (f x) = holds env n e d x := by
  have hb : ∀ d, tower n e d ≠ .base e := by
    intro d h
    cases d with
    | zero => exact hne (Tp.base.inj h)
    | succ d => cases h
  have hv : ∀ d, tower n e d ≠ .void := by
    intro d h
    cases d <;> cases h
  have hdc : ∀ d, defaultConstructible env (tower n e d) = true := by
    intro d
    induction d with
    | zero => exact hd
    | succ d ih => exact ih
  have hee : construct env (.base e) (.base e) cat = some id := by simp [construct]
  induction d with
  | zero =>
    refine ⟨Except.ok, C142_value_partial env n _ (hb 0) cat, fun x => rfl⟩
  | succ d ih =>
    obtain ⟨f, hf, hx⟩ := ih
    obtain ⟨F, hF, h1, h2⟩ := construct_nested env (hb d) (hv d) (hb (d + 1)) (hdc d) (E := .base e) (by simp [convertible]) hc hf hee
    refine ⟨F, hF, fun x => ?_⟩
    cases x with
    | error x => rw [h1]; rfl
    | ok v =>
      rw [h2]
      have := hx v
      simp only [holds] at this ⊢
      rw [this]

/-- A Result whose value has no default constructor cannot be made from a Result of another type, although its values and errors convert (`std::is_convertible` says it can). -/
private theorem convert_no_default {V E V2 E2 : Tp} (h0 : V ≠ .void) (h1 : Tp.result V2 E2 ≠ .result V E) (h2 : Tp.result V2 E2 ≠ V) (hd : defaultConstructible env V = false)
    (cat : Cat) : construct env (.result V E) (.result V2 E2) cat = none := by
  rw [construct, select_other env h1 h2 cat]
  by_cases hc : (convertible env V2 V && convertible env E2 E) = true
  · by_cases hr : cat = .rvalue
    · simp only [hc, if_true, hr, reduceCtorEq, if_false, h0, hd, false_or, Bool.false_eq_true]
      split <;> rfl
    · simp only [hc, if_true, hr, if_false, h0, hd, false_or, Bool.false_eq_true]
      split <;> rfl
  · simp only [hc]
    rfl

/-- Values and errors that convert are not enough to convert a Result: if the value to make is an object without default constructor, or a Result without value (which has none), then the
conversion does not compile, although `std::is_convertible` says it does. -/
theorem C142_convert_default_violated (V2 E2 E : Tp) (h : convertible env E2 E = true) (cat : Cat) :
    (∀ n, env.dflt n = false → convertible env V2 (.base n) = true → V2 ≠ .base n →
      convertible env (.result V2 E2) (.result (.base n) E) = true ∧ construct env (.result (.base n) E) (.result V2 E2) cat = none) ∧
    (∀ E', convertible env V2 (.result .void E') = true → V2 ≠ .result .void E' → Tp.result V2 E2 ≠ .result .void E' →
      convertible env (.result V2 E2) (.result (.result .void E') E) = true ∧ construct env (.result (.result .void E') E) (.result V2 E2) cat = none) := by
  refine ⟨fun n hn hv hne => ⟨?_, ?_⟩, fun E' hv hne h2 => ⟨?_, ?_⟩⟩
  · rw [convertible]; simp [hv, h]
  · exact convert_no_default env (by intro h; cases h) (fun h => hne (Tp.result.inj h).1) (by intro h; cases h) hn cat
  · rw [convertible]; simp [hv, h]
  · exact convert_no_default env (by intro h; cases h) (fun h => hne (Tp.result.inj h).1) h2 rfl cat

/-- Two object types: numbers (0) and texts (1). -/
def numText : Env := ⟨fun n => if n = 1 then String else Nat, fun _ _ => false, fun m n x => if h : m = n then h ▸ x else (if h : n = 1 then cast (by simp [h]) "" else cast (by simp [h]) 0), fun _ => true⟩

example : numText.dflt 0 = true ∧ (0 : Nat) ≠ 1 ∧ Tp.result (.base 0) (.base 1) ≠ .base 1 ∧ convertible numText (.base 1) (.base 1) = true ∧
    construct numText (.base 1) (.base 1) .rvalue = some id := by
  refine ⟨rfl, by decide, by decide, rfl, by simp [construct]⟩

/-- `Result<Result<Nat, String>, String>(Result<Nat, String>(Err("no")))` has failed; from an lvalue it has not. -/
example : ∃ f g, construct numText (.result (.result (.base 0) (.base 1)) (.base 1)) (.result (.base 0) (.base 1)) .rvalue = some f ∧
    construct numText (.result (.result (.base 0) (.base 1)) (.base 1)) (.result (.base 0) (.base 1)) .lvalue = some g ∧
    f (.error "no") = .error "no" ∧ g (.error "no") = .ok (.error "no") := by
  obtain ⟨f, hf, h1, _⟩ := C142_nested_violated numText 0 (.base 1) (.base 1) (by decide) (by decide) rfl rfl .rvalue (Or.inr rfl) (g := id) (by simp [construct])
  exact ⟨f, Except.ok, hf, C142_nested_lvalue_partial numText _ _ _ (by decide) _ (Or.inl rfl), h1 "no", rfl⟩

/-- A type without default constructor, and a conversion between Results. -/
example : defaultConstructible ⟨fun _ => Nat, fun _ _ => true, fun _ _ x => x, fun _ => false⟩ (.base 0) = false := rfl
example : (construct ⟨fun _ => Nat, fun _ _ => true, fun _ _ x => x, fun _ => true⟩ (.result (.base 0) (.base 1)) (.result (.base 2) (.base 3)) .lvalue).isSome = true := by
  rw [construct, select_other _ (by decide) (by decide)]
  simp [convertible, construct, defaultConstructible]

/-- `Result<void, int>` to `Result<void, long>` converts, `Result<Result<void, int>, long>` to `Result<Result<void, long>, long>` does not. -/
example : convertible ⟨fun _ => Nat, fun _ _ => true, fun _ _ x => x, fun _ => true⟩ (.result .void (.base 0)) (.result .void (.base 1)) = true ∧
    (Tp.result .void (.base 0) : Tp) ≠ .result .void (.base 1) ∧ Tp.result (.result .void (.base 0)) (.base 1) ≠ .result .void (.base 1) := by
  refine ⟨by simp [convertible], by decide, by decide⟩

/-! ### C143 -/

variable {V E A : Type}

/-- `Result<V, E>(ErrorTag, args...)` and `Result<V, E>(Err(x))` hold the error made from the arguments, `ValueTag` and `Ok` the value, and they compile if it can be made from them. -/
theorem C143_primary (makeE : Make E A) (makeV : Make V A) :
    (∀ args e, makeE args = some e ↔ errorTag (V := V) makeE args = some (.error e)) ∧
    (∀ args v, makeV args = some v ↔ valueTag (E := E) makeV args = some (.ok v)) ∧
    (∀ a e, makeE [a] = some e ↔ err (V := V) makeE a = some (.error e)) ∧
    (∀ a v, makeV [a] = some v ↔ ok (E := E) makeV a = some (.ok v)) ∧
    (∀ args v, errorTag (V := V) makeE args ≠ some (.ok v)) ∧ (∀ args e, valueTag (E := E) makeV args ≠ some (.error e)) := by
  refine ⟨fun args e => ?_, fun args v => ?_, fun a e => ?_, fun a v => ?_, fun args v h => ?_, fun args e h => ?_⟩
  · simp [errorTag]
  · simp [valueTag]
  · simp [err]
  · simp [ok]
  · simp [errorTag] at h
  · simp [valueTag] at h

/-- `Result<void, E>` with one argument of an ordinary type: it holds the error made from it.  (The property is for any arguments; see the theorems below.) -/
theorem C143_void_partial (make : Make E A) (a : A) :
    errorTagV make [.other a] = (make [.other a]).map some ∧ errV make (.other a) = (make [.other a]).map some := ⟨rfl, rfl⟩

/-- Without arguments there is no error: `Result<void, E>(ErrorTag{})` is a success.  For other types the same gives an error whenever `E` can be default constructed. -/
theorem C143_void_default_violated (make : Make E A) (e : E) (h : make [] = some e) :
    errorTagV make [] = some none ∧ errorTag (V := V) make [] = some (.error e) := by
  refine ⟨rfl, ?_⟩
  simp [errorTag, h]

/-- Several arguments do not compile (unless the first is `std::in_place`), although `E` can be made from them. -/
theorem C143_void_several_violated (make : Make E A) (a : A) (b : InitArg E A) (args : List (InitArg E A)) (e : E) (h : make (.other a :: b :: args) = some e) :
    errorTagV make (.other a :: b :: args) = none ∧ errorTag (V := V) make (.other a :: b :: args) = some (.error e) := by
  refine ⟨rfl, ?_⟩
  simp [errorTag, h]

/-- An empty `std::optional`, or `std::nullopt`, given as the error makes a success. -/
theorem C143_void_optional_violated (make : Make E A) :
    errV make .nullopt = some none ∧ errV make (.optional none) = some none ∧ ∀ e, errV make (.optional (some e)) = some (some e) := ⟨rfl, rfl, fun _ => rfl⟩

/-- The way around: `std::in_place`. -/
theorem C143_void_inPlace (make : Make E A) (args : List (InitArg E A)) : errorTagV make (.inPlace :: args) = (make args).map some := by
  simp [errorTagV, optionalInit]

/-- Errors that are pairs of numbers, `(0, 0)` by default. -/
def makePair : Make (Nat × Nat) Nat
  | [] => some (0, 0)
  | [.other a, .other b] => some (a, b)
  | _ => none

example : makePair [] = some (0, 0) ∧ makePair (.other 1 :: .other 2 :: []) = some (1, 2) := ⟨rfl, rfl⟩

end Verif.Result.Ctor
