import Verif.FunctionRef.ModelCtor

/-! # C151: which callables a `FunctionRef` can be made of, and which of their functions it calls -/

namespace Verif.FunctionRef.Ctor

/-- An lvalue that is not const: a `FunctionRef` of it can be made exactly if the call `f(args...)` compiles and gives a `Ret`, and it calls the same function; otherwise the constructor does not take
part (so that `std::is_constructible` and overload resolution of functions with `FunctionRef` parameters are right). -/
theorem C151_lvalue (os : List Over) :
    (∀ o, make os ⟨false, true⟩ = .calls o ↔ invoke os ⟨false, true⟩ = some o) ∧
    (make os ⟨false, true⟩ = .refused ↔ invoke os ⟨false, true⟩ = none) := by
  cases h : invoke os ⟨false, true⟩ <;> simp [make, h]

/-- In general, what is called is the function that the name of the object calls, `f(args...)`, also if it was passed as an rvalue. -/
theorem C151_named (os : List Over) (f : Cat) (o : Over) (h : make os f = .calls o) : invoke os ⟨false, true⟩ = some o ∧ f.const = false := by
  unfold make at h
  cases hf : f.const <;> cases h1 : invoke os f <;> simp_all
  cases h2 : invoke os ⟨false, true⟩ <;> simp_all

/-- A callable that cannot be called as it is passed is refused; no other is. -/
theorem C151_refused (os : List Over) (f : Cat) : make os f = .refused ↔ invoke os f = none := by
  unfold make
  cases h1 : invoke os f
  · simp
  · cases hf : f.const
    · cases h2 : invoke os ⟨false, true⟩ <;> simp
    · simp

/-- The functions of callables without ref-qualifiers (or with `const &`) are the same for lvalues and rvalues. -/
theorem resolve_unqualified (os : List Over) (h : ∀ o ∈ os, o.ref = .none ∨ (o.ref = .lvalue ∧ o.const = true)) (c : Bool) (l l' : Bool) : resolve os ⟨c, l⟩ = resolve os ⟨c, l'⟩ := by
  have hv : ∀ o ∈ os, o.viable ⟨c, l⟩ = o.viable ⟨c, l'⟩ := fun o ho => by
    rcases h o ho with e | ⟨e, e'⟩
    · simp [Over.viable, Over.takes, e]
    · simp [Over.viable, Over.takes, e, e']
  have hb : ∀ o p : Over, o ∈ os → p ∈ os → o.better p ⟨c, l⟩ = o.better p ⟨c, l'⟩ := fun o p ho hp => by
    have ho : o.ref ≠ .rvalue := by rcases h o ho with e | ⟨e, -⟩ <;> simp [e]
    have hp : p.ref ≠ .rvalue := by rcases h p hp with e | ⟨e, -⟩ <;> simp [e]
    simp [Over.better, Over.objectBetter, ho, hp]
  have hf : os.filter (·.viable ⟨c, l⟩) = os.filter (·.viable ⟨c, l'⟩) := List.filter_congr hv
  unfold resolve
  simp only [hf]
  have hall : ∀ o ∈ os.filter (·.viable ⟨c, l'⟩), (os.filter (·.viable ⟨c, l'⟩)).all (fun p => p == o || o.better p ⟨c, l⟩) =
      (os.filter (·.viable ⟨c, l'⟩)).all (fun p => p == o || o.better p ⟨c, l'⟩) := fun o ho => by
    rw [Bool.eq_iff_iff, List.all_eq_true, List.all_eq_true]
    have ho' := (List.mem_filter.mp ho).1
    constructor
    · intro h p hp
      have := h p hp
      rwa [hb o p ho' (List.mem_filter.mp hp).1] at this
    · intro h p hp
      have := h p hp
      rwa [← hb o p ho' (List.mem_filter.mp hp).1] at this
  generalize hvs : os.filter (·.viable ⟨c, l'⟩) = vs at hall
  rw [show ∀ (xs : List Over) (p q : Over → Bool), (∀ o ∈ xs, p o = q o) → xs.find? p = xs.find? q from ?_]
  · intro o ho
    rw [hall o ho]
  · intro xs p q hpq
    induction xs with
    | nil => rfl
    | cons x xs ih =>
      rw [List.find?_cons, List.find?_cons, hpq x List.mem_cons_self, ih (fun o ho => hpq o (List.mem_cons_of_mem _ ho))]

/-- Callables without ref-qualified functions (all lambdas, functions, pointers to functions), or with `const &`, that are not const themselves: a `FunctionRef` can be made exactly if they can be
called, and calls what a call calls, whichever way they are passed. -/
theorem C151_unqualified_partial (os : List Over) (h : ∀ o ∈ os, o.ref = .none ∨ (o.ref = .lvalue ∧ o.const = true)) (l : Bool) (o : Over) :
    make os ⟨false, l⟩ = .calls o ↔ invoke os ⟨false, l⟩ = some o := by
  have hr : invoke os ⟨false, true⟩ = invoke os ⟨false, l⟩ := by unfold invoke; rw [resolve_unqualified os h false true l]
  cases hi : invoke os ⟨false, l⟩ <;> simp [make, hr, hi]

/-- Const callables, among them lambdas kept in const variables: the constructor is selected and its body does not compile, for every callable that can be called. -/
theorem C151_const_violated (os : List Over) (l : Bool) (h : (invoke os ⟨true, l⟩).isSome = true) : make os ⟨true, l⟩ = .bodyError := by
  obtain ⟨o, ho⟩ := Option.isSome_iff_exists.mp h
  simp [make, ho]

/-- Rvalues of callables that can only be called as rvalues: the constructor is selected and its body does not compile. -/
theorem C151_rvalue_only_violated (os : List Over) (hq : ∀ o ∈ os, o.ref = .rvalue) (h : (invoke os ⟨false, false⟩).isSome = true) :
    make os ⟨false, false⟩ = .bodyError := by
  obtain ⟨o, ho⟩ := Option.isSome_iff_exists.mp h
  have hn : os.filter (·.viable ⟨false, true⟩) = [] := by
    rw [List.filter_eq_nil_iff]
    intro o ho
    simp [Over.viable, Over.takes, hq o ho]
  have hl : invoke os ⟨false, true⟩ = none := by simp [invoke, resolve, hn]
  simp [make, ho, hl]

/-- C151: of an `operator()` and an `operator() const` with the same ref-qualifier the reference calls the one without const, unless the other one takes the arguments better: then the call, and the
reference, is ambiguous. -/
theorem C151_overloads (r r' : Nat) (l : Bool) (os : List Over) (ho : os = [⟨false, .none, some r, true⟩, ⟨true, .none, some r', true⟩] ∨ os = [⟨true, .none, some r', true⟩, ⟨false, .none, some r, true⟩]) :
    (r ≤ r' → make os ⟨false, l⟩ = .calls ⟨false, .none, some r, true⟩) ∧ (r' < r → make os ⟨false, l⟩ = .refused) := by
  rcases ho with rfl | rfl
  all_goals
    constructor
    all_goals
      intro h
      simp [make, invoke, resolve, Over.viable, Over.takes, Over.better, Over.objectBetter, h, Nat.not_le.2, Nat.not_lt.2]

/-- Rvalues of callables with a function for lvalues and another one for rvalues: a call calls the second one, the `FunctionRef` the first one. -/
theorem C151_rvalue_other_violated (r : Nat) (c d : Bool) :
    invoke [⟨c, .lvalue, some r, true⟩, ⟨d, .rvalue, some r, true⟩] ⟨false, false⟩ = some ⟨d, .rvalue, some r, true⟩ ∧
    make [⟨c, .lvalue, some r, true⟩, ⟨d, .rvalue, some r, true⟩] ⟨false, false⟩ = .calls ⟨c, .lvalue, some r, true⟩ := by
  cases c <;> cases d <;> simp [make, invoke, resolve, Over.viable, Over.takes, Over.better, Over.objectBetter]

/-- A lambda, mutable or not, whose parameters take the arguments and whose result is a `Ret`: it can be called, a `FunctionRef` can be made of it and calls it.  A const lambda that is mutable cannot
be called, and is refused. -/
theorem C151_lambda (m l : Bool) (r : Nat) :
    (∃ o, lambda m true (some r) = [o] ∧ invoke (lambda m true (some r)) ⟨false, l⟩ = some o ∧ make (lambda m true (some r)) ⟨false, l⟩ = .calls o) ∧
    make (lambda true true (some r)) ⟨true, l⟩ = .refused ∧ (∀ c, make (lambda m true none) c = .refused) ∧ (∀ c, make (lambda m false (some r)) c = .refused) := by
  refine ⟨⟨_, rfl, ?_, ?_⟩, ?_, fun c => ?_, fun c => ?_⟩
  · cases m <;> cases l <;> simp [lambda, invoke, resolve, Over.viable, Over.takes]
  · cases m <;> cases l <;> simp [lambda, make, invoke, resolve, Over.viable, Over.takes]
  · cases l <;> simp [lambda, make, invoke, resolve, Over.viable, Over.takes]
  · simp [lambda, make, invoke, resolve, Over.viable]
  · rcases c with ⟨c, l⟩
    cases m <;> cases c <;> cases l <;> simp [lambda, make, invoke, resolve, Over.viable, Over.takes]

/-- A callable whose only function is `const &`, passed as an rvalue. -/
example : make [⟨true, .lvalue, some 0, true⟩] ⟨false, false⟩ = .calls ⟨true, .lvalue, some 0, true⟩ := by decide
/-- A const lambda can be called. -/
example : (invoke (lambda false true (some 0)) ⟨true, true⟩).isSome = true := by decide
/-- A callable that is only for rvalues; and one with two functions that take different arguments, of which the better one is called. -/
example : (invoke [⟨false, .rvalue, some 0, true⟩] ⟨false, false⟩).isSome = true := by decide
example : make [⟨false, .none, some 1, true⟩, ⟨true, .none, some 0, true⟩] ⟨false, true⟩ = .refused := by decide
example : make [⟨true, .none, some 1, true⟩, ⟨true, .none, some 0, true⟩] ⟨false, false⟩ = .calls ⟨true, .none, some 0, true⟩ := by decide

end Verif.FunctionRef.Ctor
