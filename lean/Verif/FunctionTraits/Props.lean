import Verif.FunctionTraits.Spec

/-!
# C93-C95: function traits, functors and overload selection
-/

namespace Verif.FunctionTraits

variable {A K : Type}

theorem mem_memberSpecs (c v : Bool) (r : Ref) (n : Bool) : (c, v, r, n) ∈ memberSpecs := by
  cases c <;> cases v <;> cases r <;> cases n <;> decide

theorem mfptrTraits_eq (f : Fn A) : mfptrTraits f = if f.variadic = false then some ⟨f.ret, f.args⟩ else none := by
  unfold mfptrTraits funcTraits
  simp [mem_memberSpecs]

theorem fptrTraits_eq (f : Fn A) (hf : f.Free) : fptrTraits f = if f.variadic = false then some ⟨f.ret, f.args⟩ else none := by
  obtain ⟨h1, h2, h3⟩ := hf
  unfold fptrTraits funcTraits
  cases hn : f.noexc <;> simp [h1, h2, h3]

theorem traits_eq (ops : Ops A K) (t : Ty A K) : traits ops t = bareTraits ops false t.volatile t.core := by
  unfold traits valueTraits
  cases hr : t.ref <;> cases hc : t.const <;> simp

theorem Calls.unique {ops : Ops A K} {c : Core A K} {f g : Fn A} (hf : Calls ops c f) (hg : Calls ops c g) : f = g := by
  cases hf with
  | func => cases hg; rfl
  | fptr => cases hg; rfl
  | mfptr => cases hg; rfl
  | member k k' f h =>
    cases hg with
    | member _ _ _ h' => rw [h] at h'; simp at h'; exact h'.2
    | static _ _ h' => rw [h] at h'; simp at h'
  | static k f h =>
    cases hg with
    | member _ _ _ h' => rw [h] at h'; simp at h'
    | static _ _ h' => rw [h] at h'; simp at h'; exact h'

/-- Where `FunctionTraits` has a specialisation: no C variadic functions; function types (as opposed to pointers) without qualifiers and without `noexcept`; no `volatile` pointers. -/
def Supported (t : Ty A K) (f : Fn A) : Prop :=
  f.variadic = false ∧
  (∀ g, t.core = .func g → f.Free ∧ f.noexc = false) ∧
  (t.volatile = true → ∃ k, t.core = .cls k)

/-- C93: what `FunctionTraits<T>` is for every type: the return type and the parameter types of the function that is called, exactly for the supported ones; every other type does not compile. -/
theorem C93_traits_exact (ops : Ops A K) (hops : ops.WF) (t : Ty A K) (ht : t.WF) (r : Traits A) :
    traits ops t = some r ↔ ∃ f, Calls ops t.core f ∧ Supported t f ∧ r.ret = f.ret ∧ r.args = f.args := by
  rw [traits_eq]
  obtain ⟨ref, c, v, core⟩ := t
  obtain ⟨ret, args⟩ := r
  cases core with
  | func f =>
    obtain ⟨hc, hv, hr⟩ := ht
    dsimp only at hc hv hr
    subst hc hv
    simp only [bareTraits]
    constructor
    · intro h
      unfold funcTraits at h
      split at h
      · rename_i hq
        simp only [Prod.mk.injEq] at hq
        simp only [Option.some.injEq, Traits.mk.injEq] at h
        obtain ⟨h1, h2, h3, h4, h5⟩ := hq
        refine ⟨f, .func f, ⟨h1, fun g hg => ⟨⟨h2, h3, h4⟩, h5⟩, by simp⟩, h.1.symm, h.2.symm⟩
      · cases h
    · rintro ⟨g, hg, ⟨s1, s2, _⟩, h1, h2⟩
      cases hg
      obtain ⟨⟨q1, q2, q3⟩, q4⟩ := s2 f rfl
      simp [funcTraits, s1, q1, q2, q3, q4, h1, h2]
  | fptr f =>
    have hf : f.Free := ht
    cases v with
    | false =>
      simp only [bareTraits, fptrTraits_eq f hf]
      constructor
      · intro h
        split at h
        · rename_i hv
          simp only [Option.some.injEq, Traits.mk.injEq] at h
          exact ⟨f, .fptr f, ⟨hv, by simp, by simp⟩, h.1.symm, h.2.symm⟩
        · cases h
      · rintro ⟨g, hg, ⟨s1, _, _⟩, h1, h2⟩
        cases hg
        simp [s1, h1, h2]
    | true =>
      simp only [bareTraits, primary]
      constructor
      · intro h; cases h
      · rintro ⟨g, hg, ⟨_, _, s3⟩, _, _⟩
        obtain ⟨k, hk⟩ := s3 rfl
        cases hk
  | mfptr k f =>
    cases v with
    | false =>
      simp only [bareTraits, mfptrTraits_eq f]
      constructor
      · intro h
        split at h
        · rename_i hv
          simp only [Option.some.injEq, Traits.mk.injEq] at h
          exact ⟨f, .mfptr k f, ⟨hv, by simp, by simp⟩, h.1.symm, h.2.symm⟩
        · cases h
      · rintro ⟨g, hg, ⟨s1, _, _⟩, h1, h2⟩
        cases hg
        simp [s1, h1, h2]
    | true =>
      simp only [bareTraits, primary]
      constructor
      · intro h; cases h
      · rintro ⟨g, hg, ⟨_, _, s3⟩, _, _⟩
        obtain ⟨k, hk⟩ := s3 rfl
        cases hk
  | cls k =>
    have hb : bareTraits ops false v (.cls k : Core A K) = primary ops (.cls k) := by cases v <;> rfl
    dsimp only
    rw [hb]
    simp only [primary, addressOfCall]
    constructor
    · intro h
      cases ho : ops k with
      | none => rw [ho] at h; cases h
      | some l =>
        rw [ho] at h
        match l, ho, h with
        | [], _, h => cases h
        | [.member k' f], ho, h =>
          simp only [mfptrTraits_eq f] at h
          split at h
          · rename_i hv
            simp only [Option.some.injEq, Traits.mk.injEq] at h
            exact ⟨f, .member k k' f ho, ⟨hv, by simp, fun _ => ⟨k, rfl⟩⟩, h.1.symm, h.2.symm⟩
          · cases h
        | [.static f], ho, h =>
          simp only [fptrTraits_eq f (hops k f ho)] at h
          split at h
          · rename_i hv
            simp only [Option.some.injEq, Traits.mk.injEq] at h
            exact ⟨f, .static k f ho, ⟨hv, by simp, fun _ => ⟨k, rfl⟩⟩, h.1.symm, h.2.symm⟩
          · cases h
        | .member _ _ :: _ :: _, _, h => cases h
        | .static _ :: _ :: _, _, h => cases h
    · rintro ⟨g, hg, ⟨s1, _, _⟩, h1, h2⟩
      cases hg with
      | member _ k' f ho => simp [ho, mfptrTraits_eq, s1, h1, h2]
      | static _ f ho => simp [ho, fptrTraits_eq _ (hops k _ ho), s1, h1, h2]
  | other a =>
    constructor
    · intro h
      cases v <;> cases h
    · rintro ⟨g, hg, _⟩
      cases hg

/-- C93, the intended use: the traits of a function, a function pointer, a pointer to member function or a functor, `const` or a reference or not, with whatever qualifiers on the member function. -/
theorem C93_traits_partial (ops : Ops A K) (hops : ops.WF) (t : Ty A K) (ht : t.WF) (f : Fn A)
    (hf : Calls ops t.core f) (hs : Supported t f) :
    ∃ r, traits ops t = some r ∧ r.ret = f.ret ∧ r.args = f.args ∧ argCount r = f.args.length ∧
      ∀ i, argType r i = f.args[i]? := by
  refine ⟨⟨f.ret, f.args⟩, (C93_traits_exact ops hops t ht _).2 ⟨f, hf, hs, rfl, rfl⟩, rfl, rfl, rfl, fun i => ?_⟩
  have key : ∀ (l : List A) (i : Nat), i < l.length → TypeList.at' l i = l[i]? := by
    intro l
    induction l with
    | nil => intro i hi; simp at hi
    | cons a l ih =>
      intro i hi
      cases i with
      | zero => rfl
      | succ i =>
        have : i + 1 ≤ l.length := Nat.lt_of_succ_lt_succ hi
        simp [TypeList.at', this, ih i this]
  unfold argType argCount
  dsimp only
  split
  · rename_i hi; exact key _ _ hi
  · rename_i hi; simp [List.getElem?_eq_none (Nat.le_of_not_lt hi)]

/-- C93, references and `const` do not matter. -/
theorem C93_const_ref (ops : Ops A K) (ref ref' : Ref) (c c' v : Bool) (core : Core A K) :
    traits ops ⟨ref, c, v, core⟩ = traits ops ⟨ref', c', v, core⟩ := by
  simp [traits_eq]

/-- C93 fails for every `noexcept` function type: its traits do not compile, although those of the pointer to the same function do. -/
theorem C93_noexcept_violated (ops : Ops A K) (hops : ops.WF) (ref : Ref) (f : Fn A) (hf : f.Free) (hv : f.variadic = false)
    (hn : f.noexc = true) :
    traits ops ⟨ref, false, false, .func f⟩ = none ∧ traits ops ⟨ref, false, false, .fptr f⟩ = some ⟨f.ret, f.args⟩ := by
  constructor
  · cases h : traits ops ⟨ref, false, false, .func f⟩ with
    | none => rfl
    | some r =>
      obtain ⟨g, hg, hs, _⟩ := (C93_traits_exact ops hops ⟨ref, false, false, .func f⟩ ⟨rfl, rfl, Or.inr hf⟩ r).1 h
      cases hg
      exact absurd (hs.2.1 f rfl).2 (by simp [hn])
  · exact (C93_traits_exact ops hops ⟨ref, false, false, .fptr f⟩ hf _).2
      ⟨f, .fptr f, ⟨hv, by simp, by simp⟩, rfl, rfl⟩

/-- C93 fails for everything that takes a C variadic parameter list, and for every `volatile` pointer. -/
theorem C93_variadic_violated (ops : Ops A K) (hops : ops.WF) (t : Ty A K) (ht : t.WF) (f : Fn A) (hf : Calls ops t.core f)
    (hv : f.variadic = true ∨ t.volatile = true ∧ ∀ k, t.core ≠ .cls k) : traits ops t = none := by
  cases h : traits ops t with
  | none => rfl
  | some r =>
    exfalso
    obtain ⟨g, hg, ⟨s1, _, s3⟩, _⟩ := (C93_traits_exact ops hops t ht r).1 h
    have := Calls.unique hg hf
    subst this
    rcases hv with hv | ⟨hv, hn⟩
    · rw [hv] at s1; cases s1
    · obtain ⟨k, hk⟩ := s3 hv
      exact hn k hk

/-- C93 fails for every function type with qualifiers, such as the type `Ret(Args...) const` of a member function. -/
theorem C93_qualified_violated (ops : Ops A K) (hops : ops.WF) (f : Fn A) (hq : ¬ f.Free) :
    traits ops ⟨.none, false, false, .func f⟩ = none := by
  cases h : traits ops ⟨.none, false, false, .func f⟩ with
  | none => rfl
  | some r =>
    obtain ⟨g, hg, hs, _⟩ := (C93_traits_exact ops hops ⟨.none, false, false, .func f⟩ ⟨rfl, rfl, Or.inl rfl⟩ r).1 h
    cases hg
    exact absurd (hs.2.1 f rfl).1 hq

/-! ### C94 -/

/-- The intended meaning of `IsFunctor_v`: the type can be called with one signature. -/
theorem C94_isFunctor_exact (ops : Ops A K) (t : Ty A K) :
    isFunctor ops t = true ↔ t.ref = .none ∧ (∀ f, t.core ≠ .fptr f) ∧ ∃ f, Calls ops t.core f := by
  obtain ⟨ref, c, v, core⟩ := t
  cases ref with
  | none =>
    cases core with
    | func f => simpa [isFunctor] using ⟨f, .func f⟩
    | fptr f => simp [isFunctor]
    | mfptr k f => simpa [isFunctor] using ⟨f, .mfptr k f⟩
    | cls k =>
      simp only [isFunctor, addressOfCall, ne_eq, reduceCtorEq, not_false_eq_true, implies_true, true_and]
      constructor
      · intro h
        cases ho : ops k with
        | none => rw [ho] at h; cases h
        | some l =>
          rw [ho] at h
          match l, ho, h with
          | [], _, h => cases h
          | [.member k' f], ho, h => exact ⟨f, .member k k' f ho⟩
          | [.static f], ho, h => exact ⟨f, .static k f ho⟩
          | .member _ _ :: _ :: _, _, h => cases h
          | .static _ :: _ :: _, _, h => cases h
      · rintro ⟨f, hf⟩
        cases hf with
        | member _ _ _ ho => simp [ho]
        | static _ _ ho => simp [ho]
    | other a =>
      simp only [isFunctor, Bool.false_eq_true, ne_eq, reduceCtorEq, not_false_eq_true, implies_true, true_and, false_iff]
      rintro ⟨f, hf⟩
      cases hf
  | lvalue => simp [isFunctor]
  | rvalue => simp [isFunctor]

/-- C94: a type that satisfies `Functor` and is supported has `FunctionTraits`. -/
theorem C94_functor_traits_partial (ops : Ops A K) (hops : ops.WF) (t : Ty A K) (ht : t.WF) (h : isFunctor ops t = true) :
    ∃ f, Calls ops t.core f ∧ (Supported t f → traits ops t = some ⟨f.ret, f.args⟩) ∧ (¬ Supported t f → traits ops t = none) := by
  obtain ⟨_, _, f, hf⟩ := (C94_isFunctor_exact ops t).1 h
  refine ⟨f, hf, fun hs => (C93_traits_exact ops hops t ht _).2 ⟨f, hf, hs, rfl, rfl⟩, fun hs => ?_⟩
  cases h : traits ops t with
  | none => rfl
  | some r =>
    obtain ⟨g, hg, hs', _⟩ := (C93_traits_exact ops hops t ht r).1 h
    rw [Calls.unique hg hf] at hs'
    exact absurd hs' hs

/-- C94, conversely: a type with `FunctionTraits` satisfies `Functor` unless it is a reference or a pointer to function. -/
theorem C94_traits_functor_partial (ops : Ops A K) (hops : ops.WF) (t : Ty A K) (ht : t.WF) (r : Traits A)
    (h : traits ops t = some r) (hr : t.ref = .none) (hp : ∀ f, t.core ≠ .fptr f) : isFunctor ops t = true := by
  obtain ⟨f, hf, _⟩ := (C93_traits_exact ops hops t ht r).1 h
  exact (C94_isFunctor_exact ops t).2 ⟨hr, hp, f, hf⟩

/-- C94 fails for every pointer to function and for every reference: they have `FunctionTraits` and can be called, but do not satisfy `Functor`. -/
theorem C94_pointer_violated (ops : Ops A K) (hops : ops.WF) (f : Fn A) (hf : f.Free) (hv : f.variadic = false) (ref : Ref) (c : Bool) :
    traits ops ⟨ref, c, false, .fptr f⟩ = some ⟨f.ret, f.args⟩ ∧ isFunctor ops ⟨ref, c, false, .fptr f⟩ = false := by
  refine ⟨(C93_traits_exact ops hops ⟨ref, c, false, .fptr f⟩ hf _).2 ⟨f, .fptr f, ⟨hv, by simp, by simp⟩, rfl, rfl⟩, ?_⟩
  cases ref <;> rfl

/-- C94, references. -/
theorem C94_reference_violated (ops : Ops A K) (t : Ty A K) (hr : t.ref ≠ .none) :
    isFunctor ops t = false ∧ traits ops t = traits ops { t with ref := .none } := by
  constructor
  · cases h : isFunctor ops t with
    | false => rfl
    | true => exact absurd ((C94_isFunctor_exact ops t).1 h).1 hr
  · exact C93_const_ref ops _ _ _ _ _ _

/-- C94 fails the other way for every `noexcept`, qualified or variadic function type: it satisfies `Functor` but has no traits. -/
theorem C94_function_violated (ops : Ops A K) (hops : ops.WF) (f : Fn A)
    (h : f.noexc = true ∨ f.variadic = true ∨ ¬ f.Free) :
    isFunctor ops ⟨.none, false, false, .func f⟩ = true ∧ traits ops ⟨.none, false, false, .func f⟩ = none := by
  refine ⟨rfl, ?_⟩
  cases ht : traits ops ⟨.none, false, false, .func f⟩ with
  | none => rfl
  | some r =>
    exfalso
    obtain ⟨g, hg, hs, _⟩ := (C93_traits_exact ops hops ⟨.none, false, false, .func f⟩ ⟨rfl, rfl, Or.inl rfl⟩ r).1 ht
    cases hg
    obtain ⟨h1, h2⟩ := hs.2.1 f rfl
    rcases h with h | h | h
    · simp [h] at h2
    · have := hs.1; simp [h] at this
    · exact h h1

/-! ### C95 -/

section
variable [DecidableEq A]

/-- The functions `Overload<Args...>` can see: those with exactly these parameter types that are neither C variadic nor `volatile`. -/
def Candidate (args : List A) (o : Op A K) : Prop :=
  o.fn.args = args ∧ o.fn.variadic = false ∧ o.fn.volatile = false

/-- The call operator of the resolver whose parameter is exactly the type of the pointer. -/
def exactPat : Op A K → Pattern
  | .static f => .free f.noexc
  | .member _ f => .member f.const f.ref f.noexc

omit [DecidableEq A] in
theorem exactPat_mem (o : Op A K) : exactPat o ∈ patterns := by
  cases o with
  | static f => cases h : f.noexc <;> simp [exactPat, patterns, h]
  | member k f =>
    simp only [exactPat]
    generalize f.const = c; generalize f.ref = r; generalize f.noexc = n
    cases c <;> cases r <;> cases n <;> decide

theorem matches_candidate {args : List A} {p : Pattern} {o : Op A K} {e : Bool} (h : matches' args p o = some e) :
    Candidate args o := by
  cases p <;> cases o <;> simp only [matches', reduceCtorEq] at h
  · split at h
    · rename_i hc; exact ⟨hc.1, hc.2.1, hc.2.2.1⟩
    · cases h
  · split at h
    · rename_i hc; exact ⟨hc.1, hc.2.1, hc.2.2.1⟩
    · cases h

theorem matches_exactPat {args : List A} {set : List (Op A K)} (hw : SetWF set) {o : Op A K} (ho : o ∈ set)
    (hc : Candidate args o) : matches' args (exactPat o) o = some true := by
  obtain ⟨h1, h2, h3⟩ := hc
  cases o with
  | static f =>
    obtain ⟨q1, q2, q3⟩ := hw.2.1 f ho
    simp only [Op.fn] at h1 h2 h3
    simp [matches', exactPat, h1, h2, h3, q1, q3]
  | member k f =>
    simp only [Op.fn] at h1 h2 h3
    simp [matches', exactPat, h1, h2, h3]

theorem matches_exactPat_unique {args : List A} {set : List (Op A K)} (hw : SetWF set) {o o' : Op A K} (ho : o ∈ set)
    (ho' : o' ∈ set) (hc : Candidate args o) {e : Bool} (h : matches' args (exactPat o) o' = some e) : o' = o := by
  have hc' := matches_candidate h
  obtain ⟨h1, h2, h3⟩ := hc
  obtain ⟨h1', h2', h3'⟩ := hc'
  cases o with
  | static f =>
    cases o' with
    | member k' f' => simp [matches', exactPat] at h
    | static f' =>
      obtain ⟨q1, q2, q3⟩ := hw.2.1 f ho
      obtain ⟨q1', q2', q3'⟩ := hw.2.1 f' ho'
      exact hw.2.2 _ ho' _ ho rfl (by rw [h1, h1']) (by rw [h2, h2']) (by simp [Op.fn, q1, q1']) (by rw [h3, h3'])
        (by simp [Op.fn, q3, q3'])
  | member k f =>
    cases o' with
    | static f' => simp [matches', exactPat] at h
    | member k' f' =>
      simp only [exactPat, matches'] at h
      split at h
      · rename_i hq
        exact hw.2.2 _ ho' _ ho rfl (by rw [h1, h1']) (by rw [h2, h2']) hq.2.2.2.1 (by rw [h3, h3']) hq.2.2.2.2.1
      · cases h

theorem filterMap_single {α β : Type} {l : List α} (hn : l.Nodup) {f : α → Option β} {a : α} {b : β} (ha : a ∈ l) (hf : f a = some b)
    (hu : ∀ a' ∈ l, ∀ b', f a' = some b' → a' = a) : l.filterMap f = [b] := by
  induction l with
  | nil => simp at ha
  | cons x l ih =>
    rw [List.nodup_cons] at hn
    rcases List.mem_cons.1 ha with h | h
    · subst h
      have : l.filterMap f = [] := by
        rw [List.filterMap_eq_nil_iff]
        intro y hy
        cases hfy : f y with
        | none => rfl
        | some b' =>
          have := hu y (List.mem_cons_of_mem _ hy) b' hfy
          subst this
          exact absurd hy hn.1
      simp [hf, this]
    · have hx : f x = none := by
        cases hfx : f x with
        | none => rfl
        | some b' =>
          have := hu x List.mem_cons_self b' hfx
          subst this
          exact absurd h hn.1
      simp only [List.filterMap_cons, hx]
      exact ih hn.2 h (fun a' ha' => hu a' (List.mem_cons_of_mem _ ha'))

theorem deduce_exactPat {args : List A} {set : List (Op A K)} (hw : SetWF set) {o : Op A K} (ho : o ∈ set)
    (hc : Candidate args o) : deduce args set (exactPat o) = some (o, true) := by
  unfold deduce
  rw [filterMap_single (a := o) (b := (o, true)) hw.1 ho (by simp [matches_exactPat hw ho hc])]
  intro o' ho' b hb
  cases hm : matches' args (exactPat o) o' with
  | none => simp [hm] at hb
  | some e => exact matches_exactPat_unique hw ho ho' hc hm

theorem deduce_mem {args : List A} {set : List (Op A K)} {p : Pattern} {o : Op A K} {e : Bool}
    (h : deduce args set p = some (o, e)) : o ∈ set ∧ matches' args p o = some e := by
  unfold deduce at h
  split at h
  · rename_i r hr
    have hm : (o, e) ∈ set.filterMap (fun o => (matches' args p o).map fun exact => (o, exact)) := by
      rw [hr]; simp only [Option.some.injEq] at h; simp [h]
    obtain ⟨o', ho', hm⟩ := List.mem_filterMap.1 hm
    cases hq : matches' args p o' with
    | none => simp [hq] at hm
    | some e' =>
      simp only [hq, Option.map_some, Option.some.injEq, Prod.mk.injEq] at hm
      obtain ⟨rfl, rfl⟩ := hm
      exact ⟨ho', hq⟩
  · cases h

theorem not_single {α : Type} {l : List α} {x y r : α} (hx : x ∈ l) (hy : y ∈ l) (hne : x ≠ y) : l ≠ [r] := by
  rintro rfl
  simp only [List.mem_singleton] at hx hy
  exact hne (hx.trans hy.symm)

/-- C95: `Overload<Args...>(&f)` for every overload set: it is the function with the parameter types `Args...` if there is exactly one that is neither C variadic nor `volatile`, and does not compile otherwise. -/
theorem C95_overload_exact (args : List A) (set : List (Op A K)) (hw : SetWF set) (o : Op A K) :
    overload args set = some o ↔ o ∈ set ∧ Candidate args o ∧ ∀ o' ∈ set, Candidate args o' → o' = o := by
  constructor
  · intro h
    have hex : ∃ p e, deduce args set p = some (o, e) := by
      unfold overload at h
      dsimp only at h
      split at h
      · rename_i r hr
        simp only [Option.some.injEq] at h
        subst h
        obtain ⟨p, _, hp⟩ := List.mem_filterMap.1 (hr ▸ List.mem_singleton.2 rfl : r ∈ patterns.filterMap (deduce args set))
        exact ⟨p, r.2, hp⟩
      · split at h
        · rename_i r hr
          simp only [Option.some.injEq] at h
          subst h
          have : r ∈ (patterns.filterMap (deduce args set)).filter (·.2) := by rw [hr]; exact List.mem_singleton.2 rfl
          obtain ⟨p, _, hp⟩ := List.mem_filterMap.1 (List.mem_filter.1 this).1
          exact ⟨p, r.2, hp⟩
        · cases h
    obtain ⟨p, e, hp⟩ := hex
    obtain ⟨ho, hm⟩ := deduce_mem hp
    have hc := matches_candidate hm
    refine ⟨ho, hc, fun o' ho' hc' => ?_⟩
    by_cases hne : o' = o
    · exact hne
    · exfalso
      have h1 : (o, true) ∈ patterns.filterMap (deduce args set) :=
        List.mem_filterMap.2 ⟨_, exactPat_mem o, deduce_exactPat hw ho hc⟩
      have h2 : (o', true) ∈ patterns.filterMap (deduce args set) :=
        List.mem_filterMap.2 ⟨_, exactPat_mem o', deduce_exactPat hw ho' hc'⟩
      have hd : (o', true) ≠ (o, true) := by simpa using hne
      unfold overload at h
      dsimp only at h
      split at h
      · rename_i r hr; exact not_single h2 h1 hd hr
      · split at h
        · rename_i r hr
          exact not_single (List.mem_filter.2 ⟨h2, rfl⟩) (List.mem_filter.2 ⟨h1, rfl⟩) hd hr
        · cases h
  · rintro ⟨ho, hc, hu⟩
    have hd : ∀ p, deduce args set p = (matches' args p o).map fun e => (o, e) := by
      intro p
      cases hm : matches' args p o with
      | none =>
        cases hd : deduce args set p with
        | none => rfl
        | some r =>
          obtain ⟨h1, h2⟩ := deduce_mem (o := r.1) (e := r.2) hd
          rw [hu _ h1 (matches_candidate h2), hm] at h2
          cases h2
      | some e =>
        unfold deduce
        rw [filterMap_single (a := o) (b := (o, e)) hw.1 ho (by simp [hm])]
        · rfl
        · intro o' ho' b hb
          cases hm' : matches' args p o' with
          | none => simp [hm'] at hb
          | some e' => exact hu o' ho' (matches_candidate hm')
    have hd' : deduce args set = fun p => (matches' args p o).map fun e => (o, e) := funext hd
    unfold overload
    rw [hd']
    obtain ⟨h1, h2, h3⟩ := hc
    cases o with
    | static f =>
      obtain ⟨q1, q2, q3⟩ := hw.2.1 f ho
      simp only [Op.fn] at h1 h2 h3
      cases hn : f.noexc <;> simp [patterns, matches', h1, h2, h3, q1, q3, hn]
    | member k f =>
      simp only [Op.fn] at h1 h2 h3
      cases hc : f.const <;> cases hr : f.ref <;> cases hn : f.noexc <;> simp [patterns, matches', h1, h2, h3, hc, hr, hn]

/-- C95, the intended use: the only overload with these parameter types. -/
theorem C95_overload_partial (args : List A) (set : List (Op A K)) (hw : SetWF set) (o : Op A K) (ho : o ∈ set)
    (hargs : o.fn.args = args) (hv : o.fn.variadic = false) (hvol : o.fn.volatile = false)
    (hu : ∀ o' ∈ set, o'.fn.args = args → o' = o) : overload args set = some o :=
  (C95_overload_exact args set hw o).2 ⟨ho, ⟨hargs, hv, hvol⟩, fun o' ho' hc => hu o' ho' hc.1⟩

/-- C95 fails for every pair of member functions that differ in `const`, `&` or `&&` only: neither can be selected. -/
theorem C95_const_overloads_violated (args : List A) (set : List (Op A K)) (hw : SetWF set) (o o' : Op A K)
    (ho : o ∈ set) (ho' : o' ∈ set) (hne : o ≠ o') (hc : Candidate args o) (hc' : Candidate args o') :
    overload args set = none := by
  cases h : overload args set with
  | none => rfl
  | some r =>
    obtain ⟨_, _, hu⟩ := (C95_overload_exact args set hw r).1 h
    exact absurd ((hu o ho hc).trans (hu o' ho' hc').symm) hne

/-- C95 fails for every `volatile` and every C variadic function: no template argument list selects it. -/
theorem C95_volatile_violated (args : List A) (set : List (Op A K)) (hw : SetWF set) (o : Op A K)
    (hv : o.fn.volatile = true ∨ o.fn.variadic = true) : overload args set ≠ some o := by
  intro h
  obtain ⟨_, ⟨_, h2, h3⟩, _⟩ := (C95_overload_exact args set hw o).1 h
  rcases hv with hv | hv
  · rw [hv] at h3; cases h3
  · rw [hv] at h2; cases h2

/-- C95, never a wrong function: whatever is selected has exactly the requested parameter types. -/
theorem C95_overload_sound (args : List A) (set : List (Op A K)) (hw : SetWF set) (o : Op A K)
    (h : overload args set = some o) : o ∈ set ∧ o.fn.args = args :=
  let ⟨h1, h2, _⟩ := (C95_overload_exact args set hw o).1 h
  ⟨h1, h2.1⟩

end

/-! ### The hypotheses are met -/

/-- `int (*)(double)`, by `const` reference -/
example : traits (A := String) (K := Nat) (fun _ => none) ⟨.lvalue, true, false, .fptr { ret := "int", args := ["double"] }⟩ =
    some ⟨"int", ["double"]⟩ := by decide

/-- a lambda with one `const noexcept` call operator -/
example : traits (A := String) (K := Nat) (fun _ => some [.member 0 { ret := "int", args := ["double"], const := true, noexc := true }])
    ⟨.rvalue, false, false, .cls 0⟩ = some ⟨"int", ["double"]⟩ := by decide

/-- the class of the unit tests: two overloads, told apart by their parameters -/
example : overload (A := String) (K := Nat) [] [.member 0 { ret := "void", args := ["S", "double"] },
    .member 0 { ret := "void", args := [], const := true, ref := .lvalue }] =
    some (.member 0 { ret := "void", args := [], const := true, ref := .lvalue }) := by decide

/-- a `noexcept` member function -/
example : overload (A := String) (K := Nat) ["int"] [.member 0 { ret := "void", args := ["int"], noexc := true }] =
    some (.member 0 { ret := "void", args := ["int"], noexc := true }) := by decide

/-- a getter and its `const` version -/
example : overload (A := String) (K := Nat) [] [.member 0 { ret := "T&", args := [] }, .member 0 { ret := "const T&", args := [], const := true }] =
    none := by decide

example : SetWF (A := String) (K := Nat) [.member 0 { ret := "T&", args := [] }, .member 0 { ret := "const T&", args := [], const := true }] := by
  refine ⟨by decide, by simp, ?_⟩
  simp [Op.isStatic, Op.fn]

end Verif.FunctionTraits
