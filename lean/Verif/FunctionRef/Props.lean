import Verif.FunctionRef.Model

/-!
# Property C73 of `FunctionRef`
-/

namespace Verif.FunctionRef

open Verif.Cpp

variable {C : Callables}

/-! ## Specification: a variable names a callable, and calling the variable is calling the callable -/

/-- The callables made so far, in order of creation (`none` once their lifetime ended), and which of them each variable names. -/
structure Spec (C : Callables) where
  objs : List (Option (C.Kind × C.S))
  names : Nat → Option (Option Nat)

def Spec.name (σ : Spec C) (i : Nat) (o : Option (Option Nat)) : Spec C := { σ with names := fun k => if k = i then o else σ.names k }

/-- Callable number `n`, if it is alive. -/
def Spec.alive (σ : Spec C) (n : Nat) : Option (C.Kind × C.S) := (σ.objs[n]?).join

/-- Effect and observation of an operation; `none` for operations that are not allowed: use of a dead callable, call of a null reference,
copy of a null reference. -/
def Spec.step (σ : Spec C) : Op C → Option (Spec C × Seen C)
  | .newObj k c => some ({ σ with objs := σ.objs ++ [some (k, c)] }, .nothing)
  | .endObj a => match a with
    | 0 => none
    | n + 1 => (σ.alive n).map fun _ => ({ σ with objs := σ.objs.set n none }, .nothing)
  | .ctorNull i => some (σ.name i (some none), .nothing)
  | .ctor i a => match a with
    | 0 => none
    | n + 1 => (σ.alive n).map fun _ => (σ.name i (some (some n)), .nothing)
  | .copy i j => match σ.names j with
    | some (some n) => some (σ.name i (some (some n)), .nothing)
    | _ => none
  | .endRef i => some (σ.name i none, .nothing)
  | .toBool i => (σ.names i).map fun o => (σ, .bool o.isSome)
  | .call i x => match σ.names i with
    | some (some n) => match σ.alive n with
      | some (k, c) => match C.invoke k c x with
        | (c', some r) => some ({ σ with objs := σ.objs.set n (some (k, c')) }, .result r)
        | (c', none) => some ({ σ with objs := σ.objs.set n (some (k, c')) }, .exception)
      | none => none
    | _ => none

def Spec.run : List (Op C) → Spec C → Option (Spec C × List (Seen C))
  | [], σ => some (σ, [])
  | op :: ops, σ => match σ.step op with
    | some (σ, o) => (Spec.run ops σ).map fun (σ, os) => (σ, o :: os)
    | none => none

/-! ## Proofs -/

/-- Callable number `n` is at address `n + 1`. -/
structure Rel (s : St C) (σ : Spec C) : Prop where
  objs : ∀ a, s.objs a = match a with | 0 => none | n + 1 => σ.alive n
  next : s.next = σ.objs.length + 1
  names : ∀ i, σ.names i = (s.refs i).map fun r => if r.functor = 0 then none else some (r.functor - 1)
  kinds : ∀ i r, s.refs i = some r → r.functor ≠ 0 → ∃ k, r.callback = some k ∧ r.functor < s.next ∧
    ∀ k' c, s.objs r.functor = some (k', c) → k' = k

variable [DecidableEq C.Kind]

omit [DecidableEq C.Kind] in
theorem Rel.setName {s : St C} {σ : Spec C} (h : Rel s σ) (i : Nat) (r : Option (Ref C))
    (hr : ∀ r', r = some r' → r'.functor ≠ 0 → ∃ k, r'.callback = some k ∧ r'.functor < s.next ∧ ∀ k' c, s.objs r'.functor = some (k', c) → k' = k) :
    Rel { s with refs := fun k => if k = i then r else s.refs k }
      (σ.name i (r.map fun r => if r.functor = 0 then none else some (r.functor - 1))) := by
  refine ⟨h.objs, h.next, fun k => ?_, fun k r' hk => ?_⟩
  · by_cases hk : k = i
    · simp [Spec.name, hk]
    · simp [Spec.name, hk, h.names k]
  · dsimp only at hk ⊢
    by_cases hki : k = i
    · rw [if_pos hki] at hk; exact hr r' hk
    · rw [if_neg hki] at hk; exact h.kinds k r' hk

omit [DecidableEq C.Kind] in
theorem alive_lt {σ : Spec C} {n : Nat} {o : C.Kind × C.S} (h : σ.alive n = some o) : n < σ.objs.length := by
  rcases Nat.lt_or_ge n σ.objs.length with hn | hn
  · exact hn
  · simp [Spec.alive, List.getElem?_eq_none hn] at h

omit [DecidableEq C.Kind] in
/-- A callable changes its state or ends; its type stays. -/
theorem Rel.setObj {s : St C} {σ : Spec C} (h : Rel s σ) (n : Nat) (o : Option (C.Kind × C.S)) (hn : n < σ.objs.length)
    (ho : ∀ k c, o = some (k, c) → ∃ c', σ.alive n = some (k, c')) :
    Rel { s with objs := fun b => if b = n + 1 then o else s.objs b } { σ with objs := σ.objs.set n o } := by
  refine ⟨fun a => ?_, by simp [h.next], h.names, fun i r hi h0 => ?_⟩
  · cases a with
    | zero => have := h.objs 0; simpa using this
    | succ m =>
      by_cases hm : m = n
      · subst hm; simp [Spec.alive, hn]
      · have := h.objs (m + 1)
        simp only [Spec.alive] at this
        simp [Spec.alive, hm, Ne.symm hm, this]
  · obtain ⟨k, hk, hlt, hks⟩ := h.kinds i r hi h0
    refine ⟨k, hk, hlt, fun k' c hc => ?_⟩
    dsimp only at hc
    by_cases hr : r.functor = n + 1
    · rw [if_pos hr] at hc
      obtain ⟨c', hc'⟩ := ho k' c hc
      refine hks k' c' ?_
      rw [hr, h.objs]; exact hc'
    · rw [if_neg hr] at hc; exact hks k' c hc

theorem exec_ok {s : St C} {σ σ' : Spec C} {o : Seen C} (h : Rel s σ) (op : Op C) (hs : σ.step op = some (σ', o)) :
    ∃ s', exec op s = .ok (s', o) ∧ Rel s' σ' := by
  have named : ∀ i n, σ.names i = some (some n) → ∃ k, s.refs i = some ⟨some k, n + 1⟩ ∧ (n + 1 < s.next) ∧
      ∀ k' c, s.objs (n + 1) = some (k', c) → k' = k := by
    intro i n hi
    rw [h.names] at hi
    cases hr : s.refs i with
    | none => simp [hr] at hi
    | some r =>
      simp only [hr, Option.map_some, Option.some.injEq] at hi
      by_cases h0 : r.functor = 0
      · rw [if_pos h0] at hi; simp at hi
      · rw [if_neg h0, Option.some.injEq] at hi
        obtain ⟨k, hk, hlt, hks⟩ := h.kinds i r hr h0
        have e : r.functor = n + 1 := by omega
        refine ⟨k, ?_, by omega, by rw [← e]; exact hks⟩
        cases r; simp_all
  cases op with
  | newObj k c =>
    simp only [Spec.step, Option.some.injEq, Prod.mk.injEq] at hs
    obtain ⟨rfl, rfl⟩ := hs
    refine ⟨{ s with objs := fun a => if a = s.next then some (k, c) else s.objs a, next := s.next + 1 }, rfl, ?_, by simp [h.next], h.names, ?_⟩
    · intro a
      cases a with
      | zero => have := h.objs 0; simp [h.next]; exact this
      | succ n =>
        dsimp only
        rw [h.next]
        by_cases hn : n = σ.objs.length
        · simp [hn, Spec.alive]
        · have := h.objs (n + 1)
          dsimp only at this
          rw [if_neg (by omega), this]
          simp only [Spec.alive]
          by_cases hl : n < σ.objs.length
          · rw [List.getElem?_append_left hl]
          · rw [List.getElem?_eq_none (by omega), List.getElem?_eq_none (by simp; omega)]
    · intro i r hi h0
      obtain ⟨k', hk', hlt, hks⟩ := h.kinds i r hi h0
      refine ⟨k', hk', by dsimp only; omega, fun k'' c' hc => ?_⟩
      dsimp only at hc
      rw [if_neg (by omega)] at hc
      exact hks k'' c' hc
  | endObj a =>
    cases a with
    | zero => simp [Spec.step] at hs
    | succ n =>
      simp only [Spec.step] at hs
      cases ha : σ.alive n with
      | none => simp [ha] at hs
      | some kc =>
        simp only [ha, Option.map_some, Option.some.injEq, Prod.mk.injEq] at hs
        obtain ⟨rfl, rfl⟩ := hs
        have hobj := h.objs (n + 1); dsimp only at hobj; rw [ha] at hobj
        refine ⟨_, ?_, h.setObj n none (alive_lt ha) (by simp)⟩
        simp [exec, seen, endObj, hobj, setObj]
  | ctorNull i =>
    simp only [Spec.step, Option.some.injEq, Prod.mk.injEq] at hs
    obtain ⟨rfl, rfl⟩ := hs
    exact ⟨_, rfl, h.setName i (some ⟨none, 0⟩) (by intro r' hr h0; simp only [Option.some.injEq] at hr; subst hr; simp at h0)⟩
  | ctor i a =>
    cases a with
    | zero => simp [Spec.step] at hs
    | succ n =>
      simp only [Spec.step] at hs
      cases ha : σ.alive n with
      | none => simp [ha] at hs
      | some kc =>
        simp only [ha, Option.map_some, Option.some.injEq, Prod.mk.injEq] at hs
        obtain ⟨rfl, rfl⟩ := hs
        have hobj := h.objs (n + 1); dsimp only at hobj; rw [ha] at hobj
        have := h.setName i (some ⟨some kc.1, n + 1⟩) (by
          intro r' hr _
          simp only [Option.some.injEq] at hr; subst hr
          refine ⟨kc.1, rfl, ?_, ?_⟩
          · have := alive_lt ha; have := h.next; dsimp only; omega
          · intro k' c hc; dsimp only at hc; rw [hobj] at hc; simp only [Option.some.injEq] at hc; rw [hc])
        exact ⟨{ s with refs := fun k => if k = i then some ⟨some kc.1, n + 1⟩ else s.refs k }, by simp [exec, seen, ctor, hobj, setRef], by simpa using this⟩
  | copy i j =>
    simp only [Spec.step] at hs
    split at hs
    next n hj =>
      simp only [Option.some.injEq, Prod.mk.injEq] at hs
      obtain ⟨rfl, rfl⟩ := hs
      obtain ⟨k, hk, hlt, hks⟩ := named j n hj
      have := h.setName i (some ⟨some k, n + 1⟩) (by
        intro r' hr _
        simp only [Option.some.injEq] at hr; subst hr
        exact ⟨k, rfl, hlt, hks⟩)
      exact ⟨{ s with refs := fun l => if l = i then some ⟨some k, n + 1⟩ else s.refs l }, by simp [exec, seen, copy, hk, setRef], by simpa using this⟩
    next => simp at hs
  | endRef i =>
    simp only [Spec.step, Option.some.injEq, Prod.mk.injEq] at hs
    obtain ⟨rfl, rfl⟩ := hs
    exact ⟨_, rfl, h.setName i none (by simp)⟩
  | toBool i =>
    simp only [Spec.step] at hs
    cases hr : s.refs i with
    | none => rw [h.names, hr] at hs; simp at hs
    | some r =>
      rw [h.names, hr] at hs
      simp only [Option.map_some, Option.some.injEq, Prod.mk.injEq] at hs
      obtain ⟨rfl, rfl⟩ := hs
      refine ⟨s, ?_, h⟩
      simp only [exec, seen, toBool, hr]
      by_cases h0 : r.functor = 0 <;> simp [h0]
  | call i x =>
    simp only [Spec.step] at hs
    split at hs
    next n hi =>
      obtain ⟨k, hk, hlt, hks⟩ := named i n hi
      cases ha : σ.alive n with
      | none => simp [ha] at hs
      | some kc =>
        obtain ⟨k1, c⟩ := kc
        have hobj := h.objs (n + 1); dsimp only at hobj; rw [ha] at hobj
        have e := hks k1 c hobj
        subst e
        have hset := fun c' => h.setObj n (some (k1, c')) (alive_lt ha) (by
          intro k' c'' hc; simp only [Option.some.injEq, Prod.mk.injEq] at hc; exact ⟨c, by rw [ha, hc.1]⟩)
        rcases hinv : C.invoke k1 c x with ⟨c', _ | r⟩
        · simp only [ha, hinv, Option.some.injEq, Prod.mk.injEq] at hs
          obtain ⟨rfl, rfl⟩ := hs
          refine ⟨_, ?_, hset c'⟩
          simp only [exec, seen, call, hk, hobj, if_true, hinv]
        · simp only [ha, hinv, Option.some.injEq, Prod.mk.injEq] at hs
          obtain ⟨rfl, rfl⟩ := hs
          refine ⟨_, ?_, hset c'⟩
          simp only [exec, seen, call, hk, hobj, if_true, hinv]
    next => simp at hs

/-! ## Theorems -/

/-- In every history of callables and `FunctionRef` variables, calling a variable is calling the callable it was bound to (or was copied
from), with the same result or exception, and with the same effect on the callable's own state: nothing is copied.  `operator bool` tells
whether the variable is bound.  Left out: see the `…_violated` theorems. -/
theorem C73_history_partial (ops : List (Op C)) (σ : Spec C) (os : List (Seen C))
    (h : Spec.run ops ⟨[], fun _ => none⟩ = some (σ, os)) :
    ∃ s, run ops (init C) = .ok (s, os) ∧ ∀ n, s.objs (n + 1) = σ.alive n := by
  have key : ∀ (ops : List (Op C)) (s0 : St C) (σ0 σ1 : Spec C) (os : List (Seen C)), Rel s0 σ0 → Spec.run ops σ0 = some (σ1, os) →
      ∃ s, run ops s0 = .ok (s, os) ∧ Rel s σ1 := by
    intro ops
    induction ops with
    | nil =>
      intro s0 σ0 σ1 os r h
      simp only [Spec.run, Option.some.injEq, Prod.mk.injEq] at h
      obtain ⟨rfl, rfl⟩ := h
      exact ⟨s0, rfl, r⟩
    | cons op ops ih =>
      intro s0 σ0 σ1 os r h
      simp only [Spec.run] at h
      cases hs : σ0.step op with
      | none => simp [hs] at h
      | some p =>
        obtain ⟨σ2, o⟩ := p
        simp only [hs] at h
        cases hr : Spec.run ops σ2 with
        | none => simp [hr] at h
        | some q =>
          obtain ⟨σ3, os3⟩ := q
          simp only [hr, Option.map_some, Option.some.injEq, Prod.mk.injEq] at h
          obtain ⟨rfl, rfl⟩ := h
          obtain ⟨s1, e1, r1⟩ := exec_ok r op hs
          obtain ⟨s2, e2, r2⟩ := ih s1 σ2 σ3 os3 r1 hr
          exact ⟨s2, by simp [run, e1, e2], r2⟩
  have r0 : Rel (init C) ⟨[], fun _ => none⟩ := by
    refine ⟨fun a => ?_, rfl, fun _ => rfl, fun i r h => by simp [init] at h⟩
    cases a <;> simp [init, Spec.alive]
  obtain ⟨s, e, r⟩ := key ops (init C) _ σ os r0 h
  exact ⟨s, e, fun n => r.objs (n + 1)⟩

/-- A `FunctionRef` made from a temporary (a lambda, or a pointer to a function) in a declaration dangles: every later call is undefined. -/
theorem C73_temporary_violated (s : St C) (hn : 0 < s.next) (i : Nat) (k : C.Kind) (c : C.S) (x : C.A) :
    ∃ s', ctorTemp i k c s = .done s' () ∧ toBool i s' = .done s' true ∧ call i x s' = .fail .ub := by
  refine ⟨{ objs := fun a => if a = s.next then none else if a = s.next then some (k, c) else s.objs a, next := s.next + 1,
            refs := fun j => if j = i then some ⟨some k, s.next⟩ else s.refs j }, ?_, ?_, ?_⟩
  · simp [ctorTemp, X.bind_run, newObj, ctor, setRef, endObj, setObj]
  · simp [toBool]; omega
  · simp [call]

/-- Used as a function argument, a temporary is fine: the call has the callable's result, and the program's callables and variables are as before. -/
theorem C73_argument (s : St C) (i : Nat) (hi : s.refs i = none) (k : C.Kind) (c : C.S) (x : C.A) (r : C.R) (hf : s.objs s.next = none)
    (h : (C.invoke k c x).2 = some r) :
    ∃ s', callTemp k c i x s = .done s' r ∧ s'.objs = s.objs ∧ s'.refs = s.refs := by
  rcases hc : C.invoke k c x with ⟨c', r'⟩
  rw [hc] at h; dsimp only at h; subst h
  refine ⟨{ objs := s.objs, next := s.next + 1, refs := s.refs }, ?_, rfl, rfl⟩
  simp only [callTemp, X.bind_run, newObj, ctor, setRef, endObj, setObj, call, if_true, hc, X.pure_run, Out.done.injEq, St.mk.injEq, and_true, true_and]
  constructor
  · funext a; by_cases ha : a = s.next <;> simp [ha, hf]
  · funext j; by_cases hj : j = i <;> simp [hj, hi]

/-- Calling a `FunctionRef` made from `nullptr` is undefined; so is copying it, since its callback was never initialised. -/
theorem C73_null_violated (s : St C) (i j : Nat) (x : C.A) :
    ∃ s', ctorNull i s = .done s' () ∧ toBool i s' = .done s' false ∧ call i x s' = .fail .ub ∧ copy j i s' = .fail .ub :=
  ⟨_, rfl, by simp [toBool], by simp [call], by simp [copy]⟩

/-! ## The hypotheses are met -/

/-- Counters: kind `true` adds the argument to its state and returns the old state, kind `false` throws for 0. -/
abbrev exC : Callables := ⟨Bool, Nat, Nat, Nat, fun k c x => if k then (c + x, some c) else (c + 1, if x = 0 then none else some (c * x))⟩

example : (Spec.run (C := exC) [.newObj true (5 : Nat), .newObj false (2 : Nat), .ctor 0 1, .copy 1 0, .call 0 (3 : Nat), .call 1 (4 : Nat), .ctor 1 2, .call 1 (0 : Nat), .call 1 (7 : Nat), .call 0 (0 : Nat),
    .ctorNull 0, .toBool 0, .toBool 1, .endObj 1, .call 1 (1 : Nat)] ⟨[], fun _ => none⟩).map (·.2) =
    some [.nothing, .nothing, .nothing, .nothing, .result (5 : Nat), .result (8 : Nat), .nothing, .exception, .result (21 : Nat), .result (12 : Nat),
      .nothing, .bool false, .bool true, .nothing, .result (4 : Nat)] := by rfl

end Verif.FunctionRef
