import Verif.FunctionRef.ModelConvert

/-! # C152: function references made from function references -/

namespace Verif.FunctionRef.Convert
open Verif.Cpp

variable {C : Callables}

/-! ## Specification: a variable is a reference to a callable; made from another variable it refers to the same callable. -/

/-- Callables that live; the callable each variable refers to; the variables of which variables of other types were made. -/
structure Spec (C : Callables) where
  objs : Nat → Option C.S
  target : Nat → Option Nat
  source : Nat → Prop

/-- One statement.  Calls are for variables whose callable lives.  Left out: writing to, or ending, a variable of which a variable of another type was made. -/
inductive Spec.Step (sig : Nat → Nat) : Spec C → Op C → Spec C → Option C.R → Prop
  | newObj (σ : Spec C) (a : Nat) (c : C.S) : Spec.Step sig σ (.newObj a c) { σ with objs := upd σ.objs a (some c) } none
  | endObj (σ : Spec C) (a : Nat) : Spec.Step sig σ (.endObj a) { σ with objs := upd σ.objs a none } none
  | bind (σ : Spec C) (i a : Nat) : ¬ σ.source i → Spec.Step sig σ (.bind i a) { σ with target := upd σ.target i (some a) } none
  | fromSame (σ : Spec C) (i j a : Nat) : ¬ σ.source i → σ.target j = some a → sig i = sig j →
      Spec.Step sig σ (.fromRef i j) { σ with target := upd σ.target i (some a) } none
  | fromOther (σ : Spec C) (i j a : Nat) : ¬ σ.source i → σ.target j = some a → sig i ≠ sig j →
      Spec.Step sig σ (.fromRef i j) { σ with target := upd σ.target i (some a), source := fun k => k = j ∨ σ.source k } none
  | endVar (σ : Spec C) (i : Nat) : ¬ σ.source i → Spec.Step sig σ (.endVar i) { σ with target := upd σ.target i none } none
  | call (σ : Spec C) (i a : Nat) (c : C.S) (x : C.A) : σ.target i = some a → σ.objs a = some c →
      Spec.Step sig σ (.call i x) { σ with objs := upd σ.objs a (some (C.invoke c x).1) } (some (C.invoke c x).2)

inductive Spec.Run (sig : Nat → Nat) : Spec C → List (Op C) → Spec C → List C.R → Prop
  | nil (σ : Spec C) : Spec.Run sig σ [] σ []
  | cons {σ σ' σ'' : Spec C} {op : Op C} {ops : List (Op C)} {r : Option C.R} {rs : List C.R} : Spec.Step sig σ op σ' r → Spec.Run sig σ' ops σ'' rs →
      Spec.Run sig σ (op :: ops) σ'' (r.toList ++ rs)

/-! ## Helpers -/

/-- Variable `i` leads to the callable at `a` over `n` other variables, all of them sources. -/
private def Leads (vars : Nat → Option Bind) (source : Nat → Prop) (a : Nat) : Nat → Nat → Prop
  | 0, i => vars i = some (.obj a)
  | n + 1, i => ∃ j, vars i = some (.var j) ∧ source j ∧ Leads vars source a n j

private theorem Leads.write {vars : Nat → Option Bind} {source : Nat → Prop} {a n k i : Nat} {b : Option Bind} (h : Leads vars source a n k) (hi : ¬ source i) (hk : k ≠ i) :
    Leads (upd vars i b) source a n k := by
  induction n generalizing k with
  | zero => simpa [Leads, upd, hk] using h
  | succ n ih =>
    obtain ⟨j, h1, h2, h3⟩ := h
    exact ⟨j, by simpa [upd, hk] using h1, h2, ih h3 (fun e => hi (e ▸ h2))⟩

private theorem Leads.mono {vars : Nat → Option Bind} {source source' : Nat → Prop} {a n k : Nat} (h : Leads vars source a n k) (hs : ∀ i, source i → source' i) :
    Leads vars source' a n k := by
  induction n generalizing k with
  | zero => exact h
  | succ n ih =>
    obtain ⟨j, h1, h2, h3⟩ := h
    exact ⟨j, h1, hs j h2, ih h3⟩

private theorem call_leads {source : Nat → Prop} {a n i : Nat} {s : St C} {c : C.S} (h : Leads s.vars source a n i) (hc : s.objs a = some c) {d : Nat} (hd : n < d) (x : C.A) :
    call d i x s = .ok ({ s with objs := upd s.objs a (some (C.invoke c x).1) }, (C.invoke c x).2) := by
  induction n generalizing i d with
  | zero =>
    obtain ⟨d, rfl⟩ : ∃ e, d = e + 1 := ⟨d - 1, by omega⟩
    have h : s.vars i = some (.obj a) := h
    rw [call]
    simp only [h, hc]
    rfl
  | succ n ih =>
    obtain ⟨d, rfl⟩ : ∃ e, d = e + 1 := ⟨d - 1, by omega⟩
    obtain ⟨j, h1, -, h3⟩ := h
    rw [call]
    simp only [h1]
    exact ih h3 (by omega)

private structure Inv (s : St C) (σ : Spec C) (n : Nat) : Prop where
  objs : s.objs = σ.objs
  leads : ∀ i a, σ.target i = some a → ∃ m, m ≤ n ∧ Leads s.vars σ.source a m i
  none : ∀ i, σ.target i = none → s.vars i = none

private theorem Inv.mono {s : St C} {σ : Spec C} {n n' : Nat} (h : Inv s σ n) (hn : n ≤ n') : Inv s σ n' :=
  ⟨h.objs, fun i a ha => let ⟨m, hm, hl⟩ := h.leads i a ha; ⟨m, by omega, hl⟩, h.none⟩

private theorem Inv.step {sig : Nat → Nat} {depth n : Nat} {s : St C} {σ σ' : Spec C} {op : Op C} {r : Option C.R} (h : Inv s σ n) (hd : n < depth) (hs : Spec.Step sig σ op σ' r) :
    ∃ s', step sig depth s op = .ok (s', r) ∧ Inv s' σ' (n + 1) := by
  cases hs with
  | newObj a c => exact ⟨_, rfl, ⟨by simp [h.objs], (h.mono (Nat.le_succ n)).leads, h.none⟩⟩
  | endObj a => exact ⟨_, rfl, ⟨by simp [h.objs], (h.mono (Nat.le_succ n)).leads, h.none⟩⟩
  | bind i a hi =>
    refine ⟨_, rfl, ⟨h.objs, fun k b hk => ?_, fun k hk => ?_⟩⟩
    · by_cases e : k = i
      · subst e
        simp only [upd, if_true, Option.some.injEq] at hk
        subst hk
        exact ⟨0, by omega, by simp [Leads, upd]⟩
      · simp only [upd, e, if_false] at hk
        obtain ⟨m, hm, hl⟩ := h.leads k b hk
        exact ⟨m, by omega, hl.write hi e⟩
    · by_cases e : k = i
      · simp [upd, e] at hk
      · simp only [upd, e, if_false] at hk ⊢
        exact h.none k hk
  | fromSame i j a hi hj hsig =>
    obtain ⟨m, hm, hl⟩ := h.leads j a hj
    have hv : ∃ b, s.vars j = some b := by
      cases m with
      | zero => exact ⟨_, hl⟩
      | succ m => obtain ⟨k, h1, -, -⟩ := hl; exact ⟨_, h1⟩
    obtain ⟨b, hb⟩ := hv
    refine ⟨{ s with vars := upd s.vars i (some b) }, by simp [Convert.step, fromRef, hb, hsig], ⟨h.objs, fun k c hk => ?_, fun k hk => ?_⟩⟩
    · by_cases e : k = i
      · subst e
        simp only [upd, if_true, Option.some.injEq] at hk
        subst hk
        refine ⟨m, by omega, ?_⟩
        cases m with
        | zero =>
          have hl : s.vars j = some (.obj a) := hl
          rw [hb] at hl
          simpa [Leads, upd] using hl
        | succ m =>
          obtain ⟨q, h1, h2, h3⟩ := hl
          rw [hb] at h1
          exact ⟨q, by simpa [upd] using h1, h2, h3.write hi (fun e => hi (e ▸ h2))⟩
      · simp only [upd, e, if_false] at hk
        obtain ⟨m, hm, hl⟩ := h.leads k c hk
        exact ⟨m, by omega, hl.write hi e⟩
    · by_cases e : k = i
      · simp [upd, e] at hk
      · simp only [upd, e, if_false] at hk ⊢
        exact h.none k hk
  | fromOther i j a hi hj hsig =>
    obtain ⟨m, hm, hl⟩ := h.leads j a hj
    have hv : ∃ b, s.vars j = some b := by
      cases m with
      | zero => exact ⟨_, hl⟩
      | succ m => obtain ⟨k, h1, -, -⟩ := hl; exact ⟨_, h1⟩
    obtain ⟨b, hb⟩ := hv
    have hji : j ≠ i := fun e => hsig (e ▸ rfl)
    refine ⟨{ s with vars := upd s.vars i (some (.var j)) }, by simp [Convert.step, fromRef, hb, hsig], ⟨h.objs, fun k c hk => ?_, fun k hk => ?_⟩⟩
    · by_cases e : k = i
      · subst e
        simp only [upd, if_true, Option.some.injEq] at hk
        subst hk
        exact ⟨m + 1, by omega, j, by simp [upd], Or.inl rfl, (hl.write hi hji).mono fun _ => Or.inr⟩
      · simp only [upd, e, if_false] at hk
        obtain ⟨m, hm, hl⟩ := h.leads k c hk
        exact ⟨m, by omega, (hl.write hi e).mono fun _ => Or.inr⟩
    · by_cases e : k = i
      · simp [upd, e] at hk
      · simp only [upd, e, if_false] at hk ⊢
        exact h.none k hk
  | endVar i hi =>
    refine ⟨_, rfl, ⟨h.objs, fun k b hk => ?_, fun k hk => ?_⟩⟩
    · by_cases e : k = i
      · simp [upd, e] at hk
      · simp only [upd, e, if_false] at hk
        obtain ⟨m, hm, hl⟩ := h.leads k b hk
        exact ⟨m, by omega, hl.write hi e⟩
    · by_cases e : k = i
      · simp [upd, e]
      · simp only [upd, e, if_false] at hk ⊢
        exact h.none k hk
  | call i a c x ht hc =>
    obtain ⟨m, hm, hl⟩ := h.leads i a ht
    refine ⟨{ s with objs := upd s.objs a (some (C.invoke c x).1) }, ?_, ⟨by simp [h.objs], (h.mono (Nat.le_succ n)).leads, h.none⟩⟩
    simp only [Convert.step]
    rw [call_leads hl (by rw [h.objs]; exact hc) (by omega) x]
    rfl

private theorem run_spec {sig : Nat → Nat} {depth n : Nat} {ops : List (Op C)} {s : St C} {σ σ' : Spec C} {rs : List C.R} (h : Inv s σ n) (hd : n + ops.length ≤ depth)
    (hr : Spec.Run sig σ ops σ' rs) : ∃ s', run sig depth ops s = .ok (s', rs) ∧ s'.objs = σ'.objs ∧ ∀ i, (s'.vars i).isSome = (σ'.target i).isSome := by
  induction hr generalizing s n with
  | nil σ =>
    refine ⟨s, rfl, h.objs, fun i => ?_⟩
    cases ht : σ.target i with
    | none => simp [h.none i ht]
    | some a =>
      obtain ⟨m, -, hl⟩ := h.leads i a ht
      cases m with
      | zero => have hl : s.vars i = some (.obj a) := hl; simp [hl]
      | succ m => obtain ⟨k, h1, -, -⟩ := hl; simp [h1]
  | cons hstep _ ih =>
    simp only [List.length_cons] at hd
    obtain ⟨s1, h1, h2⟩ := h.step (depth := depth) (by omega) hstep
    obtain ⟨s2, h3, h4⟩ := ih h2 (by omega)
    refine ⟨s2, ?_, h4⟩
    rw [run, h1]
    simp only [ok_bind, h3]
    rfl

/-! ## C152 -/

/-- In every history of callables and `FunctionRef` variables of any signatures, made from callables and from each other, a call calls the callable that the variable was made of, directly or over other
variables, with its results and its changes of state; a program with `n` statements needs room for at most `n` nested calls.  Left out: variables that are written to or that end after variables of
another signature were made of them (refuted below); variables of the same signature are free. -/
theorem C152_history_partial (sig : Nat → Nat) (ops : List (Op C)) (σ : Spec C) (rs : List C.R) (depth : Nat) (hd : ops.length ≤ depth)
    (h : Spec.Run sig ⟨fun _ => none, fun _ => none, fun _ => False⟩ ops σ rs) :
    ∃ s, run sig depth ops (init C) = .ok (s, rs) ∧ s.objs = σ.objs ∧ ∀ i, (s.vars i).isSome = (σ.target i).isSome :=
  run_spec (n := 0) ⟨rfl, (fun _ _ h => by cases h), fun _ _ => rfl⟩ (by omega) h

/-- A variable of another signature follows its source: if the source is bound to another callable, this one is called. -/
theorem C152_rebound_violated (sig : Nat → Nat) (i j a b : Nat) (hsig : sig i ≠ sig j) (s : St C) (cb : C.S) (hj : s.vars j = some (.obj a)) (hb : s.objs b = some cb) (x : C.A)
    (depth : Nat) (hd : 2 ≤ depth) :
    ∃ s', run sig depth [.fromRef i j, .bind j b, .call i x] s = .ok (s', [(C.invoke cb x).2]) := by
  have hij : i ≠ j := fun e => hsig (e ▸ rfl)
  obtain ⟨d, rfl⟩ : ∃ d, depth = d + 2 := ⟨depth - 2, by omega⟩
  refine ⟨⟨upd s.objs b (some (C.invoke cb x).1), upd (upd s.vars i (some (.var j))) j (some (.obj b))⟩, ?_⟩
  simp [run, step, fromRef, hj, hsig, call, upd, hij, hb]

/-- With the same signature it keeps the callable. -/
theorem C152_copy (sig : Nat → Nat) (i j a b : Nat) (hij : i ≠ j) (hsig : sig i = sig j) (s : St C) (ca : C.S) (hj : s.vars j = some (.obj a)) (ha : s.objs a = some ca) (x : C.A)
    (depth : Nat) (hd : 1 ≤ depth) :
    (∃ s', run sig depth [.fromRef i j, .bind j b, .call i x] s = .ok (s', [(C.invoke ca x).2])) ∧
    (∃ s', run sig depth [.fromRef i j, .endVar j, .call i x] s = .ok (s', [(C.invoke ca x).2])) := by
  obtain ⟨d, rfl⟩ : ∃ d, depth = d + 1 := ⟨depth - 1, by omega⟩
  refine ⟨⟨⟨upd s.objs a (some (C.invoke ca x).1), upd (upd s.vars i (some (.obj a))) j (some (.obj b))⟩, ?_⟩,
    ⟨⟨upd s.objs a (some (C.invoke ca x).1), upd (upd s.vars i (some (.obj a))) j none⟩, ?_⟩⟩
  · simp [run, step, fromRef, hj, hsig, call, upd, hij, ha]
  · simp [run, step, fromRef, hj, hsig, call, upd, hij, ha]

/-- If the source ends (a parameter, a temporary), calls are undefined although the callable lives. -/
theorem C152_ended_violated (sig : Nat → Nat) (i j a : Nat) (hsig : sig i ≠ sig j) (s : St C) (hj : s.vars j = some (.obj a)) (x : C.A) (depth : Nat) (hd : 2 ≤ depth) :
    run sig depth [.fromRef i j, .endVar j, .call i x] s = .error .ub := by
  have hij : i ≠ j := fun e => hsig (e ▸ rfl)
  obtain ⟨d, rfl⟩ : ∃ d, depth = d + 2 := ⟨depth - 2, by omega⟩
  simp [run, step, fromRef, hj, hsig, call, upd, hij]
  rfl

/-- Two variables assigned to each other: a call calls them in turn and never ends. -/
theorem C152_cycle_violated (sig : Nat → Nat) (i j a : Nat) (hsig : sig i ≠ sig j) (s : St C) (hj : s.vars j = some (.obj a)) (x : C.A) (depth : Nat) :
    run sig depth [.fromRef i j, .fromRef j i, .call i x] s = .error .diverge := by
  have hij : i ≠ j := fun e => hsig (e ▸ rfl)
  have hji : j ≠ i := hij.symm
  have key : ∀ (d : Nat) (t : St C), t.vars i = some (.var j) → t.vars j = some (.var i) → call d i x t = .error .diverge ∧ call d j x t = .error .diverge := by
    intro d t h1 h2
    induction d with
    | zero => exact ⟨rfl, rfl⟩
    | succ d ih =>
      refine ⟨?_, ?_⟩
      · rw [call]; simp only [h1]; exact ih.2
      · rw [call]; simp only [h2]; exact ih.1
  have := (key depth ⟨s.objs, upd (upd s.vars i (some (.var j))) j (some (.var i))⟩ (by simp [upd, hij]) (by simp [upd])).1
  simp [run, step, fromRef, hj, hsig, hsig.symm, upd] at this ⊢
  rw [this]
  rfl

private theorem silent {sig : Nat → Nat} {σ σ' σ'' : Spec C} {op : Op C} {ops : List (Op C)} {rs : List C.R} (h : Spec.Step sig σ op σ' none) (hr : Spec.Run sig σ' ops σ'' rs) :
    Spec.Run sig σ (op :: ops) σ'' rs := .cons h hr

private theorem says {sig : Nat → Nat} {σ σ' σ'' : Spec C} {op : Op C} {ops : List (Op C)} {r : C.R} {rs : List C.R} (h : Spec.Step sig σ op σ' (some r))
    (hr : Spec.Run sig σ' ops σ'' rs) : Spec.Run sig σ (op :: ops) σ'' (r :: rs) := .cons h hr

/-- A counter: a call adds to it and gives the sum. -/
def counter : Callables := ⟨Nat, Nat, Nat, fun n x => (n + x, n + x)⟩

/-- Variables 0 and 1 have different signatures; 1 made from 0, 2 copied from 1: both call the callable at 5, whose state goes on. -/
example : ∃ σ : Spec counter, Spec.Run (fun i => if i = 0 then 0 else 1) ⟨fun _ => none, fun _ => none, fun _ => False⟩
    [.newObj 5 (10 : Nat), .bind 0 5, .fromRef 1 0, .call 1 (3 : Nat), .fromRef 2 1, .bind 1 6, .call 2 (4 : Nat)] σ [(13 : Nat), (17 : Nat)] := by
  exact ⟨_, silent (.newObj _ _ _) (silent (.bind _ _ _ (fun h => h)) (silent (.fromOther _ _ _ 5 (fun h => h) rfl (by decide))
    (says (Spec.Step.call (C := counter) _ 1 5 (10 : Nat) (3 : Nat) rfl rfl) (silent (.fromSame _ _ _ 5 (by simp) rfl (by decide)) (silent (.bind _ _ _ (by simp))
      (says (Spec.Step.call (C := counter) _ 2 5 (13 : Nat) (4 : Nat) rfl rfl) (.nil _)))))))⟩

end Verif.FunctionRef.Convert
