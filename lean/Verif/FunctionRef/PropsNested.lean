import Verif.FunctionRef.ModelNested
import Verif.FunctionRef.Props

/-!
# C140: `FunctionRef` and callables that use `FunctionRef` variables themselves
-/

namespace Verif.FunctionRef

open Verif.Cpp

variable {C : Callables}

/-! ## Specification: a variable names a callable; calling the variable is calling the callable by its own name -/

/-- A program that calls callables directly.  `none`: the program uses a dead callable, calls or copies a null variable. -/
def Spec.runWith (invoke : C.Kind → Nat → C.A → Spec C → Option (Spec C × Option C.R)) : Prog C → Spec C → Option (Spec C × Option C.R)
  | .ret r, σ => some (σ, r)
  | .newObj k c next, σ => Spec.runWith invoke (next (σ.objs.length + 1)) { σ with objs := σ.objs ++ [some (k, c)] }
  | .endObj a next, σ => match a with
    | 0 => none
    | n + 1 => match σ.alive n with
      | some _ => Spec.runWith invoke next { σ with objs := σ.objs.set n none }
      | none => none
  | .getState a next, σ => match a with
    | 0 => none
    | n + 1 => match σ.alive n with
      | some (_, c) => Spec.runWith invoke (next c) σ
      | none => none
  | .setState a c next, σ => match a with
    | 0 => none
    | n + 1 => match σ.alive n with
      | some (k, _) => Spec.runWith invoke next { σ with objs := σ.objs.set n (some (k, c)) }
      | none => none
  | .ctorNull i next, σ => Spec.runWith invoke next (σ.name i (some none))
  | .ctor i a next, σ => match a with
    | 0 => none
    | n + 1 => match σ.alive n with
      | some _ => Spec.runWith invoke next (σ.name i (some (some n)))
      | none => none
  | .copy i j next, σ => match σ.names j with
    | some (some n) => Spec.runWith invoke next (σ.name i (some (some n)))
    | _ => none
  | .endRef i next, σ => Spec.runWith invoke next (σ.name i none)
  | .toBool i next, σ => match σ.names i with
    | some o => Spec.runWith invoke (next o.isSome) σ
    | none => none
  | .call i x next, σ => match σ.names i with
    | some (some n) => match σ.alive n with
      | some (k, _) => match invoke k (n + 1) x σ with
        | some (σ, r) => Spec.runWith invoke (next r) σ
        | none => none
      | none => none
    | _ => none

/-- Calls nested at most `depth` deep. -/
def Spec.runNested (B : Bodies C) : Nat → Prog C → Spec C → Option (Spec C × Option C.R)
  | 0 => Spec.runWith (fun _ _ _ _ => none)
  | depth + 1 => Spec.runWith (fun k a x => Spec.runNested B depth (B k a x))

/-! ## Proof -/

variable [DecidableEq C.Kind]

omit [DecidableEq C.Kind] in
theorem ofX_nothing {m : X (St C) Unit} {s s' : St C} (h : seen (fun _ => Seen.nothing) m s = .ok (s', .nothing)) : ofX m s = .ok (s', ()) := by
  unfold seen at h
  unfold ofX
  cases hm : m s with
  | done s1 a => rw [hm] at h; simp only [Except.ok.injEq, Prod.mk.injEq] at h; simp [h.1]
  | thrown s1 => rw [hm] at h; simp at h
  | fail e => rw [hm] at h; simp at h

omit [DecidableEq C.Kind] in
theorem ofX_bool {m : X (St C) Bool} {s s' : St C} {b : Bool} (h : seen Seen.bool m s = .ok (s', .bool b)) : ofX m s = .ok (s', b) := by
  unfold seen at h
  unfold ofX
  cases hm : m s with
  | done s1 a => rw [hm] at h; simp only [Except.ok.injEq, Prod.mk.injEq, Seen.bool.injEq] at h; simp [h.1, h.2]
  | thrown s1 => rw [hm] at h; simp at h
  | fail e => rw [hm] at h; simp at h

omit [DecidableEq C.Kind] in
theorem named_of {s : St C} {σ : Spec C} (h : Rel s σ) {i n : Nat} (hi : σ.names i = some (some n)) :
    ∃ k, s.refs i = some ⟨some k, n + 1⟩ ∧ ∀ k' c, s.objs (n + 1) = some (k', c) → k' = k := by
  rw [h.names] at hi
  cases hr : s.refs i with
  | none => simp [hr] at hi
  | some r =>
    simp only [hr, Option.map_some, Option.some.injEq] at hi
    by_cases h0 : r.functor = 0
    · rw [if_pos h0] at hi; simp at hi
    · rw [if_neg h0, Option.some.injEq] at hi
      obtain ⟨k, hk, hlt, hks⟩ := h.kinds i r hr h0
      have e : r.functor = n + 1 := by omega
      refine ⟨k, ?_, by rw [← e]; exact hks⟩
      cases r; simp_all

theorem runWith_rel {inv : C.Kind → Nat → C.A → St C → Except Err (St C × Option C.R)}
    {sinv : C.Kind → Nat → C.A → Spec C → Option (Spec C × Option C.R)}
    (hinv : ∀ k a x s σ σ' r, Rel s σ → sinv k a x σ = some (σ', r) → ∃ s', inv k a x s = .ok (s', r) ∧ Rel s' σ')
    (p : Prog C) : ∀ s σ σ' r, Rel s σ → Spec.runWith sinv p σ = some (σ', r) → ∃ s', runWith inv p s = .ok (s', r) ∧ Rel s' σ' := by
  induction p with
  | ret r' =>
    intro s σ σ' r h hs
    simp only [Spec.runWith, Option.some.injEq, Prod.mk.injEq] at hs
    obtain ⟨rfl, rfl⟩ := hs
    exact ⟨s, rfl, h⟩
  | newObj k c next ih =>
    intro s σ σ' r h hs
    simp only [Spec.runWith] at hs
    obtain ⟨s1, e, h1⟩ := exec_ok h (.newObj k c) rfl
    have e1 : ofX (newObj k c) s = .ok (s1, σ.objs.length + 1) := by
      have hs1 : s1 = { s with objs := fun a => if a = s.next then some (k, c) else s.objs a, next := s.next + 1 } := by
        simp only [exec, seen, newObj, Except.ok.injEq, Prod.mk.injEq] at e
        exact e.1.symm
      rw [hs1, ← h.next]; rfl
    obtain ⟨s2, e2, h2⟩ := ih _ s1 _ σ' r h1 hs
    exact ⟨s2, by simp only [runWith, e1]; exact e2, h2⟩
  | endObj a next ih =>
    intro s σ σ' r h hs
    cases a with
    | zero => simp [Spec.runWith] at hs
    | succ n =>
      simp only [Spec.runWith] at hs
      cases ha : σ.alive n with
      | none => simp [ha] at hs
      | some kc =>
        simp only [ha] at hs
        obtain ⟨s1, e, h1⟩ := exec_ok h (.endObj (n + 1)) (by simp [Spec.step, ha]; exact ⟨rfl, rfl⟩)
        obtain ⟨s2, e2, h2⟩ := ih s1 _ σ' r h1 hs
        exact ⟨s2, by simp only [runWith, ofX_nothing e]; exact e2, h2⟩
  | getState a next ih =>
    intro s σ σ' r h hs
    cases a with
    | zero => simp [Spec.runWith] at hs
    | succ n =>
      simp only [Spec.runWith] at hs
      cases ha : σ.alive n with
      | none => simp [ha] at hs
      | some kc =>
        simp only [ha] at hs
        have hobj := h.objs (n + 1); dsimp only at hobj; rw [ha] at hobj
        obtain ⟨s2, e2, h2⟩ := ih kc.2 s _ σ' r h hs
        refine ⟨s2, ?_, h2⟩
        have e1 : ofX (getState (n + 1)) s = .ok (s, kc.2) := by simp [ofX, getState, hobj]
        simp only [runWith, e1]; exact e2
  | setState a c next ih =>
    intro s σ σ' r h hs
    cases a with
    | zero => simp [Spec.runWith] at hs
    | succ n =>
      simp only [Spec.runWith] at hs
      cases ha : σ.alive n with
      | none => simp [ha] at hs
      | some kc =>
        simp only [ha] at hs
        have hobj := h.objs (n + 1); dsimp only at hobj; rw [ha] at hobj
        have h1 := h.setObj n (some (kc.1, c)) (alive_lt ha) (by
          intro k c' hk
          simp only [Option.some.injEq, Prod.mk.injEq] at hk
          exact ⟨kc.2, by rw [ha, ← hk.1]⟩)
        obtain ⟨s2, e2, h2⟩ := ih _ _ σ' r h1 hs
        refine ⟨s2, ?_, h2⟩
        have e1 : ofX (setState (n + 1) c) s = .ok ({ s with objs := fun b => if b = n + 1 then some (kc.1, c) else s.objs b }, ()) := by
          simp [ofX, setState, hobj, setObj]
        simp only [runWith, e1]; exact e2
  | ctorNull i next ih =>
    intro s σ σ' r h hs
    obtain ⟨s1, e, h1⟩ := exec_ok h (.ctorNull i) rfl
    obtain ⟨s2, e2, h2⟩ := ih s1 _ σ' r h1 hs
    exact ⟨s2, by simp only [runWith, ofX_nothing (m := ctorNull i) e]; exact e2, h2⟩
  | ctor i a next ih =>
    intro s σ σ' r h hs
    cases a with
    | zero => simp [Spec.runWith] at hs
    | succ n =>
      simp only [Spec.runWith] at hs
      cases ha : σ.alive n with
      | none => simp [ha] at hs
      | some kc =>
        simp only [ha] at hs
        obtain ⟨s1, e, h1⟩ := exec_ok h (.ctor i (n + 1)) (by simp [Spec.step, ha]; exact ⟨rfl, rfl⟩)
        obtain ⟨s2, e2, h2⟩ := ih s1 _ σ' r h1 hs
        exact ⟨s2, by simp only [runWith, ofX_nothing e]; exact e2, h2⟩
  | copy i j next ih =>
    intro s σ σ' r h hs
    simp only [Spec.runWith] at hs
    split at hs
    next n hj =>
      obtain ⟨s1, e, h1⟩ := exec_ok h (.copy i j) (by simp [Spec.step, hj]; exact ⟨rfl, rfl⟩)
      obtain ⟨s2, e2, h2⟩ := ih s1 _ σ' r h1 hs
      exact ⟨s2, by simp only [runWith, ofX_nothing e]; exact e2, h2⟩
    next => cases hs
  | endRef i next ih =>
    intro s σ σ' r h hs
    obtain ⟨s1, e, h1⟩ := exec_ok h (.endRef i) rfl
    obtain ⟨s2, e2, h2⟩ := ih s1 _ σ' r h1 hs
    exact ⟨s2, by simp only [runWith, ofX_nothing (m := endRef i) e]; exact e2, h2⟩
  | toBool i next ih =>
    intro s σ σ' r h hs
    simp only [Spec.runWith] at hs
    split at hs
    next o ho =>
      obtain ⟨s1, e, h1⟩ := exec_ok h (.toBool i) (by simp [Spec.step, ho]; exact ⟨rfl, rfl⟩)
      obtain ⟨s2, e2, h2⟩ := ih _ s1 _ σ' r h1 hs
      exact ⟨s2, by simp only [runWith, ofX_bool e]; exact e2, h2⟩
    next => cases hs
  | call i x next ih =>
    intro s σ σ' r h hs
    simp only [Spec.runWith] at hs
    split at hs
    next n hn =>
      split at hs
      next k c ha =>
        split at hs
        next σ1 r1 hi =>
          obtain ⟨k0, hk, hks⟩ := named_of h hn
          have hobj := h.objs (n + 1); dsimp only at hobj; rw [ha] at hobj
          have := hks k c hobj
          subst this
          obtain ⟨s1, e1, h1⟩ := hinv k (n + 1) x s σ σ1 r1 h hi
          obtain ⟨s2, e2, h2⟩ := ih _ s1 _ σ' r h1 hs
          refine ⟨s2, ?_, h2⟩
          have : callNested inv i x s = .ok (s1, r1) := by simp [callNested, hk, hobj, e1]
          simp only [runWith, this]; exact e2
        next => cases hs
      next => cases hs
    next => cases hs

theorem runNested_rel (B : Bodies C) (depth : Nat) (p : Prog C) : ∀ s σ σ' r, Rel s σ → Spec.runNested B depth p σ = some (σ', r) →
    ∃ s', runNested B depth p s = .ok (s', r) ∧ Rel s' σ' := by
  induction depth generalizing p with
  | zero => exact runWith_rel (by intro k a x s σ σ' r _ hc; cases hc) p
  | succ d ih => exact runWith_rel (fun k a x s σ σ' r h hs => ih (B k a x) s σ σ' r h hs) p

/-! ## C140 -/

/-- C140: every program, with callables that are programs themselves and calls nested to any depth, does what it would do if each call
through a `FunctionRef` were a call of the callable by its own name: the same result or exception, the same callables with the same states,
and the same variables bound.  Callables may rebind or destroy the variable they are called through, end their own lifetime, and call
themselves again.  (Only excluded, as in C73: dead callables, calls and copies of null variables.) -/
theorem C140_nested (B : Bodies C) (depth : Nat) (p : Prog C) (σ : Spec C) (r : Option C.R)
    (h : Spec.runNested B depth p ⟨[], fun _ => none⟩ = some (σ, r)) :
    ∃ s, runNested B depth p (init C) = .ok (s, r) ∧ (∀ n, s.objs (n + 1) = σ.alive n) ∧
      ∀ i o, σ.names i = some o → toBool i s = .done s o.isSome := by
  have h0 : Rel (init C) ⟨[], fun _ => none⟩ := by
    refine ⟨fun a => ?_, rfl, fun i => rfl, fun i r hi => by cases hi⟩
    cases a <;> rfl
  obtain ⟨s, e, hr⟩ := runNested_rel B depth p _ _ σ r h0 h
  refine ⟨s, e, fun n => hr.objs (n + 1), fun i o hi => ?_⟩
  have := hr.names i
  rw [hi] at this
  cases hri : s.refs i with
  | none => rw [hri] at this; cases this
  | some rf =>
    rw [hri] at this
    simp only [Option.map_some, Option.some.injEq] at this
    simp only [toBool, hri]
    subst this
    by_cases h0 : rf.functor = 0 <;> simp [h0]

/-! ## A concrete case -/

private def CN : Callables := ⟨Bool, Nat, Nat, Nat, fun _ c x => (c, some x)⟩

/-- Kind `false`: adds its argument to its state, and calls variable 0 again with one less; kind `true`: destroys variable 1, ends its own
lifetime and returns. -/
private def BN : Bodies CN
  | false, a, (x : Nat) => .getState a fun (c : Nat) => .setState a (c + x : Nat)
      (if x = 0 then .ret (some (c : Nat)) else .call 0 (x - 1 : Nat) .ret)
  | true, a, (x : Nat) => .endRef 1 (.endObj a (.ret (some (x : Nat))))

private def pN : Prog CN :=
  .newObj false (5 : Nat) fun a => .ctor 0 a (.newObj true (0 : Nat) fun b => .ctor 1 b (.copy 2 1 (.call 0 (3 : Nat) fun _ => .call 1 (7 : Nat) .ret)))

example : ∃ σ, Spec.runNested BN 6 pN ⟨[], fun _ => none⟩ = some (σ, some (7 : Nat)) ∧ σ.alive 0 = some (false, (11 : Nat)) ∧ σ.alive 1 = none ∧
    σ.names 1 = none ∧ σ.names 2 = some (some 1) := ⟨_, rfl, rfl, rfl, rfl, rfl⟩

end Verif.FunctionRef
