import Verif.PrivateImpl.Lemmas

/-!
# Property C54 of `PrivateImpl`
-/

namespace Verif.PrivateImpl

open Verif.Cpp

variable {T : Type}

/-! ## On the heap -/

/-- Every program of allowed operations over any number of variables, with exceptions thrown by constructors and copies,
ends normally (no double delete, no access to a destroyed object).  Then `Get` and `HasValue` of every variable give the
specified value, no two variables share an object, and every object on the heap is held by some variable.
Operations left out are those of the `…_violated` theorems below, and `Emplace` of a variable that holds an object. -/
theorem C54_heap_history_partial (ty : Ty T) (ops : List (Op T)) (σ : Spec T)
    (h : runSpec (heapStep ty) ops (fun _ => none) = some σ) :
    ∃ s, Heap.run ty ops Heap.init = .done s () ∧
      (∀ i o, σ i = some o → Heap.get i s = .done s o ∧ Heap.hasValue i s = .done s o.isSome) ∧
      (∀ i, σ i = none ↔ s.vars i = none) ∧
      (∀ i j p, s.vars i = some p → s.vars j = some p → p ≠ 0 → i = j) ∧
      (∀ a v, s.cells a = some v → ∃ i, s.vars i = some a) := by
  obtain ⟨s, e, r⟩ := run_ok ty ops rel_init h
  refine ⟨s, e, ?_, r.none_iff, r.once, r.noLeak⟩
  intro i o hi
  cases o with
  | none =>
    have hp := r.some_none hi
    constructor
    · simp only [Heap.get]; rw [X.bind_done (getPtr_run hp)]; rfl
    · simp only [Heap.hasValue]; rw [X.bind_done (getPtr_run hp)]; rfl
  | some v =>
    obtain ⟨p, h0, hp, hv⟩ := r.some_some hi
    have hb : (p != 0) = true := by simpa using h0
    constructor
    · simp only [Heap.get]; rw [X.bind_done (getPtr_run hp)]
      simp only [beq_iff_eq, h0, if_false]
      rw [X.bind_done (deref_run h0 hv)]; rfl
    · simp only [Heap.hasValue]; rw [X.bind_done (getPtr_run hp)]
      simp [hb]

/-- When all variables are destroyed, no object is left on the heap. -/
theorem C54_heap_all_destroyed (ty : Ty T) (ops : List (Op T)) (σ : Spec T)
    (h : runSpec (heapStep ty) ops (fun _ => none) = some σ) (hend : ∀ i, σ i = none) :
    ∃ s, Heap.run ty ops Heap.init = .done s () ∧ ∀ a, s.cells a = none := by
  obtain ⟨s, e, _, hn, _, hl⟩ := C54_heap_history_partial ty ops σ h
  refine ⟨s, e, fun a => ?_⟩
  cases hc : s.cells a with
  | none => rfl
  | some v =>
    obtain ⟨i, hi⟩ := hl a v hc
    rw [(hn i).mp (hend i)] at hi; simp at hi

/-- The variables an operation may change. -/
def Op.changes : Op T → Nat → Bool
  | .ctorNull i, k | .ctorPtr i _, k | .ctorArgs i _, k | .copyCtor i _, k | .dtor i, k | .emplace i _, k | .reset i, k
  | .copyAssign i _, k | .write i _, k => k == i
  | .moveCtor i j, k | .moveAssign i j, k => k == i || k == j

theorem put_other (th : T → Bool) (σ : Spec T) (i k : Nat) (v : T) (h : k ≠ i) : put th σ i v k = σ k := by
  unfold put; split
  · rfl
  · simp [Spec.set, h]

theorem heapStep_other (ty : Ty T) (σ σ' : Spec T) (op : Op T) (k : Nat) (hk : op.changes k = false) (h : heapStep ty σ op = some σ') :
    σ' k = σ k := by
  cases op <;> simp only [heapStep, Op.changes, Bool.or_eq_false_iff, beq_eq_false_iff_ne, ne_eq] at h hk <;>
    (repeat' split at h) <;> simp only [Option.some.injEq, reduceCtorEq] at h <;> subst h <;>
    first
      | exact put_other _ _ _ _ _ hk
      | simp [Spec.set, hk]

theorem runSpec_append {S : Type} (f : S → Op T → Option S) (a b : List (Op T)) (σ : S) :
    runSpec f (a ++ b) σ = (runSpec f a σ).bind (runSpec f b) := by
  induction a generalizing σ with
  | nil => rfl
  | cons op a ih =>
    simp only [List.cons_append, runSpec]
    cases f σ op with
    | none => rfl
    | some σ1 => exact ih σ1

theorem runSpec_other (ty : Ty T) (ops : List (Op T)) (k : Nat) (hk : ∀ op ∈ ops, op.changes k = false) (σ σ' : Spec T)
    (h : runSpec (heapStep ty) ops σ = some σ') : σ' k = σ k := by
  induction ops generalizing σ with
  | nil => simp only [runSpec, Option.some.injEq] at h; rw [h]
  | cons op ops ih =>
    simp only [runSpec] at h
    cases hs : heapStep ty σ op with
    | none => simp [hs] at h
    | some σ1 =>
      rw [hs] at h
      rw [ih (fun o ho => hk o (List.mem_cons_of_mem _ ho)) σ1 h]
      exact heapStep_other ty σ σ1 op k (hk op List.mem_cons_self) hs

/-- A copy is deep: whatever an allowed program does afterwards without naming the original as its target leaves the value of the
original, and whatever it does without naming the copy leaves the value of the copy. -/
theorem C54_copy_independent (ty : Ty T) (before after : List (Op T)) (i j : Nat) (v : T) (σ σ' : Spec T)
    (hb : runSpec (heapStep ty) before (fun _ => none) = some σ) (hj : σ j = some (some v)) (hi : σ i = none) (hc : ty.copyThrows v = false)
    (h : runSpec (heapStep ty) (before ++ .copyCtor i j :: after) (fun _ => none) = some σ') :
    ∃ s, Heap.run ty (before ++ .copyCtor i j :: after) Heap.init = .done s () ∧
      ((∀ op ∈ after, op.changes j = false) → Heap.get j s = .done s (some v)) ∧
      ((∀ op ∈ after, op.changes i = false) → Heap.get i s = .done s (some v)) := by
  obtain ⟨s, e, hg, _⟩ := C54_heap_history_partial ty _ σ' h
  have hij : j ≠ i := by rintro rfl; rw [hi] at hj; simp at hj
  rw [runSpec_append, hb] at h
  simp only [Option.bind_some, runSpec, heapStep, hi, hj] at h
  refine ⟨s, e, fun ho => ?_, fun ho => ?_⟩
  · have := runSpec_other ty after j ho _ _ h
    rw [put_other _ _ _ _ _ hij, hj] at this
    exact (hg j _ this).1
  · have := runSpec_other ty after i ho _ _ h
    simp only [put, hc, Bool.false_eq_true, if_false, Spec.set, if_true] at this
    exact (hg i _ this).1

/-- Copying from an empty `PrivateImpl` (made from `nullptr`, reset or moved from) dereferences a null pointer: copy construction and copy
assignment, in every state and for every target. -/
theorem C54_copy_empty_violated (ty : Ty T) (s : St T) (i j p : Nat) (hj : s.vars j = some 0) (hi : s.vars i = some p) (h0 : s.cells 0 = none) :
    (∀ k, Heap.copyCtor ty k j s = .fail .ub) ∧ Heap.copyAssign ty i j s = .fail .ub := by
  constructor
  · intro k
    simp only [Heap.copyCtor]
    rw [X.bind_done (getPtr_run hj)]
    exact X.bind_fail (by simp [Heap.deref, h0])
  · simp only [Heap.copyAssign]
    rw [X.bind_done (getPtr_run hi), X.bind_done (getPtr_run hj)]
    cases ty.copyAssignable with
    | true =>
      simp only [if_true]
      split <;> exact X.bind_fail (by simp [Heap.deref, h0])
    | false =>
      simp only [Bool.false_eq_true, if_false]
      by_cases hp : p = 0
      · rw [X.bind_done (s' := s) (a := ()) (by simp [Heap.delete, hp])]
        exact X.bind_fail (by simp [Heap.deref, h0])
      · cases hc : s.cells p with
        | none => exact X.bind_fail (by simp [Heap.delete, hp, hc])
        | some w =>
          rw [X.bind_done (s' := { s with cells := fun a => if a = p then none else s.cells a }) (a := ()) (by simp [Heap.delete, hp, hc])]
          exact X.bind_fail (by simp [Heap.deref, h0])

/-- Self-assignment when `T` is not copy assignable destroys the object before it copies it. -/
theorem C54_self_assign_violated (ty : Ty T) (hty : ty.copyAssignable = false) (s : St T) (i p : Nat) (hi : s.vars i = some p) (hp : p ≠ 0) :
    Heap.copyAssign ty i i s = .fail .ub := by
  simp only [Heap.copyAssign]
  rw [X.bind_done (getPtr_run hi), X.bind_done (getPtr_run hi), hty]
  simp only [Bool.false_eq_true, if_false]
  cases hc : s.cells p with
  | none => exact X.bind_fail (by simp [Heap.delete, hp, hc])
  | some w =>
    rw [X.bind_done (s' := { s with cells := fun a => if a = p then none else s.cells a }) (a := ()) (by simp [Heap.delete, hp, hc])]
    exact X.bind_fail (by simp [Heap.deref])

theorem run_append {ty : Ty T} {a b : List (Op T)} {s0 s1 : St T} (h : Heap.run ty a s0 = .done s1 ()) :
    Heap.run ty (a ++ b) s0 = Heap.run ty b s1 := by
  induction a generalizing s0 with
  | nil => simp only [Heap.run, Out.done.injEq, and_true] at h; rw [h]; rfl
  | cons op a ih =>
    simp only [List.cons_append, Heap.run] at h ⊢
    cases ho : Heap.exec ty op s0 with
    | done s2 _ => rw [ho] at h; exact ih h
    | thrown s2 => rw [ho] at h; exact ih h
    | fail => rw [ho] at h; simp at h

/-- After every history, `Emplace` on an object that holds a value fails an assertion: the value cannot get lost. -/
theorem C54_emplace_reported (ty : Ty T) (before : List (Op T)) (σ : Spec T) (i : Nat) (w v : T)
    (hb : runSpec (heapStep ty) before (fun _ => none) = some σ) (hi : σ i = some (some w)) :
    Heap.run ty (before ++ [.emplace i v]) Heap.init = .fail .assert := by
  obtain ⟨s, e, r⟩ := run_ok ty before rel_init hb
  rw [run_append e]
  obtain ⟨p, hp0, hp, -⟩ := r.some_some hi
  have h1 : Heap.exec ty (.emplace i v) s = .fail .assert := by
    simp only [Heap.exec, Heap.emplace]
    rw [X.bind_done (getPtr_run hp)]
    exact X.bind_fail (by simp [X.assert, hp0])
  simp [Heap.run, h1]

example : ∃ σ : Spec Nat, runSpec (heapStep ⟨fun _ => false, fun _ => false, id, false⟩) [.ctorNull 0, .emplace 0 7] (fun _ => none) = some σ ∧ σ 0 = some (some 7) :=
  ⟨_, rfl, rfl⟩

/-- Copy assignment when `T` is not copy assignable and its copy throws: the target keeps the pointer to its destroyed object, which its
destructor deletes a second time. -/
theorem C54_copy_throw_violated (ty : Ty T) (hty : ty.copyAssignable = false) (before : List (Op T)) (σ : Spec T) (i j : Nat) (w v : T)
    (hb : runSpec (heapStep ty) before (fun _ => none) = some σ) (hi : σ i = some (some w)) (hj : σ j = some (some v)) (hij : i ≠ j)
    (hc : ty.copyThrows v = true) :
    Heap.run ty (before ++ [.copyAssign i j, .dtor i]) Heap.init = .fail .ub := by
  obtain ⟨s, e, r⟩ := run_ok ty before rel_init hb
  rw [run_append e]
  obtain ⟨p, hp0, hp, hpw⟩ := r.some_some hi
  obtain ⟨q, hq0, hq, hqv⟩ := r.some_some hj
  have hqp : q ≠ p := by rintro rfl; exact hij (r.once i j q hp hq hq0)
  have h1 : Heap.exec ty (.copyAssign i j) s = .thrown { s with cells := fun a => if a = p then none else s.cells a } := by
    simp only [Heap.exec, Heap.copyAssign]
    rw [X.bind_done (getPtr_run hp), X.bind_done (getPtr_run hq), hty]
    simp only [Bool.false_eq_true, if_false]
    rw [X.bind_done (s' := { s with cells := fun a => if a = p then none else s.cells a }) (a := ()) (by simp [Heap.delete, hp0, hpw])]
    rw [X.bind_done (deref_run (v := v) hq0 (by simp [hqp, hqv]))]
    exact X.bind_thrown (by simp [Heap.new, hc])
  have h2 : Heap.exec ty (.dtor i) { s with cells := fun a => if a = p then none else s.cells a } = .fail .ub := by
    simp only [Heap.exec, Heap.dtor]
    rw [X.bind_done (getPtr_run (p := p) (by simpa using hp))]
    exact X.bind_fail (by simp [Heap.delete, hp0])
  simp [Heap.run, h1, h2]

/-! ## Inline storage -/

/-- Every program of allowed operations ends normally, with the specified values, and exactly the living variables have objects. -/
theorem C54_inline_history_partial (ty : Ty T) (ops : List (Op T)) (σ : Nat → Option T)
    (h : runSpec (inlineStep ty) ops (fun _ => none) = some σ) :
    ∃ s, Inline.run ty ops Inline.init = .done s () ∧ ∀ i, s i = (σ i).map some := by
  have key : ∀ (ops : List (Op T)) (σ0 σ1 : Nat → Option T), runSpec (inlineStep ty) ops σ0 = some σ1 →
      Inline.run ty ops (fun i => (σ0 i).map some) = .done (fun i => (σ1 i).map some) () := by
    intro ops
    induction ops with
    | nil => intro σ0 σ1 h; simp only [runSpec, Option.some.injEq] at h; subst h; rfl
    | cons op ops ih =>
      intro σ0 σ1 h
      simp only [runSpec] at h
      cases hs : inlineStep ty σ0 op with
      | none => simp [hs] at h
      | some σ2 =>
        rw [hs] at h
        have hstep : Inline.exec ty op (fun i => (σ0 i).map some) = .done (fun i => (σ2 i).map some) () ∨
            Inline.exec ty op (fun i => (σ0 i).map some) = .thrown (fun i => (σ2 i).map some) := by
          have con : ∀ (th : T → Bool) (i : Nat) (v : T), (if th v then σ0 else fun k => if k = i then some v else σ0 k) = σ2 →
              Inline.construct th i v (fun i => (σ0 i).map some) = .done (fun i => (σ2 i).map some) () ∨
              Inline.construct th i v (fun i => (σ0 i).map some) = .thrown (fun i => (σ2 i).map some) := by
            intro th i v he
            unfold Inline.construct
            cases ht : th v with
            | true => rw [ht] at he; simp only [if_true] at he ⊢; subst he; exact Or.inr rfl
            | false =>
              rw [ht] at he; simp only [Bool.false_eq_true, if_false] at he ⊢; subst he
              refine Or.inl ?_
              congr 1; funext k
              by_cases hk : k = i <;> simp [Inline.setVar, hk]
          cases op with
          | ctorArgs i v =>
            simp only [inlineStep] at hs
            split at hs
            next => exact con ty.throws i v (Option.some.inj hs)
            next => simp at hs
          | copyCtor i j =>
            simp only [inlineStep] at hs
            split at hs
            next v hi hj =>
              simp only [Inline.exec, Inline.copyCtor]
              rw [X.bind_done (s' := fun i => (σ0 i).map some) (a := v) (by simp [Inline.deref, hj])]
              exact con ty.copyThrows i v (Option.some.inj hs)
            next => simp at hs
          | moveCtor i j =>
            simp only [inlineStep] at hs
            split at hs
            next v hi hj =>
              simp only [Option.some.injEq] at hs; subst hs
              simp only [Inline.exec, Inline.moveCtor, Inline.constructMoved]
              rw [X.bind_done (s' := fun i => (σ0 i).map some) (a := v) (by simp [Inline.deref, hj])]
              refine Or.inl ?_
              simp only [X.modify_run]
              congr 1; funext k
              simp only [Inline.setVar]
              repeat' split
              all_goals simp
            next => simp at hs
          | dtor i =>
            simp only [inlineStep] at hs
            split at hs
            next v hi =>
              simp only [Option.some.injEq] at hs; subst hs
              simp only [Inline.exec, Inline.dtor]
              rw [X.bind_done (s' := Inline.setVar (fun i => (σ0 i).map some) i (some none)) (a := ()) (by simp [Inline.destroy, hi])]
              refine Or.inl ?_
              simp only [X.modify_run]
              congr 1; funext k
              simp only [Inline.setVar]
              repeat' split
              all_goals simp
            next => simp at hs
          | copyAssign i j =>
            simp only [inlineStep] at hs
            split at hs
            next w v hi hj =>
              split at hs
              next hc =>
                simp only [Option.some.injEq] at hs; subst hs
                simp only [Inline.exec, Inline.copyAssign]
                rw [X.bind_done (s' := Inline.setVar (fun i => (σ0 i).map some) i (some none)) (a := ()) (by simp [Inline.destroy, hi])]
                rw [X.bind_done (s' := Inline.setVar (fun i => (σ0 i).map some) i (some none)) (a := v)
                  (by simp [Inline.deref, Inline.setVar, hj, Ne.symm hc.1])]
                refine Or.inl ?_
                simp only [Inline.construct, hc.2, Bool.false_eq_true, if_false]
                congr 1; funext k
                simp only [Inline.setVar]
                repeat' split
                all_goals simp
              next => simp at hs
            next => simp at hs
          | moveAssign i j =>
            simp only [inlineStep] at hs
            split at hs
            next w v hi hj =>
              split at hs
              next hc =>
                simp only [Option.some.injEq] at hs; subst hs
                simp only [Inline.exec, Inline.moveAssign, Inline.constructMoved]
                rw [X.bind_done (s' := Inline.setVar (fun i => (σ0 i).map some) i (some none)) (a := ()) (by simp [Inline.destroy, hi])]
                rw [X.bind_done (s' := Inline.setVar (fun i => (σ0 i).map some) i (some none)) (a := v)
                  (by simp [Inline.deref, Inline.setVar, hj, Ne.symm hc])]
                refine Or.inl ?_
                simp only [X.modify_run]
                congr 1; funext k
                simp only [Inline.setVar]
                repeat' split
                all_goals simp
              next => simp at hs
            next => simp at hs
          | write i v =>
            simp only [inlineStep] at hs
            split at hs
            next w hi =>
              simp only [Inline.exec, Inline.write]
              rw [X.bind_done (s' := fun i => (σ0 i).map some) (a := w) (by simp [Inline.deref, hi])]
              exact con ty.throws i v (Option.some.inj hs)
            next => simp at hs
          | _ => simp [inlineStep] at hs
        simp only [Inline.run]
        rcases hstep with hstep | hstep <;> rw [hstep] <;> exact ih σ2 σ1 h
  exact ⟨_, key ops _ σ h, fun _ => rfl⟩

/-- Self-assignment with inline storage, copy or move, uses the object after its destruction, for every type and value. -/
theorem C54_inline_self_violated (ty : Ty T) (s : ISt T) (i : Nat) :
    Inline.copyAssign ty i i s = .fail .ub ∧ Inline.moveAssign ty i i s = .fail .ub := by
  cases hs : s i with
  | none => exact ⟨X.bind_fail (by simp [Inline.destroy, hs]), X.bind_fail (by simp [Inline.destroy, hs])⟩
  | some o =>
    cases o with
    | none => exact ⟨X.bind_fail (by simp [Inline.destroy, hs]), X.bind_fail (by simp [Inline.destroy, hs])⟩
    | some v =>
      have hd : Inline.destroy i s = .done (Inline.setVar s i (some none)) () := by simp [Inline.destroy, hs]
      have hr : Inline.deref i (Inline.setVar s i (some none)) = .fail .ub := by simp [Inline.deref, Inline.setVar]
      constructor
      · simp only [Inline.copyAssign]; rw [X.bind_done hd]; exact X.bind_fail hr
      · simp only [Inline.moveAssign, Inline.constructMoved]; rw [X.bind_done hd]; exact X.bind_fail hr

/-- With inline storage, a copy assignment whose copy throws leaves the target without object; its destructor destroys it again. -/
theorem C54_inline_throw_violated (ty : Ty T) (s : ISt T) (i j : Nat) (w v : T) (hij : i ≠ j) (hi : s i = some (some w)) (hj : s j = some (some v))
    (hc : ty.copyThrows v = true) : Inline.run ty [.copyAssign i j, .dtor i] s = .fail .ub := by
  have hd : Inline.destroy i s = .done (Inline.setVar s i (some none)) () := by simp [Inline.destroy, hi]
  have h1 : Inline.exec ty (.copyAssign i j) s = .thrown (Inline.setVar s i (some none)) := by
    simp only [Inline.exec, Inline.copyAssign]
    rw [X.bind_done hd, X.bind_done (s' := Inline.setVar s i (some none)) (a := v) (by simp [Inline.deref, Inline.setVar, hj, Ne.symm hij])]
    simp [Inline.construct, hc]
  have h2 : Inline.exec ty (.dtor i) (Inline.setVar s i (some none)) = .fail .ub := by
    simp only [Inline.exec, Inline.dtor]
    exact X.bind_fail (by simp [Inline.destroy, Inline.setVar])
  simp [Inline.run, h1, h2]

/-! ## The hypotheses are met -/

/-- 7 cannot be constructed, 9 cannot be copied. -/
def exTy (ca : Bool) : Ty Nat := ⟨fun v => v == 7, fun v => v == 9, fun _ => 0, ca⟩

/-- A program with copies, moves, exceptions, reset, assignment both to empty and to full variables. -/
def exOps : List (Op Nat) :=
  [.ctorArgs 0 5, .ctorNull 1, .copyAssign 1 0, .write 1 6, .copyCtor 2 1, .ctorArgs 3 7, .ctorArgs 3 9, .copyCtor 4 3,
   .moveCtor 4 3, .reset 0, .emplace 0 8, .copyAssign 0 1, .moveAssign 0 2, .dtor 2]

example (ca : Bool) : ∃ σ, runSpec (heapStep (exTy ca)) exOps (fun _ => none) = some σ ∧ σ 0 = some (some 6) ∧ σ 1 = some (some 6) ∧
    σ 2 = none ∧ σ 3 = some none ∧ σ 4 = some (some 9) := by
  cases ca <;> exact ⟨_, rfl, rfl, rfl, rfl, rfl, rfl⟩

example (ca : Bool) : ∃ σ, runSpec (heapStep (exTy ca)) (exOps ++ [.dtor 0, .dtor 1, .dtor 3, .dtor 4]) (fun _ => none) = some σ ∧ ∀ i, σ i = none := by
  cases ca <;> refine ⟨_, rfl, fun i => ?_⟩ <;> simp only [Spec.set, put, exTy] <;> repeat' split
  all_goals first | rfl | omega | (simp_all [Spec.set]; done)

/-- Hypotheses of `C54_copy_throw_violated`. -/
example : ∃ σ, runSpec (heapStep (exTy false)) [.ctorArgs 0 5, .ctorArgs 1 9] (fun _ => none) = some σ ∧ σ 0 = some (some 5) ∧ σ 1 = some (some 9) ∧
    (exTy false).copyThrows 9 = true := ⟨_, rfl, rfl, rfl, rfl⟩

example : ∃ σ, runSpec (inlineStep (exTy true)) [.ctorArgs 0 5, .copyCtor 1 0, .ctorArgs 2 7, .write 1 6, .copyAssign 0 1, .moveCtor 2 0, .dtor 1] (fun _ => none)
    = some σ ∧ σ 0 = some 0 ∧ σ 1 = none ∧ σ 2 = some 6 := ⟨_, rfl, rfl, rfl, rfl⟩

end Verif.PrivateImpl
