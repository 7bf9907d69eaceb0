import Verif.TypeTraits.ModelComplete

/-!
# C145: `IsComplete_v<T>` tells whether `T` is complete
-/

namespace Verif.TypeTraits.Complete

/-- Specification: `T` is complete after these declarations. -/
def IsCompleteAfter (ds : List Decl) : Ty → Prop
  | .cls n => Decl.define n ∈ ds
  | .array n => Decl.define n ∈ ds
  | _ => False

/-- No reference type is used. -/
def NoReferences (ds : List Decl) : Prop := ∀ n, Decl.use (.reference n) ∉ ds

theorem run_append (ds es : List Decl) (s : St) :
    run (ds ++ es) s = (run ds s).bind (fun p => (run es p.1).map (fun q => (q.1, p.2 ++ q.2))) := by
  induction ds generalizing s with
  | nil =>
    simp only [List.nil_append, run, Option.bind_some]
    cases run es s <;> rfl
  | cons d ds ih =>
    simp only [List.cons_append, run]
    cases step s d with
    | none => rfl
    | some p =>
      simp only [ih]
      cases run ds p.1 with
      | none => rfl
      | some q =>
        simp only [Option.bind_some]
        cases run es q.1 with
        | none => rfl
        | some r => simp only [Option.map_some, List.append_assoc]

/-- The classes defined after some declarations. -/
theorem run_defined {ds : List Decl} {s s' : St} {vs : List Bool} (h : run ds s = some (s', vs)) (n : Nat) :
    s'.defined n = true ↔ s.defined n = true ∨ Decl.define n ∈ ds := by
  induction ds generalizing s vs with
  | nil =>
    simp only [run, Option.some.injEq, Prod.mk.injEq] at h
    rw [← h.1]
    simp
  | cons d ds ih =>
    simp only [run] at h
    cases hs : step s d with
    | none => simp [hs] at h
    | some p =>
      simp only [hs] at h
      cases hr : run ds p.1 with
      | none => simp [hr] at h
      | some q =>
        simp only [hr, Option.some.injEq, Prod.mk.injEq] at h
        obtain ⟨rfl, _⟩ := h
        rw [ih (s := p.1) (vs := q.2) hr]
        cases d with
        | define m =>
          simp only [step, Option.some.injEq] at hs
          rw [← hs]
          simp only [List.mem_cons, Decl.define.injEq]
          by_cases e : n = m
          · simp [e]
          · simp [e]
        | use t =>
          have : p.1.defined = s.defined := by
            simp only [step] at hs
            split at hs
            · cases hs; rfl
            · split at hs
              · cases hs; rfl
              · cases hs
          rw [this]
          simp

/-- Specialisations are instantiated by uses only, and never again. -/
theorem run_memo {ds : List Decl} {s s' : St} {vs : List Bool} (h : run ds s = some (s', vs)) (t : Ty) :
    (∀ b, s.memo t = some b → s'.memo t = some b) ∧ (Decl.use t ∉ ds → s'.memo t = s.memo t) := by
  induction ds generalizing s vs with
  | nil =>
    simp only [run, Option.some.injEq, Prod.mk.injEq] at h
    rw [← h.1]
    exact ⟨fun _ h => h, fun _ => rfl⟩
  | cons d ds ih =>
    simp only [run] at h
    cases hs : step s d with
    | none => simp [hs] at h
    | some p =>
      simp only [hs] at h
      cases hr : run ds p.1 with
      | none => simp [hr] at h
      | some q =>
        simp only [hr, Option.some.injEq, Prod.mk.injEq] at h
        obtain ⟨rfl, _⟩ := h
        obtain ⟨i1, i2⟩ := ih (s := p.1) (vs := q.2) hr
        have hp : (∀ b, s.memo t = some b → p.1.memo t = some b) ∧ (d ≠ .use t → p.1.memo t = s.memo t) := by
          cases d with
          | define m =>
            simp only [step, Option.some.injEq] at hs
            rw [← hs]
            exact ⟨fun _ h => h, fun _ => rfl⟩
          | use u =>
            simp only [step] at hs
            split at hs
            · cases hs
              exact ⟨fun _ h => h, fun _ => rfl⟩
            · rename_i hn
              split at hs
              · cases hs
                refine ⟨fun b hb => ?_, fun hne => ?_⟩
                · have : t ≠ u := by
                    rintro rfl
                    rw [hn] at hb
                    cases hb
                  simp only [this, if_false]
                  exact hb
                · have : t ≠ u := fun e => hne (by rw [e])
                  simp only [this, if_false]
              · cases hs
        refine ⟨fun b hb => i1 b (hp.1 b hb), fun hn => ?_⟩
        simp only [List.mem_cons, not_or] at hn
        rw [i2 hn.2, hp.2 (Ne.symm hn.1)]

/-- What an instantiation gives. -/
theorem helper_iff (ds : List Decl) {defined : Nat → Bool} (hd : ∀ n, defined n = true ↔ Decl.define n ∈ ds) (t : Ty) (ht : ∀ n, t ≠ .reference n) :
    ∃ b, helper defined t = some b ∧ (b = true ↔ IsCompleteAfter ds t) := by
  cases t with
  | cls n => cases h : defined n <;> simp [helper, sizeofValid, IsCompleteAfter, h, ← hd]
  | void => exact ⟨false, rfl, by simp [IsCompleteAfter]⟩
  | unboundedArray n => exact ⟨false, rfl, by simp [IsCompleteAfter]⟩
  | array n => cases h : defined n <;> simp [helper, sizeofValid, IsCompleteAfter, h, ← hd]
  | reference n => exact absurd rfl (ht n)

/-- Translation units without references compile. -/
theorem run_some {ds : List Decl} (h : NoReferences ds) (s : St) : ∃ s' vs, run ds s = some (s', vs) := by
  induction ds generalizing s with
  | nil => exact ⟨s, [], rfl⟩
  | cons d ds ih =>
    have hds : NoReferences ds := fun n hm => h n (List.mem_cons_of_mem _ hm)
    have hst : ∃ p, step s d = some p := by
      cases d with
      | define n => exact ⟨_, rfl⟩
      | use t =>
        simp only [step]
        cases s.memo t with
        | some b => exact ⟨_, rfl⟩
        | none =>
          cases t with
          | reference n => exact absurd List.mem_cons_self (h n)
          | cls n => cases h : s.defined n <;> simp [helper, sizeofValid, h]
          | void => exact ⟨_, rfl⟩
          | unboundedArray n => exact ⟨_, rfl⟩
          | array n => cases h : s.defined n <;> simp [helper, sizeofValid, h]
    obtain ⟨p, hp⟩ := hst
    obtain ⟨s', vs, hr⟩ := ih hds p.1
    exact ⟨s', p.2.toList ++ vs, by simp only [run, hp, hr]⟩

/-- The value of a use is whether the type was complete at its first use: `before` are the declarations before the first use of `t`, `between` those between it and this use. -/
theorem C145_first_use {before between : List Decl} {t : Ty} (hb : NoReferences before) (hb' : NoReferences between) (ht : ∀ n, t ≠ .reference n)
    (hfirst : Decl.use t ∉ before) :
    ∃ s vs b, run (before ++ .use t :: between ++ [.use t]) St.init = some (s, vs ++ [b]) ∧ (b = true ↔ IsCompleteAfter before t) := by
  obtain ⟨s1, v1, h1⟩ := run_some hb St.init
  have hm1 : s1.memo t = none := (run_memo h1 t).2 hfirst
  have hd1 : ∀ n, s1.defined n = true ↔ Decl.define n ∈ before := by
    intro n
    rw [run_defined h1 n]
    simp [St.init]
  obtain ⟨b, hbv, hbi⟩ := helper_iff before hd1 t ht
  have hstep : step s1 (.use t) = some (⟨s1.defined, fun u => if u = t then some b else s1.memo u⟩, some b) := by
    simp only [step, hm1, hbv]
  obtain ⟨s3, v3, h3⟩ := run_some hb' ⟨s1.defined, fun u => if u = t then some b else s1.memo u⟩
  have hm3 : s3.memo t = some b := (run_memo h3 t).1 b (by simp)
  refine ⟨s3, v1 ++ (b :: v3), b, ?_, hbi⟩
  have hcons : run (.use t :: between) s1 = some (s3, b :: v3) := by
    simp only [run, hstep, h3, Option.toList_some, List.singleton_append]
  rw [run_append, run_append, h1, Option.bind_some, hcons, Option.map_some, Option.bind_some]
  simp only [run, step, hm3, Option.toList_some, List.append_nil, Option.map_some]

/-- If a class is not used with `IsComplete` before its definition, every use tells whether the type is complete.  (The property is for every translation unit; see `C145_late_violated`.) -/
theorem C145_isComplete_partial {before : List Decl} {t : Ty} (hb : NoReferences before) (ht : ∀ n, t ≠ .reference n)
    (hfirst : ∀ d1 d2, before = d1 ++ .use t :: d2 → (IsCompleteAfter d1 t ↔ IsCompleteAfter before t)) :
    ∃ s vs b, run (before ++ [.use t]) St.init = some (s, vs ++ [b]) ∧ (b = true ↔ IsCompleteAfter before t) := by
  by_cases hu : Decl.use t ∈ before
  · obtain ⟨d1, d2, rfl, hn⟩ := List.eq_append_cons_of_mem hu
    obtain ⟨s, vs, b, h, hi⟩ := C145_first_use (before := d1) (between := d2)
      (fun n hm => hb n (List.mem_append_left _ hm)) (fun n hm => hb n (List.mem_append_right _ (List.mem_cons_of_mem _ hm))) ht hn
    exact ⟨s, vs, b, h, hi.trans (hfirst d1 d2 rfl)⟩
  · obtain ⟨s1, v1, h1⟩ := run_some hb St.init
    have hm1 : s1.memo t = none := (run_memo h1 t).2 hu
    have hd1 : ∀ n, s1.defined n = true ↔ Decl.define n ∈ before := by
      intro n
      rw [run_defined h1 n]
      simp [St.init]
    obtain ⟨b, hbv, hbi⟩ := helper_iff before hd1 t ht
    refine ⟨⟨s1.defined, fun u => if u = t then some b else s1.memo u⟩, v1, b, ?_, hbi⟩
    rw [run_append, h1, Option.bind_some]
    simp only [run, step, hm1, hbv, Option.toList_some, List.append_nil, Option.map_some]

/-- A class that is used with `IsComplete` before its definition is said to be incomplete ever after. -/
theorem C145_late_violated {before between : List Decl} {n : Nat} (hb : NoReferences before) (hb' : NoReferences between)
    (hfirst : Decl.use (.cls n) ∉ before) (hdef : Decl.define n ∉ before) (hlate : Decl.define n ∈ between) :
    IsCompleteAfter (before ++ .use (.cls n) :: between) (.cls n) ∧
    ∃ s vs, run (before ++ .use (.cls n) :: between ++ [.use (.cls n)]) St.init = some (s, vs ++ [false]) := by
  refine ⟨by simp [IsCompleteAfter, hlate], ?_⟩
  obtain ⟨s, vs, b, h, hi⟩ := C145_first_use hb hb' (t := .cls n) (by intro m h; cases h) hfirst
  cases b with
  | false => exact ⟨s, vs, h⟩
  | true => exact absurd (hi.mp rfl) hdef

/-- References do not compile. -/
theorem C145_reference (n : Nat) (ds : List Decl) (h : NoReferences ds) (es : List Decl) : run (ds ++ .use (.reference n) :: es) St.init = none := by
  obtain ⟨s1, v1, h1⟩ := run_some h St.init
  have hm1 : s1.memo (.reference n) = none := (run_memo h1 _).2 (h n)
  rw [run_append, h1, Option.bind_some]
  simp only [run, step, hm1, helper, Option.map_none]

example : (run [.use (.cls 1), .define 0, .use (.cls 0), .define 1, .use (.cls 1), .use (.array 1)] St.init).map Prod.snd = some [false, true, false, true] := rfl
example : NoReferences [.define 0, .use (.cls 0)] := by intro n h; simp at h

end Verif.TypeTraits.Complete
