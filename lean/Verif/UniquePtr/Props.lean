import Verif.UniquePtr.Model

/-!
# `StaticUniquePointerCast`: exactly one owner, each object destroyed exactly once
-/

namespace Verif.UniquePtr
open Verif.Cpp

set_option linter.unusedSectionVars false

variable {K : Type} [DecidableEq K] {C : Classes K}

/-! ## What a program may do -/

/-- An object of class `k` may be destroyed through a pointer to `t`. -/
def Deletable (C : Classes K) (t k : K) : Prop := k = t ∨ (C.base t k = true ∧ C.virt t = true)

/-- The object `v` holds (if any) is a `t` and may be destroyed as such. -/
def Fits (C : Classes K) (w : World K) (t : K) (p : Option Nat) : Prop :=
  ∀ a k, p = some a → w.objects a = some k → C.base t k = true ∧ Deletable C t k

/-- The operation makes sense: new variables have new names, other variables exist, and casts go to a class of the object. -/
def Op.Ok (C : Classes K) (w : World K) : Op K → Prop
  | .make v _ => w.vars v = none
  | .null v _ => w.vars v = none
  | .cast d t v => w.vars d = none ∧ ∃ u p, w.vars v = some (u, p) ∧ Fits C w t p
  | .castAssign d v => ∃ t q u p, w.vars d = some (t, q) ∧ w.vars v = some (u, p) ∧ Fits C w t p
  | .reset v => ∃ x, w.vars v = some x
  | .leave v => ∃ x, w.vars v = some x

/-- Each operation of the program makes sense when it is reached. -/
def OkAll (C : Classes K) : List (Op K) → World K → Prop
  | [], _ => True
  | o :: os, w => o.Ok C w ∧ ∀ w', o.run C w = .ok w' → OkAll C os w'

/-! ## What holds at all times -/

structure Inv (C : Classes K) (w : World K) : Prop where
  /-- what a variable holds exists, and may be destroyed through it -/
  held : ∀ v t a, w.vars v = some (t, some a) → ∃ k, w.objects a = some k ∧ Deletable C t k
  /-- no two variables hold the same object -/
  one : ∀ v v' t t' a, w.vars v = some (t, some a) → w.vars v' = some (t', some a) → v = v'
  /-- every object is held -/
  owned : ∀ a k, w.objects a = some k → ∃ v t, w.vars v = some (t, some a)
  fresh : ∀ a, w.next ≤ a → w.objects a = none ∧ a ∉ w.destroyed
  /-- an object is destroyed or exists -/
  dead : ∀ a, a < w.next → (a ∈ w.destroyed ↔ w.objects a = none)
  nodup : w.destroyed.Nodup

theorem inv_start : Inv C (World.start : World K) where
  held := by simp [World.start]
  one := by simp [World.start]
  owned := by simp [World.start]
  fresh := by simp [World.start]
  dead := by simp [World.start]
  nodup := by simp [World.start]

theorem update_eq {β : Type} (f : Nat → β) (i j : Nat) (x : β) : update f i x j = if j = i then x else f j := rfl

/-- Taking the pointer out of one variable and storing it in another. -/
theorem safeCast_ok {t u : K} {p : Option Nat} {w : World K} (h : ∀ a, p = some a → ∃ k, w.objects a = some k)
    (hf : Fits C w t p) : safeCast C t u p w = .ok p := by
  have h1 : SafeCast.safeCastPtr C.base C.virt t u (p.bind w.objects) = .ok (p.bind w.objects) := by
    simp [SafeCast.safeCastPtr, SafeCast.isBaseOf]
  unfold safeCast
  rw [h1, ok_bind]
  cases p with
  | none => rfl
  | some a =>
    obtain ⟨k, hk⟩ := h a rfl
    simp [staticCast, hk, (hf a k rfl hk).1]

theorem cast_ok {t u : K} {p : Option Nat} {v : Nat} {w : World K} (hw : Inv C w) (hv : w.vars v = some (u, p)) (hf : Fits C w t p) :
    staticUniquePointerCast C t v w = .ok (w.setVar v (some (u, none)), p) := by
  have h : safeCast C t u p (w.setVar v (some (u, none))) = .ok p := by
    refine safeCast_ok ?_ hf
    rintro a rfl
    obtain ⟨k, hk, -⟩ := hw.held v u a hv
    exact ⟨k, hk⟩
  unfold staticUniquePointerCast release World.var
  rw [hv]
  simp only [ok_bind, pure_ok, h]

/-- The state in which the variable `v` does not hold its object any more, and the object is not yet destroyed. -/
structure Loose (C : Classes K) (w : World K) (p : Option Nat) (t : K) : Prop where
  held : ∀ v t a, w.vars v = some (t, some a) → ∃ k, w.objects a = some k ∧ Deletable C t k
  one : ∀ v v' t t' a, w.vars v = some (t, some a) → w.vars v' = some (t', some a) → v = v'
  owned : ∀ a k, w.objects a = some k → p = some a ∨ ∃ v t, w.vars v = some (t, some a)
  fresh : ∀ a, w.next ≤ a → w.objects a = none ∧ a ∉ w.destroyed
  dead : ∀ a, a < w.next → (a ∈ w.destroyed ↔ w.objects a = none)
  nodup : w.destroyed.Nodup
  /-- the loose object exists, may be destroyed, and nobody else holds it -/
  loose : ∀ a, p = some a → (∃ k, w.objects a = some k ∧ Deletable C t k) ∧ ∀ v t, w.vars v ≠ some (t, some a)

theorem delete_ok {t : K} {p : Option Nat} {w : World K} (h : Loose C w p t) :
    ∃ w', deletePtr C t p w = .ok w' ∧ Inv C w' ∧ w'.vars = w.vars ∧ w'.next = w.next ∧
      w'.destroyed = w.destroyed ++ p.toList ∧ (∀ a, w'.objects a = if p = some a then none else w.objects a) := by
  cases p with
  | none =>
    refine ⟨w, rfl, ⟨h.held, h.one, ?_, h.fresh, h.dead, h.nodup⟩, rfl, rfl, by simp, by simp⟩
    intro a k hk
    rcases h.owned a k hk with h | h
    · cases h
    · exact h
  | some a =>
    obtain ⟨⟨k, hk, hd⟩, hno⟩ := h.loose a rfl
    have hlt : a < w.next := by
      rcases Nat.lt_or_ge a w.next with h' | h'
      · exact h'
      · rw [(h.fresh a h').1] at hk; cases hk
    have hnd : a ∉ w.destroyed := fun h' => by rw [(h.dead a hlt).1 h'] at hk; cases hk
    refine ⟨⟨update w.objects a none, w.next, w.vars, w.destroyed ++ [a]⟩, ?_, ⟨?_, h.one, ?_, ?_, ?_, ?_⟩, rfl, rfl, rfl, ?_⟩
    · have : (decide (k = t) || (C.base t k && C.virt t)) = true := by
        rcases hd with h | ⟨h1, h2⟩
        · simp [h]
        · simp [h1, h2]
      simp only [deletePtr, hk, this, if_true]
    · intro v t' b hv
      obtain ⟨k', hk', hd'⟩ := h.held v t' b hv
      have hb : b ≠ a := by rintro rfl; exact hno v t' hv
      exact ⟨k', by simpa [update_eq, hb] using hk', hd'⟩
    · intro b k' hb
      simp only [update_eq] at hb
      split at hb
      · cases hb
      · rcases h.owned b k' hb with h' | h'
        · cases h'; contradiction
        · exact h'
    · intro b hb
      obtain ⟨h1, h2⟩ := h.fresh b hb
      dsimp only at hb
      have hne : b ≠ a := by omega
      simp [update_eq, hne, h1, h2]
    · intro b hb
      simp only [update_eq, List.mem_append, List.mem_singleton]
      by_cases hba : b = a
      · simp [hba]
      · simp [hba, h.dead b hb]
    · rw [List.nodup_append]
      refine ⟨h.nodup, by simp, ?_⟩
      intro x hx y hy hxy
      simp only [List.mem_singleton] at hy
      exact hnd (hy ▸ hxy ▸ hx)
    · intro b
      simp only [update_eq, Option.some.injEq]
      by_cases hba : b = a
      · simp [hba]
      · simp [hba, Ne.symm (a := b) (b := a) hba]

/-- The object of the variable `v` becomes loose when `v` gets another pointer `q` that nobody holds, or leaves. -/
theorem loose_of_inv {w : World K} (hw : Inv C w) {v : Nat} {t : K} {p : Option Nat} (hv : w.vars v = some (t, p))
    (x : Option (K × Option Nat)) (hx : ∀ t' a, x ≠ some (t', some a)) :
    Loose C (w.setVar v x) p t where
  held := by
    intro v' t' a h
    simp only [World.setVar, update_eq] at h
    split at h
    · exact absurd h (hx t' a)
    · exact hw.held v' t' a h
  one := by
    intro v1 v2 t1 t2 a h1 h2
    simp only [World.setVar, update_eq] at h1 h2
    split at h1
    · exact absurd h1 (hx _ _)
    · split at h2
      · exact absurd h2 (hx _ _)
      · exact hw.one v1 v2 t1 t2 a h1 h2
  owned := by
    intro a k h
    obtain ⟨v', t', h'⟩ := hw.owned a k h
    by_cases e : v' = v
    · subst e
      rw [hv] at h'
      simp only [Option.some.injEq, Prod.mk.injEq] at h'
      exact .inl h'.2
    · exact .inr ⟨v', t', by simpa [World.setVar, update_eq, e] using h'⟩
  fresh := hw.fresh
  dead := hw.dead
  nodup := hw.nodup
  loose := by
    rintro a rfl
    refine ⟨hw.held v t a hv, fun v' t' h => ?_⟩
    simp only [World.setVar, update_eq] at h
    split at h
    · exact hx _ _ h
    · exact ‹¬ v' = v› (hw.one v' v t' t a h hv)

/-- After the cast the new variable holds the object. -/
theorem inv_give {w : World K} (hw : Inv C w) {v d : Nat} {t u : K} {p : Option Nat} (hv : w.vars v = some (u, p)) (hf : Fits C w t p)
    (hd : ∀ t' a, (w.setVar v (some (u, none))).vars d ≠ some (t', some a)) :
    Inv C ((w.setVar v (some (u, none))).setVar d (some (t, p))) where
  held := by
    intro v' t' a h
    simp only [World.setVar, update_eq] at h
    split at h
    · simp only [Option.some.injEq, Prod.mk.injEq] at h
      obtain ⟨rfl, rfl⟩ := h
      obtain ⟨k, hk, -⟩ := hw.held v u a hv
      exact ⟨k, hk, (hf a k rfl hk).2⟩
    · split at h
      · simp at h
      · exact hw.held v' t' a h
  one := by
    have key : ∀ v1 t1 a, v1 ≠ d → (w.setVar v (some (u, none))).vars v1 = some (t1, some a) → p ≠ some a := by
      rintro v1 t1 a hne h rfl
      simp only [World.setVar, update_eq] at h
      split at h
      · simp at h
      · exact ‹¬ v1 = v› (hw.one v1 v t1 u a h hv)
    intro v1 v2 t1 t2 a h1 h2
    have e1 : ∀ v', ((w.setVar v (some (u, none))).setVar d (some (t, p))).vars v' =
        if v' = d then some (t, p) else (w.setVar v (some (u, none))).vars v' := fun _ => rfl
    rw [e1] at h1 h2
    split at h1
    · split at h2
      · omega
      · simp only [Option.some.injEq, Prod.mk.injEq] at h1
        exact absurd h1.2 (key v2 t2 a ‹_› h2)
    · split at h2
      · simp only [Option.some.injEq, Prod.mk.injEq] at h2
        exact absurd h2.2 (key v1 t1 a ‹_› h1)
      · simp only [World.setVar, update_eq] at h1 h2
        split at h1
        · simp at h1
        · split at h2
          · simp at h2
          · exact hw.one v1 v2 t1 t2 a h1 h2
  owned := by
    intro a k h
    obtain ⟨v', t', h'⟩ := hw.owned a k h
    by_cases e : v' = v
    · subst e
      rw [hv] at h'
      simp only [Option.some.injEq, Prod.mk.injEq] at h'
      exact ⟨d, t, by simp [World.setVar, update_eq, h'.2]⟩
    · have h2 : (w.setVar v (some (u, none))).vars v' = some (t', some a) := by simpa [World.setVar, update_eq, e] using h'
      have : v' ≠ d := by rintro rfl; exact hd _ _ h2
      exact ⟨v', t', by simpa [World.setVar, update_eq, this, e] using h'⟩
  fresh := hw.fresh
  dead := hw.dead
  nodup := hw.nodup

/-! ## C91 -/

/-- The cast moves the object: afterwards `v` is null, the result holds the object, and no object was created or destroyed. -/
theorem C91_transfer {w : World K} (hw : Inv C w) {d v : Nat} {t : K} (h : (Op.cast d t v).Ok C w) :
    ∃ u p w', w.vars v = some (u, p) ∧ (Op.cast d t v).run C w = .ok w' ∧ Inv C w' ∧ w'.vars d = some (t, p) ∧
      w'.vars v = some (u, none) ∧ (∀ v', v' ≠ d → v' ≠ v → w'.vars v' = w.vars v') ∧ w'.objects = w.objects ∧
      w'.destroyed = w.destroyed ∧ w'.next = w.next := by
  obtain ⟨hd, u, p, hv, hf⟩ := h
  have hdv : d ≠ v := by rintro rfl; rw [hv] at hd; cases hd
  refine ⟨u, p, _, hv, ?_, inv_give hw hv hf (d := d) ?_, ?_, ?_, ?_, rfl, rfl, rfl⟩
  · simp only [Op.run, cast_ok hw hv hf, ok_bind, pure_ok]
  · intro t' a h
    simp [World.setVar, update_eq, hdv, hd] at h
  · simp [World.setVar, update_eq]
  · simp [World.setVar, update_eq, Ne.symm hdv]
  · intro v' h1 h2
    simp [World.setVar, update_eq, h1, h2]

/-- Assigning the result of the cast to a variable destroys what that variable held, and nothing else, unless it is the source itself. -/
theorem C91_assign {w : World K} (hw : Inv C w) {d v : Nat} (h : (Op.castAssign d v).Ok C w) :
    ∃ t q u p w', w.vars d = some (t, q) ∧ w.vars v = some (u, p) ∧ (Op.castAssign d v).run C w = .ok w' ∧ Inv C w' ∧
      w'.vars d = some (t, p) ∧ (v ≠ d → w'.vars v = some (u, none)) ∧
      w'.destroyed = w.destroyed ++ (if v = d then [] else q.toList) := by
  obtain ⟨t, q, u, p, hd, hv, hf⟩ := h
  -- the state after `release`
  by_cases hvd : v = d
  · subst hvd
    rw [hv] at hd
    simp only [Option.some.injEq, Prod.mk.injEq] at hd
    obtain ⟨rfl, rfl⟩ := hd
    have hg := inv_give hw hv hf (d := v) (by intro t' a h; simp [World.setVar, update_eq] at h)
    refine ⟨u, p, u, p, _, hv, hv, ?_, hg, ?_, fun h => absurd rfl h, by simp [World.setVar]⟩
    · have hr : resetTo C v p (w.setVar v (some (u, none))) = .ok ((w.setVar v (some (u, none))).setVar v (some (u, p))) := by
        simp [resetTo, World.var, World.setVar, update_eq, deletePtr]
      simp only [Op.run, World.var, hv, ok_bind, cast_ok hw hv hf, hr]
    · simp [World.setVar, update_eq]
  · -- first the object of `d` is loose in a state where `v`'s pointer went to `d`
    have hdv : d ≠ v := fun e => hvd e.symm
    have l1 := loose_of_inv hw hd (some (t, none)) (by simp)
    have hL : Loose C ((w.setVar v (some (u, none))).setVar d (some (t, p))) q t := by
      have e1 : ∀ v', ((w.setVar v (some (u, none))).setVar d (some (t, p))).vars v' =
          if v' = d then some (t, p) else if v' = v then some (u, none) else w.vars v' := fun _ => rfl
      refine ⟨?_, ?_, ?_, hw.fresh, hw.dead, hw.nodup, ?_⟩
      · intro v' t' a h
        rw [e1] at h
        split at h
        · simp only [Option.some.injEq, Prod.mk.injEq] at h
          obtain ⟨rfl, rfl⟩ := h
          obtain ⟨k, hk, -⟩ := hw.held v u a hv
          exact ⟨k, hk, (hf a k rfl hk).2⟩
        · split at h
          · simp at h
          · exact hw.held v' t' a h
      · intro v1 v2 t1 t2 a h1 h2
        rw [e1] at h1 h2
        have key : ∀ v1 t1, ¬ v1 = v → w.vars v1 = some (t1, some a) → p ≠ some a := by
          rintro v1 t1 hne h rfl
          exact hne (hw.one v1 v t1 u a h hv)
        split at h1
        · split at h2
          · omega
          · split at h2
            · simp at h2
            · simp only [Option.some.injEq, Prod.mk.injEq] at h1
              exact absurd h1.2 (key v2 t2 ‹_› h2)
        · split at h1
          · simp at h1
          · split at h2
            · simp only [Option.some.injEq, Prod.mk.injEq] at h2
              exact absurd h2.2 (key v1 t1 ‹_› h1)
            · split at h2
              · simp at h2
              · exact hw.one v1 v2 t1 t2 a h1 h2
      · intro a k h
        obtain ⟨v', t', h'⟩ := hw.owned a k h
        by_cases ed : v' = d
        · subst ed
          rw [hd] at h'
          simp only [Option.some.injEq, Prod.mk.injEq] at h'
          exact .inl h'.2
        · by_cases e : v' = v
          · subst e
            rw [hv] at h'
            simp only [Option.some.injEq, Prod.mk.injEq] at h'
            exact .inr ⟨d, t, by rw [e1]; simp [h'.2]⟩
          · exact .inr ⟨v', t', by rw [e1]; simpa [ed, e] using h'⟩
      · rintro a rfl
        refine ⟨hw.held d t a hd, fun v' t' h => ?_⟩
        rw [e1] at h
        split at h
        · simp only [Option.some.injEq, Prod.mk.injEq] at h
          obtain ⟨-, rfl⟩ := h
          exact hdv (hw.one d v t u a hd hv)
        · split at h
          · simp at h
          · exact ‹¬ v' = d› (hw.one v' d t' t a h hd)
    obtain ⟨w', h1, h2, h3, h4, h5, h6⟩ := delete_ok hL
    refine ⟨t, q, u, p, w', hd, hv, ?_, h2, ?_, fun _ => ?_, ?_⟩
    · have hr : resetTo C d p (w.setVar v (some (u, none))) = .ok w' := by
        have : (w.setVar v (some (u, none))).var d = .ok (t, q) := by
          simp [World.var, World.setVar, update_eq, hdv, hd]
        simp only [resetTo, this, ok_bind, h1]
      simp only [Op.run, World.var, hd, ok_bind, cast_ok hw hv hf, hr]
    · rw [h3]; simp [World.setVar, update_eq]
    · rw [h3]; simp [World.setVar, update_eq, hvd]
    · rw [h5]; simp [World.setVar, hvd]

/-- Every operation that makes sense is defined, and keeps that every object has exactly one owner. -/
theorem step_ok {w : World K} (hw : Inv C w) (o : Op K) (h : o.Ok C w) : ∃ w', o.run C w = .ok w' ∧ Inv C w' := by
  cases o with
  | make v c =>
    have hv : w.vars v = none := h
    refine ⟨_, rfl, ?_⟩
    have hn : ∀ v' t a, w.vars v' = some (t, some a) → a ≠ w.next := by
      rintro v' t a h' rfl
      obtain ⟨k, hk, -⟩ := hw.held v' t _ h'
      rw [(hw.fresh w.next (Nat.le_refl _)).1] at hk; cases hk
    refine ⟨?_, ?_, ?_, ?_, ?_, hw.nodup⟩
    · intro v' t a h'
      simp only [update_eq] at h' ⊢
      split at h'
      · simp only [Option.some.injEq, Prod.mk.injEq] at h'
        obtain ⟨rfl, rfl⟩ := h'
        exact ⟨c, by simp, .inl rfl⟩
      · simpa [hn v' t a h'] using hw.held v' t a h'
    · intro v1 v2 t1 t2 a h1 h2
      simp only [update_eq] at h1 h2
      split at h1 <;> split at h2
      · omega
      · simp only [Option.some.injEq, Prod.mk.injEq] at h1
        exact absurd h1.2.symm (hn v2 t2 a h2)
      · simp only [Option.some.injEq, Prod.mk.injEq] at h2
        exact absurd h2.2.symm (hn v1 t1 a h1)
      · exact hw.one v1 v2 t1 t2 a h1 h2
    · intro a k h'
      simp only [update_eq] at h' ⊢
      split at h'
      · exact ⟨v, c, by simp [‹a = w.next›]⟩
      · obtain ⟨v', t', h''⟩ := hw.owned a k h'
        have : v' ≠ v := by rintro rfl; rw [hv] at h''; cases h''
        exact ⟨v', t', by simpa [this] using h''⟩
    · intro a ha
      dsimp only at ha
      have := hw.fresh a (by omega)
      have hne : a ≠ w.next := by omega
      simpa [update_eq, hne] using this
    · intro a ha
      dsimp only at ha
      by_cases hne : a = w.next
      · subst hne
        simp [update_eq, (hw.fresh w.next (Nat.le_refl _)).2]
      · simpa [update_eq, hne] using hw.dead a (by omega)
  | null v c =>
    have hv : w.vars v = none := h
    refine ⟨_, rfl, ?_⟩
    refine ⟨?_, ?_, ?_, hw.fresh, hw.dead, hw.nodup⟩
    · intro v' t a h'
      simp only [World.setVar, update_eq] at h'
      split at h'
      · simp at h'
      · exact hw.held v' t a h'
    · intro v1 v2 t1 t2 a h1 h2
      simp only [World.setVar, update_eq] at h1 h2
      split at h1
      · simp at h1
      · split at h2
        · simp at h2
        · exact hw.one v1 v2 t1 t2 a h1 h2
    · intro a k h'
      obtain ⟨v', t', h''⟩ := hw.owned a k h'
      have : v' ≠ v := by rintro rfl; rw [hv] at h''; cases h''
      exact ⟨v', t', by simpa [World.setVar, update_eq, this] using h''⟩
  | cast d t v => obtain ⟨_, _, w', _, h1, h2, _⟩ := C91_transfer hw h; exact ⟨w', h1, h2⟩
  | castAssign d v => obtain ⟨_, _, _, _, w', _, _, h1, h2, _⟩ := C91_assign hw h; exact ⟨w', h1, h2⟩
  | reset v =>
    obtain ⟨⟨t, p⟩, hv⟩ := h
    obtain ⟨w', h1, h2, -⟩ := delete_ok (loose_of_inv hw hv (some (t, none)) (by simp))
    refine ⟨w', ?_, h2⟩
    simp only [Op.run, resetTo, World.var, hv, ok_bind, h1]
  | leave v =>
    obtain ⟨⟨t, p⟩, hv⟩ := h
    obtain ⟨w', h1, h2, -⟩ := delete_ok (loose_of_inv hw hv none (by simp))
    refine ⟨w', ?_, h2⟩
    simp only [Op.run, World.var, hv, ok_bind, h1]

theorem run_ok (os : List (Op K)) : ∀ {w : World K}, Inv C w → OkAll C os w → ∃ w', run C os w = .ok w' ∧ Inv C w' := by
  induction os with
  | nil => exact fun hw _ => ⟨_, rfl, hw⟩
  | cons o os ih =>
    rintro w hw ⟨h1, h2⟩
    obtain ⟨w1, hr, hw1⟩ := step_ok hw o h1
    obtain ⟨w2, hr2, hw2⟩ := ih hw1 (h2 w1 hr)
    exact ⟨w2, by simp only [run, hr, ok_bind, hr2], hw2⟩

/-- Every program over any number of pointers, with casts to classes of the objects through which they may be destroyed: nothing undefined
happens; at its end each object that was created either exists, with exactly one variable that holds it, or was destroyed exactly once;
when all variables are gone, all objects were destroyed exactly once.  (Missing from the full statement: casts to classes the objects are
not of, which are not reported, and to bases without virtual destructor: `C91_wrong_class_violated`, `C91_nonvirtual_violated`.) -/
theorem C91_history_partial (os : List (Op K)) (h : OkAll C os World.start) :
    ∃ w, run C os World.start = .ok w ∧
      (∀ a, a < w.next →
        ((∃ k, w.objects a = some k) ∧ a ∉ w.destroyed ∧ ∃ v t, w.vars v = some (t, some a) ∧
          ∀ v' t', w.vars v' = some (t', some a) → v' = v) ∨
        (w.objects a = none ∧ w.destroyed.count a = 1 ∧ ∀ v t, w.vars v ≠ some (t, some a))) ∧
      ((∀ v, w.vars v = none) → ∀ a, a < w.next → w.destroyed.count a = 1) := by
  obtain ⟨w, hr, hw⟩ := run_ok os inv_start h
  have key : ∀ a, a < w.next → ((∃ k, w.objects a = some k) ∧ a ∉ w.destroyed ∧ ∃ v t, w.vars v = some (t, some a) ∧
          ∀ v' t', w.vars v' = some (t', some a) → v' = v) ∨
        (w.objects a = none ∧ w.destroyed.count a = 1 ∧ ∀ v t, w.vars v ≠ some (t, some a)) := by
    intro a ha
    cases ho : w.objects a with
    | some k =>
      left
      obtain ⟨v, t, hv⟩ := hw.owned a k ho
      refine ⟨⟨k, rfl⟩, ?_, v, t, hv, fun v' t' h' => hw.one v' v t' t a h' hv⟩
      intro hm
      rw [(hw.dead a ha).1 hm] at ho; cases ho
    | none =>
      right
      refine ⟨rfl, ?_, fun v t hv => ?_⟩
      · rw [List.Nodup.count hw.nodup, if_pos ((hw.dead a ha).2 ho)]
      · obtain ⟨k, hk, -⟩ := hw.held v t a hv
        rw [ho] at hk; cases hk
  refine ⟨w, hr, key, fun hnone a ha => ?_⟩
  rcases key a ha with ⟨_, _, v, t, hv, _⟩ | ⟨_, h, _⟩
  · rw [hnone v] at hv; cases hv
  · exact h

/-- A cast to a class the object is not of is undefined, not reported, in every hierarchy. -/
theorem C91_wrong_class_violated {w : World K} {v d : Nat} {u t k : K} {a : Nat} (hv : w.vars v = some (u, some a))
    (hk : w.objects a = some k) (hn : C.base t k = false) : (Op.cast d t v).run C w = .error .ub := by
  have h1 : SafeCast.safeCastPtr C.base C.virt t u (some k) = .ok (some k) := by
    simp [SafeCast.safeCastPtr, SafeCast.isBaseOf]
  simp [Op.run, staticUniquePointerCast, release, World.var, hv, safeCast, World.setVar, h1, staticCast, hk, hn]

/-- A cast to a base without virtual destructor is accepted; the destruction of the result is undefined. -/
theorem C91_nonvirtual_violated {w : World K} {v d : Nat} {u t k : K} {a : Nat} (hv : w.vars v = some (u, some a))
    (hk : w.objects a = some k) (hb : C.base t k = true) (hne : k ≠ t) (hvirt : C.virt t = false) :
    ∃ w', (Op.cast d t v).run C w = .ok w' ∧ (Op.leave d).run C w' = .error .ub := by
  have h1 : SafeCast.safeCastPtr C.base C.virt t u (some k) = .ok (some k) := by
    simp [SafeCast.safeCastPtr, SafeCast.isBaseOf]
  refine ⟨(w.setVar v (some (u, none))).setVar d (some (t, some a)), ?_, ?_⟩
  · simp [Op.run, staticUniquePointerCast, release, World.var, hv, safeCast, World.setVar, h1, staticCast, hk, hb]
  · simp [Op.run, World.var, World.setVar, update_eq, deletePtr, hk, hne, hvirt]

/-! ## The hypotheses are met -/

/-- Class 0 with a virtual destructor, class 1 derived from it. -/
def sample : Classes Nat := ⟨fun a b => decide (a = b) || decide (a = 0), fun _ => true⟩

/-- Make an object of class 1, cast to the base and back, assign over another object, leave. -/
def program : List (Op Nat) := [.make 0 1, .cast 1 0 0, .cast 2 1 1, .make 3 1, .castAssign 3 2, .leave 3, .leave 2, .leave 1, .leave 0]

example : OkAll sample program World.start := by
  refine ⟨rfl, ?_⟩
  rintro _ ⟨⟩
  refine ⟨⟨rfl, 1, some 0, rfl, ?_⟩, ?_⟩
  · rintro a k ⟨⟩ hk; cases hk; exact ⟨rfl, .inr ⟨rfl, rfl⟩⟩
  rintro _ ⟨⟩
  refine ⟨⟨rfl, 0, some 0, rfl, ?_⟩, ?_⟩
  · rintro a k ⟨⟩ hk; cases hk; exact ⟨rfl, .inl rfl⟩
  rintro _ ⟨⟩
  refine ⟨rfl, ?_⟩
  rintro _ ⟨⟩
  refine ⟨⟨1, some 1, 1, some 0, rfl, rfl, ?_⟩, ?_⟩
  · rintro a k ⟨⟩ hk; cases hk; exact ⟨rfl, .inl rfl⟩
  rintro _ ⟨⟩
  refine ⟨⟨_, rfl⟩, ?_⟩
  rintro _ ⟨⟩
  refine ⟨⟨_, rfl⟩, ?_⟩
  rintro _ ⟨⟩
  refine ⟨⟨_, rfl⟩, ?_⟩
  rintro _ ⟨⟩
  refine ⟨⟨_, rfl⟩, ?_⟩
  rintro _ ⟨⟩
  trivial

example : (run sample program World.start).map World.destroyed = .ok [1, 0] := by decide +kernel

end Verif.UniquePtr
