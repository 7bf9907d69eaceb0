import Verif.PrivateImpl.Spec

namespace Verif.PrivateImpl

open Verif.Cpp

variable {T : Type}

/-- The heap and the variables represent the values `σ`, without leak and without sharing. -/
structure Rel (s : St T) (σ : Spec T) : Prop where
  values : ∀ i, σ i = (s.vars i).map (fun p => if p = 0 then none else s.cells p)
  held : ∀ i p, s.vars i = some p → p ≠ 0 → ∃ v, s.cells p = some v
  once : ∀ i j p, s.vars i = some p → s.vars j = some p → p ≠ 0 → i = j
  noLeak : ∀ a v, s.cells a = some v → ∃ i, s.vars i = some a
  fresh : ∀ a v, s.cells a = some v → a < s.next
  null : s.cells 0 = none
  next : 0 < s.next

theorem rel_init : Rel (Heap.init : St T) (fun _ => none) :=
  ⟨fun _ => rfl, fun _ _ h => by simp [Heap.init] at h, fun _ _ _ h => by simp [Heap.init] at h, fun _ _ h => by simp [Heap.init] at h,
   fun _ _ h => by simp [Heap.init] at h, rfl, by simp [Heap.init]⟩

namespace Rel
variable {s : St T} {σ : Spec T}

theorem none_iff (h : Rel s σ) (i : Nat) : σ i = none ↔ s.vars i = none := by rw [h.values]; simp

theorem some_none (h : Rel s σ) {i : Nat} (hi : σ i = some none) : s.vars i = some 0 := by
  rw [h.values] at hi
  cases hp : s.vars i with
  | none => simp [hp] at hi
  | some p =>
    simp only [hp, Option.map_some, Option.some.injEq] at hi
    by_cases h0 : p = 0
    · rw [h0]
    · obtain ⟨v, hv⟩ := h.held i p hp h0
      rw [if_neg h0, hv] at hi; simp at hi

theorem some_some (h : Rel s σ) {i : Nat} {v : T} (hi : σ i = some (some v)) : ∃ p, p ≠ 0 ∧ s.vars i = some p ∧ s.cells p = some v := by
  rw [h.values] at hi
  cases hp : s.vars i with
  | none => simp [hp] at hi
  | some p =>
    simp only [hp, Option.map_some, Option.some.injEq] at hi
    by_cases h0 : p = 0
    · rw [if_pos h0] at hi; simp at hi
    · rw [if_neg h0] at hi; exact ⟨p, h0, rfl, hi⟩

/-- A variable without object gets a new one. -/
theorem alloc (h : Rel s σ) (i : Nat) (hi : s.vars i = none ∨ s.vars i = some 0) (v : T) :
    Rel { cells := fun a => if a = s.next then some v else s.cells a, next := s.next + 1,
          vars := fun k => if k = i then some s.next else s.vars k } (σ.set i (some (some v))) := by
  have hn : ∀ k p, s.vars k = some p → p ≠ 0 → p ≠ s.next := by
    intro k p hk hp
    obtain ⟨w, hw⟩ := h.held k p hk hp
    have := h.fresh p w hw; omega
  have hnext := h.next
  constructor
  · intro k
    by_cases hk : k = i
    · simp [Spec.set, hk]; omega
    · simp only [Spec.set, hk, if_false]
      rw [h.values k]
      cases hp : s.vars k with
      | none => rfl
      | some p =>
        by_cases h0 : p = 0
        · simp [h0]
        · simp [h0, hn k p hp h0]
  · intro k p hk hp
    by_cases hki : k = i
    · simp only [hki, if_true, Option.some.injEq] at hk
      exact ⟨v, by simp [hk]⟩
    · simp only [hki, if_false] at hk
      obtain ⟨w, hw⟩ := h.held k p hk hp
      exact ⟨w, by simp [hn k p hk hp, hw]⟩
  · intro k j p hk hj hp
    by_cases hki : k = i <;> by_cases hji : j = i
    · rw [hki, hji]
    · simp only [hki, if_true, Option.some.injEq] at hk
      simp only [hji, if_false] at hj
      exact absurd hk.symm (hn j p hj hp)
    · simp only [hji, if_true, Option.some.injEq] at hj
      simp only [hki, if_false] at hk
      exact absurd hj.symm (hn k p hk hp)
    · simp only [hki, hji, if_false] at hk hj
      exact h.once k j p hk hj hp
  · intro a w ha
    by_cases han : a = s.next
    · exact ⟨i, by simp [han]⟩
    · simp only [han, if_false] at ha
      obtain ⟨k, hk⟩ := h.noLeak a w ha
      have ha0 : a ≠ 0 := by rintro rfl; rw [h.null] at ha; simp at ha
      have hki : k ≠ i := by
        rintro rfl
        rcases hi with hi | hi <;> rw [hi] at hk <;> simp at hk
        exact ha0 hk.symm
      exact ⟨k, by simp [hki, hk]⟩
  · intro a w ha
    by_cases han : a = s.next
    · simp [han]
    · simp only [han, if_false] at ha
      have := h.fresh a w ha
      exact Nat.lt_succ_of_lt this
  · simp only
    rw [if_neg (by omega), h.null]
  · exact Nat.succ_pos _

/-- The object of variable `i` ends; the variable becomes empty or ends, too. -/
theorem drop (h : Rel s σ) (i p : Nat) (hi : s.vars i = some p) (o : Option Nat) (ho : o = none ∨ o = some 0) :
    Rel { cells := fun a => if a = p then none else s.cells a, next := s.next, vars := fun k => if k = i then o else s.vars k }
      (σ.set i (o.map fun _ => none)) := by
  have ne : ∀ k q, k ≠ i → s.vars k = some q → q ≠ 0 → q ≠ p := by
    intro k q hk hq hq0 e
    subst e
    exact hk (h.once k i q hq hi hq0)
  constructor
  · intro k
    by_cases hk : k = i
    · rcases ho with rfl | rfl <;> simp [Spec.set, hk]
    · simp only [Spec.set, hk, if_false]
      rw [h.values k]
      cases hq : s.vars k with
      | none => rfl
      | some q =>
        by_cases h0 : q = 0
        · simp [h0]
        · simp [h0, ne k q hk hq h0]
  · intro k q hk hq
    by_cases hki : k = i
    · simp only [hki, if_true] at hk
      rcases ho with rfl | rfl <;> simp at hk
      exact absurd hk.symm hq
    · simp only [hki, if_false] at hk
      obtain ⟨w, hw⟩ := h.held k q hk hq
      exact ⟨w, by simp [ne k q hki hk hq, hw]⟩
  · intro k j q hk hj hq
    by_cases hki : k = i
    · simp only [hki, if_true] at hk
      rcases ho with rfl | rfl <;> simp at hk
      exact absurd hk.symm hq
    · by_cases hji : j = i
      · simp only [hji, if_true] at hj
        rcases ho with rfl | rfl <;> simp at hj
        exact absurd hj.symm hq
      · simp only [hki, hji, if_false] at hk hj
        exact h.once k j q hk hj hq
  · intro a w ha
    by_cases hap : a = p
    · simp [hap] at ha
    · simp only [hap, if_false] at ha
      obtain ⟨k, hk⟩ := h.noLeak a w ha
      have hki : k ≠ i := by rintro rfl; rw [hi] at hk; exact hap (Option.some.inj hk).symm
      exact ⟨k, by simp [hki, hk]⟩
  · intro a w ha
    by_cases hap : a = p
    · simp [hap] at ha
    · simp only [hap, if_false] at ha; exact h.fresh a w ha
  · simp only; split
    · rfl
    · exact h.null
  · exact h.next

/-- A new empty variable. -/
theorem newEmpty (h : Rel s σ) (i : Nat) (hi : s.vars i = none) :
    Rel { s with vars := fun k => if k = i then some 0 else s.vars k } (σ.set i (some none)) := by
  constructor
  · intro k
    by_cases hk : k = i
    · simp [Spec.set, hk]
    · simp only [Spec.set, hk, if_false]; exact h.values k
  · intro k q hk hq
    by_cases hki : k = i
    · simp only [hki, if_true, Option.some.injEq] at hk; exact absurd hk.symm hq
    · simp only [hki, if_false] at hk; exact h.held k q hk hq
  · intro k j q hk hj hq
    by_cases hki : k = i
    · simp only [hki, if_true, Option.some.injEq] at hk; exact absurd hk.symm hq
    · by_cases hji : j = i
      · simp only [hji, if_true, Option.some.injEq] at hj; exact absurd hj.symm hq
      · simp only [hki, hji, if_false] at hk hj; exact h.once k j q hk hj hq
  · intro a w ha
    obtain ⟨k, hk⟩ := h.noLeak a w ha
    have hki : k ≠ i := by rintro rfl; rw [hi] at hk; simp at hk
    exact ⟨k, by simp [hki, hk]⟩
  · exact h.fresh
  · exact h.null
  · exact h.next

/-- Pointers of two variables change places (`i` may be new, then `j` becomes empty). -/
theorem exchange (h : Rel s σ) (i j p q : Nat) (hi : s.vars i = some p ∨ (s.vars i = none ∧ p = 0)) (hj : s.vars j = some q) (hij : i ≠ j) :
    Rel { s with vars := fun k => if k = i then some q else if k = j then some p else s.vars k }
      ((σ.set j (some (if p = 0 then none else s.cells p))).set i (some (if q = 0 then none else s.cells q))) := by
  have hji : j ≠ i := Ne.symm hij
  constructor
  · intro k
    by_cases hki : k = i
    · simp [Spec.set, hki]
    · by_cases hkj : k = j
      · simp [Spec.set, hkj, hji]
      · simp only [Spec.set, hki, hkj, if_false]; exact h.values k
  · intro k r hk hr
    by_cases hki : k = i
    · simp only [hki, if_true, Option.some.injEq] at hk; subst hk; exact h.held j q hj hr
    · by_cases hkj : k = j
      · simp only [hkj, hji, if_false, if_true, Option.some.injEq] at hk; subst hk
        rcases hi with hi | ⟨_, h0⟩
        · exact h.held i p hi hr
        · exact absurd h0 hr
      · simp only [hki, hkj, if_false] at hk; exact h.held k r hk hr
  · -- where the owner was before
    have back : ∀ k r, (if k = i then some q else if k = j then some p else s.vars k) = some r → r ≠ 0 →
        s.vars (if k = i then j else if k = j then i else k) = some r := by
      intro k r hk hr
      by_cases hki : k = i
      · simp only [hki, if_true] at hk ⊢; rw [hj]; exact hk
      · by_cases hkj : k = j
        · simp only [hkj, hji, if_false, if_true] at hk ⊢
          rcases hi with hi | ⟨_, h0⟩
          · rw [hi]; exact hk
          · simp only [Option.some.injEq] at hk; omega
        · simp only [hki, hkj, if_false] at hk ⊢; exact hk
    intro k m r hk hm hr
    have e := h.once _ _ r (back k r hk hr) (back m r hm hr) hr
    by_cases h1 : k = i <;> by_cases h2 : k = j <;> by_cases h3 : m = i <;> by_cases h4 : m = j <;> simp_all
  · intro a w ha
    obtain ⟨k, hk⟩ := h.noLeak a w ha
    have ha0 : a ≠ 0 := by rintro rfl; rw [h.null] at ha; simp at ha
    by_cases hki : k = i
    · subst hki
      rcases hi with hi | ⟨hn, _⟩
      · rw [hi] at hk
        exact ⟨j, by simp only [hji, if_false, if_true]; exact hk⟩
      · rw [hn] at hk; simp at hk
    · by_cases hkj : k = j
      · subst hkj; rw [hj] at hk; exact ⟨i, by simp only [if_true]; exact hk⟩
      · exact ⟨k, by simp only [hki, hkj, if_false]; exact hk⟩
  · exact h.fresh
  · exact h.null
  · exact h.next

/-- The object of variable `i` changes its value. -/
theorem update (h : Rel s σ) (i p : Nat) (hi : s.vars i = some p) (hp : p ≠ 0) (v : T) :
    Rel { s with cells := fun a => if a = p then some v else s.cells a } (σ.set i (some (some v))) := by
  obtain ⟨w, hw⟩ := h.held i p hi hp
  constructor
  · intro k
    by_cases hk : k = i
    · simp [Spec.set, hk, hi, hp]
    · simp only [Spec.set, hk, if_false]
      rw [h.values k]
      cases hq : s.vars k with
      | none => rfl
      | some q =>
        by_cases h0 : q = 0
        · simp [h0]
        · have : q ≠ p := by rintro rfl; exact hk (h.once k i q hq hi h0)
          simp [h0, this]
  · intro k q hk hq
    by_cases hqp : q = p
    · exact ⟨v, by simp [hqp]⟩
    · obtain ⟨u, hu⟩ := h.held k q hk hq
      exact ⟨u, by simp [hqp, hu]⟩
  · exact h.once
  · intro a u ha
    by_cases hap : a = p
    · exact ⟨i, by rw [hi, hap]⟩
    · simp only [hap, if_false] at ha; exact h.noLeak a u ha
  · intro a u ha
    by_cases hap : a = p
    · rw [hap]; exact h.fresh p w hw
    · simp only [hap, if_false] at ha; exact h.fresh a u ha
  · simp only; rw [if_neg (Ne.symm hp)]; exact h.null
  · exact h.next

end Rel

theorem spec_set_same (σ : Spec T) (i : Nat) : σ.set i (σ i) = σ := by
  funext k; by_cases hk : k = i <;> simp [Spec.set, hk]

/-- What one operation does: it ends normally or with an exception, in a state that represents the specified values. -/
def Ends (x : Out (St T) Unit) (σ : Spec T) : Prop := ∃ s, (x = .done s () ∨ x = .thrown s) ∧ Rel s σ

section
open Heap

theorem getPtr_run {s : St T} {i p : Nat} (h : s.vars i = some p) : getPtr i s = .done s p := by simp [getPtr, h]

theorem new_then_set (th : T → Bool) {s : St T} {σ : Spec T} (h : Rel s σ) (i : Nat) (hi : s.vars i = none ∨ s.vars i = some 0) (v : T) :
    Ends ((new th v >>= fun p => setPtr i p) s) (put th σ i v) := by
  unfold put
  cases ht : th v with
  | true => exact ⟨s, Or.inr (by simp [X.bind_run, new, ht]), by simpa using h⟩
  | false =>
    refine ⟨{ cells := fun a => if a = s.next then some v else s.cells a, next := s.next + 1, vars := fun k => if k = i then some s.next else s.vars k },
      Or.inl (by simp only [X.bind_run, new, ht, Bool.false_eq_true, if_false, setPtr]), ?_⟩
    simpa using h.alloc i hi v

theorem deref_run {s : St T} {p : Nat} {v : T} (h0 : p ≠ 0) (h : s.cells p = some v) : deref p s = .done s v := by simp [deref, h, h0]

theorem store_run (th : T → Bool) {s : St T} {σ : Spec T} (h : Rel s σ) (i p : Nat) (hi : s.vars i = some p) (hp : p ≠ 0) (v : T) :
    Ends (store th p v s) (put th σ i v) := by
  obtain ⟨w, hw⟩ := h.held i p hi hp
  unfold put
  cases ht : th v with
  | true => exact ⟨s, Or.inr (by simp [store, hw, hp, ht]), by simpa using h⟩
  | false =>
    refine ⟨{ s with cells := fun a => if a = p then some v else s.cells a }, Or.inl (by simp only [store, hw, hp, ht, Bool.false_eq_true, if_false]), ?_⟩
    simpa using h.update i p hi hp v

theorem delete_run {s : St T} {σ : Spec T} (h : Rel s σ) (i p : Nat) (hi : s.vars i = some p) (o : Option Nat) (ho : o = none ∨ o = some 0) :
    ∃ s', delete p s = .done s' () ∧ s'.vars = s.vars ∧
      Rel { s' with vars := fun k => if k = i then o else s.vars k } (σ.set i (o.map fun _ => none)) ∧
      (∀ a, a ≠ p → s'.cells a = s.cells a) := by
  by_cases h0 : p = 0
  · subst h0
    refine ⟨s, by simp [delete], rfl, ?_, fun _ _ => rfl⟩
    have := h.drop i 0 hi o ho
    have e : (fun a => if a = 0 then none else s.cells a) = s.cells := by
      funext a; by_cases ha : a = 0
      · simp [ha, h.null]
      · simp [ha]
    rw [e] at this
    exact this
  · obtain ⟨w, hw⟩ := h.held i p hi h0
    exact ⟨{ s with cells := fun a => if a = p then none else s.cells a }, by simp [delete, h0, hw], rfl, h.drop i p hi o ho, fun a ha => by simp [ha]⟩

theorem exec_ok (ty : Ty T) {s : St T} {σ σ' : Spec T} (h : Rel s σ) (op : Op T) (hs : heapStep ty σ op = some σ') :
    Ends (exec ty op s) σ' := by
  have vnone : ∀ i, σ i = none → s.vars i = none := fun i => (h.none_iff i).mp
  cases op with
  | ctorNull i =>
    simp only [heapStep] at hs
    split at hs
    next hi =>
      simp only [Option.some.injEq] at hs; subst hs
      exact ⟨_, Or.inl rfl, h.newEmpty i (vnone i hi)⟩
    next => simp at hs
  | ctorPtr i v =>
    simp only [heapStep] at hs
    split at hs
    next hi => simp only [Option.some.injEq] at hs; subst hs; exact new_then_set ty.throws h i (Or.inl (vnone i hi)) v
    next => simp at hs
  | ctorArgs i v =>
    simp only [heapStep] at hs
    split at hs
    next hi => simp only [Option.some.injEq] at hs; subst hs; exact new_then_set ty.throws h i (Or.inl (vnone i hi)) v
    next => simp at hs
  | copyCtor i j =>
    simp only [heapStep] at hs
    split at hs
    next v hi hj =>
      simp only [Option.some.injEq] at hs; subst hs
      obtain ⟨q, hq0, hq, hv⟩ := h.some_some hj
      simp only [exec, copyCtor]
      rw [X.bind_done (getPtr_run hq), X.bind_done (deref_run hq0 hv)]
      exact new_then_set ty.copyThrows h i (Or.inl (vnone i hi)) v
    next => simp at hs
  | moveCtor i j =>
    simp only [heapStep] at hs
    split at hs
    next o hi hj =>
      simp only [Option.some.injEq] at hs; subst hs
      have hij : i ≠ j := by rintro rfl; rw [hi] at hj; simp at hj
      have hv := h.values j
      cases hq : s.vars j with
      | none => rw [hq] at hv; rw [hj] at hv; simp at hv
      | some q =>
        rw [hq, hj] at hv
        simp only [Option.map_some, Option.some.injEq] at hv
        have := h.exchange i j 0 q (Or.inr ⟨vnone i hi, rfl⟩) hq hij
        simp only [if_true] at this
        rw [← hv] at this
        refine ⟨_, Or.inl ?_, this⟩
        simp only [exec, moveCtor]
        rw [X.bind_done (getPtr_run hq)]
        simp only [X.bind_run, setPtr, Out.done.injEq, and_true, St.mk.injEq, true_and]
        funext k
        by_cases hki : k = i
        · subst hki; simp [hij]
        · simp [hki]
    next => simp at hs
  | dtor i =>
    simp only [heapStep] at hs
    split at hs
    next hi =>
      simp only [Option.some.injEq] at hs; subst hs
      cases hp : s.vars i with
      | none => rw [(h.none_iff i).mpr hp] at hi; simp at hi
      | some p =>
        obtain ⟨s', e, ev, r, _⟩ := delete_run h i p hp none (Or.inl rfl)
        refine ⟨_, Or.inl ?_, r⟩
        simp only [exec, dtor]
        rw [X.bind_done (getPtr_run hp), X.bind_done e]
        simp [endVar, ev]
    next => simp at hs
  | emplace i v =>
    simp only [heapStep] at hs
    split at hs
    next hi =>
      simp only [Option.some.injEq] at hs; subst hs
      have hp := h.some_none hi
      simp only [exec, emplace]
      rw [X.bind_done (getPtr_run hp)]
      exact new_then_set ty.throws h i (Or.inr hp) v
    next => simp at hs
  | reset i =>
    simp only [heapStep] at hs
    split at hs
    next hi =>
      simp only [Option.some.injEq] at hs; subst hs
      cases hp : s.vars i with
      | none => rw [(h.none_iff i).mpr hp] at hi; simp at hi
      | some p =>
        obtain ⟨s', e, ev, r, _⟩ := delete_run h i p hp (some 0) (Or.inr rfl)
        refine ⟨_, Or.inl ?_, r⟩
        simp only [exec, reset]
        rw [X.bind_done (getPtr_run hp), X.bind_done e]
        simp [setPtr, ev]
    next => simp at hs
  | copyAssign i j =>
    simp only [heapStep] at hs
    split at hs
    next a v hi hj =>
      split at hs
      next hall =>
        simp only [Option.some.injEq] at hs; subst hs
        obtain ⟨q, hq0, hq, hv⟩ := h.some_some hj
        cases hp : s.vars i with
        | none => rw [(h.none_iff i).mpr hp] at hi; simp at hi
        | some p =>
          simp only [exec, copyAssign]
          rw [X.bind_done (getPtr_run hp), X.bind_done (getPtr_run hq)]
          cases hca : ty.copyAssignable with
          | true =>
            simp only [if_true]
            by_cases h0 : p = 0
            · simp only [h0, bne_self_eq_false, Bool.false_eq_true, if_false]
              rw [X.bind_done (deref_run hq0 hv)]
              exact new_then_set ty.copyThrows h i (Or.inr (by rw [hp, h0])) v
            · have hb : (p != 0) = true := by simpa using h0
              simp only [hb, if_true]
              rw [X.bind_done (deref_run hq0 hv)]
              exact store_run ty.copyThrows h i p hp h0 v
          | false =>
            simp only [Bool.false_eq_true, if_false]
            rcases hall with hall | ⟨hij, hnt⟩
            · simp [hca] at hall
            · obtain ⟨s', e, ev, r, hc⟩ := delete_run h i p hp (some 0) (Or.inr rfl)
              rw [X.bind_done e]
              have hqp : q ≠ p := by rintro rfl; exact hij (h.once i j q hp hq hq0)
              rw [X.bind_done (deref_run (s := s') hq0 (by rw [hc q hqp]; exact hv))]
              have r' := r.alloc i (Or.inr (by simp)) v
              refine ⟨{ cells := fun a => if a = s'.next then some v else s'.cells a, next := s'.next + 1, vars := fun k => if k = i then some s'.next else s'.vars k },
                Or.inl (by simp only [X.bind_run, new, hnt, Bool.false_eq_true, if_false, setPtr]), ?_⟩
              have e1 : (put ty.copyThrows σ i v) = (σ.set i (some none)).set i (some (some v)) := by
                simp only [put, hnt, Bool.false_eq_true, if_false]
                funext k; by_cases hk : k = i <;> simp [Spec.set, hk]
              rw [e1]
              have e2 : (fun k => if k = i then some s'.next else s'.vars k) =
                  fun k => if k = i then some s'.next else if k = i then some 0 else s.vars k := by
                funext k; by_cases hk : k = i <;> simp [hk, ev]
              rw [e2]
              exact r'
      next => simp at hs
    next => simp at hs
  | moveAssign i j =>
    simp only [heapStep] at hs
    split at hs
    next a b hi hj =>
      simp only [Option.some.injEq] at hs; subst hs
      have hvi := h.values i
      have hvj := h.values j
      cases hp : s.vars i with
      | none => rw [hp] at hvi; rw [hi] at hvi; simp at hvi
      | some p =>
        cases hq : s.vars j with
        | none => rw [hq] at hvj; rw [hj] at hvj; simp at hvj
        | some q =>
          rw [hp, hi] at hvi
          rw [hq, hj] at hvj
          simp only [Option.map_some, Option.some.injEq] at hvi hvj
          simp only [exec, moveAssign]
          rw [X.bind_done (getPtr_run hp), X.bind_done (getPtr_run hq)]
          by_cases hij : i = j
          · subst hij
            have hpq : p = q := by rw [hp] at hq; exact Option.some.inj hq
            have hab : a = b := by rw [hi] at hj; exact Option.some.inj hj
            subst hpq; subst hab
            refine ⟨s, Or.inl ?_, ?_⟩
            · simp only [X.bind_run, setPtr, Out.done.injEq, and_true]
              have : (fun k => if k = i then some p else if k = i then some p else s.vars k) = s.vars := by
                funext k; by_cases hk : k = i <;> simp [hk, hp]
              rw [this]
            · have : (σ.set i (some a)).set i (some a) = σ := by
                funext k; by_cases hk : k = i <;> simp [Spec.set, hk, hi]
              rw [this]; exact h
          · have r := h.exchange i j p q (Or.inl hp) hq hij
            rw [← hvi, ← hvj] at r
            refine ⟨_, Or.inl ?_, r⟩
            simp only [X.bind_run, setPtr, Out.done.injEq, and_true, St.mk.injEq, true_and]
            funext k
            by_cases hki : k = i
            · subst hki; simp [hij]
            · simp [hki]
    next => simp at hs
  | write i v =>
    simp only [heapStep] at hs
    split at hs
    next w hi =>
      simp only [Option.some.injEq] at hs; subst hs
      obtain ⟨p, hp0, hp, hv⟩ := h.some_some hi
      simp only [exec, write]
      rw [X.bind_done (getPtr_run hp)]
      exact store_run ty.throws h i p hp hp0 v
    next => simp at hs

theorem run_ok (ty : Ty T) (ops : List (Op T)) : ∀ {s : St T} {σ σ' : Spec T}, Rel s σ → runSpec (heapStep ty) ops σ = some σ' →
    ∃ s', run ty ops s = .done s' () ∧ Rel s' σ' := by
  induction ops with
  | nil => intro s σ σ' h hs; simp only [runSpec, Option.some.injEq] at hs; subst hs; exact ⟨s, rfl, h⟩
  | cons op ops ih =>
    intro s σ σ' h hs
    simp only [runSpec] at hs
    cases hop : heapStep ty σ op with
    | none => simp [hop] at hs
    | some σ1 =>
      rw [hop] at hs
      obtain ⟨s1, he, r⟩ := exec_ok ty h op hop
      obtain ⟨s2, e2, r2⟩ := ih r hs
      refine ⟨s2, ?_, r2⟩
      rcases he with he | he <;> simp only [run, he] <;> exact e2

end

end Verif.PrivateImpl
