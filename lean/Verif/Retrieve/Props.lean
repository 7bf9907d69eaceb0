import Verif.Retrieve.Spec

/-!
# C114: `Retrieve`
-/

namespace Verif.Retrieve
open Verif.Cpp

variable {K V : Type} [DecidableEq K]

@[simp] theorem update_same {α : Type} (f : Nat → α) (i : Nat) (x : α) : update f i x i = x := by simp [update]
theorem update_ne {α : Type} (f : Nat → α) {i j : Nat} (x : α) (h : j ≠ i) : update f i x j = f j := by simp [update, h]

/-- What the maps contain. -/
structure Rel (w : World K V) (a : Abs K V) : Prop where
  there : ∀ m, w.maps m = none ↔ a m = none
  found : ∀ m l f k, w.maps m = some l → a m = some f → ((∃ r, find l k = some r ∧ ∃ v, f k = some v ∧ w.node r = some v) ∨ (find l k = none ∧ f k = none))
  old : ∀ r, w.next ≤ r → w.node r = none
  /-- two entries with one node are the same entry -/
  apart : ∀ m l e n l' e', w.maps m = some l → w.maps n = some l' → e ∈ l → e' ∈ l' → e.2 = e'.2 → m = n ∧ e = e'
  keys : ∀ m l e, w.maps m = some l → e ∈ l → find l e.1 = some e.2
  below : ∀ m l e, w.maps m = some l → e ∈ l → e.2 < w.next

theorem find_mem {l : List (K × Nat)} {k : K} {r : Nat} (h : find l k = some r) : (k, r) ∈ l := by
  simp only [find, Option.map_eq_some_iff] at h
  obtain ⟨e, h1, rfl⟩ := h
  have h2 := List.find?_some h1
  simp only [decide_eq_true_eq] at h2
  subst h2
  exact List.mem_of_find?_eq_some h1

theorem find_none {l : List (K × Nat)} {k : K} (h : find l k = none) : ∀ e ∈ l, e.1 ≠ k := by
  simp only [find, Option.map_eq_none_iff, List.find?_eq_none, decide_eq_true_eq] at h
  exact h

theorem find_append (l : List (K × Nat)) (k j : K) (r : Nat) : find (l ++ [(k, r)]) j = match find l j with
    | some x => some x
    | none => if j = k then some r else none := by
  simp only [find, List.find?_append]
  cases h : l.find? (fun e => e.1 = j) with
  | some e => simp
  | none =>
    by_cases hjk : j = k
    · simp [hjk]
    · simp [hjk, Ne.symm hjk]

theorem find_filter (l : List (K × Nat)) (k j : K) : find (l.filter (fun e => e.1 ≠ k)) j = if j = k then none else find l j := by
  induction l with
  | nil => simp [find]
  | cons e l ih =>
    simp only [find] at ih
    by_cases he : e.1 = k
    · simp only [find, List.filter_cons, he, ne_eq, not_true_eq_false, decide_false, Bool.false_eq_true, if_false, ih]
      by_cases hj : j = k
      · simp [hj]
      · rw [if_neg hj, if_neg hj, List.find?_cons_of_neg (by simp [he, Ne.symm hj])]
    · by_cases hj : e.1 = j
      · have : j ≠ k := by rw [← hj]; exact he
        simp [find, hj, this]
      · rw [find, List.filter_cons_of_pos (by simp [he]), List.find?_cons_of_neg (by simp [hj]), ih]
        simp [find, hj]

omit [DecidableEq K] in
theorem freeAll_eq (l : List (K × Nat)) (f : Nat → Option V) (r : Nat) : freeAll l f r = if ∃ e ∈ l, e.2 = r then none else f r := by
  induction l generalizing f with
  | nil => simp [freeAll]
  | cons e l ih =>
    simp only [freeAll, ih, update, List.mem_cons, exists_eq_or_imp]
    by_cases h1 : ∃ e ∈ l, e.2 = r
    · simp [h1]
    · by_cases h2 : e.2 = r
      · simp [h1, h2]
      · simp [h1, h2, Ne.symm h2]

theorem Rel.empty : Rel (K := K) (V := V) .empty (fun _ => none) :=
  ⟨by simp [World.empty], by simp [World.empty], by simp [World.empty], by simp [World.empty], by simp [World.empty], by simp [World.empty]⟩

theorem Rel.live {w : World K V} {a : Abs K V} (h : Rel w a) {m : Nat} (hm : a m ≠ none) : ∃ l f, w.maps m = some l ∧ a m = some f := by
  obtain ⟨f, hf⟩ := Option.ne_none_iff_exists'.mp hm
  obtain ⟨l, hl⟩ := Option.ne_none_iff_exists'.mp (fun hc => hm ((h.there m).mp hc))
  exact ⟨l, f, hl, hf⟩

theorem Rel.retrieve {w : World K V} {a : Abs K V} (h : Rel w a) {m : Nat} {f : K → Option V} {k : K} {v : V} (hm : a m = some f) (hk : f k = some v) (b : Bool) :
    ∃ l r, w.maps m = some l ∧ find l k = some r ∧ w.node r = some v ∧ Retrieve.retrieve b m k w = .ok r := by
  obtain ⟨l, f', hl, hf⟩ := h.live (m := m) (by simp [hm])
  rw [hm] at hf
  cases hf
  rcases h.found m l f k hl hm with ⟨r, h1, v', h2, h3⟩ | ⟨_, h2⟩
  · rw [hk] at h2
    cases h2
    refine ⟨l, r, hl, h1, h3, ?_⟩
    cases b <;> simp [Retrieve.retrieve, getMap, hl, h1]
  · rw [hk] at h2; cases h2

/-- Assignment to the value of a node. -/
theorem Rel.assign {w : World K V} {a : Abs K V} (h : Rel w a) {m : Nat} {l : List (K × Nat)} {k : K} {r : Nat} (hl : w.maps m = some l) (hr : find l k = some r) (v : V) :
    Rel { w with node := update w.node r (some v) } (a.set m k (some v)) := by
  refine ⟨?_, ?_, ?_, h.apart, h.keys, h.below⟩
  · intro n
    simp only [Abs.set]
    split
    · next e => subst e; simp [h.there]
    · exact h.there n
  · intro n l' f j hn ha
    simp only [Abs.set] at ha
    by_cases hnm : n = m
    · subst hnm
      rw [hl] at hn
      cases hn
      rw [if_pos rfl, Option.map_eq_some_iff] at ha
      obtain ⟨f0, h0, rfl⟩ := ha
      by_cases hjk : j = k
      · subst hjk
        exact Or.inl ⟨r, hr, v, by simp, by simp⟩
      · rcases h.found n l f0 j hl h0 with ⟨r', h1, v', h2, h3⟩ | ⟨h1, h2⟩
        · refine Or.inl ⟨r', h1, v', by simp [hjk, h2], ?_⟩
          have : r' ≠ r := by
            intro e
            have := (h.apart n l _ n l _ hl hl (find_mem h1) (find_mem hr) e).2
            simp at this
            exact hjk this.1
          simp [update_ne _ _ this, h3]
        · exact Or.inr ⟨h1, by simp [hjk, h2]⟩
    · rw [if_neg hnm] at ha
      rcases h.found n l' f j hn ha with ⟨r', h1, v', h2, h3⟩ | h1
      · refine Or.inl ⟨r', h1, v', h2, ?_⟩
        have : r' ≠ r := fun e => hnm (h.apart n l' _ m l _ hn hl (find_mem h1) (find_mem hr) e).1
        simp [update_ne _ _ this, h3]
      · exact Or.inr h1
  · intro r' hr'
    have : r' ≠ r := by
      have := h.below m l _ hl (find_mem hr)
      simp at this hr'
      omega
    simp only [update_ne _ _ this]
    exact h.old r' hr'

theorem Rel.insertNew {w : World K V} {a : Abs K V} (h : Rel w a) {m : Nat} {l : List (K × Nat)} {k : K} (hl : w.maps m = some l) (hr : find l k = none) (v : V) :
    Rel ⟨update w.maps m (some (l ++ [(k, w.next)])), update w.node w.next (some v), w.next + 1⟩ (a.set m k (some v)) := by
  have maps_ne : ∀ {n}, n ≠ m → update w.maps m (some (l ++ [(k, w.next)])) n = w.maps n := fun hn => update_ne _ _ hn
  refine ⟨?_, ?_, ?_, ?_, ?_, ?_⟩
  · intro n
    by_cases hnm : n = m
    · subst hnm
      simp only [update_same, Abs.set, if_pos]
      have := h.there n
      rw [hl] at this
      simpa using this
    · simp only [maps_ne hnm, Abs.set, if_neg hnm]
      exact h.there n
  · intro n l' f j hn ha
    have key : ∀ (n : Nat) (l0 : List (K × Nat)) (f0 : K → Option V), w.maps n = some l0 → a n = some f0 →
        ((∃ r, find l0 j = some r ∧ ∃ v', f0 j = some v' ∧ update w.node w.next (some v) r = some v') ∨ (find l0 j = none ∧ f0 j = none)) := by
      intro n l0 f0 h0 h1
      rcases h.found n l0 f0 j h0 h1 with ⟨r', h2, v', h3, h4⟩ | h2
      · refine Or.inl ⟨r', h2, v', h3, ?_⟩
        have := h.below n l0 _ h0 (find_mem h2)
        simp at this
        rw [update_ne _ _ (by omega), h4]
      · exact Or.inr h2
    by_cases hnm : n = m
    · subst hnm
      simp only [update_same, Option.some.injEq] at hn
      subst hn
      simp only [Abs.set, if_pos, Option.map_eq_some_iff] at ha
      obtain ⟨f0, h0, rfl⟩ := ha
      rw [find_append]
      by_cases hjk : j = k
      · subst hjk
        rw [hr]
        exact Or.inl ⟨w.next, by simp, v, by simp, by simp⟩
      · simp only [hjk, if_false]
        rcases key n l f0 hl h0 with ⟨r', h2, v', h3, h4⟩ | h2
        · exact Or.inl ⟨r', by rw [h2], v', h3, h4⟩
        · exact Or.inr ⟨by rw [h2.1], h2.2⟩
    · simp only [maps_ne hnm] at hn
      simp only [Abs.set, if_neg hnm] at ha
      exact key n l' f hn ha
  · intro r hr'
    simp only at hr'
    simp only [update_ne w.node (some v) (show r ≠ w.next by omega)]
    exact h.old r (by omega)
  · intro n1 l1 e1 n2 l2 e2 h1 h2 m1 m2 he
    have entry : ∀ n l0 e, update w.maps m (some (l ++ [(k, w.next)])) n = some l0 → e ∈ l0 → (n = m ∧ e = (k, w.next)) ∨ (∃ l1, w.maps n = some l1 ∧ e ∈ l1 ∧ e.2 < w.next) := by
      intro n l0 e h0 hmem
      by_cases hnm : n = m
      · subst hnm
        simp only [update_same, Option.some.injEq] at h0
        subst h0
        rw [List.mem_append, List.mem_singleton] at hmem
        rcases hmem with hmem | hmem
        · exact Or.inr ⟨l, hl, hmem, h.below n l e hl hmem⟩
        · exact Or.inl ⟨rfl, hmem⟩
      · rw [maps_ne hnm] at h0
        exact Or.inr ⟨l0, h0, hmem, h.below n l0 e h0 hmem⟩
    rcases entry n1 l1 e1 h1 m1 with ⟨rfl, rfl⟩ | ⟨l1', a1, a2, a3⟩ <;> rcases entry n2 l2 e2 h2 m2 with ⟨rfl, rfl⟩ | ⟨l2', b1, b2, b3⟩
    · exact ⟨rfl, rfl⟩
    · simp at he; omega
    · simp at he; omega
    · exact h.apart n1 l1' e1 n2 l2' e2 a1 b1 a2 b2 he
  · intro n l0 e h0 hmem
    by_cases hnm : n = m
    · subst hnm
      simp only [update_same, Option.some.injEq] at h0
      subst h0
      rw [find_append]
      rw [List.mem_append, List.mem_singleton] at hmem
      rcases hmem with hmem | rfl
      · rw [h.keys n l e hl hmem]
      · rw [hr]; simp
    · simp only [maps_ne hnm] at h0
      exact h.keys n l0 e h0 hmem
  · intro n l0 e h0 hmem
    by_cases hnm : n = m
    · subst hnm
      simp only [update_same, Option.some.injEq] at h0
      subst h0
      rw [List.mem_append, List.mem_singleton] at hmem
      rcases hmem with hmem | rfl
      · have := h.below n l e hl hmem
        show e.2 < w.next + 1
        omega
      · show w.next < w.next + 1
        omega
    · simp only [maps_ne hnm] at h0
      have := h.below n l0 e h0 hmem
      show e.2 < w.next + 1
      omega

theorem Rel.erase {w : World K V} {a : Abs K V} (h : Rel w a) {m : Nat} {l : List (K × Nat)} {k : K} {r : Nat} (hl : w.maps m = some l) (hr : find l k = some r) :
    Rel { w with maps := update w.maps m (some (l.filter (fun e => e.1 ≠ k))), node := update w.node r none } (a.set m k none) := by
  have maps_ne : ∀ {n}, n ≠ m → update w.maps m (some (l.filter (fun e => e.1 ≠ k))) n = w.maps n := fun hn => update_ne _ _ hn
  have sub : ∀ n l0 e, update w.maps m (some (l.filter (fun e => e.1 ≠ k))) n = some l0 → e ∈ l0 → ∃ l1, w.maps n = some l1 ∧ e ∈ l1 := by
    intro n l0 e h0 hmem
    by_cases hnm : n = m
    · subst hnm
      simp only [update_same, Option.some.injEq] at h0
      subst h0
      exact ⟨l, hl, (List.mem_filter.mp hmem).1⟩
    · rw [maps_ne hnm] at h0
      exact ⟨l0, h0, hmem⟩
  refine ⟨?_, ?_, ?_, ?_, ?_, ?_⟩
  · intro n
    by_cases hnm : n = m
    · subst hnm
      simp only [update_same, Abs.set, if_pos]
      have := h.there n
      rw [hl] at this
      simpa using this
    · simp only [maps_ne hnm, Abs.set, if_neg hnm]
      exact h.there n
  · intro n l' f j hn ha
    have key : ∀ (n : Nat) (l0 : List (K × Nat)) (f0 : K → Option V), w.maps n = some l0 → a n = some f0 → (n = m → j ≠ k) →
        ((∃ r', find l0 j = some r' ∧ ∃ v', f0 j = some v' ∧ update w.node r none r' = some v') ∨ (find l0 j = none ∧ f0 j = none)) := by
      intro n l0 f0 h0 h1 hne
      rcases h.found n l0 f0 j h0 h1 with ⟨r', h2, v', h3, h4⟩ | h2
      · refine Or.inl ⟨r', h2, v', h3, ?_⟩
        have : r' ≠ r := by
          intro e
          have := h.apart n l0 _ m l _ h0 hl (find_mem h2) (find_mem hr) e
          have h5 := this.2
          simp at h5
          exact hne this.1 h5.1
        rw [update_ne _ _ this, h4]
      · exact Or.inr h2
    by_cases hnm : n = m
    · subst hnm
      simp only [update_same, Option.some.injEq] at hn
      subst hn
      simp only [Abs.set, if_pos, Option.map_eq_some_iff] at ha
      obtain ⟨f0, h0, rfl⟩ := ha
      rw [find_filter]
      by_cases hjk : j = k
      · simp [hjk]
      · simp only [hjk, if_false]
        exact key n l f0 hl h0 (fun _ => hjk)
    · simp only [maps_ne hnm] at hn
      simp only [Abs.set, if_neg hnm] at ha
      exact key n l' f hn ha (fun e => absurd e hnm)
  · intro r' hr'
    have := h.old r' hr'
    simp only [update]
    split
    · rfl
    · exact this
  · intro n1 l1 e1 n2 l2 e2 h1 h2 m1 m2 he
    obtain ⟨l1', a1, a2⟩ := sub n1 l1 e1 h1 m1
    obtain ⟨l2', b1, b2⟩ := sub n2 l2 e2 h2 m2
    exact h.apart n1 l1' e1 n2 l2' e2 a1 b1 a2 b2 he
  · intro n l0 e h0 hmem
    by_cases hnm : n = m
    · subst hnm
      simp only [update_same, Option.some.injEq] at h0
      subst h0
      have := List.mem_filter.mp hmem
      simp only [decide_eq_true_eq] at this
      rw [find_filter, if_neg this.2]
      exact h.keys n l e hl this.1
    · simp only [maps_ne hnm] at h0
      exact h.keys n l0 e h0 hmem
  · intro n l0 e h0 hmem
    obtain ⟨l1, a1, a2⟩ := sub n l0 e h0 hmem
    exact h.below n l1 e a1 a2

theorem Rel.create {w : World K V} {a : Abs K V} (h : Rel w a) {m : Nat} : Rel (create m w) (update a m (some fun _ => none)) := by
  have sub : ∀ n l0 e, update w.maps m (some []) n = some l0 → e ∈ l0 → w.maps n = some l0 := by
    intro n l0 e h0 hmem
    by_cases hnm : n = m
    · subst hnm
      simp only [update_same, Option.some.injEq] at h0
      subst h0
      simp at hmem
    · rwa [update_ne _ _ hnm] at h0
  refine ⟨?_, ?_, h.old, ?_, ?_, ?_⟩
  · intro n
    by_cases hnm : n = m
    · simp [Retrieve.create, hnm]
    · simp only [Retrieve.create, update_ne _ _ hnm]; exact h.there n
  · intro n l f k hn ha
    simp only [Retrieve.create] at hn
    by_cases hnm : n = m
    · subst hnm
      simp only [update_same, Option.some.injEq] at hn ha
      subst hn; subst ha
      exact Or.inr ⟨rfl, rfl⟩
    · rw [update_ne _ _ hnm] at hn ha
      exact h.found n l f k hn ha
  · intro n1 l1 e1 n2 l2 e2 h1 h2 m1 m2 he
    exact h.apart n1 l1 e1 n2 l2 e2 (sub n1 l1 e1 h1 m1) (sub n2 l2 e2 h2 m2) m1 m2 he
  · intro n l0 e h0 hmem
    exact h.keys n l0 e (sub n l0 e h0 hmem) hmem
  · intro n l0 e h0 hmem
    exact h.below n l0 e (sub n l0 e h0 hmem) hmem

theorem Rel.destroy {w : World K V} {a : Abs K V} (h : Rel w a) {m : Nat} {l : List (K × Nat)} (hl : w.maps m = some l) :
    Rel { w with maps := update w.maps m none, node := freeAll l w.node } (update a m none) := by
  have sub : ∀ n l0, update w.maps m none n = some l0 → n ≠ m ∧ w.maps n = some l0 := by
    intro n l0 h0
    by_cases hnm : n = m
    · subst hnm
      simp at h0
    · exact ⟨hnm, by rwa [update_ne _ _ hnm] at h0⟩
  refine ⟨?_, ?_, ?_, ?_, ?_, ?_⟩
  · intro n
    by_cases hnm : n = m
    · simp [hnm]
    · simp only [update_ne _ _ hnm]; exact h.there n
  · intro n l' f k hn ha
    obtain ⟨hnm, h0⟩ := sub n l' hn
    rw [update_ne _ _ hnm] at ha
    rcases h.found n l' f k h0 ha with ⟨r', h2, v', h3, h4⟩ | h2
    · refine Or.inl ⟨r', h2, v', h3, ?_⟩
      show freeAll l w.node r' = some v'
      rw [freeAll_eq, if_neg, h4]
      rintro ⟨e, he, her⟩
      exact hnm (h.apart n l' _ m l e h0 hl (find_mem h2) he her.symm).1
    · exact Or.inr h2
  · intro r hr
    show freeAll l w.node r = none
    rw [freeAll_eq]
    split
    · rfl
    · exact h.old r hr
  · intro n1 l1 e1 n2 l2 e2 h1 h2 m1 m2 he
    exact h.apart n1 l1 e1 n2 l2 e2 (sub n1 l1 h1).2 (sub n2 l2 h2).2 m1 m2 he
  · intro n l0 e h0 hmem
    exact h.keys n l0 e (sub n l0 h0).2 hmem
  · intro n l0 e h0 hmem
    exact h.below n l0 e (sub n l0 h0).2 hmem

/-- An allowed call succeeds, and a node whose entry is kept is still the node of this entry. -/
theorem Rel.step {w : World K V} {a : Abs K V} (h : Rel w a) (b : Bool) {o : Op K V} (ho : o.ok a) :
    ∃ w', o.run b w = .ok w' ∧ Rel w' (o.spec a) ∧
      ∀ m l k r, w.maps m = some l → find l k = some r → o.keeps m k → ∃ l', w'.maps m = some l' ∧ find l' k = some r := by
  cases o with
  | create n =>
    refine ⟨_, rfl, h.create, ?_⟩
    intro m l k r hl hr _
    have : m ≠ n := by
      rintro rfl
      simp only [Op.ok] at ho
      have := (h.there m).mpr ho
      rw [this] at hl; cases hl
    exact ⟨l, by simp [Retrieve.create, update_ne _ _ this, hl], hr⟩
  | insert n j v =>
    obtain ⟨l0, f0, h0, _⟩ := h.live (m := n) ho
    cases hf : find l0 j with
    | some r0 =>
      refine ⟨_, by simp only [Op.run, Retrieve.insert, getMap, h0, ok_bind, hf]; rfl, h.assign h0 hf v, ?_⟩
      intro m l k r hl hr _
      exact ⟨l, hl, hr⟩
    | none =>
      refine ⟨_, by simp only [Op.run, Retrieve.insert, getMap, h0, ok_bind, hf]; rfl, h.insertNew h0 hf v, ?_⟩
      intro m l k r hl hr _
      by_cases hm : m = n
      · subst hm
        rw [h0] at hl; cases hl
        exact ⟨l0 ++ [(j, w.next)], by simp only [update_same], by rw [find_append, hr]⟩
      · exact ⟨l, by simp only [update_ne _ _ hm, hl], hr⟩
  | erase n j =>
    obtain ⟨l0, f0, h0, hf0⟩ := h.live (m := n) ho
    cases hf : find l0 j with
    | some r0 =>
      refine ⟨_, by simp only [Op.run, Retrieve.erase, getMap, h0, ok_bind, hf]; rfl, h.erase h0 hf, ?_⟩
      intro m l k r hl hr hk
      by_cases hm : m = n
      · subst hm
        rw [h0] at hl; cases hl
        exact ⟨l0.filter (fun e => e.1 ≠ j), by simp only [update_same], by rw [find_filter, if_neg (Ne.symm (hk rfl)), hr]⟩
      · exact ⟨l, by simp only [update_ne _ _ hm, hl], hr⟩
    | none =>
      refine ⟨_, by simp only [Op.run, Retrieve.erase, getMap, h0, ok_bind, hf]; rfl, ?_, ?_⟩
      · have : (Op.erase n j).spec a = a := by
          funext m
          simp only [Op.spec, Abs.set]
          split
          · next e =>
            subst e
            rw [hf0, Option.map_some]
            congr 1
            funext i
            split
            · next e =>
              subst e
              rcases h.found m l0 f0 i h0 hf0 with ⟨r, h1, _⟩ | ⟨_, h2⟩
              · rw [hf] at h1; cases h1
              · exact h2.symm
            · rfl
          · rfl
        rw [this]
        exact h
      · intro m l k r hl hr _
        exact ⟨l, hl, hr⟩
  | destroy n =>
    obtain ⟨l0, f0, h0, _⟩ := h.live (m := n) ho
    refine ⟨_, by simp only [Op.run, Retrieve.destroy, getMap, h0, ok_bind]; rfl, h.destroy h0, ?_⟩
    intro m l k r hl hr hk
    have hm : m ≠ n := fun e => hk e.symm
    exact ⟨l, by simp only [update_ne _ _ hm, hl], hr⟩
  | assign n j v =>
    obtain ⟨f, u, hf, hu⟩ := ho
    obtain ⟨l0, r0, h0, h1, h2, h3⟩ := h.retrieve hf hu b
    refine ⟨_, by simp only [Op.run, h3, ok_bind, store, h2], h.assign h0 h1 v, ?_⟩
    intro m l k r hl hr _
    exact ⟨l, hl, hr⟩

theorem Steps.rel {b : Bool} {P : Op K V → Prop} {w w' : World K V} {a a' : Abs K V} (hs : Steps b P w a w' a') (h : Rel w a) : Rel w' a' := by
  induction hs with
  | refl => exact h
  | step _ o hok _ hrun ih =>
    obtain ⟨w2, e, h2, _⟩ := ih.step b hok
    rw [e] at hrun
    cases hrun
    exact h2

theorem Reached.rel {b : Bool} {w : World K V} {a : Abs K V} (h : Reached b w a) : Rel w a := Steps.rel h Rel.empty

/-- C114: no allowed call fails. -/
theorem C114_total {b : Bool} {w : World K V} {a : Abs K V} (h : Reached b w a) {o : Op K V} (ho : o.ok a) : ∃ w', o.run b w = .ok w' ∧ Reached b w' (o.spec a) := by
  obtain ⟨w', e, _⟩ := h.rel.step b ho
  exact ⟨w', e, h.step o ho trivial e⟩

/-- C114: `Retrieve` of a key that is in the map gives a reference to the value of the key; the reference refers to what is the value of the key at that time for as long
as this key is not erased and the map not destroyed, whatever else is done with this and other maps. -/
theorem C114_reference {b : Bool} {w : World K V} {a : Abs K V} (h : Reached b w a) {m : Nat} {f : K → Option V} {k : K} {v : V} (hm : a m = some f) (hk : f k = some v) :
    ∃ r, retrieve b m k w = .ok r ∧ deref r w = .ok v ∧
      ∀ w' a', Steps b (Op.keeps m k) w a w' a' → ∃ f' v', a' m = some f' ∧ f' k = some v' ∧ retrieve b m k w' = .ok r ∧ deref r w' = .ok v' := by
  obtain ⟨l, r, h1, h2, h3, h4⟩ := h.rel.retrieve hm hk b
  refine ⟨r, h4, by simp [deref, h3], ?_⟩
  intro w' a' hs
  have key : Rel w' a' ∧ ∃ l', w'.maps m = some l' ∧ find l' k = some r := by
    clear h3 h4
    induction hs with
    | refl => exact ⟨h.rel, l, h1, h2⟩
    | step _ o hok hp hrun ih =>
      obtain ⟨hr, l', i1, i2⟩ := ih
      obtain ⟨w2, e, r2, r3⟩ := hr.step b hok
      rw [e] at hrun
      cases hrun
      exact ⟨r2, r3 m l' k r i1 i2 hp⟩
  obtain ⟨hr, l', i1, i2⟩ := key
  obtain ⟨f', hf'⟩ := Option.ne_none_iff_exists'.mp (fun hc => by rw [(hr.there m).mpr hc] at i1; cases i1)
  rcases hr.found m l' f' k i1 hf' with ⟨r', j1, v', j2, j3⟩ | ⟨j1, _⟩
  · rw [i2] at j1
    cases j1
    refine ⟨f', v', hf', j2, ?_, by simp [deref, j3]⟩
    cases b <;> simp [retrieve, getMap, i1, i2]
  · rw [i2] at j1; cases j1

/-- C114: different entries, of one map or of two, have different references: so an assignment through one does not change the other (`Op.spec` of `assign`). -/
theorem C114_apart {b : Bool} {w : World K V} {a : Abs K V} (h : Reached b w a) {m n : Nat} {k j : K} {r : Nat} (h1 : retrieve b m k w = .ok r) (h2 : retrieve b n j w = .ok r) :
    m = n ∧ k = j := by
  have key : ∀ m k, retrieve b m k w = .ok r → ∃ l, w.maps m = some l ∧ find l k = some r := by
    intro m k hm
    cases hl : w.maps m with
    | none => simp [retrieve, getMap, hl] at hm
    | some l =>
      cases hf : find l k with
      | none => cases b <;> simp [retrieve, getMap, hl, hf] at hm
      | some r' =>
        refine ⟨l, rfl, ?_⟩
        cases b <;> simp [retrieve, getMap, hl, hf] at hm <;> simp [hf, hm]
  obtain ⟨l1, a1, a2⟩ := key m k h1
  obtain ⟨l2, b1, b2⟩ := key n j h2
  have := h.rel.apart m l1 _ n l2 _ a1 b1 (find_mem a2) (find_mem b2) rfl
  exact ⟨this.1, by simpa using this.2⟩

/-- C114: a key that is not in the map: the assertion fails; without assertions the behaviour is undefined. -/
theorem C114_missing {b : Bool} {w : World K V} {a : Abs K V} (h : Reached b w a) {m : Nat} {f : K → Option V} {k : K} (hm : a m = some f) (hk : f k = none) :
    retrieve true m k w = .error .assert ∧ retrieve false m k w = .error .ub := by
  obtain ⟨l, f', hl, hf⟩ := h.rel.live (m := m) (by simp [hm])
  rw [hm] at hf
  cases hf
  rcases h.rel.found m l f k hl hm with ⟨r, h1, v', h2, _⟩ | ⟨h1, _⟩
  · rw [hk] at h2; cases h2
  · simp [retrieve, getMap, hl, h1]

/-- C114, violated: `Retrieve` also takes a temporary map (the `const M&` version): `const auto& x = Retrieve(makeMap(), key);` refers to an entry of a map that has ended. -/
theorem C114_temporary_violated {b : Bool} {w : World K V} {a : Abs K V} (h : Reached b w a) {m : Nat} {f : K → Option V} {k : K} {v : V} (hm : a m = some f) (hk : f k = some v) :
    ∃ r w', retrieve b m k w = .ok r ∧ (Op.destroy m : Op K V).run b w = .ok w' ∧ deref r w' = .error .ub := by
  obtain ⟨l, r, h1, h2, h3, h4⟩ := h.rel.retrieve hm hk b
  refine ⟨r, _, h4, by simp only [Op.run, destroy, getMap, h1, ok_bind]; rfl, ?_⟩
  simp only [deref, freeAll_eq]
  rw [if_pos ⟨(k, r), find_mem h2, rfl⟩]

/-- Two maps with a common key. -/
example : ∃ (w : World Nat Nat) (a : Abs Nat Nat) (f : Nat → Option Nat), Reached true w a ∧ a 0 = some f ∧ f 5 = some 52 ∧ f 7 = none := by
  have s : ∀ {w : World Nat Nat} {a : Abs Nat Nat} (o : Op Nat Nat), Reached true w a → o.ok a → ∃ w', Reached true w' (o.spec a) := by
    intro w a o h ho
    obtain ⟨w', _, h'⟩ := C114_total h ho
    exact ⟨w', h'⟩
  obtain ⟨w1, h1⟩ := s (.create 0) (Steps.refl (P := fun _ => True)) rfl
  obtain ⟨w2, h2⟩ := s (.insert 0 5 50) h1 (by simp [Op.ok, Op.spec])
  obtain ⟨w3, h3⟩ := s (.create 1) h2 rfl
  obtain ⟨w4, h4⟩ := s (.insert 1 5 51) h3 (by simp [Op.ok, Op.spec])
  obtain ⟨w5, h5⟩ := s (.erase 0 5) h4 (by simp [Op.ok, Op.spec, Abs.set, update])
  obtain ⟨w6, h6⟩ := s (.insert 0 5 52) h5 (by simp [Op.ok, Op.spec, Abs.set, update])
  obtain ⟨w7, h7⟩ := s (.assign 1 5 53) h6 ⟨_, 51, by simp [Op.spec, Abs.set, update]; rfl, by simp⟩
  exact ⟨w7, _, _, h7, by simp [Op.spec, Abs.set, update]; rfl, by simp, by simp⟩

end Verif.Retrieve
