import Verif.TypeList.Model
import Mathlib.Data.List.Induction

/-!
# Property C55 of `TypeList`
-/

namespace Verif.TypeList

variable {τ : Type} [DecidableEq τ]

theorem findFrom_spec (t : τ) (l : List τ) (k : Nat) :
    (t ∉ l ∧ findFrom k t l = npos) ∨ ∃ i, findFrom k t l = k + i ∧ l[i]? = some t ∧ ∀ j, j < i → l[j]? ≠ some t := by
  induction l generalizing k with
  | nil => exact Or.inl ⟨by simp, rfl⟩
  | cons u l ih =>
    by_cases h : t = u
    · exact Or.inr ⟨0, by simp [findFrom, h], by simp [h], by simp⟩
    · rcases ih (k + 1) with ⟨hn, hf⟩ | ⟨i, hf, hi, hj⟩
      · exact Or.inl ⟨by simp [h, hn], by simp [findFrom, h, hf]⟩
      · refine Or.inr ⟨i + 1, by simp [findFrom, h, hf]; omega, by simpa using hi, fun j hj' => ?_⟩
        cases j with
        | zero => simpa using Ne.symm h
        | succ j => simpa using hj j (by omega)

/-- `TypeListFind` is the index of the first occurrence, or the maximum of `std::size_t`; `TypeListHas` is membership. -/
theorem C55_find (l : List τ) (t : τ) (hl : l.length < 2 ^ 64) :
    (∀ i, (find l t = i ∧ i ≠ 18446744073709551615) ↔ (l[i]? = some t ∧ ∀ j, j < i → l[j]? ≠ some t)) ∧
    (find l t = 18446744073709551615 ↔ t ∉ l) ∧ (has l t = true ↔ t ∈ l) := by
  have hmax : 18446744073709551615 = npos := by decide
  rw [hmax]
  have lt : ∀ i, l[i]? = some t → i < npos := by
    intro i hi
    obtain ⟨h, _⟩ := List.getElem?_eq_some_iff.mp hi
    simp only [npos]; omega
  have key : (t ∉ l ∧ find l t = npos) ∨ ∃ i, find l t = i ∧ l[i]? = some t ∧ ∀ j, j < i → l[j]? ≠ some t := by
    rcases findFrom_spec t l 0 with h | ⟨i, h, h2⟩
    · exact Or.inl h
    · exact Or.inr ⟨i, by rw [find, h, Nat.zero_add], h2⟩
  have h2 : find l t = npos ↔ t ∉ l := by
    rcases key with ⟨hn, hf⟩ | ⟨i, hf, hi, _⟩
    · exact ⟨fun _ => hn, fun _ => hf⟩
    · have := lt i hi
      refine ⟨fun h => by omega, fun h => absurd (List.mem_of_getElem? hi) h⟩
  refine ⟨fun i => ?_, h2, ?_⟩
  · rcases key with ⟨hn, hf⟩ | ⟨k, hf, hk, hkj⟩
    · refine ⟨fun h => absurd (h.1 ▸ hf) h.2, fun h => absurd (List.mem_of_getElem? h.1) hn⟩
    · refine ⟨?_, ?_⟩
      · rintro ⟨h, _⟩; rw [← h, hf]; exact ⟨hk, hkj⟩
      · rintro ⟨h, hj⟩
        have : i = k := by
          rcases Nat.lt_trichotomy i k with h' | h' | h'
          · exact absurd h (hkj i h')
          · exact h'
          · exact absurd hk (hj k h')
        exact ⟨by rw [hf, this], Nat.ne_of_lt (lt i h)⟩
  · rw [has, bne_iff_ne, ne_eq, h2, not_not]

omit [DecidableEq τ] in
/-- `TypeListAt` is indexing; the compiler rejects exactly the indices out of range. -/
theorem C55_at (l : List τ) (i : Nat) : at' l i = l[i]? := by
  induction l generalizing i with
  | nil => cases i <;> rfl
  | cons t l ih =>
    cases i with
    | zero => rfl
    | succ i =>
      simp only [at', List.getElem?_cons_succ]
      split
      · exact ih i
      next h => rw [List.getElem?_eq_none (by omega)]

omit [DecidableEq τ] in
/-- Size and elements of the lists made by Append, Prepend, Concat and Transform; Instantiate passes the elements in order. -/
theorem C55_build (l m : List τ) (t : τ) {υ : Type} (f : τ → υ) :
    (size (append l t) = size l + 1 ∧ ∀ i, at' (append l t) i = if i = size l then some t else at' l i) ∧
    (size (prepend l t) = size l + 1 ∧ at' (prepend l t) 0 = some t ∧ ∀ i, at' (prepend l t) (i + 1) = at' l i) ∧
    (size (concat l m) = size l + size m ∧ ∀ i, at' (concat l m) i = if i < size l then at' l i else at' m (i - size l)) ∧
    (size (transform l f) = size l ∧ ∀ i, at' (transform l f) i = (at' l i).map f) ∧
    (empty l = true ↔ size l = 0) ∧ (∀ (C : Type) (cls : List τ → C), instantiate l cls = cls l) := by
  refine ⟨⟨by simp [size, append], fun i => ?_⟩, ⟨by simp [size, prepend], ?_, fun i => ?_⟩, ⟨by simp [size, concat], fun i => ?_⟩,
    ⟨by simp [size, transform], fun i => ?_⟩, by simp [empty], fun _ _ => rfl⟩
  · rw [C55_at, C55_at, append, List.getElem?_append]
    by_cases h : i = size l
    · simp [h, size]
    · rw [if_neg h]
      simp only [size] at h
      split
      · rfl
      · rw [List.getElem?_eq_none (by simp; omega), List.getElem?_eq_none (by omega)]
  · rw [C55_at]; rfl
  · rw [C55_at, C55_at]; rfl
  · rw [C55_at, C55_at, C55_at, concat, List.getElem?_append]; rfl
  · rw [C55_at, C55_at]; simp [transform]

theorem rebuildWithout_eq (types l : List τ) (r : τ) : rebuildWithout types r l = types ++ l.filter (fun t => t ≠ r) := by
  induction l generalizing types with
  | nil => simp [rebuildWithout]
  | cons t l ih =>
    rw [rebuildWithout, ih]
    by_cases h : t = r <;> simp [h]

/-- `TypeListRemove` removes all occurrences of the type and keeps the order of the others. -/
theorem C55_remove (l : List τ) (t : τ) : remove l t = l.filter (fun u => u ≠ t) ∧ t ∉ remove l t ∧ ∀ u, u ≠ t → (remove l t).count u = l.count u := by
  have h : remove l t = l.filter (fun u => u ≠ t) := by rw [remove, rebuildWithout_eq, List.nil_append]
  refine ⟨h, ?_, fun u hu => ?_⟩
  · rw [h]; simp
  · rw [h, List.count_filter (by simpa using hu)]

/-! ### Unique -/

/-- The elements that do not occur before. -/
def firstOccurrences (l : List τ) : List τ := (l.zipIdx.filter (fun p => p.1 ∉ l.take p.2)).map (·.1)

theorem uniqueOne_eq (types : List τ) (t : τ) (h : types.length < 2 ^ 64) : uniqueOne types t = if t ∈ types then types else types ++ [t] := by
  unfold uniqueOne
  have := (C55_find types t h).2.2
  by_cases ht : t ∈ types
  · rw [if_pos ht, this.mpr ht]; rfl
  · rw [if_neg ht]
    have : has types t = false := by
      cases hh : has types t with
      | false => rfl
      | true => exact absurd (this.mp hh) ht
    rw [this]; rfl

theorem uniqueOne_length (types : List τ) (t : τ) : (uniqueOne types t).length ≤ types.length + 1 := by
  unfold uniqueOne; split <;> simp

theorem uniqueFrom_eq (l types : List τ) (hne : l ≠ []) : uniqueFrom types l = some (l.foldl uniqueOne types) := by
  induction l generalizing types with
  | nil => exact absurd rfl hne
  | cons t l ih =>
    cases l with
    | nil => rfl
    | cons t2 l => rw [uniqueFrom, ih _ (by simp)]; rfl

theorem firstOccurrences_append (l : List τ) (t : τ) :
    firstOccurrences (l ++ [t]) = if t ∈ l then firstOccurrences l else firstOccurrences l ++ [t] := by
  unfold firstOccurrences
  rw [List.zipIdx_append, List.filter_append, List.map_append]
  have h1 : (l.zipIdx.filter (fun p => p.1 ∉ (l ++ [t]).take p.2)) = l.zipIdx.filter (fun p => p.1 ∉ l.take p.2) := by
    apply List.filter_congr
    intro p hp
    have : p.2 < l.length := by
      obtain ⟨a, i⟩ := p
      have := List.mem_zipIdx_iff_getElem?.mp hp
      exact (List.getElem?_eq_some_iff.mp this).1
    rw [List.take_append_of_le_length (by omega)]
  rw [h1]
  by_cases ht : t ∈ l
  · simp [List.zipIdx, ht]
  · simp [List.zipIdx, ht]

theorem foldl_uniqueOne (l : List τ) (hl : l.length < 2 ^ 64) : l.foldl uniqueOne [] = firstOccurrences l ∧ (∀ t, t ∈ firstOccurrences l ↔ t ∈ l) ∧
    (firstOccurrences l).Nodup ∧ (firstOccurrences l).length ≤ l.length := by
  induction l using List.reverseRecOn with
  | nil => exact ⟨rfl, by simp [firstOccurrences], by simp [firstOccurrences], by simp [firstOccurrences]⟩
  | append_singleton l t ih =>
    simp only [List.length_append, List.length_singleton] at hl
    obtain ⟨e, hm, hd, hle⟩ := ih (by omega)
    rw [List.foldl_append, e, firstOccurrences_append]
    simp only [List.foldl_cons, List.foldl_nil]
    rw [uniqueOne_eq _ _ (by omega)]
    by_cases ht : t ∈ l
    · simp only [hm, ht, if_true]
      refine ⟨trivial, fun u => ?_, hd, by simp; omega⟩
      simp; rintro rfl; exact ht
    · simp only [hm, ht, if_false]
      refine ⟨trivial, fun u => by simp [hm], ?_, by simp; omega⟩
      rw [List.nodup_append]
      refine ⟨hd, by simp, ?_⟩
      intro a ha b hb
      simp only [List.mem_singleton] at hb; subst hb
      rintro rfl; exact ht ((hm a).mp ha)

/-- `TypeListUnique` is accepted for every list and keeps the first occurrence of each type, in order. -/
theorem C55_unique (l : List τ) (hl : l.length < 2 ^ 64) :
    ∃ u, unique l = some u ∧ u = firstOccurrences l ∧ u.Nodup ∧ ∀ t, t ∈ u ↔ t ∈ l := by
  obtain ⟨e, hm, hd, _⟩ := foldl_uniqueOne l hl
  refine ⟨firstOccurrences l, ?_, rfl, hd, hm⟩
  cases l with
  | nil => rfl
  | cons t l => rw [unique, uniqueFrom_eq _ _ (by simp), e]

/-- A list without repetition is left as it is; so `TypeListUnique` is idempotent. -/
theorem C55_unique_nodup (l : List τ) (hl : l.length < 2 ^ 64) (hd : l.Nodup) : unique l = some l := by
  obtain ⟨u, e, hu, hx⟩ := C55_unique l hl
  rw [e, hu]
  congr 1
  clear e hx hu hl u
  induction l using List.reverseRecOn with
  | nil => rfl
  | append_singleton l t ih =>
    rw [List.nodup_append] at hd
    rw [firstOccurrences_append, if_neg (fun ht => hd.2.2 t ht t (by simp) rfl), ih hd.1]

/-! ### Apply -/

omit [DecidableEq τ] in
theorem apply_eq {A W : Type} (l : List τ) (functor : τ → Category → A → W → A × W) (cat : Category) (a : A) (w : W) :
    apply l functor cat a w = l.foldl (fun s t => functor t cat s.1 s.2) (a, w) := by
  have key : ∀ (l : List τ) (a : A) (w : W), listApply functor cat l a w = l.foldl (fun s t => functor t cat s.1 s.2) (a, w) := by
    intro l
    induction l with
    | nil => intros; rfl
    | cons t l ih =>
      intro a w
      simp only [listApply, List.foldl_cons]
      cases l with
      | nil => simp
      | cons u l => simp only [List.length_cons, Nat.zero_lt_succ, gt_iff_lt, if_true]; exact ih _ _
  unfold apply
  cases l with
  | nil => rfl
  | cons t l => simpa [empty, size] using key (t :: l) a w

/-- Functors that record their calls and take their parameter by value: an lvalue is copied, an rvalue is left as a move leaves it. -/
def recorder {A : Type} (movedFrom : A → A) (t : τ) (cat : Category) (a : A) (log : List (τ × A)) : A × List (τ × A) :=
  (match cat with | .lvalue => a | .rvalue => movedFrom a, log ++ [(t, a)])

omit [DecidableEq τ] in
/-- `TypeListApply` calls the functor of each type of the list once, in order, and passes an lvalue argument to each of them. -/
theorem C55_apply_partial {A : Type} (movedFrom : A → A) (l : List τ) (a : A) :
    apply l (recorder movedFrom) .lvalue a [] = (a, l.map (fun t => (t, a))) := by
  have key : ∀ (l : List τ) (log : List (τ × A)), l.foldl (fun s t => recorder movedFrom t .lvalue s.1 s.2) (a, log) = (a, log ++ l.map (fun t => (t, a))) := by
    intro l
    induction l with
    | nil => simp
    | cons t l ih => intro log; simp only [List.foldl_cons, recorder] at ih ⊢; rw [ih]; simp
  rw [apply_eq, key]; simp

omit [DecidableEq τ] in
/-- An rvalue argument is forwarded to every functor: the second and later ones get what the moves before left. -/
theorem C55_apply_violated {A : Type} (movedFrom : A → A) (t u : τ) (l : List τ) (a : A) (h : movedFrom a ≠ a) :
    ∃ log, (apply (t :: u :: l) (recorder movedFrom) .rvalue a []).2 = (t, a) :: (u, movedFrom a) :: log ∧ movedFrom a ≠ a := by
  have key : ∀ (l : List τ) (b : A) (log : List (τ × A)), ∃ log', (l.foldl (fun s t => recorder movedFrom t .rvalue s.1 s.2) (b, log)).2 = log ++ log' := by
    intro l
    induction l with
    | nil => intro b log; exact ⟨[], by simp⟩
    | cons t l ih =>
      intro b log
      simp only [List.foldl_cons, recorder] at ih ⊢
      obtain ⟨log', e⟩ := ih (movedFrom b) (log ++ [(t, b)])
      exact ⟨(t, b) :: log', by rw [e]; simp⟩
  obtain ⟨log', e⟩ := key l (movedFrom (movedFrom a)) [(t, a), (u, movedFrom a)]
  refine ⟨log', ?_, h⟩
  rw [apply_eq]
  simpa [recorder] using e

/-! ## The hypotheses are met -/

example : unique [1, 2, 1, 3, 2] = some [1, 2, 3] ∧ firstOccurrences [1, 2, 1, 3, 2] = [1, 2, 3] ∧ remove [1, 2, 1, 3] 1 = [2, 3] ∧
    find [4, 5, 6, 5] 5 = 1 ∧ has [4, 5] 6 = false ∧ at' [4, 5] 2 = none := by decide

example : [1, 2, 3].length < 2 ^ 64 ∧ [1, 2, 3].Nodup ∧ (fun (_ : Nat) => 0) 5 ≠ 5 := by decide

end Verif.TypeList
