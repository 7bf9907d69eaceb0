import Verif.FixedVector.LemmasThrow

/-!
# C25-C28, C62: `FixedVector` and `HybridVector`
-/

namespace Verif.FixedVector
open Verif.Cpp

variable {α : Type} {K : Cfg α}

/-- The vectors of the examples: capacity 3, with a fallback, of numbers that become 0 when moved from. -/
def exK : Cfg Nat := ⟨3, true, 0, fun _ => 0⟩
/-- The same without a fallback. -/
def exF : Cfg Nat := ⟨3, false, 0, fun _ => 0⟩

/-! ### C25, C26 -/

/-- C25: every allowed history on a new vector runs without failure, every call returns the index it should, and the observers then show the
sequence on which the same operations were done. -/
theorem C25_history (K : Cfg α) (ops : List (Op α)) (h : okAll K.capacity K.hasFallback ops []) :
    ∃ s, runAll K ops ⟨empty K, none⟩ = .done s (specAll ops []).2 ∧ Shows K s (specAll ops []).1 := by
  obtain ⟨s, e, r⟩ := runAll_repr ops (repr_empty K none) h
  exact ⟨s, e, shows_repr r⟩

/-- A history that inserts in the middle, grows into the fallback, shrinks and erases a range. -/
example : okAll exK.capacity exK.hasFallback
    [.pushBack 1, .pushBack 2, .emplace 1 3, .emplace 0 4, .erase 2, .resize 7 9, .eraseRange 1 4, .popBack, .assignAt 0 5, .clear, .reserve 8,
     .pushBack 6] [] := by
  simp only [okAll, Op.ok, Op.spec, exK]
  decide

/-- C25: the same for any vector of the program (made by constructors, copies, moves and calls). -/
theorem C25_reachable {s : St α} {l : List α} (hs : Reachable K s l) (ops : List (Op α)) (h : okAll K.capacity K.hasFallback ops l) :
    Shows K s l ∧ ∃ s', runAll K ops s = .done s' (specAll ops l).2 ∧ Shows K s' (specAll ops l).1 ∧ Reachable K s' (specAll ops l).1 := by
  obtain ⟨s', e, r⟩ := runAll_repr ops hs.repr h
  exact ⟨shows_repr hs.repr, s', e, shows_repr r, hs.runAll h e⟩

/-- C25: the constructors from a count and a value, and from a range. -/
theorem C25_constructors (K : Cfg α) (vs : List α) (n : Nat) (v : α) :
    ((K.hasFallback = true ∨ n ≤ K.capacity) → ∃ s, ofSize K n v ⟨empty K, none⟩ = .done s () ∧ Shows K s (List.replicate n v)) ∧
    ((K.hasFallback = true ∨ vs.length ≤ K.capacity) → ∃ s, emplaceAll K vs ⟨empty K, none⟩ = .done s () ∧ Shows K s vs) := by
  constructor
  · intro h
    obtain ⟨s, e, r⟩ := resize_repr n v (repr_empty K none) h
    simp only [List.take_nil, List.length_nil, Nat.sub_zero, List.nil_append] at r
    exact ⟨s, e, shows_repr r⟩
  · intro h
    have key : ∀ (vs : List α) (s : St α) (l : List α), Repr K s l none → (K.hasFallback = true ∨ l.length + vs.length ≤ K.capacity) →
        ∃ s', emplaceAll K vs s = .done s' () ∧ Repr K s' (l ++ vs) none := by
      intro vs
      induction vs with
      | nil => intro s l hr _; exact ⟨s, rfl, by simpa using hr⟩
      | cons v vs ih =>
        intro s l hr hc
        obtain ⟨s1, e1, r1⟩ := emplaceBack_repr v hr (by
          rcases hc with h | h
          · exact .inl h
          · simp only [List.length_cons] at h; exact .inr (by omega))
        obtain ⟨s2, e2, r2⟩ := ih s1 (l ++ [v]) r1 (by
          rcases hc with h | h
          · exact .inl h
          · simp only [List.length_cons] at h; simp only [List.length_append, List.length_singleton]; exact .inr (by omega))
        refine ⟨s2, by rw [emplaceAll, X.bind_done e1]; exact e2, by simpa using r2⟩
    obtain ⟨s, e, r⟩ := key vs _ [] (repr_empty K none) (by simpa using h)
    exact ⟨s, e, shows_repr (by simpa using r)⟩

/-- C25: without a fallback a call that would exceed the capacity fails its assertion and positions out of range always do. -/
theorem C25_out_of_range {s : St α} {l : List α} (hs : Reachable K s l) (v : α) (i : Nat) :
    ((K.hasFallback = false ∧ l.length = K.capacity) →
      emplaceBack K (.value v) s = .fail .assert ∧ (i ≤ l.length → emplace K i (.value v) s = .fail .assert)) ∧
    (l.length < i → emplace K i (.value v) s = .fail .assert) ∧ (l.length ≤ i → erase K i s = .fail .assert) ∧
    (K.hasFallback = false ∧ l = [] → popBack K s = .fail .assert) := by
  have hr := hs.repr
  have hsz := size_repr hr
  refine ⟨?_, ?_, ?_, ?_⟩
  · rintro ⟨hF, hl⟩
    rcases hr with ⟨rfl, _⟩ | ⟨_, h⟩
    · have hc : checkFallbackOnGrow K (inl K l none) = .done (inl K l none) false := by simp [checkFallbackOnGrow, hF]
      have hn : ¬ l.length < K.capacity := by omega
      constructor
      · rw [emplaceBack, X.bind_done hc]
        simp only [Bool.false_eq_true, if_false]
        rw [X.bind_done (mSize_inl _ _)]
        simp [hn, X.bind_run]
      · intro hi
        rw [emplace, X.bind_done hsz]
        simp only [hi, decide_true, X.assert_true, X.pure_bind']
        rw [X.bind_done hc]
        simp only [Bool.false_eq_true, if_false]
        rw [X.bind_done (mSize_inl _ _)]
        simp [hn, X.bind_run]
    · rw [h] at hF; simp at hF
  · intro hi
    rw [emplace, X.bind_done hsz]
    simp [Nat.not_le.mpr hi, X.bind_run]
  · intro hi
    rw [erase, X.bind_done hsz]
    simp [Nat.not_lt.mpr hi, X.bind_run]
  · rintro ⟨hF, rfl⟩
    rcases hr with ⟨rfl, _⟩ | ⟨_, h⟩
    · rw [popBack, X.bind_done (using_inl _ _)]
      simp only [Bool.false_eq_true, if_false]
      rw [X.bind_done (isEmpty_repr (.inl ⟨rfl, by simp⟩ : Repr K (inl K [] none) [] none))]
      simp [X.bind_run]
    · rw [h] at hF; simp at hF

/-- C26: in every allowed history no object is used outside its lifetime (the history does not fail), exactly `size()` elements are alive
afterwards, and the destructor succeeds and leaves none. -/
theorem C26_lifetimes (K : Cfg α) (ops : List (Op α)) (h : okAll K.capacity K.hasFallback ops []) :
    ∃ s s', runAll K ops ⟨empty K, none⟩ = .done s (specAll ops []).2 ∧ size K s = .done s (living s) ∧
      destructor K s = .done s' () ∧ living s' = 0 := by
  obtain ⟨s, e, r⟩ := runAll_repr ops (repr_empty K none) h
  obtain ⟨s', e', h'⟩ := destructor_repr r
  exact ⟨s, s', e, by rw [living_repr r, size_repr r], e', h'⟩

/-- C26: the same for every vector of the program. -/
theorem C26_reachable {s : St α} {l : List α} (hs : Reachable K s l) :
    size K s = .done s (living s) ∧ ∃ s', destructor K s = .done s' () ∧ living s' = 0 := by
  obtain ⟨s', e', h'⟩ := destructor_repr hs.repr
  exact ⟨by rw [living_repr hs.repr, size_repr hs.repr], s', e', h'⟩

/-- The model notices lifetime errors: destroying an element that was destroyed before is an error, as is constructing one over a living one. -/
example : Slots.destroy [some 1, none] 1 = .error .ub ∧ Slots.create [some 1, none] 0 2 = .error .ub ∧
    Slots.read [some 1, none] 1 = .error .ub := by decide

/-! ### C27 -/

/-- C27: copy construction. -/
theorem C27_copyConstruct {t : St α} {m : List α} (ht : Reachable K t m) (raw : Vec α) :
    ∃ s', copyConstruct K t.vec ⟨raw, none⟩ = .done s' () ∧ Shows K s' m ∧ Reachable K s' m := by
  obtain ⟨s', e, r⟩ := copyConstruct_repr ht.repr raw
  exact ⟨s', e, shows_repr r, ht.copyConstruct e⟩

/-- C27: copy assignment.  Missing: the assignment of a vector that uses its fallback to a non-empty one that does not. -/
theorem C27_copyAssign_partial {s t : St α} {l m : List α} (hs : Reachable K s l) (ht : Reachable K t m)
    (hg : t.vec.usesFallback K = true → s.vec.usesFallback K = true ∨ l = []) :
    ∃ s', copyAssign K t.vec s = .done s' () ∧ Shows K s' m ∧ size K s' = .done s' (living s') ∧ Reachable K s' m := by
  obtain ⟨s', e, r⟩ := copyAssign_repr hs.repr ht.repr hg
  exact ⟨s', e, shows_repr r, by rw [living_repr r, size_repr r], hs.copyAssign ht hg e⟩

/-- C27: move construction: the new vector has the former contents, and both vectors are destroyed without leak. -/
theorem C27_moveConstruct {t : St α} {m : List α} (ht : Reachable K t m) (raw : Vec α) :
    ∃ s' v', moveConstruct K (⟨raw, none⟩, t.vec) = .done (s', v') () ∧ Shows K s' m ∧ Reachable K s' m ∧
      (∃ d, destructor K s' = .done d () ∧ living d = 0) ∧ ∃ d, destructor K ⟨v', none⟩ = .done d () ∧ living d = 0 := by
  obtain ⟨s', v', e, r, r'⟩ := moveConstruct_repr ht.repr raw
  exact ⟨s', v', e, shows_repr r, ht.moveConstruct e, destructor_repr r, destructor_repr r'⟩

/-- C27: move assignment, with the same restriction as copy assignment. -/
theorem C27_moveAssign_partial {s t : St α} {l m : List α} (hs : Reachable K s l) (ht : Reachable K t m)
    (hg : t.vec.usesFallback K = true → s.vec.usesFallback K = true ∨ l = []) :
    ∃ s' v', moveAssign K (s, t.vec) = .done (s', v') () ∧ Shows K s' m ∧ Reachable K s' m ∧
      (∃ d, destructor K s' = .done d () ∧ living d = 0) ∧ ∃ d, destructor K ⟨v', none⟩ = .done d () ∧ living d = 0 := by
  obtain ⟨s', v', e, r, r'⟩ := moveAssign_repr hs.repr ht.repr hg
  exact ⟨s', v', e, shows_repr r, hs.moveAssign ht hg e, destructor_repr r, destructor_repr r'⟩

/-- C27: the moved-from vector can be used again; it is empty if the fallback was used, else it keeps its size (of moved-from elements). -/
theorem C27_moved_from {t s' : St α} {v' raw : Vec α} {m : List α} (ht : Reachable K t m)
    (e : moveConstruct K (⟨raw, none⟩, t.vec) = .done (s', v') ()) :
    Reachable K ⟨v', none⟩ (if t.vec.usesFallback K then [] else m.map K.mv) :=
  ht.moveConstructSource e

/-- A source that uses the fallback, a target that does not. -/
example : (∃ t, Reachable exK t [7, 7, 7, 7] ∧ t.vec.usesFallback exK = true) ∧ ∃ s, Reachable exK s [5] ∧ s.vec.usesFallback exK = false := by
  refine ⟨⟨⟨⟨none, [none, none, none], [7, 7, 7, 7]⟩, none⟩, ?_, rfl⟩, ⟨⟨⟨some 1, [some 5, none, none], []⟩, none⟩, ?_, rfl⟩⟩
  · exact (Reachable.new (K := exK)).call (o := .resize 4 7) (.inl rfl) (r := none) (by decide)
  · exact (Reachable.new (K := exK)).call (o := .pushBack 5) (.inl rfl) (r := some 0) (by decide)

/-- C27 is false of the assignments excluded above: all elements of the target leak. -/
theorem C27_leak_violated {s t : St α} {l m : List α} (hs : Reachable K s l) (ht : Reachable K t m)
    (h1 : t.vec.usesFallback K = true) (h2 : s.vec.usesFallback K = false) :
    (∃ s' d, copyAssign K t.vec s = .done s' () ∧ destructor K s' = .done d () ∧ living d = l.length) ∧
    ∃ s' v' d, moveAssign K (s, t.vec) = .done (s', v') () ∧ destructor K s' = .done d () ∧ living d = l.length := by
  rcases ht.repr with ⟨rfl, _⟩ | ⟨rfl, hF⟩
  · rw [usesFallback_inl] at h1; simp at h1
  · rcases hs.repr with ⟨rfl, hl⟩ | ⟨rfl, _⟩
    · obtain ⟨d, e, hd⟩ := destructor_leak (m := m) hF hl
      exact ⟨⟨_, d, copyAssign_leak hF, e, hd⟩, _, _, d, moveAssign_leak hF, e, hd⟩
    · rw [usesFallback_fb hF] at h2; simp at h2

/-- C27: self copy assignment of a vector that uses its fallback changes nothing. -/
theorem C27_self_partial {s : St α} {l : List α} (hs : Reachable K s l) (h : s.vec.usesFallback K = true) :
    copyAssignSelf K s = .done s () := by
  rcases hs.repr with ⟨rfl, _⟩ | ⟨rfl, hF⟩
  · rw [usesFallback_inl] at h; simp at h
  · rw [copyAssignSelf, X.bind_done (using_fb hF _ _)]; rfl

/-- C27 is false of self-assignment of a vector that does not use its fallback: it loses all its elements. -/
theorem C27_self_violated {s : St α} {l : List α} (hs : Reachable K s l) (h : s.vec.usesFallback K = false) :
    (∃ s', copyAssignSelf K s = .done s' () ∧ Shows K s' []) ∧ ∃ s', moveAssignSelf K s = .done s' () ∧ Shows K s' [] := by
  rcases hs.repr with ⟨rfl, hl⟩ | ⟨rfl, hF⟩
  · have hr : Repr K (inl K [] none) [] none := .inl ⟨rfl, by simp⟩
    obtain ⟨s2, e2, r2⟩ := reserve_repr 0 hr (.inr (by simp))
    refine ⟨⟨s2, ?_, shows_repr r2⟩, ⟨s2, ?_, shows_repr r2⟩⟩
    · rw [copyAssignSelf, X.bind_done (using_inl _ _)]
      simp only [Bool.false_eq_true, if_false]
      rw [X.bind_done (clear_inl hl), X.bind_done (size_repr hr)]
      simp only [List.length_nil]
      rw [X.bind_done e2]; rfl
    · rw [moveAssignSelf, X.bind_done (using_inl _ _)]
      simp only [Bool.false_eq_true, if_false]
      rw [X.bind_done (clear_inl hl), X.bind_done (size_repr hr)]
      simp only [List.length_nil]
      rw [X.bind_done e2]; rfl
  · rw [usesFallback_fb hF] at h; simp at h

/-! ### C28 -/

/-- The vector `s` with the oracle that lets the construction after the next `k` ones throw. -/
def throwing (s : St α) (k : Nat) : St α := ⟨s.vec, some k⟩

/-- C28 for `emplace_back`, `push_back` and `emplace` if the element goes to the fallback: the exception leaves the contents as they were.
Missing: elements constructed in the inline storage. -/
theorem C28_fallback_partial {s : St α} {l : List α} (hs : Reachable K s l) (v : α) (i : Nat) (hi : i ≤ l.length)
    (h : K.hasFallback = true ∧ (s.vec.usesFallback K = true ∨ l.length = K.capacity)) :
    (∃ s', emplaceBack K (.value v) (throwing s 0) = .thrown s' ∧ Shows K s' l ∧ ∃ d, destructor K s' = .done d () ∧ living d = 0) ∧
    ∃ s', emplace K i (.value v) (throwing s 0) = .thrown s' ∧ Shows K s' l ∧ ∃ d, destructor K s' = .done d () ∧ living d = 0 := by
  have hc : checkFallbackOnGrow K (throwing s 0) = .done (fb K l (some 0)) true ∧ size K (throwing s 0) = .done (throwing s 0) l.length := by
    rcases hs.repr with ⟨rfl, hl⟩ | ⟨rfl, hF⟩
    · rcases h.2 with h' | h'
      · rw [usesFallback_inl] at h'; simp at h'
      · exact ⟨check_full h.1 h', size_inl l (some 0)⟩
    · refine ⟨?_, size_fb hF l (some 0)⟩
      show checkFallbackOnGrow K (fb K l (some 0)) = _
      unfold checkFallbackOnGrow
      simp only [hF, if_true]
      rw [X.bind_done (using_fb hF _ _)]
      rfl
  have ht : ∀ j, j ≤ l.length → emplaceInFallback j (.value v) (fb K l (some 0)) = .thrown (fb K l none) := by
    intro j hj
    rw [emplaceInFallback, X.bind_done (getFallback_fb _ _)]
    simp only [hj, decide_true, X.guardUB_true, X.pure_bind', Arg.read]
    exact X.bind_thrown rfl
  have hr : Repr K (fb K l none) l none := .inr ⟨rfl, h.1⟩
  refine ⟨⟨fb K l none, ?_, shows_repr hr, destructor_repr hr⟩, ⟨fb K l none, ?_, shows_repr hr, destructor_repr hr⟩⟩
  · rw [emplaceBack, X.bind_done hc.1]
    simp only [if_true]
    rw [X.bind_done (getFallback_fb _ _)]
    exact X.bind_thrown (ht _ (Nat.le_refl _))
  · rw [emplace, X.bind_done hc.2]
    simp only [hi, decide_true, X.assert_true, X.pure_bind']
    rw [X.bind_done hc.1]
    simp only [if_true]
    exact X.bind_thrown (ht _ hi)

/-- C28 for `resize`: whichever construction throws, the vector shows its former contents and its destructor is safe. -/
theorem C28_resize {s : St α} {l : List α} (hs : Reachable K s l) (n : Nat) (v : α) (hok : K.hasFallback = true ∨ n ≤ K.capacity)
    (k : Nat) (hk : k < n - l.length) :
    ∃ s', resize K n (.value v) (throwing s k) = .thrown s' ∧ Shows K s' l ∧ ∃ d, destructor K s' = .done d () := by
  rcases hs.repr with ⟨rfl, hl⟩ | ⟨rfl, hF⟩
  · by_cases hn : n ≤ K.capacity
    · have hcap : (l ++ List.replicate k v).length ≤ K.capacity := by simp; omega
      obtain ⟨d, e, _⟩ := overfull_destructor hcap
      exact ⟨_, resize_throw_inl hn hk, overfull_shows hcap, d, e⟩
    · have hF : K.hasFallback = true := hok.resolve_right hn
      have hr : Repr K (fb K l none) l none := .inr ⟨rfl, hF⟩
      obtain ⟨d, e, _⟩ := destructor_repr hr
      refine ⟨fb K l none, ?_, shows_repr hr, d, e⟩
      show resize K n (.value v) (inl K l (some k)) = _
      rw [resize, X.bind_done (using_inl _ _)]
      have : n > K.capacity := by omega
      simp only [Bool.false_eq_true, if_false, hF, this, decide_true, Bool.and_true, if_true]
      rw [X.bind_done (moveStorage_inl hl)]
      exact resizeFallback_throw hk
  · have hr : Repr K (fb K l none) l none := .inr ⟨rfl, hF⟩
    obtain ⟨d, e, _⟩ := destructor_repr hr
    refine ⟨fb K l none, ?_, shows_repr hr, d, e⟩
    show resize K n (.value v) (fb K l (some k)) = _
    rw [resize, X.bind_done (using_fb hF _ _)]
    simp only [if_true]
    exact resizeFallback_throw hk

/-- ... but in the inline storage the `k` elements constructed before the exception are never destroyed. -/
theorem C28_resize_leak_violated {s : St α} {l : List α} (hs : Reachable K s l) (h : s.vec.usesFallback K = false) (n : Nat) (v : α)
    (hn : n ≤ K.capacity) (k : Nat) (hk : k < n - l.length) :
    ∃ s' d, resize K n (.value v) (throwing s k) = .thrown s' ∧ destructor K s' = .done d () ∧ living d = k := by
  rcases hs.repr with ⟨rfl, hl⟩ | ⟨rfl, hF⟩
  · have hcap : (l ++ List.replicate k v).length ≤ K.capacity := by simp; omega
    obtain ⟨d, e, hd⟩ := overfull_destructor hcap
    exact ⟨_, d, resize_throw_inl hn hk, e, by rw [hd]; simp⟩
  · rw [usesFallback_fb hF] at h; simp at h

/-- C28 is false of `emplace_back`, `push_back` and `emplace` on the inline storage: the place of the element that was not constructed is counted
in the size, and the destructor destroys it. -/
theorem C28_inline_violated {s : St α} {l : List α} (hs : Reachable K s l) (h : s.vec.usesFallback K = false)
    (hroom : l.length < K.capacity) (v : α) (i : Nat) (hi : i ≤ l.length) :
    (∃ s', emplaceBack K (.value v) (throwing s 0) = .thrown s' ∧ size K s' = .done s' (l.length + 1) ∧ destructor K s' = .fail .ub) ∧
    ∃ s', emplace K i (.value v) (throwing s 0) = .thrown s' ∧ size K s' = .done s' (l.length + 1) ∧ destructor K s' = .fail .ub := by
  have hsz : ∀ j, size K (hole K l j none) = .done (hole K l j none) (l.length + 1) := by
    intro j; simp [size, hole, isUsingFallback, mSize, X.bind_run]
  rcases hs.repr with ⟨rfl, hl⟩ | ⟨rfl, hF⟩
  · refine ⟨⟨hole K l l.length none, ?_, hsz _, hole_destructor hroom (Nat.le_refl _)⟩, ⟨hole K l i none, ?_, hsz _, hole_destructor hroom hi⟩⟩
    · show emplaceBack K (.value v) (inl K l (some 0)) = _
      rw [emplaceBack_pre hroom]
      exact X.bind_thrown construct_throw
    · show emplace K i (.value v) (inl K l (some 0)) = _
      rw [emplace_pre hroom hi]
      exact X.bind_thrown construct_throw
  · rw [usesFallback_fb hF] at h; simp at h

/-! ### C62 -/

/-- C62: an argument that is an element of the vector, while the inline storage is used and has room: `push_back(v[i])`, `emplace(index, v[i])` for an
element before the position, `resize(n, v[i])`.  Missing: growth to the fallback, and emplacement of an element at or after the position. -/
theorem C62_alias_partial {s : St α} {l : List α} (hs : Reachable K s l) (h : s.vec.usesFallback K = false) (i : Nat) (hi : i < l.length) :
    (l.length < K.capacity → ∃ s', emplaceBack K (.slot i) s = .done s' l.length ∧ Shows K s' (l ++ [l[i]])) ∧
    (∀ index, l.length < K.capacity → index ≤ l.length → i < index →
      ∃ s', emplace K index (.slot i) s = .done s' index ∧ Shows K s' (l.take index ++ l[i] :: l.drop index)) ∧
    (∀ n, n ≤ K.capacity → ∃ s', resize K n (.slot i) s = .done s' () ∧ Shows K s' (l.take n ++ List.replicate (n - l.length) l[i])) := by
  rcases hs.repr with ⟨rfl, hl⟩ | ⟨rfl, hF⟩
  · refine ⟨?_, ?_, ?_⟩
    · intro hroom
      refine ⟨inl K (l.insertIdx l.length l[i]) none, ?_, ?_⟩
      · rw [emplaceBack_pre hroom, X.bind_run, construct_slot (hole_read_lt hroom hi (Nat.le_refl _))]
        exact hole_construct hroom (Nat.le_refl _)
      · rw [List.insertIdx_length_self]
        exact shows_repr (.inl ⟨rfl, by simp; omega⟩)
    · intro index hroom hidx hlt
      refine ⟨inl K (l.insertIdx index l[i]) none, ?_, ?_⟩
      · rw [emplace_pre hroom hidx, X.bind_run, construct_slot (hole_read_lt hroom hlt hidx)]
        exact hole_construct hroom hidx
      · rw [← insertIdx_eq hidx]
        exact shows_repr (.inl ⟨rfl, by rw [List.length_insertIdx_of_le_length hidx]; omega⟩)
    · intro n hn
      have hrepr : Repr K (inl K l none) l none := .inl ⟨rfl, hl⟩
      obtain ⟨s', e, r⟩ := resize_repr n l[i] hrepr (.inr hn)
      refine ⟨s', ?_, shows_repr r⟩
      rw [← e]
      have hnot : ¬ n > K.capacity := by omega
      rw [resize, X.bind_done (using_inl _ _), resize, X.bind_done (using_inl _ _)]
      simp only [Bool.false_eq_true, if_false, hnot, decide_false, Bool.and_false]
      rw [resizeInline, resizeInline]
      simp only [hn, decide_true, X.assert_true, X.pure_bind']
      rw [X.bind_done (mSize_inl _ _), X.bind_done (mSize_inl _ _)]
      by_cases hgt : n > l.length
      · simp only [hgt, if_true, X.bind_run]
        have key : ∀ a : Arg α, (∀ j, j < n - l.length → a.read (⟨⟨some l.length, Slots.ofList K.capacity (l ++ List.replicate j l[i]), []⟩, none⟩ : St α)
            = .done ⟨⟨some l.length, Slots.ofList K.capacity (l ++ List.replicate j l[i]), []⟩, none⟩ l[i]) →
            X.forUp l.length (n - l.length) (fun q => construct q a) (inl K l none) =
            .done (⟨⟨some l.length, Slots.ofList K.capacity (l ++ List.replicate (n - l.length) l[i]), []⟩, none⟩ : St α) () := by
          intro a ha
          have := X.forUp_done (lo := l.length) (n := n - l.length) (f := fun q => construct q a)
            (fun k => (⟨⟨some l.length, Slots.ofList K.capacity (l ++ List.replicate k l[i]), []⟩, none⟩ : St α)) (by
              intro k hk
              rw [construct, X.bind_done (ha k hk)]
              exact construct_run (ofList_replicate (by omega)))
          simpa [inl] using this
        rw [key (.slot i) (by
          intro j hj
          refine ofData_run (f := (Slots.read · i)) ?_
          have := read_ofList (n := K.capacity) (l := l ++ List.replicate j l[i]) (i := i) (by simp; omega) (by simp; omega)
          rwa [List.getElem_append_left hi] at this), key (.value l[i]) (fun _ _ => rfl)]
      · simp only [hgt, if_false]
  · rw [usesFallback_fb hF] at h; simp at h

/-- A vector with room, and a full one that would move to the fallback. -/
example : (∃ s, Reachable exK s [7, 7] ∧ s.vec.usesFallback exK = false) ∧ ∃ s, Reachable exK s [7, 7, 7] ∧ s.vec.usesFallback exK = false := by
  refine ⟨⟨⟨⟨some 2, [some 7, some 7, none], []⟩, none⟩, ?_, rfl⟩, ⟨⟨⟨some 3, [some 7, some 7, some 7], []⟩, none⟩, ?_, rfl⟩⟩
  · exact (Reachable.new (K := exK)).call (o := .resize 2 7) (.inl rfl) (r := none) (by decide)
  · exact (Reachable.new (K := exK)).call (o := .resize 3 7) (.inl rfl) (r := none) (by decide)

/-- C62 is false if the call makes a full vector move to its fallback: the element is read after its destruction. -/
theorem C62_growth_violated {s : St α} {l : List α} (hs : Reachable K s l) (h : s.vec.usesFallback K = false) (hF : K.hasFallback = true)
    (i : Nat) (hi : i < l.length) :
    (l.length = K.capacity → emplaceBack K (.slot i) s = .fail .ub ∧ ∀ index, index ≤ l.length → emplace K index (.slot i) s = .fail .ub) ∧
    ∀ n, K.capacity < n → resize K n (.slot i) s = .fail .ub := by
  rcases hs.repr with ⟨rfl, hl⟩ | ⟨rfl, hF⟩
  · have hrd : Arg.read (.slot i) (fb K l none) = .fail .ub := by
      have : i < K.capacity := by omega
      simp [Arg.read, ofData, fb, Slots.ofList, Slots.read, Slots.mk_get this]
    have he : ∀ j, j ≤ l.length → emplaceInFallback j (.slot i) (fb K l none) = .fail .ub := by
      intro j hj
      rw [emplaceInFallback, X.bind_done (getFallback_fb _ _)]
      simp only [hj, decide_true, X.guardUB_true, X.pure_bind']
      exact X.bind_fail hrd
    refine ⟨fun hfull => ⟨?_, ?_⟩, ?_⟩
    · rw [emplaceBack, X.bind_done (check_full hF hfull)]
      simp only [if_true]
      rw [X.bind_done (getFallback_fb _ _)]
      exact X.bind_fail (he _ (Nat.le_refl _))
    · intro index hidx
      rw [emplace, X.bind_done (size_inl _ _)]
      simp only [hidx, decide_true, X.assert_true, X.pure_bind']
      rw [X.bind_done (check_full hF hfull)]
      simp only [if_true]
      exact X.bind_fail (he _ hidx)
    · intro n hn
      rw [resize, X.bind_done (using_inl _ _)]
      simp only [Bool.false_eq_true, if_false, hF, gt_iff_lt, hn, decide_true, Bool.and_true, if_true]
      rw [X.bind_done (moveStorage_inl hl), resizeFallback, X.bind_done (getFallback_fb _ _)]
      exact X.bind_fail hrd
  · rw [usesFallback_fb hF] at h; simp at h

/-- C62 is false of the emplacement (`insert`) of an element at or after the position: the element at the position is used after its destruction,
and of a later element its predecessor is inserted. -/
theorem C62_emplace_violated {s : St α} {l : List α} (hs : Reachable K s l) (h : s.vec.usesFallback K = false) (hroom : l.length < K.capacity)
    (index : Nat) (hidx : index < l.length) :
    emplace K index (.slot index) s = .fail .ub ∧
    ∀ i (hi : i < l.length), index < i → ∃ s', emplace K index (.slot i) s = .done s' index ∧
      Shows K s' (l.take index ++ l[i - 1] :: l.drop index) := by
  rcases hs.repr with ⟨rfl, hl⟩ | ⟨rfl, hF⟩
  · refine ⟨?_, ?_⟩
    · rw [emplace_pre hroom (by omega)]
      exact X.bind_fail (construct_slot_ub (hole_read_eq hroom (by omega)))
    · intro i hi hlt
      refine ⟨inl K (l.insertIdx index l[i - 1]) none, ?_, ?_⟩
      · rw [emplace_pre hroom (by omega), X.bind_run, construct_slot (hole_read_gt hroom hlt hi)]
        exact hole_construct hroom (by omega)
      · rw [← insertIdx_eq (by omega)]
        exact shows_repr (.inl ⟨rfl, by rw [List.length_insertIdx_of_le_length (by omega)]; omega⟩)
  · rw [usesFallback_fb hF] at h; simp at h

end Verif.FixedVector
