import Verif.FixedVector.Props

/-!
# C99: what `push_back(std::move(x))` and move assignment do to their source
-/

namespace Verif.FixedVector
open Verif.Cpp

variable {α : Type} {K : Cfg α}

/-- Both overloads of `push_back` leave the same vector. -/
theorem pushBackMove_state {s s' : St α} {l : List α} {v w : α} (hs : Reachable K s l) (hok : K.hasFallback = true ∨ l.length < K.capacity)
    (e : pushBackMove K v s = .done s' w) : emplaceBack K (.value v) s = .done s' l.length := by
  obtain ⟨s1, e1, r1, u1⟩ := pushBackMove_repr v hs.repr hok
  rw [e1] at e
  cases e
  rcases check_repr hs.repr with ⟨e2, hs2, hc⟩ | ⟨e2, hF⟩
  · have hl : l.length < K.capacity := by
      rcases hok with h | h
      · rcases hc with h' | h'
        · exact h'
        · rw [h] at h'; exact absurd h' (by simp)
      · exact h
    rw [hs2, emplaceBack_inl hl]
    rw [hs2, usesFallback_inl, show decide (K.capacity ≤ l.length) = false by simpa using hl] at u1
    rcases r1 with ⟨r1, _⟩ | ⟨r1, hF⟩
    · rw [r1]
    · rw [r1, usesFallback_fb hF] at u1; simp at u1
  · rw [emplaceBack, X.bind_done e2]
    simp only [if_true]
    rw [X.bind_done (getFallback_fb _ _), X.bind_done (emplaceInFallback_fb (Nat.le_refl _))]
    rw [pushBackMove, X.bind_done e2] at e1
    simp only [if_true] at e1
    rw [X.bind_done (getFallback_fb _ _), X.bind_done (emplaceInFallback_fb (Nat.le_refl _))] at e1
    simp only [X.pure_run, Out.done.injEq] at e1
    rw [← e1.1]
    rfl

/-- C99: `push_back(std::move(x))` appends the value `x` had, wherever it goes, and leaves the vector `push_back(x)` would leave. -/
theorem C99_push_back {s : St α} {l : List α} (hs : Reachable K s l) (hok : K.hasFallback = true ∨ l.length < K.capacity) (v : α) :
    ∃ s' left, pushBackMove K v s = .done s' left ∧ emplaceBack K (.value v) s = .done s' l.length ∧ Shows K s' (l ++ [v]) ∧ Reachable K s' (l ++ [v]) := by
  obtain ⟨s', e, r, _⟩ := pushBackMove_repr v hs.repr hok
  have e2 := pushBackMove_state hs hok e
  have hc : Reachable K s' (Op.spec (.pushBack v) l).1 := hs.call (o := .pushBack v) (r := some l.length) hok (by
    simp only [Op.run]
    rw [X.bind_done e2]
    rfl)
  exact ⟨s', _, e, e2, shows_repr r, hc⟩

/-- C99: if the element goes to the inline storage, `x` is moved from.  Missing: elements that go to the fallback. -/
theorem C99_moves_partial {s : St α} {l : List α} (hs : Reachable K s l) (v : α)
    (h : s.vec.usesFallback K = false) (hroom : l.length < K.capacity) :
    ∃ s', pushBackMove K v s = .done s' (K.mv v) ∧ Shows K s' (l ++ [v]) := by
  obtain ⟨s', e, r, u⟩ := pushBackMove_repr v hs.repr (.inr hroom)
  have hu : s'.vec.usesFallback K = false := by
    rw [u, h, show decide (K.capacity ≤ l.length) = false by simpa using hroom]
    simp
  rw [hu] at e
  exact ⟨s', e, shows_repr r⟩

/-- C99 is false of the elements that go to the fallback: `x` is copied, and keeps its value. -/
theorem C99_copies_violated {s : St α} {l : List α} (hs : Reachable K s l) (v : α) (hF : K.hasFallback = true)
    (h : s.vec.usesFallback K = true ∨ l.length = K.capacity) :
    ∃ s', pushBackMove K v s = .done s' v ∧ Shows K s' (l ++ [v]) := by
  obtain ⟨s', e, r, u⟩ := pushBackMove_repr v hs.repr (.inl hF)
  have hu : s'.vec.usesFallback K = true := by
    rw [u, hF]
    rcases h with h | h <;> simp [h]
  rw [hu] at e
  exact ⟨s', e, shows_repr r⟩

/-- C99: move assignment to a vector that does not use its fallback leaves moved-from elements in the source, or none if the source used its fallback.
Missing: targets that use their fallback (and the assignments of `C27_leak_violated`). -/
theorem C99_assign_partial {s t : St α} {l m : List α} (hs : Reachable K s l) (ht : Reachable K t m)
    (hg : t.vec.usesFallback K = true → l = []) (h : s.vec.usesFallback K = false) :
    ∃ s' v', moveAssign K (s, t.vec) = .done (s', v') () ∧ Shows K s' m ∧
      Shows K ⟨v', none⟩ (if t.vec.usesFallback K then [] else m.map K.mv) := by
  obtain ⟨s', v', e, r, r'⟩ := moveAssign_repr hs.repr ht.repr (fun h => .inr (hg h))
  rw [h] at r'
  exact ⟨s', v', e, shows_repr r, shows_repr r'⟩

/-- C99 is false of a target that uses its fallback: it copies every element of a source in the inline storage, which keeps them all. -/
theorem C99_assign_violated {s t : St α} {l m : List α} (hs : Reachable K s l) (ht : Reachable K t m)
    (h : s.vec.usesFallback K = true) (h' : t.vec.usesFallback K = false) :
    ∃ s' v', moveAssign K (s, t.vec) = .done (s', v') () ∧ Shows K s' m ∧ Shows K ⟨v', none⟩ m := by
  obtain ⟨s', v', e, r, r'⟩ := moveAssign_repr hs.repr ht.repr (fun _ => .inl h)
  rw [h, movedFrom, h', show leftIn K true = id from rfl, List.map_id] at r'
  exact ⟨s', v', e, shows_repr r, shows_repr r'⟩

/-- A vector with room, a full one, one that uses its fallback, and a move that changes its source. -/
example : (∃ s, Reachable exK s [7, 7] ∧ s.vec.usesFallback exK = false) ∧ (∃ s, Reachable exK s [7, 7, 7] ∧ s.vec.usesFallback exK = false) ∧
    (∃ t, Reachable exK t [7, 7, 7, 7] ∧ t.vec.usesFallback exK = true) ∧ exK.mv 7 ≠ 7 := by
  refine ⟨⟨⟨⟨some 2, [some 7, some 7, none], []⟩, none⟩, ?_, rfl⟩, ⟨⟨⟨some 3, [some 7, some 7, some 7], []⟩, none⟩, ?_, rfl⟩,
    ⟨⟨⟨none, [none, none, none], [7, 7, 7, 7]⟩, none⟩, ?_, rfl⟩, by decide⟩
  · exact (Reachable.new (K := exK)).call (o := .resize 2 7) (.inl rfl) (r := none) (by decide)
  · exact (Reachable.new (K := exK)).call (o := .resize 3 7) (.inl rfl) (r := none) (by decide)
  · exact (Reachable.new (K := exK)).call (o := .resize 4 7) (.inl rfl) (r := none) (by decide)

end Verif.FixedVector
