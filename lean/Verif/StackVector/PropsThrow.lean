import Verif.FixedVector.PropsThrow
import Verif.StackVector.ModelThrow
import Verif.StackVector.Props

/-!
# C122: arguments of a `StackVector` that are its own elements; C123: moves that throw
-/

namespace Verif.StackVector
open Verif.Cpp
open Verif.FixedVector (St Vec Arg Cfg onData ofData mSize setSize construct tick living inl Repr throwing)

variable {α : Type} {C : Nat} {dflt : α} {mv : α → α}

/-! ## Relation to the model of `FixedVector` -/

theorem runAll_eq (os : List (Op α)) : runAll C dflt mv os = FixedVector.runAll (cfg C dflt mv) (os.map (·.toFixed dflt)) := by
  induction os with
  | nil => rfl
  | cons o os ih => simp only [runAll, List.map_cons, FixedVector.runAll, Op.run_eq, ih]

theorem specAll_eq (os : List (Op α)) (l : List α) : FixedVector.specAll (os.map (·.toFixed dflt)) l = specAll os l := by
  induction os generalizing l with
  | nil => rfl
  | cons o os ih => simp only [List.map_cons, FixedVector.specAll, specAll, Op.spec_eq, ih]

theorem okAll_fixed (os : List (Op α)) (l : List α) (h : okAll C os l) : FixedVector.okAll C false (os.map (·.toFixed dflt)) l := by
  induction os generalizing l with
  | nil => trivial
  | cons o os ih =>
    refine ⟨Op.ok_fixed dflt h.1, ?_⟩
    rw [Op.spec_eq]
    exact ih _ h.2

theorem Reachable.fixed {s : St α} {l : List α} (h : Reachable C dflt mv s l) : FixedVector.Reachable (cfg C dflt mv) s l := by
  obtain ⟨ops, hok, e, rfl⟩ := h
  rw [runAll_eq] at e
  have := FixedVector.Reachable.new.runAll (K := cfg C dflt mv) (okAll_fixed (dflt := dflt) ops [] hok) e
  rwa [specAll_eq] at this

theorem inline_fixed (s : St α) : s.vec.usesFallback (cfg C dflt mv) = false := by
  simp [FixedVector.Vec.usesFallback, cfg]

theorem hF : (cfg C dflt mv).hasFallback = false := rfl

theorem checkTF : FixedVector.checkFallbackOnGrowT (cfg C dflt mv) = pure false := by
  funext s; simp [FixedVector.checkFallbackOnGrowT, cfg]

theorem emplaceTF (i : Nat) (a : Arg α) : FixedVector.emplaceT (cfg C dflt mv) i a = emplaceT C mv i a := by
  funext s
  simp only [FixedVector.emplaceT, emplaceT, checkTF, X.pure_bind', sizeF hF, X.bind_run]
  cases h : mSize s with
  | thrown _ => rfl
  | fail _ => rfl
  | done s' n =>
    have hs : s' = s := by
      unfold mSize at h
      split at h <;> simp at h
      exact h.1.symm
    subst hs
    simp only [Bool.false_eq_true, if_false]
    by_cases h1 : i ≤ n <;> by_cases h2 : n < C <;>
      simp [h1, h2, h, X.bind_run, cfg, FixedVector.emplaceShiftT, emplaceShiftT, FixedVector.moveCreateT, moveCreateT, FixedVector.moveAssignT, moveAssignT]

theorem eraseTF (i : Nat) : FixedVector.eraseT (cfg C dflt mv) i = eraseT mv i := by
  simp only [FixedVector.eraseT, eraseT, sizeF hF, usingF hF, X.pure_bind', popBackF hF, Bool.false_eq_true, if_false]
  rfl

theorem eraseRangeTF (i j : Nat) : FixedVector.eraseRangeT (cfg C dflt mv) i j = eraseRangeT C mv dflt i j := by
  have hr : ∀ n a, FixedVector.resizeT (cfg C dflt mv) n a = resize C n a := by
    intro n a
    rw [show resize C n a = resize (cfg C dflt mv).capacity n a from rfl, ← resizeF hF]
    simp [FixedVector.resizeT, FixedVector.resize, cfg]
  simp only [FixedVector.eraseRangeT, eraseRangeT, sizeF hF, usingF hF, X.pure_bind', Bool.false_eq_true, if_false, hr]
  rfl

/-! ## C122 -/

/-- C122: an argument that is an element of the vector: `push_back(v[i])`, `emplace(index, v[i])` and `insert(index, v[i])` for an element before the
position, `resize(n, v[i])` insert the value it had.  Missing: emplacement of an element at or after the position. -/
theorem C122_alias_partial {s : St α} {l : List α} (hs : Reachable C dflt mv s l) (i : Nat) (hi : i < l.length) :
    (l.length < C → ∃ s', emplaceBack C (.slot i) s = .done s' l.length ∧ Shows s' (l ++ [l[i]])) ∧
    (∀ index, l.length < C → index ≤ l.length → i < index →
      ∃ s', emplace C mv index (.slot i) s = .done s' index ∧ Shows s' (l.take index ++ l[i] :: l.drop index)) ∧
    (∀ n, n ≤ C → ∃ s', resize C n (.slot i) s = .done s' () ∧ Shows s' (l.take n ++ List.replicate (n - l.length) l[i])) := by
  obtain ⟨h1, h2, h3⟩ := FixedVector.C62_alias_partial hs.fixed (inline_fixed s) i hi
  refine ⟨fun h => ?_, fun index h ha hb => ?_, fun n h => ?_⟩
  · obtain ⟨s', e, r⟩ := h1 h
    rw [emplaceBackF hF] at e
    exact ⟨s', e, shows_of r⟩
  · obtain ⟨s', e, r⟩ := h2 index h ha hb
    rw [emplaceF hF] at e
    exact ⟨s', e, shows_of r⟩
  · obtain ⟨s', e, r⟩ := h3 n h
    rw [resizeF hF] at e
    exact ⟨s', e, shows_of r⟩

/-- C122 is false of the other emplacements: the element at the position is used after its destruction, and of a later element its predecessor is
inserted. -/
theorem C122_emplace_violated {s : St α} {l : List α} (hs : Reachable C dflt mv s l) (hroom : l.length < C) (index : Nat) (hidx : index < l.length) :
    emplace C mv index (.slot index) s = .fail .ub ∧
    ∀ i (hi : i < l.length), index < i → ∃ s', emplace C mv index (.slot i) s = .done s' index ∧
      Shows s' (l.take index ++ l[i - 1] :: l.drop index) := by
  obtain ⟨h1, h2⟩ := FixedVector.C62_emplace_violated hs.fixed (inline_fixed s) hroom index hidx
  rw [emplaceF hF] at h1
  refine ⟨h1, fun i hi hlt => ?_⟩
  obtain ⟨s', e, r⟩ := h2 i hi hlt
  rw [emplaceF hF] at e
  exact ⟨s', e, shows_of r⟩

/-! ## C123 -/

/-- The vector shows `l` and can be used like any vector that does: every allowed history runs as it should, and the destructor leaves no object. -/
structure Usable (C : Nat) (dflt : α) (mv : α → α) (s : St α) (l : List α) : Prop where
  shows : Shows s l
  history : ∀ ops, okAll C ops l → ∃ s', runAll C dflt mv ops s = .done s' (specAll ops l).2 ∧ Shows s' (specAll ops l).1
  destructor : ∃ d, clear C dflt s = .done d () ∧ living d = 0

/-- The fallback of the model of `FixedVector` is not touched. -/
def Keeps {β : Type} (f : X (St α) β) : Prop :=
  ∀ s, (∀ s' r, f s = .done s' r → s'.vec.fallback = s.vec.fallback) ∧ ∀ s', f s = .thrown s' → s'.vec.fallback = s.vec.fallback

theorem Keeps.pure {β : Type} (x : β) : Keeps (pure x : X (St α) β) := fun s => ⟨fun s' r e => (by cases e; rfl), fun s' e => (by cases e)⟩

theorem Keeps.bind {β γ : Type} {f : X (St α) β} {g : β → X (St α) γ} (hf : Keeps f) (hg : ∀ x, Keeps (g x)) : Keeps (f >>= g) := by
  intro s
  rw [X.bind_run]
  cases e : f s with
  | done s1 x =>
    have h1 := (hf s).1 _ _ e
    exact ⟨fun s' r e' => ((hg x s1).1 _ _ e').trans h1, fun s' e' => ((hg x s1).2 _ e').trans h1⟩
  | thrown s1 => exact ⟨fun s' r e' => (by cases e'), fun s' e' => (by cases e'; exact (hf s).2 _ e)⟩
  | fail e => exact ⟨fun s' r e' => (by cases e'), fun s' e' => (by cases e')⟩

theorem Keeps.onData (f : Slots α → M (Slots α)) : Keeps (onData f) := by
  intro s
  unfold FixedVector.onData
  split
  · exact ⟨fun s' r e => (by cases e; rfl), fun s' e => (by cases e)⟩
  · exact ⟨fun s' r e => (by cases e), fun s' e => (by cases e)⟩

theorem Keeps.ofData {β : Type} (f : Slots α → M β) : Keeps (ofData f) := by
  intro s
  unfold FixedVector.ofData
  split
  · exact ⟨fun s' r e => (by cases e; rfl), fun s' e => (by cases e)⟩
  · exact ⟨fun s' r e => (by cases e), fun s' e => (by cases e)⟩

theorem Keeps.mSize : Keeps (mSize : X (St α) Nat) := by
  intro s
  unfold FixedVector.mSize
  split
  · exact ⟨fun s' r e => (by cases e; rfl), fun s' e => (by cases e)⟩
  · exact ⟨fun s' r e => (by cases e), fun s' e => (by cases e)⟩

theorem Keeps.tick : Keeps (tick : X (St α) Unit) := by
  intro s
  unfold FixedVector.tick
  split
  · exact ⟨fun s' r e => (by cases e; rfl), fun s' e => (by cases e)⟩
  · exact ⟨fun s' r e => (by cases e), fun s' e => (by cases e; rfl)⟩
  · exact ⟨fun s' r e => (by cases e; rfl), fun s' e => (by cases e)⟩

theorem Keeps.setSize (n : Option Nat) : Keeps (setSize n : X (St α) Unit) := fun s =>
  ⟨fun s' r e => (by cases e; rfl), fun s' e => (by cases e)⟩

theorem Keeps.assert (b : Bool) : Keeps (X.assert b : X (St α) Unit) := by
  cases b
  · exact fun s => ⟨fun s' r e => (by cases e), fun s' e => (by cases e)⟩
  · exact Keeps.pure ()

theorem Keeps.forUp {f : Nat → X (St α) Unit} (h : ∀ i, Keeps (f i)) (lo n : Nat) : Keeps (X.forUp lo n f) := by
  induction n generalizing lo with
  | zero => exact Keeps.pure ()
  | succ n ih => exact (h lo).bind fun _ => ih _

theorem Keeps.forDown {f : Nat → X (St α) Unit} (h : ∀ i, Keeps (f i)) (lo n : Nat) : Keeps (X.forDown lo n f) := by
  induction n with
  | zero => exact Keeps.pure ()
  | succ n ih => exact (h _).bind fun _ => ih

theorem Keeps.construct (i : Nat) (a : Arg α) : Keeps (construct i a) := by
  refine Keeps.bind ?_ fun v => Keeps.tick.bind fun _ => Keeps.onData _
  cases a with
  | value v => exact Keeps.pure v
  | slot i => exact Keeps.ofData (Slots.read · i)

theorem Keeps.resize (n : Nat) (a : Arg α) : Keeps (resize C n a) := by
  refine (Keeps.assert _).bind fun _ => Keeps.mSize.bind fun m => ?_
  split
  · exact (Keeps.forUp (fun i => Keeps.construct i a) _ _).bind fun _ => Keeps.setSize _
  · split
    · exact (Keeps.forUp (fun i => Keeps.onData _) _ _).bind fun _ => Keeps.setSize _
    · exact Keeps.pure ()

theorem Keeps.emplaceT (i : Nat) (a : Arg α) : Keeps (emplaceT C mv i a) := by
  refine Keeps.mSize.bind fun n => (Keeps.assert _).bind fun _ => (Keeps.assert _).bind fun _ => ?_
  have hend : Keeps (do FixedVector.setSize (some (n + 1)); FixedVector.construct i a; Pure.pure i : X (St α) Nat) :=
    (Keeps.setSize _).bind fun _ => (Keeps.construct i a).bind fun _ => Keeps.pure i
  dsimp only
  split
  · refine Keeps.bind ?_ fun _ => hend
    exact (Keeps.tick.bind fun _ => Keeps.onData _).bind fun _ =>
      (Keeps.forDown (fun _ => Keeps.tick.bind fun _ => Keeps.onData _) _ _).bind fun _ => Keeps.onData _
  · exact hend

theorem Keeps.eraseRangeT (i j : Nat) : Keeps (eraseRangeT C mv dflt i j) := by
  unfold StackVector.eraseRangeT
  split
  · exact Keeps.pure i
  · exact (Keeps.assert _).bind fun _ => Keeps.mSize.bind fun n => (Keeps.assert _).bind fun _ =>
      (Keeps.forUp (fun _ => Keeps.tick.bind fun _ => Keeps.onData _) _ _).bind fun _ => (Keeps.resize _ _).bind fun _ => Keeps.pure i

theorem clear_of_destructor {s d : St α} {N : Nat} (hb : s.vec.fallback = []) (hN : size s = .done s N)
    (e : FixedVector.destructor (cfg C dflt mv) s = .done d ()) : ∃ d', clear C dflt s = .done d' () ∧ living d' = living d := by
  have hsz : s.vec.size = some N := by
    simp only [size, FixedVector.mSize] at hN
    split at hN <;> cases hN
    assumption
  have hc : FixedVector.clear (cfg C dflt mv) s = clear C dflt s := by
    have hm : FixedVector.mSize s = .done s N := hN
    rw [FixedVector.clear, usingF hF]
    simp only [X.pure_bind', Bool.false_eq_true, if_false, clear, resize, Nat.zero_le, decide_true, X.assert_true]
    rw [X.bind_done hm, X.bind_done hm]
    simp only [gt_iff_lt, Nat.not_lt_zero, if_false, Nat.sub_zero]
    by_cases h0 : 0 < N
    · simp only [h0, if_true]
    · have : N = 0 := by omega
      subst this
      simp only [X.forUp, Nat.lt_irrefl, if_false]
      show Out.done _ () = Out.done _ ()
      obtain ⟨⟨sz, dt, fb⟩, fu⟩ := s
      simp only at hsz
      subst hsz
      rfl
  rw [FixedVector.destructor, X.bind_run, hc] at e
  cases hcl : clear C dflt s with
  | done d' u =>
    rw [hcl] at e
    have hk : d'.vec.fallback = [] := ((Keeps.resize (C := C) 0 (.value dflt) s).1 _ _ hcl).trans hb
    refine ⟨d', rfl, ?_⟩
    cases e
    simp [living, hk]
  | thrown d' => rw [hcl] at e; cases e
  | fail e' => rw [hcl] at e; cases e

theorem reachable_fallback {s : St α} {l : List α} (hs : Reachable C dflt mv s l) (k : Nat) : (throwing s k).vec.fallback = [] := by
  obtain ⟨rfl, _⟩ := repr_inl hs.repr
  rfl

theorem usable_of {s : St α} {l : List α} (hb : s.vec.fallback = []) (h : FixedVector.Usable (cfg C dflt mv) s l) : Usable C dflt mv s l where
  shows := shows_of h.shows
  history := fun ops hok => by
    obtain ⟨s', e, r⟩ := h.history _ (okAll_fixed (dflt := dflt) ops l hok)
    rw [specAll_eq, ← runAll_eq] at e
    rw [specAll_eq] at r
    exact ⟨s', e, shows_of r⟩
  destructor := by
    obtain ⟨d, e, hl⟩ := h.destructor
    obtain ⟨d', e', hl'⟩ := clear_of_destructor hb (shows_of h.shows).size e
    exact ⟨d', e', hl'.trans hl⟩

/-- C123: as long as nothing throws, the operations with moves that may throw are those of C29. -/
theorem C123_no_throw {s : St α} {l : List α} (hs : Reachable C dflt mv s l) (i j : Nat) (v : α) :
    emplaceT C mv i (.value v) s = emplace C mv i (.value v) s ∧ eraseT mv i s = erase mv i s ∧
    eraseRangeT C mv dflt i j s = eraseRange C mv dflt i j s := by
  obtain ⟨-, h2, -, -, h5, h6⟩ := FixedVector.C115_no_throw hs.fixed i j v
  rw [emplaceTF, emplaceF hF] at h2
  rw [eraseTF, eraseF hF] at h5
  rw [eraseRangeTF, eraseRangeF hF] at h6
  exact ⟨h2, h5, h6⟩

/-- C123: if the `k`-th move of `erase(first, last)` throws, the vector is usable; the elements before `first` and from `last + k` on are as they were, and
`k` elements from `last` on are in their new places. -/
theorem C123_erase {s : St α} {l : List α} (hs : Reachable C dflt mv s l) (first last k : Nat) (hf : first < last) (hk : last + k < l.length) :
    ∃ s' l', eraseRangeT C mv dflt first last (throwing s k) = .thrown s' ∧ (last = first + 1 → eraseT mv first (throwing s k) = .thrown s') ∧
      Usable C dflt mv s' l' ∧ l'.length = l.length ∧ (∀ p, p < first ∨ last + k ≤ p → l'[p]? = l[p]?) ∧
      ∀ j, j < k → l'[first + j]? = l[last + j]? := by
  obtain ⟨s', l', e1, e2, u, h1, h2, h3⟩ := FixedVector.C115_erase hs.fixed (inline_fixed s) first last k hf hk
  rw [eraseRangeTF] at e1
  rw [eraseTF] at e2
  exact ⟨s', l', e1, e2, usable_of (((Keeps.eraseRangeT first last _).2 _ e1).trans (reachable_fallback hs _)) u, h1, h2, h3⟩

/-- C123 for `emplace` and `insert`, if the move of the last element to the new place throws: nothing has changed.  Missing: the other moves. -/
theorem C123_emplace_partial {s : St α} {l : List α} (hs : Reachable C dflt mv s l) (hroom : l.length < C) (i : Nat) (hi : i < l.length) (v : α) :
    ∃ s', emplaceT C mv i (.value v) (throwing s 0) = .thrown s' ∧ Usable C dflt mv s' l := by
  obtain ⟨s', e, u⟩ := FixedVector.C115_emplace_partial hs.fixed (inline_fixed s) hroom i hi v
  rw [emplaceTF] at e
  exact ⟨s', e, usable_of (((Keeps.emplaceT i _ _).2 _ e).trans (reachable_fallback hs _)) u⟩

/-- C123 is false of the other moves of `emplace` and `insert`: the copy of the last element that was already made is never destroyed.  (The vector shows `l` with
one moved-from element and those behind it one place on, without the last one.) -/
theorem C123_emplace_violated {s : St α} {l : List α} (hs : Reachable C dflt mv s l) (hroom : l.length < C) (i k : Nat) (hk : i + k + 1 < l.length)
    (v : α) :
    ∃ s' x d, l[l.length - 1 - k]? = some x ∧ emplaceT C mv i (.value v) (throwing s (k + 1)) = .thrown s' ∧
      Shows s' ((l.take (l.length - 1 - k) ++ mv x :: l.drop (l.length - 1 - k)).take l.length) ∧
      clear C dflt s' = .done d () ∧ living d = 1 := by
  obtain ⟨s', x, d, h1, e, h3, h4, h5⟩ := FixedVector.C115_emplace_violated hs.fixed (inline_fixed s) hroom i k hk v
  rw [emplaceTF] at e
  obtain ⟨d', e', hl⟩ := clear_of_destructor (((Keeps.emplaceT i _ _).2 _ e).trans (reachable_fallback hs _)) (shows_of h3).size h4
  exact ⟨s', x, d', h1, e, shows_of h3, e', hl.trans h5⟩

/-- A vector of four elements in a buffer for six: emplacement of its own elements, moves that throw in an erasure and in an emplacement. -/
example : Reachable 6 0 (fun _ => 0) (inl (cfg 6 0 (fun _ => 0)) [1, 2, 3, 4] none) [1, 2, 3, 4] ∧ [1, 2, 3, 4].length < 6 ∧
    0 < 2 ∧ 2 + 1 < [1, 2, 3, 4].length ∧ 0 + 1 + 1 < [1, 2, 3, 4].length :=
  ⟨⟨[.pushBack 1, .pushBack 2, .pushBack 3, .pushBack 4], by simp [okAll, Op.ok, Op.spec], by decide +kernel, rfl⟩, by decide, by decide, by decide, by decide⟩

end Verif.StackVector
