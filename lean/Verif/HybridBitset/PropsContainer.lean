import Verif.HybridBitset.Model
import Verif.FixedVector.Props

/-!
# C107: the container of a `HybridBitset`

`Verif.HybridBitset.Model` describes the container by its sequence of blocks and by whether the fallback is in use.  Here: the model of
`FixedVector` with a fallback does that, for elements such as integers, whose moves are copies and whose destructors do nothing (so that
elements forgotten in the inline storage, see `C27_leak_violated`, do not matter).
-/

namespace Verif.HybridBitset
open Verif.Cpp Verif.FixedVector

variable {α : Type} {K : Cfg α}

/-- The vector holds the elements of `l`, in the fallback or not as `t` says; while the fallback is in use, the inline storage may contain
anything. -/
def Holds (K : Cfg α) (s : St α) (l : List α) (t : Bool) : Prop :=
  (t = false ∧ s = inl K l none ∧ l.length ≤ K.capacity) ∨ (t = true ∧ ∃ d, s = ⟨⟨none, d, l⟩, none⟩)

/-- A vector that uses its fallback. -/
def heap (d : Slots α) (l : List α) : St α := ⟨⟨none, d, l⟩, none⟩

theorem using_heap (hF : K.hasFallback = true) (d : Slots α) (l : List α) : isUsingFallback K (heap d l) = .done (heap d l) true := by
  simp [isUsingFallback, heap, hF]

theorem uses_heap (hF : K.hasFallback = true) (d : Slots α) (l : List α) : (heap d l).vec.usesFallback K = true := by
  simp [Vec.usesFallback, heap, hF]

theorem Holds.ofInl {l : List α} (h : l.length ≤ K.capacity) : Holds K (inl K l none) l false := .inl ⟨rfl, rfl, h⟩
theorem Holds.ofHeap (d : Slots α) (l : List α) : Holds K (heap d l) l true := .inr ⟨rfl, d, rfl⟩

theorem Holds.shows (hF : K.hasFallback = true) {s : St α} {l : List α} {t : Bool} (h : Holds K s l t) : Shows K s l := by
  rcases h with ⟨_, rfl, hl⟩ | ⟨_, d, rfl⟩
  · exact shows_repr (.inl ⟨rfl, hl⟩)
  · have hsz : size K (HybridBitset.heap d l) = .done (HybridBitset.heap d l) l.length := by
      rw [size, X.bind_done (using_heap hF d l)]
      rfl
    have hem : isEmpty K (HybridBitset.heap d l) = .done (HybridBitset.heap d l) l.isEmpty := by
      rw [isEmpty, X.bind_done hsz]
      cases l <;> simp
    have hrd : ∀ i (hi : i < l.length), readAt K i (HybridBitset.heap d l) = .done (HybridBitset.heap d l) l[i] := by
      intro i hi
      rw [readAt, X.bind_done (using_heap hF d l)]
      simp only [if_true, getFallback, HybridBitset.heap, X.bind_run, List.getElem?_eq_getElem hi, X.pure_run]
    refine ⟨hsz, hem, ?_, ?_, ?_, ?_, ?_, ?_⟩
    · intro i hi
      show at' K i (HybridBitset.heap d l) = _
      rw [at', X.bind_done hsz]
      simp only [hi, decide_true, X.assert_true, X.pure_bind']
      exact hrd i hi
    · intro i hi
      show at' K i (HybridBitset.heap d l) = _
      rw [at', X.bind_done hsz]
      simp [Nat.not_lt.mpr hi, X.bind_run]
    · intro hl
      show front K (HybridBitset.heap d l) = _
      rw [FixedVector.front, X.bind_done hem]
      have hp := List.length_pos_iff.mpr hl
      simp only [List.isEmpty_eq_false_iff.mpr hl, Bool.not_false, X.assert_true, X.pure_bind']
      rw [hrd 0 hp, List.head_eq_getElem]
      rfl
    · intro hl
      show back K (HybridBitset.heap d l) = _
      have hp := List.length_pos_iff.mpr hl
      rw [FixedVector.back, X.bind_done hem]
      simp only [List.isEmpty_eq_false_iff.mpr hl, Bool.not_false, X.assert_true, X.pure_bind']
      rw [X.bind_done hsz, hrd _ (by omega), List.getLast_eq_getElem]
      rfl
    · intro hl
      show front K (HybridBitset.heap d l) = _
      rw [FixedVector.front, X.bind_done hem]
      simp [X.bind_run, hl]
    · intro hl
      show back K (HybridBitset.heap d l) = _
      rw [FixedVector.back, X.bind_done hem]
      simp [X.bind_run, hl]

theorem holds_resize (hF : K.hasFallback = true) {s : St α} {l : List α} {t : Bool} (h : Holds K s l t) (n : Nat) (v : α) :
    ∃ s', resize K n (.value v) s = .done s' () ∧
      Holds K s' (l.take n ++ List.replicate (n - l.length) v) (t || decide (K.capacity < n)) := by
  rcases h with ⟨rfl, rfl, hl⟩ | ⟨rfl, d, rfl⟩
  · by_cases hn : n ≤ K.capacity
    · refine ⟨_, resize_inl hl hn, ?_⟩
      simp only [Nat.not_lt.mpr hn, decide_false, Bool.or_false]
      exact Holds.ofInl (by simp; omega)
    · refine ⟨fb K (l.take n ++ List.replicate (n - l.length) v) none, ?_, ?_⟩
      · rw [resize, X.bind_done (using_inl _ _)]
        simp only [Bool.false_eq_true, if_false, hF, Nat.not_le.mp hn, decide_true, Bool.and_true, if_true]
        rw [X.bind_done (moveStorage_inl hl), resizeFallback_fb]
      · simp only [Nat.not_le.mp hn, decide_true, Bool.or_true]
        exact Holds.ofHeap _ _
  · refine ⟨heap d (l.take n ++ List.replicate (n - l.length) v), ?_, Holds.ofHeap _ _⟩
    show resize K n (.value v) (heap d l) = _
    rw [resize, X.bind_done (using_heap hF d l)]
    simp only [if_true, resizeFallback, getFallback, X.bind_run, heap, Arg.read, X.pure_run, ticks_none]
    rfl

theorem holds_push (hF : K.hasFallback = true) {s : St α} {l : List α} {t : Bool} (h : Holds K s l t) (v : α) :
    ∃ s', emplaceBack K (.value v) s = .done s' l.length ∧ Holds K s' (l ++ [v]) (t || decide (K.capacity ≤ l.length)) := by
  rcases h with ⟨rfl, rfl, hl⟩ | ⟨rfl, d, rfl⟩
  · by_cases hn : l.length < K.capacity
    · refine ⟨_, emplaceBack_inl hn, ?_⟩
      simp only [Nat.not_le.mpr hn, decide_false, Bool.or_false]
      exact Holds.ofInl (by simp; omega)
    · refine ⟨fb K (l ++ [v]) none, ?_, ?_⟩
      · rw [emplaceBack, X.bind_done (check_full hF (by omega))]
        simp only [if_true]
        rw [X.bind_done (getFallback_fb _ _), X.bind_done (emplaceInFallback_fb (Nat.le_refl _))]
        simp [List.insertIdx_length_self]
      · simp only [Nat.not_lt.mp hn, decide_true, Bool.or_true]
        exact Holds.ofHeap _ _
  · refine ⟨heap d (l ++ [v]), ?_, Holds.ofHeap _ _⟩
    show emplaceBack K (.value v) (heap d l) = _
    have hc : checkFallbackOnGrow K (heap d l) = .done (heap d l) true := by
      unfold checkFallbackOnGrow
      simp only [hF, if_true]
      rw [X.bind_done (using_heap hF d l)]
      rfl
    rw [emplaceBack, X.bind_done hc]
    simp [getFallback, X.bind_run, heap, emplaceInFallback, Arg.read, tick, setFallback, List.insertIdx_length_self]

theorem holds_clear (hF : K.hasFallback = true) {s : St α} {l : List α} {t : Bool} (h : Holds K s l t) :
    ∃ s', clear K s = .done s' () ∧ Holds K s' [] t := by
  rcases h with ⟨rfl, rfl, hl⟩ | ⟨rfl, d, rfl⟩
  · exact ⟨_, clear_inl hl, Holds.ofInl (Nat.zero_le _)⟩
  · refine ⟨heap d [], ?_, Holds.ofHeap _ _⟩
    show clear K (heap d l) = _
    rw [clear, X.bind_done (using_heap hF d l)]
    rfl

theorem holds_reserve (hF : K.hasFallback = true) {s : St α} {l : List α} {t : Bool} (h : Holds K s l t) (n : Nat) :
    ∃ s', reserve K n s = .done s' () ∧ Holds K s' l (t || decide (K.capacity < n)) := by
  unfold reserve
  simp only [hF, if_true]
  by_cases hn : n ≤ K.capacity
  · simp only [hn, if_true, Nat.not_lt.mpr hn, decide_false, Bool.or_false]
    exact ⟨s, rfl, h⟩
  · simp only [hn, if_false, Nat.not_le.mp hn, decide_true, Bool.or_true]
    rcases h with ⟨rfl, rfl, hl⟩ | ⟨rfl, d, rfl⟩
    · refine ⟨fb K l none, ?_, Holds.ofHeap _ _⟩
      rw [X.bind_done (using_inl _ _)]
      exact moveStorage_inl hl
    · refine ⟨heap d l, ?_, Holds.ofHeap _ _⟩
      show (isUsingFallback K >>= _) (heap d l) = _
      rw [X.bind_done (using_heap hF d l)]
      rfl

theorem holds_assignAt (hF : K.hasFallback = true) {s : St α} {l : List α} {t : Bool} (h : Holds K s l t) (i : Nat) (v : α) (hi : i < l.length) :
    ∃ s', assignAt K i v s = .done s' () ∧ Holds K s' (l.set i v) t := by
  have hsz := (h.shows hF).size
  rcases h with ⟨rfl, rfl, hl⟩ | ⟨rfl, d, rfl⟩
  · obtain ⟨s', e, r⟩ := assignAt_reprU i v (.inl ⟨rfl, rfl, hl⟩ : ReprU K false (inl K l none) l none) hi
    rcases r with ⟨_, rfl, hl'⟩ | ⟨h, _⟩
    · exact ⟨_, e, Holds.ofInl hl'⟩
    · cases h
  · refine ⟨heap d (l.set i v), ?_, Holds.ofHeap _ _⟩
    rw [assignAt, X.bind_done hsz]
    simp only [hi, decide_true, X.assert_true, X.pure_bind']
    show (isUsingFallback K >>= _) (heap d l) = _
    rw [X.bind_done (using_heap hF d l)]
    rfl

/-- The copies of the elements of a vector that does not use its fallback. -/
theorem holds_copyLoop (hF : K.hasFallback = true) {s : St α} {m : List α} {t : Bool} (h : Holds K s [] t) (hm : m.length ≤ K.capacity) :
    ∃ s', copyLoop K (inl K m none).vec m.length s = .done s' () ∧ Holds K s' m t := by
  have := X.forUp_ok (lo := 0) (n := m.length) (f := copyOne K (inl K m none).vec) (fun k s => Holds K s (m.take k) t) (s := s)
    (by simpa using h) (by
      intro k s hk hI
      simp only [Nat.zero_add, copyOne]
      rw [show (inl K m none).vec.data = Slots.ofList K.capacity m from rfl, read_ofList hk hm]
      obtain ⟨s', e, r⟩ := holds_push hF hI m[k]
      have hlt : ¬ K.capacity ≤ (m.take k).length := by rw [List.length_take]; omega
      simp only [hlt, decide_false, Bool.or_false] at r
      refine ⟨s', by simp only; rw [X.bind_done e]; rfl, ?_⟩
      rwa [List.take_succ_eq_append_getElem hk])
  rw [List.take_length] at this
  exact this

theorem holds_copyAssign (hF : K.hasFallback = true) {s u : St α} {l m : List α} {t t' : Bool} (h : Holds K s l t) (h' : Holds K u m t') :
    ∃ s', copyAssign K u.vec s = .done s' () ∧ Holds K s' m (t || t') := by
  rcases h' with ⟨rfl, rfl, hm⟩ | ⟨rfl, d', rfl⟩
  · obtain ⟨s1, e1, r1⟩ := holds_clear hF h
    obtain ⟨s2, e2, r2⟩ := holds_reserve hF r1 m.length
    simp only [Nat.not_lt.mpr hm, decide_false, Bool.or_false] at r2
    obtain ⟨s3, e3, r3⟩ := holds_copyLoop hF r2 hm
    refine ⟨s3, ?_, by rwa [Bool.or_false]⟩
    simp only [copyAssign, usesFallback_inl, Bool.false_eq_true, if_false]
    rw [X.bind_done e1]
    simp only [inl]
    rw [X.bind_done e2]
    exact e3
  · have hs : s.fuse = none := by
      rcases h with ⟨_, rfl, _⟩ | ⟨_, d, rfl⟩ <;> rfl
    refine ⟨heap s.vec.data m, ?_, by rw [Bool.or_true]; exact Holds.ofHeap _ _⟩
    show copyAssign K (heap d' m).vec s = _
    simp only [copyAssign, uses_heap hF, if_true, X.bind_run, setFallback, setSize, X.modify_run]
    simp only [heap, hs]

theorem holds_copySelf (hF : K.hasFallback = true) {s : St α} {l : List α} {t : Bool} (h : Holds K s l t) :
    ∃ s', copyAssignSelf K s = .done s' () ∧ Holds K s' (if t then l else []) t := by
  rcases h with ⟨rfl, rfl, hl⟩ | ⟨rfl, d, rfl⟩
  · refine ⟨inl K [] none, ?_, Holds.ofInl (Nat.zero_le _)⟩
    rw [copyAssignSelf, X.bind_done (using_inl _ _)]
    simp only [Bool.false_eq_true, if_false]
    rw [X.bind_done (clear_inl hl), X.bind_done (size_inl _ _)]
    simp only [List.length_nil]
    obtain ⟨s', e, r⟩ := holds_reserve hF (Holds.ofInl (K := K) (l := []) (Nat.zero_le _)) 0
    have e' : reserve K 0 (inl K [] none) = .done (inl K [] none) () := by simp [reserve, hF]
    rw [X.bind_done e']
    rfl
  · refine ⟨heap d l, ?_, Holds.ofHeap _ _⟩
    show copyAssignSelf K (heap d l) = _
    rw [copyAssignSelf, X.bind_done (using_heap hF d l)]
    rfl

theorem holds_copyConstruct (hF : K.hasFallback = true) {u : St α} {m : List α} {t' : Bool} (h' : Holds K u m t') (raw : Vec α) :
    ∃ s', copyConstruct K u.vec ⟨raw, none⟩ = .done s' () ∧ Holds K s' m t' := by
  rcases h' with ⟨rfl, rfl, hm⟩ | ⟨rfl, d', rfl⟩
  · obtain ⟨s', e, r⟩ := holds_copyLoop hF (s := ⟨empty K, none⟩) (.inl ⟨rfl, empty_eq K none, Nat.zero_le _⟩) hm
    refine ⟨s', ?_, r⟩
    simp only [copyConstruct, usesFallback_inl, X.bind_run, X.modify_run, setFallback, setSize, Bool.not_false, if_true]
    exact e
  · refine ⟨heap (empty K).data m, ?_, Holds.ofHeap _ _⟩
    show copyConstruct K (heap d' m).vec _ = _
    simp only [copyConstruct, uses_heap hF, X.bind_run, X.modify_run, setFallback, setSize, Bool.not_true, Bool.false_eq_true, if_false]
    rfl

/-! ### Moves -/

theorem holds_pushMove (hF : K.hasFallback = true) (hmv : ∀ v, K.mv v = v) {s : St α} {l : List α} {t : Bool} (h : Holds K s l t) (v : α) :
    ∃ s', pushBackMove K v s = .done s' v ∧ Holds K s' (l ++ [v]) (t || decide (K.capacity ≤ l.length)) := by
  rcases h with ⟨rfl, rfl, hl⟩ | ⟨rfl, d, rfl⟩
  · obtain ⟨s', e, r, hu⟩ := pushBackMove_repr v (.inl ⟨rfl, hl⟩ : Repr K (inl K l none) l none) (.inl hF)
    refine ⟨s', ?_, ?_⟩
    · rw [e]
      simp [leftIn, hmv]
    · rw [usesFallback_inl, hF, Bool.true_and, Bool.false_or] at hu
      rw [Bool.false_or, ← hu]
      rcases r with ⟨rfl, hr⟩ | ⟨rfl, _⟩
      · rw [usesFallback_inl]
        exact Holds.ofInl hr
      · rw [usesFallback_fb hF]
        exact Holds.ofHeap _ _
  · refine ⟨heap d (l ++ [v]), ?_, Holds.ofHeap _ _⟩
    show pushBackMove K v (heap d l) = _
    have hc : checkFallbackOnGrow K (heap d l) = .done (heap d l) true := by
      unfold checkFallbackOnGrow
      simp only [hF, if_true]
      rw [X.bind_done (using_heap hF d l)]
      rfl
    rw [pushBackMove, X.bind_done hc]
    simp [getFallback, X.bind_run, heap, emplaceInFallback, Arg.read, tick, setFallback, List.insertIdx_length_self]

theorem holds_moveLoop (hF : K.hasFallback = true) (hmv : ∀ v, K.mv v = v) {s : St α} {m : List α} {t : Bool} (h : Holds K s [] t)
    (hm : m.length ≤ K.capacity) :
    ∃ s', moveLoop K m.length (s, (inl K m none).vec) = .done (s', (inl K m none).vec) () ∧ Holds K s' m t := by
  have := X.forUp_ok (lo := 0) (n := m.length) (f := moveOne K)
    (fun k s => Holds K s.1 (m.take k) t ∧ s.2 = (inl K m none).vec) (s := (s, (inl K m none).vec)) ⟨by simpa using h, rfl⟩ (by
      rintro k ⟨s, v⟩ hk ⟨hI, hv⟩
      simp only at hI hv
      subst hv
      rw [Nat.zero_add, moveOne, X.bind_done (X.get_run _)]
      have hrd : Slots.read (inl K m none).vec.data k = .ok m[k] := read_ofList hk hm
      simp only [hrd]
      obtain ⟨s', e, r⟩ := holds_pushMove hF hmv hI m[k]
      have hlt : ¬ K.capacity ≤ (m.take k).length := by rw [List.length_take]; omega
      simp only [hlt, decide_false, Bool.or_false] at r
      refine ⟨(s', (inl K m none).vec), ?_, ?_, rfl⟩
      · rw [X.bind_done (onThis_done e), X.bind_done (X.get_run _)]
        have has : Slots.assign (inl K m none).vec.data k m[k] = .ok (inl K m none).vec.data := by
          show Slots.assign (Slots.ofList K.capacity m) k m[k] = _
          rw [assign_ofList hk hm, List.set_getElem_self]
          rfl
        simp only [has, X.set_run]
      · simp only
        rwa [List.take_succ_eq_append_getElem hk])
  obtain ⟨⟨s', v⟩, e, r, hv⟩ := this
  simp only at r hv
  subst hv
  rw [List.take_length] at r
  exact ⟨s', e, r⟩

/-- What is left in a moved-from vector: everything, unless it used its fallback. -/
theorem holds_moveAssign (hF : K.hasFallback = true) (hmv : ∀ v, K.mv v = v) {s u : St α} {l m : List α} {t t' : Bool}
    (h : Holds K s l t) (h' : Holds K u m t') :
    ∃ s' v', moveAssign K (s, u.vec) = .done (s', v') () ∧ Holds K s' m (t || t') ∧ Holds K ⟨v', none⟩ (if t' then [] else m) t' := by
  rcases h' with ⟨rfl, rfl, hm⟩ | ⟨rfl, d', rfl⟩
  · have h0 : ∃ l', Holds K ⟨⟨s.vec.size, s.vec.data, []⟩, s.fuse⟩ l' t := by
      rcases h with ⟨rfl, rfl, hl⟩ | ⟨rfl, d, rfl⟩
      · exact ⟨l, Holds.ofInl hl⟩
      · exact ⟨[], Holds.ofHeap d []⟩
    obtain ⟨l', h0⟩ := h0
    obtain ⟨s1, e1, r1⟩ := holds_clear hF h0
    obtain ⟨s2, e2, r2⟩ := holds_reserve hF r1 m.length
    simp only [Nat.not_lt.mpr hm, decide_false, Bool.or_false] at r2
    obtain ⟨s3, e3, r3⟩ := holds_moveLoop hF hmv r2 hm
    refine ⟨s3, (inl K m none).vec, ?_, by rwa [Bool.or_false], Holds.ofInl hm⟩
    have e0 : ({ (inl K m none).vec with fallback := [] } : Vec α) = (inl K m none).vec := rfl
    have e00 : (inl K m none).vec.fallback = [] := rfl
    rw [moveAssign, X.bind_done (X.modify_run _ _), X.bind_done (X.get_run _)]
    simp only [e0, e00, usesFallback_inl, Bool.false_eq_true, if_false]
    rw [X.bind_done (onThis_done e1)]
    simp only [inl]
    rw [X.bind_done (onThis_done e2)]
    exact e3
  · have hs : s.fuse = none := by
      rcases h with ⟨_, rfl, _⟩ | ⟨_, d, rfl⟩ <;> rfl
    refine ⟨heap s.vec.data m, (heap d' []).vec, ?_, by rw [Bool.or_true]; exact Holds.ofHeap _ _, Holds.ofHeap _ _⟩
    have e0 : ({ (heap d' m).vec with fallback := [] } : Vec α) = (heap d' []).vec := rfl
    show moveAssign K (s, (heap d' m).vec) = _
    simp only [moveAssign, X.bind_run, X.modify_run, X.get_run, e0, uses_heap hF, if_true, onThis, X.zoom, setSize]
    simp only [heap, hs]

theorem holds_moveConstruct (hF : K.hasFallback = true) (hmv : ∀ v, K.mv v = v) {u : St α} {m : List α} {t' : Bool}
    (h' : Holds K u m t') (raw : Vec α) :
    ∃ s' v', moveConstruct K (⟨raw, none⟩, u.vec) = .done (s', v') () ∧ Holds K s' m t' ∧ Holds K ⟨v', none⟩ (if t' then [] else m) t' := by
  rcases h' with ⟨rfl, rfl, hm⟩ | ⟨rfl, d', rfl⟩
  · obtain ⟨s', e, r⟩ := holds_moveLoop hF hmv (s := ⟨empty K, none⟩) (.inl ⟨rfl, empty_eq K none, Nat.zero_le _⟩) hm
    refine ⟨s', (inl K m none).vec, ?_, r, Holds.ofInl hm⟩
    have e0 : ({ (inl K m none).vec with fallback := [] } : Vec α) = (inl K m none).vec := rfl
    simp only [moveConstruct, X.bind_run, X.modify_run, X.get_run, e0, usesFallback_inl, Bool.not_false, if_true]
    exact e
  · refine ⟨heap (empty K).data m, (heap d' []).vec, ?_, Holds.ofHeap _ _, Holds.ofHeap _ _⟩
    have e0 : ({ (heap d' m).vec with fallback := [] } : Vec α) = (heap d' []).vec := rfl
    show moveConstruct K (_, (heap d' m).vec) = _
    simp only [moveConstruct, X.bind_run, X.modify_run, X.get_run, e0, uses_heap hF, Bool.not_true, Bool.false_eq_true, if_false, onThis,
      X.zoom, setSize]
    rfl

/-- `std::swap(a, b)` (Bitset.inl:778) of two vectors: `T tmp(std::move(a)); a = std::move(b); b = std::move(tmp);`. -/
def swapVec (K : Cfg α) (a b : St α) : Out (St α × St α) Unit :=
  match moveConstruct K (⟨empty K, none⟩, a.vec) with
  | .done (tmp, a1) _ =>
    match moveAssign K (⟨a1, none⟩, b.vec) with
    | .done (a2, b1) _ =>
      match moveAssign K (⟨b1, none⟩, tmp.vec) with
      | .done (b2, _) _ => .done (a2, b2) ()
      | .thrown s => .thrown (s.1, b)
      | .fail e => .fail e
    | .thrown s => .thrown (s.1, b)
    | .fail e => .fail e
  | .thrown _ => .thrown (a, b)
  | .fail e => .fail e

theorem holds_swap (hF : K.hasFallback = true) (hmv : ∀ v, K.mv v = v) {a b : St α} {l m : List α} {t t' : Bool}
    (h : Holds K a l t) (h' : Holds K b m t') :
    ∃ a' b', swapVec K a b = .done (a', b') () ∧ Holds K a' m (t || t') ∧ Holds K b' l (t || t') := by
  obtain ⟨tmp, a1, e1, r1, r1'⟩ := holds_moveConstruct hF hmv h (empty K)
  obtain ⟨a2, b1, e2, r2, r2'⟩ := holds_moveAssign hF hmv r1' h'
  obtain ⟨b2, _, e3, r3, _⟩ := holds_moveAssign hF hmv r2' r1
  refine ⟨a2, b2, ?_, r2, ?_⟩
  · simp only [swapVec, e1, e2, e3]
  · rwa [Bool.or_comm]

/-- C107: the container members are as the model of `HybridBitset` says.  A new vector holds the empty sequence and does not use its
fallback; a vector that holds a sequence shows it; and every member function the bitset calls gives the sequence, and the use of the
fallback, that the model gives it. -/
theorem C107_container (K : Cfg α) (hF : K.hasFallback = true) (hmv : ∀ v, K.mv v = v) :
    Holds K ⟨FixedVector.empty K, none⟩ [] false ∧
    ∀ (s : St α) (l : List α) (t : Bool), Holds K s l t →
      FixedVector.Shows K s l ∧
      (∀ n v, ∃ s', FixedVector.resize K n (.value v) s = .done s' () ∧
        Holds K s' (l.take n ++ List.replicate (n - l.length) v) (t || decide (K.capacity < n))) ∧
      (∀ v, ∃ s', FixedVector.emplaceBack K (.value v) s = .done s' l.length ∧
        Holds K s' (l ++ [v]) (t || decide (K.capacity < l.length + 1))) ∧
      (∀ i v, i < l.length → ∃ s', FixedVector.assignAt K i v s = .done s' () ∧ Holds K s' (l.set i v) t) ∧
      (∃ s', FixedVector.clear K s = .done s' () ∧ Holds K s' [] t) ∧
      (∀ n, ∃ s', FixedVector.reserve K n s = .done s' () ∧ Holds K s' l (t || decide (K.capacity < n))) ∧
      (∃ s', FixedVector.copyAssignSelf K s = .done s' () ∧ Holds K s' (if t then l else []) t) ∧
      ∀ (u : St α) (m : List α) (t' : Bool), Holds K u m t' →
        (∀ raw, ∃ s', FixedVector.copyConstruct K u.vec ⟨raw, none⟩ = .done s' () ∧ Holds K s' m t') ∧
        (∃ s', FixedVector.copyAssign K u.vec s = .done s' () ∧ Holds K s' m (t || t')) ∧
        (∃ s' v', FixedVector.moveAssign K (s, u.vec) = .done (s', v') () ∧ Holds K s' m (t || t')) ∧
        (∃ s' u', swapVec K s u = .done (s', u') () ∧ Holds K s' m (t || t') ∧ Holds K u' l (t || t')) := by
  refine ⟨.inl ⟨rfl, empty_eq K none, Nat.zero_le _⟩, ?_⟩
  intro s l t h
  refine ⟨h.shows hF, fun n v => holds_resize hF h n v, ?_, fun i v hi => holds_assignAt hF h i v hi, holds_clear hF h,
    fun n => holds_reserve hF h n, holds_copySelf hF h, ?_⟩
  · intro v
    obtain ⟨s', e, r⟩ := holds_push hF h v
    refine ⟨s', e, ?_⟩
    rwa [show decide (K.capacity < l.length + 1) = decide (K.capacity ≤ l.length) from by simp [Nat.lt_succ_iff]]
  · intro u m t' h'
    refine ⟨fun raw => holds_copyConstruct hF h' raw, holds_copyAssign hF h h', ?_, holds_swap hF hmv h h'⟩
    obtain ⟨s', v', e, r, _⟩ := holds_moveAssign hF hmv h h'
    exact ⟨s', v', e, r⟩

/-- A vector with elements in its fallback, and some forgotten in the inline storage. -/
example : ∃ s' : St (BitVec 8), FixedVector.copyAssign (⟨2, true, 0, id⟩ : Cfg (BitVec 8)) (heap [none, none] [1, 2, 3]).vec
    (inl (⟨2, true, 0, id⟩ : Cfg (BitVec 8)) [7, 8] none) = .done s' () ∧ Holds (⟨2, true, 0, id⟩ : Cfg (BitVec 8)) s' [1, 2, 3] true ∧
    s'.vec.data = [some 7, some 8] := by
  refine ⟨heap [some 7, some 8] [1, 2, 3], ?_, Holds.ofHeap _ _, rfl⟩
  rfl

end Verif.HybridBitset
