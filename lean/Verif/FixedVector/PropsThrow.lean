import Verif.FixedVector.LemmasCtorThrow

/-!
# C115: moves that throw; C116: exceptions in constructors and copy assignments
-/

namespace Verif.FixedVector
open Verif.Cpp

variable {α : Type} {K : Cfg α}

/-- The vector shows `l` and can be used like any vector that does: every allowed history runs as it should, and the destructor leaves no object. -/
structure Usable (K : Cfg α) (s : St α) (l : List α) : Prop where
  shows : Shows K s l
  history : ∀ ops, okAll K.capacity K.hasFallback ops l →
    ∃ s', runAll K ops s = .done s' (specAll ops l).2 ∧ Shows K s' (specAll ops l).1
  destructor : ∃ d, destructor K s = .done d () ∧ living d = 0

theorem Repr.usable {s : St α} {l : List α} (h : Repr K s l none) : Usable K s l where
  shows := shows_repr h
  history := fun ops hok => by
    obtain ⟨s', e, r⟩ := runAll_repr ops h hok
    exact ⟨s', e, shows_repr r⟩
  destructor := destructor_repr h

theorem Reachable.inline {s : St α} {l : List α} (hs : Reachable K s l) (h : s.vec.usesFallback K = false) :
    s = inl K l none ∧ l.length ≤ K.capacity := by
  rcases hs.repr with ⟨rfl, hl⟩ | ⟨rfl, hF⟩
  · exact ⟨rfl, hl⟩
  · rw [usesFallback_fb hF] at h; simp at h

/-- C115: as long as nothing throws, the operations with moves that may throw are those of C25. -/
theorem C115_no_throw {s : St α} {l : List α} (hs : Reachable K s l) (i j : Nat) (v : α) :
    emplaceBackT K (.value v) s = emplaceBack K (.value v) s ∧ emplaceT K i (.value v) s = emplace K i (.value v) s ∧
    resizeT K i (.value v) s = resize K i (.value v) s ∧ reserveT K i s = reserve K i s ∧
    eraseT K i s = erase K i s ∧ eraseRangeT K i j s = eraseRange K i j s := by
  have h : NoThrow s := by
    rcases hs.repr with ⟨rfl, _⟩ | ⟨rfl, _⟩ <;> rfl
  exact ⟨emplaceBackT_agrees h, emplaceT_agrees h, resizeT_agrees h, reserveT_agrees h, eraseT_agrees h, eraseRangeT_agrees h⟩

theorem throwing_inl (l : List α) (k : Nat) : throwing (inl K l none) k = inl K l (some k) := rfl

theorem downPart_repr {l l' : List α} {first c k : Nat} (hl : l.length ≤ K.capacity) (h1 : l'.length = l.length)
    (h2 : ∀ p, l'[p]? = downPart K.mv l first c k p) :
    Repr K ⟨⟨some l.length, Slots.mk K.capacity (downPart K.mv l first c k), []⟩, none⟩ l' none := by
  refine .inl ⟨?_, by omega⟩
  simp only [inl, Slots.ofList, h1]
  congr 3
  funext p
  exact (h2 p).symm

/-- C115: if the `k`-th move of `erase(first, last)` throws, the vector is usable; the elements before `first` and from `last + k` on are as they were, and
`k` elements from `last` on are in their new places. -/
theorem C115_erase {s : St α} {l : List α} (hs : Reachable K s l) (h : s.vec.usesFallback K = false) (first last k : Nat)
    (hf : first < last) (hk : last + k < l.length) :
    ∃ s' l', eraseRangeT K first last (throwing s k) = .thrown s' ∧ (last = first + 1 → eraseT K first (throwing s k) = .thrown s') ∧
      Usable K s' l' ∧ l'.length = l.length ∧ (∀ p, p < first ∨ last + k ≤ p → l'[p]? = l[p]?) ∧
      ∀ j, j < k → l'[first + j]? = l[last + j]? := by
  obtain ⟨rfl, hl⟩ := hs.inline h
  obtain ⟨l', h1, h2⟩ := downPart_list (mv := K.mv) (l := l) (first := first) (c := last - first) (k := k) (by omega)
  have hthrow := shiftDown_throw (K := K) (l := l) (first := first) (c := last - first) (k := k) (b := []) (N := some l.length) (by omega) (by omega) hl
  refine ⟨_, l', ?_, ?_, (downPart_repr hl h1 h2).usable, h1, ?_, ?_⟩
  · rw [throwing_inl, eraseRangeT, X.bind_done (using_inl _ _)]
    have hne : ¬ first = last := by omega
    have hle : last ≤ l.length := by omega
    simp only [Bool.false_eq_true, if_false, hne, hf, decide_true, X.assert_true, X.pure_bind']
    rw [X.bind_done (size_inl _ _)]
    simp only [hle, decide_true, X.assert_true, X.pure_bind']
    exact X.bind_thrown hthrow
  · intro hlast
    rw [throwing_inl, eraseT, X.bind_done (size_inl _ _)]
    have hlt : first < l.length := by omega
    simp only [hlt, decide_true, X.assert_true, X.pure_bind']
    rw [X.bind_done (using_inl _ _)]
    simp only [Bool.false_eq_true, if_false]
    have e1 : last - first = 1 := by omega
    rw [e1] at hthrow ⊢
    exact X.bind_thrown hthrow
  · intro p hp
    rw [h2, downPart]
    rcases hp with hp | hp
    · rw [if_pos hp]
    · have a1 : ¬ p < first := by omega
      have a2 : ¬ p < first + k := by omega
      have a3 : ¬ (first + (last - first) ≤ p ∧ p < first + (last - first) + k) := by omega
      rw [if_neg a1, if_neg a2, if_neg a3]
  · intro j hj
    have a1 : ¬ first + j < first := by omega
    have a2 : first + j < first + k := by omega
    rw [h2, downPart, if_neg a1, if_pos a2, show first + j + (last - first) = last + j by omega]

theorem checkT_inl {l : List α} {fu : Option Nat} (hl : l.length < K.capacity) :
    checkFallbackOnGrowT K (inl K l fu) = .done (inl K l fu) false := by
  unfold checkFallbackOnGrowT
  split
  · rw [X.bind_done (using_inl _ _)]
    simp only [Bool.false_eq_true, if_false]
    rw [X.bind_done (mSize_inl _ _)]
    simp only [ge_iff_le, Nat.not_le.mpr hl, if_false, X.pure_run]
  · rfl

theorem emplaceT_pre {l : List α} {i : Nat} {a : Arg α} {fu : Option Nat} (hl : l.length < K.capacity) (hi : i < l.length) {s' : St α}
    (h : emplaceShiftT K i l.length (inl K l fu) = .thrown s') : emplaceT K i a (inl K l fu) = .thrown s' := by
  have hle : i ≤ l.length := by omega
  rw [emplaceT, X.bind_done (size_inl _ _)]
  simp only [hle, decide_true, X.assert_true, X.pure_bind']
  rw [X.bind_done (checkT_inl hl)]
  simp only [Bool.false_eq_true, if_false]
  rw [X.bind_done (mSize_inl _ _)]
  simp only [hl, decide_true, X.assert_true, X.pure_bind', hi, if_true]
  exact X.bind_thrown h

/-- C115 for `emplace` and `insert` on the inline storage, if the move of the last element to the new place throws: nothing has changed.  Missing: the
other moves. -/
theorem C115_emplace_partial {s : St α} {l : List α} (hs : Reachable K s l) (h : s.vec.usesFallback K = false) (hroom : l.length < K.capacity)
    (i : Nat) (hi : i < l.length) (v : α) : ∃ s', emplaceT K i (.value v) (throwing s 0) = .thrown s' ∧ Usable K s' l := by
  obtain ⟨rfl, hl⟩ := hs.inline h
  refine ⟨inl K l none, emplaceT_pre hroom hi ?_, Repr.usable (.inl ⟨rfl, hl⟩)⟩
  rw [emplaceShiftT, moveCreateT]
  exact X.bind_thrown (X.bind_thrown (tick_zero _))

/-- C115 is false of the other moves of `emplace` and `insert`: the copy of the last element that was already made is never destroyed.  (The vector shows `l` with
one moved-from element and those behind it one place on, without the last one.) -/
theorem C115_emplace_violated {s : St α} {l : List α} (hs : Reachable K s l) (h : s.vec.usesFallback K = false) (hroom : l.length < K.capacity)
    (i k : Nat) (hk : i + k + 1 < l.length) (v : α) :
    ∃ s' x d, l[l.length - 1 - k]? = some x ∧ emplaceT K i (.value v) (throwing s (k + 1)) = .thrown s' ∧
      Shows K s' ((l.take (l.length - 1 - k) ++ K.mv x :: l.drop (l.length - 1 - k)).take l.length) ∧
      destructor K s' = .done d () ∧ living d = 1 := by
  obtain ⟨rfl, hl⟩ := hs.inline h
  have hx : l.length - 1 - k < l.length := by omega
  generalize hL : (l.take (l.length - 1 - k) ++ K.mv l[l.length - 1 - k] :: l.drop (l.length - 1 - k)) = L
  have hLlen : L.length = l.length + 1 := by
    rw [← hL]; simp only [List.length_append, List.length_take, List.length_cons, List.length_drop]; omega
  have hget : ∀ p, L[p]? = if p < l.length - 1 - k then l[p]? else if p = l.length - 1 - k then (l[p]?).map K.mv else l[p - 1]? := by
    intro p
    rw [← hL]
    by_cases c1 : p < l.length - 1 - k
    · rw [List.getElem?_append_left (by simp; omega), if_pos c1, List.getElem?_take, if_pos c1]
    · rw [List.getElem?_append_right (by simp; omega), if_neg c1, List.length_take, Nat.min_eq_left (by omega)]
      by_cases c2 : p = l.length - 1 - k
      · rw [if_pos c2, c2, Nat.sub_self, List.getElem?_cons_zero, List.getElem?_eq_getElem hx]; rfl
      · rw [if_neg c2]
        obtain ⟨q, hq⟩ : ∃ q, p - (l.length - 1 - k) = q + 1 := ⟨p - (l.length - 1 - k) - 1, by omega⟩
        rw [hq, List.getElem?_cons_succ, List.getElem?_drop]
        congr 1; omega
  have happ : L.take l.length ++ L.drop l.length = L := List.take_append_drop _ _
  have hover : (⟨⟨some l.length, Slots.mk K.capacity (fun p => if p < l.length - 1 - k then l[p]? else if p = l.length - 1 - k then (l[p]?).map K.mv
      else l[p - 1]?), []⟩, none⟩ : St α) = overfull K (L.take l.length) (L.drop l.length) := by
    simp only [overfull, Slots.ofList, happ, List.length_take, hLlen, Nat.min_eq_left (Nat.le_succ l.length)]
    congr 3
    funext p
    exact (hget p).symm
  have hcap : (L.take l.length ++ L.drop l.length).length ≤ K.capacity := by rw [happ, hLlen]; omega
  obtain ⟨d, hd, hliv⟩ := overfull_destructor (K := K) hcap
  refine ⟨overfull K (L.take l.length) (L.drop l.length), l[l.length - 1 - k], d, List.getElem?_eq_getElem hx, ?_, ?_, hd, ?_⟩
  · rw [throwing_inl]
    apply emplaceT_pre hroom (by omega)
    rw [← hover]
    exact emplaceShift_throw (by omega) hroom
  · rw [hL]; exact overfull_shows hcap
  · rw [hliv, List.length_drop, hLlen]; omega

theorem moveStorage_calls {l : List α} {k : Nat} {n i : Nat} {v : α} {s' : St α} (hF : K.hasFallback = true) (hn : K.capacity < n) (hi : i ≤ l.length)
    (h : moveStorageToFallbackT K (inl K l (some k)) = .thrown s') :
    (l.length = K.capacity → emplaceBackT K (.value v) (inl K l (some k)) = .thrown s' ∧ emplaceT K i (.value v) (inl K l (some k)) = .thrown s') ∧
    resizeT K n (.value v) (inl K l (some k)) = .thrown s' ∧ reserveT K n (inl K l (some k)) = .thrown s' := by
  refine ⟨fun hl => ?_, ?_, ?_⟩
  · have hc : checkFallbackOnGrowT K (inl K l (some k)) = .thrown s' := by
      unfold checkFallbackOnGrowT
      simp only [hF, if_true]
      rw [X.bind_done (using_inl _ _)]
      simp only [Bool.false_eq_true, if_false]
      rw [X.bind_done (mSize_inl _ _)]
      simp only [ge_iff_le, hl, Nat.le_refl, if_true]
      exact X.bind_thrown h
    refine ⟨X.bind_thrown hc, ?_⟩
    rw [emplaceT, X.bind_done (size_inl _ _)]
    simp only [hi, decide_true, X.assert_true, X.pure_bind']
    exact X.bind_thrown hc
  · rw [resizeT, X.bind_done (using_inl _ _)]
    simp only [Bool.false_eq_true, if_false, hF, Bool.true_and, gt_iff_lt, hn, decide_true, if_true]
    exact X.bind_thrown h
  · have hn' : ¬ n ≤ K.capacity := by omega
    unfold reserveT
    simp only [hF, if_true, hn', if_false]
    rw [X.bind_done (using_inl _ _)]
    simpa only [Bool.false_eq_true, if_false] using h

/-- C115 for the calls that move the elements to the fallback, if the first move throws: nothing has changed.  Missing: the other moves. -/
theorem C115_grow_partial {s : St α} {l : List α} (hs : Reachable K s l) (h : s.vec.usesFallback K = false) (hF : K.hasFallback = true)
    (hne : l ≠ []) (n i : Nat) (hn : K.capacity < n) (hi : i ≤ l.length) (v : α) :
    ∃ s', Usable K s' l ∧
      (l.length = K.capacity → emplaceBackT K (.value v) (throwing s 0) = .thrown s' ∧ emplaceT K i (.value v) (throwing s 0) = .thrown s') ∧
      resizeT K n (.value v) (throwing s 0) = .thrown s' ∧ reserveT K n (throwing s 0) = .thrown s' := by
  obtain ⟨rfl, hl⟩ := hs.inline h
  have hp := List.length_pos_iff.mpr hne
  refine ⟨inl K l none, Repr.usable (.inl ⟨rfl, hl⟩), ?_⟩
  exact moveStorage_calls hF hn hi (by rw [moveStorage_throw hp hl, half_zero])

/-- C115 is false of the calls that move the elements to the fallback, if a move other than the first throws: the elements already moved were destroyed but are
still counted, so that the destructor of the vector is undefined. -/
theorem C115_grow_violated {s : St α} {l : List α} (hs : Reachable K s l) (h : s.vec.usesFallback K = false) (hF : K.hasFallback = true)
    (k : Nat) (hk : 0 < k) (hkl : k < l.length) (n i : Nat) (hn : K.capacity < n) (hi : i ≤ l.length) (v : α) :
    ∃ s', size K s' = .done s' l.length ∧ at' K 0 s' = .fail .ub ∧ destructor K s' = .fail .ub ∧
      (l.length = K.capacity → emplaceBackT K (.value v) (throwing s k) = .thrown s' ∧ emplaceT K i (.value v) (throwing s k) = .thrown s') ∧
      resizeT K n (.value v) (throwing s k) = .thrown s' ∧ reserveT K n (throwing s k) = .thrown s' := by
  obtain ⟨rfl, hl⟩ := hs.inline h
  have hsz : size K (half K l k) = .done (half K l k) l.length := by
    simp [size, half, isUsingFallback, mSize, X.bind_run]
  refine ⟨half K l k, hsz, ?_, half_destructor hk hkl hl, moveStorage_calls hF hn hi (moveStorage_throw hkl hl)⟩
  have h0 : 0 < l.length := by omega
  have hr : Slots.read (half K l k).vec.data 0 = .error .ub := by
    rw [half, Slots.read, Slots.mk_get (by omega)]; simp [hk]
  have hu : isUsingFallback K (half K l k) = .done (half K l k) false := by simp [isUsingFallback, half]
  rw [at', X.bind_done hsz]
  simp only [h0, decide_true, X.assert_true, X.pure_bind']
  rw [readAt, X.bind_done hu]
  simp only [Bool.false_eq_true, if_false, ofData, hr]

/-! ## Moving whole vectors -/

/-- C115 is false of the move constructor and of move assignment, which are `noexcept`: if the move of any element out of a vector that does not use its
fallback throws, the program ends, whatever the target. -/
theorem C115_noexcept_violated {s t : St α} {l m : List α} (hs : Reachable K s l) (ht : Reachable K t m) (h : t.vec.usesFallback K = false)
    (raw : Vec α) (k : Nat) (hk : k < m.length) :
    moveConstructT K (⟨raw, some k⟩, t.vec) = .fail .terminate ∧ moveAssignTo K (throwing s k, t.vec) = .fail .terminate := by
  obtain ⟨rfl, hm⟩ := ht.inline h
  have e0 : ({ (inl K m none).vec with fallback := [] } : Vec α) = (inl K m none).vec := rfl
  constructor
  · obtain ⟨s', e⟩ := moveLoopT_throw (K := K) (u := false) (by simp) hm hk
    apply noexcept_thrown (s' := s')
    have h1 : ({ empty K with fallback := (inl K m none).vec.fallback } : Vec α) = empty K := rfl
    rw [X.bind_done (X.modify_run _ _), X.bind_done (X.get_run _)]
    simp only [e0, h1, usesFallback_inl, Bool.not_false, if_true]
    rw [empty_eq]
    exact e
  · have hst : ∃ u, (u = true → K.hasFallback = true) ∧ ∃ d,
        ({ (throwing s k) with vec := { s.vec with fallback := [] } } : St α) = d ∧ clear K d = .done (state K u [] (some k)) () := by
      rcases hs.repr with ⟨rfl, hl⟩ | ⟨rfl, hF⟩
      · exact ⟨false, by simp, _, rfl, clear_inl hl⟩
      · refine ⟨true, fun _ => hF, _, rfl, ?_⟩
        show clear K (fb K [] (some k)) = _
        rw [clear, X.bind_done (using_fb hF _ _)]
        rfl
    obtain ⟨u, hu, d, hd, hc⟩ := hst
    obtain ⟨s', e⟩ := moveLoopT_throw (K := K) (u := u) hu hm hk
    apply noexcept_thrown (s' := s')
    rw [X.bind_done (X.modify_run _ _), X.bind_done (X.get_run _)]
    have h1 : ({ (throwing s k) with vec := { (throwing s k).vec with fallback := (inl K m none).vec.fallback } } : St α) = d := hd
    simp only [e0, h1, usesFallback_inl, Bool.false_eq_true, if_false]
    rw [X.bind_done (onThis_done hc)]
    have hr : reserveT K m.length (state K u [] (some k)) = .done (state K u [] (some k)) () := by
      unfold reserveT
      cases K.hasFallback <;> simp [hm]
    simp only [inl]
    rw [X.bind_done (onThis_done hr)]
    exact e

/-- A vector with room and enough elements for every case of C115, a full one, and moves that change their source. -/
example : (∃ s, Reachable (⟨5, true, 0, fun _ => 0⟩ : Cfg Nat) s [7, 7, 7, 7] ∧ s.vec.usesFallback ⟨5, true, 0, fun _ => 0⟩ = false) ∧
    ∃ s, Reachable exK s [7, 7, 7] ∧ s.vec.usesFallback exK = false := by
  refine ⟨⟨⟨⟨some 4, [some 7, some 7, some 7, some 7, none], []⟩, none⟩, ?_, rfl⟩, ⟨⟨⟨some 3, [some 7, some 7, some 7], []⟩, none⟩, ?_, rfl⟩⟩
  · exact (Reachable.new (K := ⟨5, true, 0, fun _ => 0⟩)).call (o := .resize 4 7) (.inl rfl) (r := none) (by decide)
  · exact (Reachable.new (K := exK)).call (o := .resize 3 7) (.inl rfl) (r := none) (by decide)

/-! ## C116: constructors and copy assignment -/

theorem ctorCopy_throw {m : List α} {k : Nat} (raw : Vec α) (hm : m.length ≤ K.capacity) (hk : k < m.length) :
    ctorCopy K (inl K m none).vec ⟨raw, some k⟩ = .thrown (hole K (m.take k) k none) := by
  have : (do ticks (inl K m none).vec.fallback.length; copyConstruct K (inl K m none).vec : X (St α) Unit) ⟨raw, some k⟩ =
      .thrown (hole K (m.take k) k none) := by
    rw [X.bind_done (show ticks (inl K m none).vec.fallback.length ⟨raw, some k⟩ = .done ⟨raw, some k⟩ () from rfl)]
    simp only [copyConstruct, usesFallback_inl, X.bind_run, X.modify_run, setFallback, setSize, Bool.not_false, if_true]
    have h0 := empty_eq K (some k : Option Nat)
    simp only [inl, St.mk.injEq, and_true] at h0
    rw [h0]
    exact copyLoop_throw_inl hm hk
  simp only [ctorCopy, plain, this]
  rfl

theorem delegating_thrown {body : X (St α) Unit} {s s' d : St α} (h : body s = .thrown s') (hd : destructor K s' = .done d ()) :
    delegating K body s = .thrown d := by
  rw [delegating, h]; simp only [hd]

theorem delegating_fail {body : X (St α) Unit} {s s' : St α} {e : Err} (h : body s = .thrown s') (hd : destructor K s' = .fail e) :
    delegating K body s = .fail e := by
  rw [delegating, h]; simp only [hd]

/-- C116: the constructors without exception are those of C25 and C27. -/
theorem C116_no_throw (K : Cfg α) (raw : Vec α) (n : Nat) (v : α) (vs : List α) {t : St α} {m : List α} (ht : Reachable K t m) :
    ((K.hasFallback = true ∨ n ≤ K.capacity) → ∃ s, ctorSize K n v ⟨raw, none⟩ = .done s () ∧ Usable K s (List.replicate n v)) ∧
    ((K.hasFallback = true ∨ vs.length ≤ K.capacity) → ∃ s, ctorRange K vs ⟨raw, none⟩ = .done s () ∧ Usable K s vs) ∧
    ∃ s, ctorCopy K t.vec ⟨raw, none⟩ = .done s () ∧ Usable K s m := by
  refine ⟨fun h => ?_, fun h => ?_, ?_⟩
  · obtain ⟨s, e, r⟩ := resize_repr n v (repr_empty K none) h
    refine ⟨s, ?_, by simpa using r.usable⟩
    rw [ctorSize, X.bind_done (X.modify_run _ _)]
    simp only [delegating, ofSize, e]
  · have : ∀ (vs l : List α) (s : St α), Repr K s l none → (K.hasFallback = true ∨ l.length + vs.length ≤ K.capacity) →
        ∃ s', emplaceAll K vs s = .done s' () ∧ Repr K s' (l ++ vs) none := by
      intro vs
      induction vs with
      | nil => intro l s hs _; exact ⟨s, rfl, by simpa using hs⟩
      | cons v vs ih =>
        intro l s hs hok
        obtain ⟨s1, e1, r1⟩ := emplaceBack_repr v hs (hok.imp id (fun h => by simp at h; omega))
        obtain ⟨s2, e2, r2⟩ := ih (l ++ [v]) s1 r1 (hok.imp id (fun h => by simp at h ⊢; omega))
        exact ⟨s2, by rw [emplaceAll, X.bind_done e1]; exact e2, by simpa using r2⟩
    obtain ⟨s, e, r⟩ := this vs [] _ (repr_empty K none) (by simpa using h)
    refine ⟨s, ?_, by simpa using r.usable⟩
    rw [ctorRange, X.bind_done (X.modify_run _ _)]
    simp only [delegating, e]
  · obtain ⟨s, e, r⟩ := copyConstruct_repr ht.repr raw
    refine ⟨s, ?_, r.usable⟩
    have : (do ticks t.vec.fallback.length; copyConstruct K t.vec : X (St α) Unit) ⟨raw, none⟩ = .done s () := by
      rw [X.bind_done (ticks_none _ _)]; exact e
    simp only [ctorCopy, plain, this]

/-- C116 where it holds: if the elements go to the fallback, or if the very first element of `FixedVector(n, v)` or of a copy throws, no object is left.
Missing: the other elements. -/
theorem C116_constructor_partial (K : Cfg α) (raw : Vec α) (hraw : raw.data.alive = 0) (n k : Nat) (v : α) (vs : List α) :
    (K.hasFallback = true → K.capacity < n → k < n → ∃ d, ctorSize K n v ⟨raw, some k⟩ = .thrown d ∧ living d = 0) ∧
    (n ≤ K.capacity → 0 < n → ∃ d, ctorSize K n v ⟨raw, some 0⟩ = .thrown d ∧ living d = 0) ∧
    (K.hasFallback = true → k < vs.length → K.capacity ≤ k → ∃ d, ctorRange K vs ⟨raw, some k⟩ = .thrown d ∧ living d = 0) ∧
    (∀ t m, Reachable K t m → t.vec.usesFallback K = true → k < m.length →
      ∃ d, ctorCopy K t.vec ⟨raw, some k⟩ = .thrown d ∧ living d = 0) ∧
    (∀ t m, Reachable K t m → t.vec.usesFallback K = false → m ≠ [] → ∃ d, ctorCopy K t.vec ⟨raw, some 0⟩ = .thrown d ∧ living d = 0) := by
  refine ⟨fun hF hn hk => ?_, fun hn h0 => ?_, fun hF hk hc => ?_, fun t m ht hu hk => ?_, fun t m ht hu hm => ?_⟩
  · have hr : resize K n (.value v) (inl K [] (some k)) = .thrown (fb K [] none) := by
      rw [resize, X.bind_done (using_inl _ _)]
      simp only [Bool.false_eq_true, if_false, hF, Bool.true_and, gt_iff_lt, hn, decide_true, if_true]
      rw [X.bind_done (moveStorage_inl (by simp))]
      exact resizeFallback_throw (by simpa using hk)
    obtain ⟨d, hd, hl⟩ := destructor_repr (.inr ⟨rfl, hF⟩ : Repr K (fb K [] none) [] none)
    refine ⟨d, ?_, hl⟩
    rw [ctorSize, X.bind_done (X.modify_run _ _)]
    simp only [empty_eq]
    exact delegating_thrown hr hd
  · obtain ⟨d, hd, hl⟩ := overfull_destructor (K := K) (l := []) (extra := []) (by simp)
    refine ⟨d, ?_, hl⟩
    have := resize_throw_inl (K := K) (l := []) (n := n) (k := 0) (v := v) hn (by simpa using h0)
    rw [ctorSize, X.bind_done (X.modify_run _ _)]
    simp only [empty_eq]
    exact delegating_thrown this hd
  · obtain ⟨d, hd, hl⟩ := destructor_repr (.inr ⟨rfl, hF⟩ : Repr K (fb K (vs.take k) none) (vs.take k) none)
    refine ⟨d, ?_, hl⟩
    have := emplaceAll_over_throw (K := K) (l := []) hF hk (by simp) (by simpa using hc)
    rw [ctorRange, X.bind_done (X.modify_run _ _)]
    simp only [empty_eq]
    exact delegating_thrown this (by simpa using hd)
  · rcases ht.repr with ⟨rfl, _⟩ | ⟨rfl, hF⟩
    · rw [usesFallback_inl] at hu; simp at hu
    · refine ⟨⟨{ raw with fallback := [] }, none⟩, ?_, by simp [living, hraw]⟩
      have : (do ticks (fb K m none).vec.fallback.length; copyConstruct K (fb K m none).vec : X (St α) Unit) ⟨raw, some k⟩ = .thrown ⟨raw, none⟩ :=
        X.bind_thrown (ticks_throw (by simpa [fb] using hk))
      simp only [ctorCopy, plain, this]
  · obtain ⟨rfl, hl⟩ := ht.inline hu
    have hp := List.length_pos_iff.mpr hm
    have := ctorCopy_throw raw hl hp
    exact ⟨_, this, by simpa [living, hole] using hole_alive (K := K) (l := []) (by simp; omega)⟩

/-- C116 is false of `FixedVector(n, v)` and of copies if the elements are inside the vector: the `k` elements
constructed before the exception are never destroyed. -/
theorem C116_leak_violated (K : Cfg α) (raw : Vec α) (n k : Nat) (v : α) :
    (n ≤ K.capacity → k < n → ∃ d, ctorSize K n v ⟨raw, some k⟩ = .thrown d ∧ living d = k) ∧
    (∀ t m, Reachable K t m → t.vec.usesFallback K = false → k < m.length → ∃ d, ctorCopy K t.vec ⟨raw, some k⟩ = .thrown d ∧ living d = k) := by
  refine ⟨fun hn hk => ?_, fun t m ht hu hk => ?_⟩
  · obtain ⟨d, hd, hl⟩ := overfull_destructor (K := K) (l := []) (extra := List.replicate k v) (by simp; omega)
    refine ⟨d, ?_, by simpa using hl⟩
    have := resize_throw_inl (K := K) (l := []) (n := n) (k := k) (v := v) hn (by simpa using hk)
    rw [ctorSize, X.bind_done (X.modify_run _ _)]
    simp only [empty_eq]
    exact delegating_thrown this hd
  · obtain ⟨rfl, hl⟩ := ht.inline hu
    have h1 : (m.take k).length = k := by rw [List.length_take]; omega
    have := hole_alive (K := K) (l := m.take k) (by omega)
    rw [h1] at this
    exact ⟨_, ctorCopy_throw raw hl hk, by simpa [living, hole] using this⟩

/-- C116 is false of `FixedVector(first, last)` and of the initializer list: the size was increased before the exception, so that the destructor, called
because the constructor delegates, destroys an element which was never constructed. -/
theorem C116_range_violated (K : Cfg α) (raw : Vec α) (k : Nat) (vs : List α) (hk : k < vs.length) (hc : k < K.capacity) :
    ctorRange K vs ⟨raw, some k⟩ = .fail .ub := by
  have h1 : (vs.take k).length = k := by rw [List.length_take]; omega
  have := emplaceAll_throw (K := K) (l := []) hk (by simpa using hc)
  rw [ctorRange, X.bind_done (X.modify_run _ _)]
  simp only [empty_eq]
  exact delegating_fail this (hole_destructor (by simp; omega) (by simp; omega))

/-- Copy assignment from a vector which does not use its fallback, with an exception at element `k`. -/
theorem copyAssign_throw {s : St α} {l m : List α} {k : Nat} (hs : Repr K s l none) (hm : m.length ≤ K.capacity) (hk : k < m.length) :
    copyAssign K (inl K m none).vec (throwing s k) =
      .thrown (if s.vec.usesFallback K then fb K (m.take k) none else hole K (m.take k) k none) := by
  have hr : ∀ d, reserve K m.length d = .done d () := by
    intro d
    unfold reserve
    cases K.hasFallback <;> simp [hm]
  simp only [copyAssign, usesFallback_inl, Bool.false_eq_true, if_false]
  rcases hs with ⟨rfl, hl⟩ | ⟨rfl, hF⟩
  · rw [X.bind_done (show clear K (throwing (inl K l none) k) = _ from clear_inl hl)]
    simp only [inl] at hr ⊢
    rw [X.bind_done (hr _)]
    have := copyLoop_throw_inl (K := K) hm hk
    simpa [Vec.usesFallback, inl] using this
  · have hc : clear K (throwing (fb K l none) k) = .done (fb K [] (some k)) () := by
      show clear K (fb K l (some k)) = _
      rw [clear, X.bind_done (using_fb hF _ _)]
      rfl
    rw [X.bind_done hc]
    rw [usesFallback_fb hF]
    simp only [inl] at hr ⊢
    rw [X.bind_done (hr _)]
    exact copyLoop_throw_fb hF hm hk

/-- C116 for copy assignment to a vector that uses its fallback, from one that does not: the vector has the elements copied before the exception.
Missing: the other targets. -/
theorem C116_assign_partial {s t : St α} {l m : List α} (hs : Reachable K s l) (ht : Reachable K t m) (h : t.vec.usesFallback K = false)
    (hu : s.vec.usesFallback K = true) (k : Nat) (hk : k < m.length) :
    ∃ s', copyAssign K t.vec (throwing s k) = .thrown s' ∧ Usable K s' (m.take k) := by
  obtain ⟨rfl, hm⟩ := ht.inline h
  have hF : K.hasFallback = true := by
    rcases hs.repr with ⟨rfl, _⟩ | ⟨_, hF⟩
    · rw [usesFallback_inl] at hu; simp at hu
    · exact hF
  have := copyAssign_throw hs.repr hm hk
  rw [hu] at this
  exact ⟨_, this, Repr.usable (.inr ⟨rfl, hF⟩)⟩

/-- C116 is false of copy assignment between vectors that do not use their fallback: after the exception the destructor of the target destroys an element
which was never constructed. -/
theorem C116_assign_violated {s t : St α} {l m : List α} (hs : Reachable K s l) (ht : Reachable K t m) (h : t.vec.usesFallback K = false)
    (hu : s.vec.usesFallback K = false) (k : Nat) (hk : k < m.length) :
    ∃ s', copyAssign K t.vec (throwing s k) = .thrown s' ∧ destructor K s' = .fail .ub := by
  obtain ⟨rfl, hm⟩ := ht.inline h
  have := copyAssign_throw hs.repr hm hk
  rw [hu] at this
  exact ⟨_, this, hole_destructor (by rw [List.length_take]; omega) (by rw [List.length_take]; omega)⟩

/-- Vectors for every case of C116: one inside its storage with three elements, one using its fallback. -/
example : (∃ s, Reachable exK s [7, 7, 7] ∧ s.vec.usesFallback exK = false) ∧ ∃ s, Reachable exK s [7, 7, 7, 7] ∧ s.vec.usesFallback exK = true := by
  refine ⟨⟨⟨⟨some 3, [some 7, some 7, some 7], []⟩, none⟩, ?_, rfl⟩, ⟨⟨⟨none, [none, none, none], [7, 7, 7, 7]⟩, none⟩, ?_, rfl⟩⟩
  · exact (Reachable.new (K := exK)).call (o := .resize 3 7) (.inl rfl) (r := none) (by decide)
  · exact (Reachable.new (K := exK)).call (o := .resize 4 7) (.inl rfl) (r := none) (by decide)

end Verif.FixedVector
