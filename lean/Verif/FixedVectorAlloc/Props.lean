import Verif.FixedVectorAlloc.Reach
import Verif.FixedVector.LemmasThrow

/-!
# C100, C101, C102: allocation failures, capacity and stability of `FixedVector` with a fallback
-/

namespace Verif.FixedVectorAlloc
open Verif.Cpp Verif.FixedVector

variable {α : Type} {K : Cfg α} {L : Lib} {grant : Nat → Bool} {nt : Bool}

/-- A `HybridVector` of three numbers. -/
def exK : Cfg Nat := ⟨3, true, 0, fun _ => 0⟩
/-- A library that allocates what is asked for, and doubles. -/
def exL : Lib := ⟨fun _ n => n, fun c n => max (2 * c) n, fun n => n, fun _ n => Nat.le_refl n, fun _ _ => Nat.le_max_right .., fun n => Nat.le_refl n⟩

/-! ### C100 -/

/-- C100: whatever allocations fail, a call has its full effect, or throws and leaves the vector as it was (elements, capacity and addresses).  It throws only if it
needs more than `capacity()` elements and the allocation is refused. -/
theorem C100_call {h : HSt α} {l : List α} (hr : Reachable K L grant nt h l) (o : Op α) (hok : o.ok K.capacity K.hasFallback l) :
    (∃ h', run K L grant o h = .done h' (o.spec l).2 ∧ Shows K h'.st (o.spec l).1 ∧ living h'.st = (o.spec l).1.length ∧
      Reachable K L grant nt h' (o.spec l).1) ∨
    (∃ h' c, run K L grant o h = .thrown h' ∧ Unchanged h h' ∧ Shows K h'.st l ∧ Reachable K L grant nt h' l ∧
      capacity K h = .done h c ∧ c < needs o l ∧ grant h.tries = false) := by
  obtain ⟨u, r⟩ := hr.repr
  have ho := run_out (L := L) (grant := grant) o r hok
  have hle : needs' K o l ≤ needs o l := by
    cases o <;> simp only [needs', needs, Nat.le_refl]
    split <;> omega
  rcases Nat.lt_or_ge (capOf K u h) (needs' K o l) with hc | hc
  · cases hg : grant h.tries with
    | true =>
      obtain ⟨s', c, _, e', r'⟩ := (ho.2 hc).1 hg
      exact .inl ⟨_, e', shows_repr r'.1.repr, living_repr r'.1.repr, hr.call hok e'⟩
    | false =>
      have e := (ho.2 hc).2 hg
      exact .inr ⟨_, _, e, ⟨rfl, rfl⟩, shows_repr r.1.repr, hr.callThrown hok e, capacity_repr r, by omega, rfl⟩
  · obtain ⟨s', e', r'⟩ := ho.1 hc
    exact .inl ⟨_, e', shows_repr r'.1.repr, living_repr r'.1.repr, hr.call hok e'⟩

/-- C100: with enough memory every allowed call succeeds. -/
theorem C100_enough_memory {h : HSt α} {l : List α} (hr : Reachable K L grant nt h l) (o : Op α) (hok : o.ok K.capacity K.hasFallback l)
    (hg : grant h.tries = true) : ∃ h', run K L grant o h = .done h' (o.spec l).2 ∧ Shows K h'.st (o.spec l).1 := by
  rcases C100_call hr o hok with ⟨h', e, s, _⟩ | ⟨h', c, _, _, _, _, _, _, hf⟩
  · exact ⟨h', e, s⟩
  · rw [hg] at hf; cases hf

/-- C100 over histories: calls that throw are without effect, the others have theirs, and the destructor leaves no element. -/
theorem C100_history (ops : List (Op α)) (n : Nat) (h : Allowed K.capacity K.hasFallback ops []) :
    ∃ h' rs l, runAll K L grant ops ⟨⟨empty K, none⟩, ⟨0, 0⟩, n⟩ = .ok (h', rs) ∧ Runs K.capacity K.hasFallback ops [] rs l ∧
      Shows K h'.st l ∧ Reachable K L grant nt h' l ∧ ∃ d, destructor K h'.st = .done d () ∧ living d = 0 := by
  have key : ∀ (ops : List (Op α)) (h : HSt α) (l : List α), Reachable K L grant nt h l → Allowed K.capacity K.hasFallback ops l →
      ∃ h' rs l', runAll K L grant ops h = .ok (h', rs) ∧ Runs K.capacity K.hasFallback ops l rs l' ∧ Reachable K L grant nt h' l' := by
    intro ops
    induction ops with
    | nil => intro h l hr _; exact ⟨h, [], l, rfl, .nil l, hr⟩
    | cons o os ih =>
      rintro h l hr ⟨hok, h1, h2⟩
      rcases C100_call hr o hok with ⟨h', e, _, _, r'⟩ | ⟨h', c, e, _, _, r', _⟩
      · obtain ⟨h2, rs, l2, e2, R, r2⟩ := ih h' _ r' h1
        exact ⟨h2, some (o.spec l).2 :: rs, l2, by simp only [runAll, e, e2]; rfl, .done hok R, r2⟩
      · obtain ⟨h2, rs, l2, e2, R, r2⟩ := ih h' _ r' h2
        exact ⟨h2, none :: rs, l2, by simp only [runAll, e, e2]; rfl, .thrown R, r2⟩
  obtain ⟨h', rs, l, e, R, r⟩ := key ops _ [] (.new n) h
  obtain ⟨u, r'⟩ := r.repr
  exact ⟨h', rs, l, e, R, shows_repr r'.1.repr, r, destructor_repr r'.1.repr⟩

/-- A history whose second allocation fails: the fourth element moves the vector to its fallback, the fifth does not fit. -/
example : Allowed exK.capacity exK.hasFallback [.pushBack 1, .pushBack 2, .pushBack 3, .pushBack 4, .pushBack 5, .clear] [] ∧
    (match runAll exK exL (· == 0) [.pushBack 1, .pushBack 2, .pushBack 3, .pushBack 4, .pushBack 5, .popBack] ⟨⟨empty exK, none⟩, ⟨0, 0⟩, 0⟩ with
     | .ok p => some (p.2, p.1.st.vec.fallback)
     | .error _ => none) = some ([some (some 0), some (some 1), some (some 2), some (some 3), none, some none], [1, 2, 3]) := by
  refine ⟨?_, by decide +kernel⟩
  simp [Allowed, Op.ok, exK]

/-- C100: `push_back` behaves as `emplace_back` if its element type may throw when copied, or if there is room. -/
theorem C100_push_back_partial {h : HSt α} {l : List α} (hr : Reachable K L grant nt h l) (v : α) (hok : K.hasFallback = true ∨ l.length < K.capacity)
    (hc : nt = false ∨ ∃ c, capacity K h = .done h c ∧ l.length < c) :
    pushBack K L grant nt v h = emplaceBack K L grant v h := by
  obtain ⟨u, r⟩ := hr.repr
  rw [pushBack, noexcept]
  have ho := emplaceBack_out (L := L) (grant := grant) (v := v) r hok
  rcases hc with hc | ⟨c, e, hc⟩
  · subst hc
    split <;> simp_all
  · rw [capacity_repr r] at e
    simp only [Out.done.injEq, true_and] at e
    obtain ⟨s', e', _⟩ := ho.1 (by omega)
    rw [e']

/-- C100 is false of `push_back` for elements that do not throw when copied: it is `noexcept`, so that a failed allocation ends the program. -/
theorem C100_push_back_violated {h : HSt α} {l : List α} (hr : Reachable K L grant nt h l) (v : α) (hF : K.hasFallback = true)
    (hc : capacity K h = .done h l.length) (hg : grant h.tries = false) :
    emplaceBack K L grant v h = .thrown { h with tries := h.tries + 1 } ∧ pushBack K L grant true v h = .fail .terminate := by
  obtain ⟨u, r⟩ := hr.repr
  rw [capacity_repr r] at hc
  simp only [Out.done.injEq, true_and] at hc
  have e := ((emplaceBack_out (L := L) (grant := grant) (v := v) r (.inl hF)).2 (by omega)).2 hg
  exact ⟨e, by rw [pushBack, noexcept_thrown e]; rfl⟩

/-- A full vector. -/
example : ∃ h, Reachable exK exL (fun _ => false) true h [7, 7, 7] ∧ capacity exK h = .done h 3 ∧ exK.hasFallback = true := by
  refine ⟨⟨⟨⟨some 3, [some 7, some 7, some 7], []⟩, none⟩, ⟨0, 0⟩, 0⟩, ?_, by decide, rfl⟩
  exact (Reachable.new 0).call (o := .resize 3 7) (.inl rfl) (r := none) (by decide)

/-- C100: copy construction makes the copy, or throws (nothing has been constructed). -/
theorem C100_copy_construct {t : HSt α} {m : List α} (ht : Reachable K L grant nt t m) (raw : Vec α) (b0 : Buf) (n : Nat) :
    (∃ h', copyConstruct K L grant nt t.st.vec ⟨⟨raw, none⟩, b0, n⟩ = .done h' () ∧ Shows K h'.st m ∧ Reachable K L grant nt h' m) ∨
    (∃ h', copyConstruct K L grant nt t.st.vec ⟨⟨raw, none⟩, b0, n⟩ = .thrown h' ∧ living h'.st = 0 ∧ t.st.vec.usesFallback K = true ∧ grant n = false) := by
  obtain ⟨u, r⟩ := ht.repr
  have done : ∀ h', copyConstruct K L grant nt t.st.vec ⟨⟨raw, none⟩, b0, n⟩ = .done h' () →
      (∃ h', copyConstruct K L grant nt t.st.vec ⟨⟨raw, none⟩, b0, n⟩ = .done h' () ∧ Shows K h'.st m ∧ Reachable K L grant nt h' m) := by
    intro h' e
    have hr := ht.copyConstruct e
    obtain ⟨_, r'⟩ := hr.repr
    exact ⟨h', e, shows_repr r'.1.repr, hr⟩
  have hu := uses_reprU r.1
  rcases r.cases with ⟨_, hh, hl⟩ | ⟨hu', hh, hF, _⟩
  · obtain ⟨s', e', r'⟩ := copyConstruct_inl (L := L) (grant := grant) (nt := nt) hl raw b0 n
    exact .inl (done _ (by rw [hh]; exact e'))
  · have e := copyConstruct_fb (L := L) (grant := grant) (nt := nt) (m := m) hF raw b0 n
    have hst : t.st = fb K m none := by rw [hh]
    rw [← hst] at e
    by_cases hm : m = []
    · rw [if_pos hm] at e
      exact .inl (done _ e)
    · rw [if_neg hm] at e
      cases hg : grant n with
      | true => rw [if_pos hg] at e; exact .inl (done _ e)
      | false =>
        rw [hg, if_neg (by simp)] at e
        refine .inr ⟨_, e, ?_, by rw [hu, hu'], rfl⟩
        have := living_repr (repr_empty K none)
        simpa using this

/-- C100: copy assignment has its full effect or throws without effect, unless a vector that uses its fallback is assigned one that does not.  (The other restriction
is that of `C27_copyAssign_partial`.) -/
theorem C100_copy_assign_partial {h t : HSt α} {l m : List α} (hr : Reachable K L grant nt h l) (ht : Reachable K L grant nt t m)
    (hg : t.st.vec.usesFallback K = true → h.st.vec.usesFallback K = true ∨ l = [])
    (hc : t.st.vec.usesFallback K = true ∨ ∃ c, capacity K h = .done h c ∧ m.length ≤ c) :
    (∃ h', copyAssign K L grant nt t.st.vec h = .done h' () ∧ Shows K h'.st m ∧ Reachable K L grant nt h' m) ∨
    (∃ h', copyAssign K L grant nt t.st.vec h = .thrown h' ∧ Unchanged h h' ∧ Shows K h'.st l ∧ grant h.tries = false) := by
  obtain ⟨u, r⟩ := hr.repr
  obtain ⟨u', r'⟩ := ht.repr
  have done : ∀ h', copyAssign K L grant nt t.st.vec h = .done h' () →
      (∃ h', copyAssign K L grant nt t.st.vec h = .done h' () ∧ Shows K h'.st m ∧ Reachable K L grant nt h' m) := by
    intro h' e
    have hr := hr.copyAssign ht hg e
    obtain ⟨_, r'⟩ := hr.repr
    exact ⟨h', e, shows_repr r'.1.repr, hr⟩
  rw [uses_reprU r.1, uses_reprU r'.1] at hg
  rw [uses_reprU r'.1] at hc
  rcases r'.cases with ⟨hu, hh, hl⟩ | ⟨hu, hh, hF, _⟩
  · rcases hc with hc | ⟨c, e, hc⟩
    · rw [hu] at hc; cases hc
    · rw [capacity_repr r] at e
      simp only [Out.done.injEq, true_and] at e
      obtain ⟨s0, e0, r0⟩ := copyAssign_inl (L := L) (grant := grant) (nt := nt) r hl
      have hst : t.st = inl K m none := by rw [hh]
      rw [← hst] at e0
      obtain ⟨s', e1, r1⟩ := copyLoop_room (L := L) (grant := grant) (nt := nt) (vec := t.st.vec) r0 hl
        (by simp only [capOf] at e ⊢; omega) (by rw [hst]; rfl)
      rw [e1] at e0
      exact .inl (done _ e0)
  · have e := copyAssign_fb (L := L) (grant := grant) (nt := nt) (m := m) r hF (hg hu)
    have hst : t.st = fb K m none := by rw [hh]
    rw [← hst] at e
    by_cases hm : m.length ≤ h.buf.cap
    · rw [if_pos hm] at e
      exact .inl (done _ e)
    · rw [if_neg hm] at e
      cases hg' : grant h.tries with
      | true => rw [if_pos hg'] at e; exact .inl (done _ e)
      | false =>
        rw [hg', if_neg (by simp)] at e
        exact .inr ⟨_, e, ⟨rfl, rfl⟩, shows_repr r.1.repr, rfl⟩

/-- C100 is false of the other copy assignments: the target has lost its elements when the allocation fails, and holds the first elements of the source; or the
program ends, because `push_back` is `noexcept`. -/
theorem C100_copy_assign_violated {h t : HSt α} {l m : List α} {c : Nat} (hr : Reachable K L grant nt h l) (ht : Reachable K L grant nt t m)
    (hu : h.st.vec.usesFallback K = true) (hu' : t.st.vec.usesFallback K = false) (hc : capacity K h = .done h c) (hm : c < m.length)
    (hg : grant h.tries = false) :
    if nt then copyAssign K L grant nt t.st.vec h = .fail .terminate
    else ∃ h', copyAssign K L grant nt t.st.vec h = .thrown h' ∧ Shows K h'.st (m.take c) := by
  obtain ⟨u, r⟩ := hr.repr
  obtain ⟨u', r'⟩ := ht.repr
  rw [uses_reprU r.1] at hu
  rw [uses_reprU r'.1] at hu'
  subst hu hu'
  rcases r'.cases with ⟨_, hh, hl⟩ | ⟨h1, _⟩
  · rw [capacity_repr r] at hc
    simp only [Out.done.injEq, true_and, capOf, if_true] at hc
    obtain ⟨s0, e0, r0⟩ := copyAssign_inl (L := L) (grant := grant) (nt := nt) r hl
    have hst : t.st = inl K m none := by rw [hh]
    rw [← hst] at e0
    have hs0 : s0 = fb K [] none ∧ K.hasFallback = true := by
      rcases r0.1 with ⟨h1, _⟩ | ⟨_, h1, h2⟩
      · cases h1
      · exact ⟨h1, h2⟩
    obtain ⟨hs0, hF⟩ := hs0
    subst hs0
    let S : Nat → HSt α := fun k => ⟨fb K (m.take k) none, h.buf, h.tries⟩
    have hS : ∀ k, k ≤ h.buf.cap → HRepr K true (S k) (m.take k) := fun k hk =>
      ⟨.inr ⟨rfl, rfl, hF⟩, by simp, fun _ => by simp only [S, List.length_take]; omega, r.2.2.2⟩
    have step : ∀ k, k < h.buf.cap → copyOne K L grant nt t.st.vec (0 + k) (S k) = .done (S (k + 1)) () := by
      intro k hk
      have hk' : k < m.length := by omega
      obtain ⟨s', e, r1⟩ := (emplaceBack_out (L := L) (grant := grant) (v := m[k]) (hS k (by omega)) (.inl hF)).1
        (by simp only [capOf, if_true, S, List.length_take]; omega)
      have hs' : s' = fb K (m.take (k + 1)) none := by
        rcases r1.1 with ⟨h1, _⟩ | ⟨_, h1, _⟩
        · cases h1
        · rw [List.take_succ_eq_append_getElem hk']; exact h1
      rw [Nat.zero_add, copyOne, hst]
      simp only [inl]
      rw [read_ofList hk' hl]
      simp only
      have e' : pushBack K L grant nt m[k] (S k) = _ := noexcept_done e
      rw [X.bind_done e', hs']
      rfl
    have last : copyOne K L grant nt t.st.vec (0 + h.buf.cap) (S h.buf.cap) =
        if nt then .fail .terminate else .thrown ⟨fb K (m.take h.buf.cap) none, h.buf, h.tries + 1⟩ := by
      have hk' : h.buf.cap < m.length := by omega
      have e := ((emplaceBack_out (L := L) (grant := grant) (v := m[h.buf.cap]) (hS h.buf.cap (by omega)) (.inl hF)).2
        (by simp only [capOf, if_true, S, List.length_take]; omega)).2 hg
      rw [Nat.zero_add, copyOne, hst]
      simp only [inl]
      rw [read_ofList hk' hl]
      simp only
      have e' : pushBack K L grant nt m[h.buf.cap] (S h.buf.cap) = _ := noexcept_thrown e
      cases nt
      · simp only [Bool.false_eq_true, if_false] at e' ⊢
        rw [X.bind_thrown e']
      · simp only [if_true] at e' ⊢
        rw [X.bind_fail e']
    have hS0 : S 0 = ⟨fb K [] none, h.buf, h.tries⟩ := by simp [S]
    cases nt
    · simp only [Bool.false_eq_true, if_false] at last ⊢
      refine ⟨_, by rw [e0, ← hS0]; exact X.forUp_thrown S _ (by omega) step last, ?_⟩
      rw [← hc]
      exact shows_repr (.inr ⟨rfl, hF⟩)
    · simp only [if_true] at last ⊢
      rw [e0, ← hS0]
      exact X.forUp_fail S h.buf.cap (by omega) step last
  · cases h1

/-- A vector of capacity 1 that uses its fallback, and one of two elements that does not. -/
theorem exFallback (nt : Bool) : Reachable exK exL (· < 2) nt ⟨⟨⟨none, [none, none, none], [7]⟩, none⟩, ⟨1, 2⟩, 2⟩ [7] := by
  have h0 : Reachable exK exL (· < 2) nt _ [7, 7, 7, 7] := (Reachable.new 0).call (o := .resize 4 7) (.inl rfl) (r := none)
    (h' := ⟨⟨⟨none, [none, none, none], [7, 7, 7, 7]⟩, none⟩, ⟨4, 1⟩, 1⟩) (by decide)
  have h1 : Reachable exK exL (· < 2) nt _ [7] := h0.call (o := .eraseRange 1 4) (by simp [Op.ok]) (r := some 1)
    (h' := ⟨⟨⟨none, [none, none, none], [7]⟩, none⟩, ⟨4, 1⟩, 1⟩) (by decide)
  exact h1.copyConstruct (v0 := empty exK) (b0 := ⟨0, 0⟩) (n := 1) (by cases nt <;> decide)

theorem exInline (nt : Bool) : Reachable exK exL (· < 2) nt ⟨⟨⟨some 2, [some 8, some 8, none], []⟩, none⟩, ⟨0, 0⟩, 0⟩ [8, 8] :=
  (Reachable.new 0).call (o := .resize 2 8) (.inl rfl) (r := none) (by decide)

example : capacity exK ⟨⟨⟨none, [none, none, none], [7]⟩, none⟩, ⟨1, 2⟩, 2⟩ =
      .done ⟨⟨⟨none, [none, none, none], [7]⟩, none⟩, ⟨1, 2⟩, 2⟩ 1 ∧
    copyAssign exK exL (· < 2) false ⟨some 2, [some 8, some 8, none], []⟩ ⟨⟨⟨none, [none, none, none], [7]⟩, none⟩, ⟨1, 2⟩, 2⟩ =
      .thrown ⟨⟨⟨none, [none, none, none], [8]⟩, none⟩, ⟨1, 2⟩, 3⟩ := by decide

/-- C100: move construction never fails. -/
theorem C100_move_construct {t : HSt α} {m : List α} (ht : Reachable K L grant nt t m) (raw : Vec α) (b0 : Buf) (n : Nat) (hn : t.tries ≤ n) :
    ∃ h' v', moveConstruct K L grant (⟨⟨raw, none⟩, b0, n⟩, (t.st.vec, t.buf)) = .done (h', v') () ∧ Shows K h'.st m ∧
      Shows K ⟨v'.1, none⟩ (movedFrom K false t.st m) ∧ h'.tries = n ∧ Reachable K L grant nt h' m := by
  obtain ⟨u, r⟩ := ht.repr
  have done : ∀ h' v', moveConstruct K L grant (⟨⟨raw, none⟩, b0, n⟩, (t.st.vec, t.buf)) = .done (h', v') () → h'.tries = n →
      ∃ h' v', moveConstruct K L grant (⟨⟨raw, none⟩, b0, n⟩, (t.st.vec, t.buf)) = .done (h', v') () ∧ Shows K h'.st m ∧
        Shows K ⟨v'.1, none⟩ (movedFrom K false t.st m) ∧ h'.tries = n ∧ Reachable K L grant nt h' m := by
    intro h' v' e hn'
    have hr := ht.moveConstruct hn e
    obtain ⟨_, r1⟩ := hr.repr
    obtain ⟨_, r2⟩ := (ht.moveConstructSource hn e).repr
    exact ⟨h', v', e, shows_repr r1.1.repr, shows_repr r2.1.repr, hn', hr⟩
  rcases r.cases with ⟨_, hh, hl⟩ | ⟨_, hh, hF, _⟩
  · obtain ⟨s', e', r'⟩ := moveConstruct_inl (L := L) (grant := grant) hl raw b0 n
    exact done _ _ (by rw [hh]; exact e') rfl
  · have e := moveConstruct_fb (L := L) (grant := grant) (m := m) hF raw b0 t.buf n
    exact done _ _ (by rw [hh]; exact e) rfl

/-- C100: move assignment does not allocate, unless a vector that uses its fallback is assigned one that does not and is not empty.  (The other restriction is that of
`C27_moveAssign_partial`.) -/
theorem C100_move_assign_partial {h t : HSt α} {l m : List α} (hr : Reachable K L grant nt h l) (ht : Reachable K L grant nt t m) (hn : t.tries ≤ h.tries)
    (hg : t.st.vec.usesFallback K = true → h.st.vec.usesFallback K = true ∨ l = [])
    (hc : t.st.vec.usesFallback K = true ∨ h.st.vec.usesFallback K = false ∨ m = []) :
    ∃ h' v', moveAssign K L grant (h, (t.st.vec, t.buf)) = .done (h', v') () ∧ Shows K h'.st m ∧
      Shows K ⟨v'.1, none⟩ (movedFrom K (h.st.vec.usesFallback K) t.st m) ∧ h'.tries = h.tries ∧ Reachable K L grant nt h' m := by
  obtain ⟨u, r⟩ := hr.repr
  obtain ⟨u', r'⟩ := ht.repr
  have done : ∀ h' v', moveAssign K L grant (h, (t.st.vec, t.buf)) = .done (h', v') () → h'.tries = h.tries →
      ∃ h' v', moveAssign K L grant (h, (t.st.vec, t.buf)) = .done (h', v') () ∧ Shows K h'.st m ∧
        Shows K ⟨v'.1, none⟩ (movedFrom K (h.st.vec.usesFallback K) t.st m) ∧ h'.tries = h.tries ∧ Reachable K L grant nt h' m := by
    intro h' v' e hn'
    have hr1 := hr.moveAssign ht hn hg e
    obtain ⟨_, r1⟩ := hr1.repr
    obtain ⟨_, r2⟩ := (hr.moveAssignSource ht hn hg e).repr
    exact ⟨h', v', e, shows_repr r1.1.repr, shows_repr r2.1.repr, hn', hr1⟩
  rw [uses_reprU r.1, uses_reprU r'.1] at hg hc
  rcases r'.cases with ⟨hu, hh, hl⟩ | ⟨hu, hh, hF, hcap⟩
  · obtain ⟨s0, e0, r0⟩ := moveAssign_inl (L := L) (grant := grant) r hl
    have hst : (t.st.vec, t.buf) = ((inl K m none).vec, (⟨0, 0⟩ : Buf)) := by rw [hh]
    rw [← hst] at e0
    rcases hc with hc | hc | rfl
    · rw [hu] at hc; cases hc
    · subst hc
      obtain ⟨s', e1, _⟩ := moveLoop_inl (L := L) (grant := grant) (b' := ⟨0, 0⟩) r0 hl
      rw [← hst] at e1
      exact done ⟨s', ⟨0, 0⟩, h.tries⟩ _ (by rw [e0]; exact noexcept_done e1) rfl
    · exact done ⟨s0, ⟨0, 0⟩, h.tries⟩ _ (by rw [e0]; exact noexcept_done rfl) rfl
  · have e := moveAssign_fb (L := L) (grant := grant) (m := m) r hF (hg hu) t.buf
    have hst : t.st = fb K m none := by rw [hh]
    rw [← hst] at e
    exact done _ _ e rfl

/-- C100 is false of the other move assignments: they give up the buffer the vector has, ask for another one, and end the program if that fails. -/
theorem C100_move_assign_violated {h t : HSt α} {l m : List α} (hr : Reachable K L grant nt h l) (ht : Reachable K L grant nt t m)
    (hu : h.st.vec.usesFallback K = true) (hu' : t.st.vec.usesFallback K = false) (hm : m ≠ []) (hg : grant h.tries = false) :
    moveAssign K L grant (h, (t.st.vec, t.buf)) = .fail .terminate := by
  obtain ⟨u, r⟩ := hr.repr
  obtain ⟨u', r'⟩ := ht.repr
  rw [uses_reprU r.1] at hu
  rw [uses_reprU r'.1] at hu'
  subst hu hu'
  rcases r'.cases with ⟨_, hh, hl⟩ | ⟨h1, _⟩
  · obtain ⟨s0, e0, r0⟩ := moveAssign_inl (L := L) (grant := grant) r hl
    have hst : (t.st.vec, t.buf) = ((inl K m none).vec, (⟨0, 0⟩ : Buf)) := by rw [hh]
    rw [hst, e0]
    refine noexcept_fail ?_
    obtain ⟨v, m, rfl⟩ : ∃ v m', m = v :: m' := by
      cases m with
      | nil => exact absurd rfl hm
      | cons v m => exact ⟨v, m, rfl⟩
    simp only [List.length_cons] at hl
    have hF : K.hasFallback = true := by
      rcases r.1 with ⟨h1, _⟩ | ⟨_, _, h1⟩
      · cases h1
      · exact h1
    have e := ((emplaceBack_out (L := L) (grant := grant) (v := v) r0 (.inl hF)).2 (by simp [capOf])).2 hg
    have e' : pushBackMove K L grant v ⟨s0, ⟨0, 0⟩, h.tries⟩ = .fail .terminate := by
      rw [pushBackMove, noexcept, pushBackMoveBody_eq r0 (by simp; omega), X.bind_thrown e]
      rfl
    have e1 : moveOne K L grant 0 (⟨s0, ⟨0, 0⟩, h.tries⟩, ((inl K (v :: m) none).vec, ⟨0, 0⟩)) = .fail .terminate := by
      rw [moveOne, X.bind_done (X.get_run _)]
      simp only [inl]
      rw [read_ofList (show 0 < (v :: m).length by simp) (by simpa using hl)]
      simp only [List.getElem_cons_zero]
      rw [X.bind_fail (onThis_fail e')]
    rw [moveLoop, List.length_cons, X.forUp, X.bind_fail e1]
  · cases h1

example : moveAssign exK exL (· < 2) (⟨⟨⟨none, [none, none, none], [7]⟩, none⟩, ⟨1, 2⟩, 2⟩, (⟨some 2, [some 8, some 8, none], []⟩, ⟨0, 0⟩)) =
    .fail .terminate :=
  C100_move_assign_violated (exFallback true) (exInline true) rfl rfl (by simp) rfl

/-! ### C101 -/

/-- C101: `capacity()` is at least `size()`, and the inline capacity as long as the elements are in the inline storage. -/
theorem C101_capacity {h : HSt α} {l : List α} (hr : Reachable K L grant nt h l) :
    ∃ c, capacity K h = .done h c ∧ l.length ≤ c ∧ (storage K h = .inline → c = K.capacity) := by
  obtain ⟨u, r⟩ := hr.repr
  refine ⟨_, capacity_repr r, ?_, ?_⟩
  · rcases r.cases with ⟨rfl, hh, hl⟩ | ⟨rfl, hh, hF, hc⟩
    · simpa [capOf] using hl
    · simpa [capOf] using hc
  · rw [storage_repr r]
    cases u <;> simp [capOf]

/-- C101: a call that needs no more than `capacity()` elements does not allocate (so that it cannot throw), and keeps the capacity and the storage. -/
theorem C101_call {h : HSt α} {l : List α} {c : Nat} (hr : Reachable K L grant nt h l) (o : Op α) (hok : o.ok K.capacity K.hasFallback l)
    (hc : capacity K h = .done h c) (hn : needs o l ≤ c) :
    ∃ h', run K L grant o h = .done h' (o.spec l).2 ∧ Shows K h'.st (o.spec l).1 ∧ h'.tries = h.tries ∧ capacity K h' = .done h' c ∧
      storage K h' = storage K h ∧ Reachable K L grant nt h' (o.spec l).1 := by
  obtain ⟨u, r⟩ := hr.repr
  have ho := run_out (L := L) (grant := grant) o r hok
  have hle : needs' K o l ≤ needs o l := by
    cases o <;> simp only [needs', needs, Nat.le_refl]
    split <;> omega
  rw [capacity_repr r] at hc
  simp only [Out.done.injEq, true_and] at hc
  obtain ⟨s', e', r'⟩ := ho.1 (by omega)
  exact ⟨_, e', shows_repr r'.1.repr, rfl, by rw [capacity_repr r']; simp [capOf, ← hc], by rw [storage_repr r, storage_repr r'], hr.call hok e'⟩

/-- C101: any call allocates at most once. -/
theorem C101_once {h : HSt α} {l : List α} (hr : Reachable K L grant nt h l) (o : Op α) (hok : o.ok K.capacity K.hasFallback l) :
    ∃ h', (run K L grant o h = .done h' (o.spec l).2 ∨ run K L grant o h = .thrown h') ∧ (h'.tries = h.tries ∨ h'.tries = h.tries + 1) := by
  obtain ⟨u, r⟩ := hr.repr
  have ho := run_out (L := L) (grant := grant) o r hok
  rcases Nat.lt_or_ge (capOf K u h) (needs' K o l) with hc | hc
  · cases hg : grant h.tries with
    | true =>
      obtain ⟨s', c, _, e', _⟩ := (ho.2 hc).1 hg
      exact ⟨_, .inl e', .inr rfl⟩
    | false => exact ⟨_, .inr ((ho.2 hc).2 hg), .inr rfl⟩
  · obtain ⟨s', e', _⟩ := ho.1 hc
    exact ⟨_, .inl e', .inl rfl⟩

/-- C101 over histories: as long as no call needs more than `capacity()` elements there is no allocation, and the storage is the same. -/
theorem C101_history {h : HSt α} {l : List α} {c : Nat} (hr : Reachable K L grant nt h l) (hc : capacity K h = .done h c) (ops : List (Op α))
    (hw : Within K.capacity K.hasFallback c ops l) :
    ∃ h', runAll K L grant ops h = .ok (h', (specAll ops l).2.map some) ∧ Shows K h'.st (specAll ops l).1 ∧ h'.tries = h.tries ∧
      capacity K h' = .done h' c ∧ storage K h' = storage K h ∧ Reachable K L grant nt h' (specAll ops l).1 := by
  induction ops generalizing h l with
  | nil =>
    obtain ⟨u, r⟩ := hr.repr
    exact ⟨h, rfl, shows_repr r.1.repr, rfl, hc, rfl, hr⟩
  | cons o os ih =>
    obtain ⟨hok, hn, hw⟩ := hw
    obtain ⟨h1, e1, _, t1, c1, s1, r1⟩ := C101_call hr o hok hc hn
    obtain ⟨h2, e2, sh2, t2, c2, s2, r2⟩ := ih r1 c1 hw
    exact ⟨h2, by simp only [runAll, e1, e2, specAll]; rfl, sh2, t2.trans t1, c2, s2.trans s1, r2⟩

/-- C101: a vector whose calls never need more than the inline capacity never allocates, with or without a fallback. -/
theorem C101_inline (n : Nat) (ops : List (Op α)) (hw : Within K.capacity K.hasFallback K.capacity ops []) :
    ∃ h', runAll K L grant ops ⟨⟨empty K, none⟩, ⟨0, 0⟩, n⟩ = .ok (h', (specAll ops []).2.map some) ∧ h'.tries = n ∧ storage K h' = .inline := by
  have hr : Reachable K L grant true _ [] := Reachable.new n
  obtain ⟨h', e, _, t, _, s, _⟩ := C101_history hr (capacity_repr (repr_new K n)) ops hw
  exact ⟨h', e, t, by rw [s, storage_repr (repr_new K n)]; simp⟩

example : Within exK.capacity exK.hasFallback exK.capacity [.pushBack 1, .emplace 0 2, .pushBack 3, .erase 1, .pushBack 4, .clear, .resize 3 0] [] := by
  simp [Within, Op.ok, Op.spec, needs, exK]

/-- C101: after `reserve(n)`, a history that needs no more than `n` elements does not allocate; if `n` exceeds the inline capacity, or the fallback is not in use, or
`capacity()` is enough. -/
theorem C101_reserve_partial {h h' : HSt α} {l : List α} {n : Nat} (hr : Reachable K L grant nt h l) (hok : K.hasFallback = true ∨ n ≤ K.capacity)
    (hn : K.capacity < n ∨ storage K h = .inline ∨ ∃ c, capacity K h = .done h c ∧ n ≤ c) (e : reserve K L grant n h = .done h' ()) :
    (∃ c, capacity K h' = .done h' c ∧ n ≤ c) ∧ Shows K h'.st l ∧
    ∀ ops, Within K.capacity K.hasFallback n ops l → ∃ h2, runAll K L grant ops h' = .ok (h2, (specAll ops l).2.map some) ∧ h2.tries = h'.tries ∧
      storage K h2 = storage K h' := by
  obtain ⟨u, r⟩ := hr.repr
  have key : ∀ u', HRepr K u' h' l → n ≤ capOf K u' h' → (∃ c, capacity K h' = .done h' c ∧ n ≤ c) ∧ Shows K h'.st l ∧
      ∀ ops, Within K.capacity K.hasFallback n ops l → ∃ h2, runAll K L grant ops h' = .ok (h2, (specAll ops l).2.map some) ∧ h2.tries = h'.tries ∧
        storage K h2 = storage K h' := by
    intro u' r' hc
    refine ⟨⟨_, capacity_repr r', hc⟩, shows_repr r'.1.repr, fun ops hw => ?_⟩
    have hr' : Reachable K L grant nt h' l := hr.call (o := .reserve n) hok (r := none) (by
      show (reserve K L grant n >>= fun _ => pure none) h = _
      rw [X.bind_done e]; rfl)
    have mono : ∀ (ops : List (Op α)) l, Within K.capacity K.hasFallback n ops l → Within K.capacity K.hasFallback (capOf K u' h') ops l := by
      intro ops
      induction ops with
      | nil => intro _ _; trivial
      | cons o os ih => intro l hw; exact ⟨hw.1, Nat.le_trans hw.2.1 hc, ih _ hw.2.2⟩
    obtain ⟨h2, e2, _, t2, _, s2, _⟩ := C101_history hr' (capacity_repr r') ops (mono ops l hw)
    exact ⟨h2, e2, t2, s2⟩
  rcases Nat.lt_or_ge K.capacity n with hn' | hn'
  · have hF : K.hasFallback = true := by
      rcases hok with h | h
      · exact h
      · omega
    have ho := reserve_out (L := L) (grant := grant) r hF hn'
    rcases Nat.lt_or_ge (capOf K u h) n with hc | hc
    · cases hg : grant h.tries with
      | true =>
        obtain ⟨s', c, hcn, e', r'⟩ := (ho.2 hc).1 hg
        rw [e'] at e; cases e
        exact key _ r' (by simpa [capOf] using hcn)
      | false => rw [(ho.2 hc).2 hg] at e; cases e
    · obtain ⟨s', e', r'⟩ := ho.1 hc
      rw [e'] at e; cases e
      exact key _ r' hc
  · rw [reserve_small hn'] at e
    cases e
    refine key _ r ?_
    rcases hn with hn | hn | ⟨c, ec, hn⟩
    · omega
    · rw [storage_repr r] at hn
      cases u <;> simp [capOf] at hn ⊢
      exact hn'
    · rw [capacity_repr r] at ec
      simp only [Out.done.injEq, true_and] at ec
      omega

example : ∃ h', reserve exK exL (fun _ => true) 10 ⟨⟨empty exK, none⟩, ⟨0, 0⟩, 0⟩ = .done h' () ∧ capacity exK h' = .done h' 10 := ⟨_, rfl, rfl⟩

/-- C101 is false of the other calls of `reserve`: a vector that uses its fallback ignores requests up to the inline capacity, though its capacity is smaller; the append
that finds it full allocates, and throws if there is no memory. -/
theorem C101_reserve_violated {h : HSt α} {l : List α} {n c : Nat} (hr : Reachable K L grant nt h l) (hu : h.st.vec.usesFallback K = true)
    (hc : capacity K h = .done h c) (hcn : c < n) (hn : n ≤ K.capacity) :
    reserve K L grant n h = .done h () ∧
    (l.length = c → grant h.tries = false → ∀ v, needs (.pushBack v) l ≤ n ∧ emplaceBack K L grant v h = .thrown { h with tries := h.tries + 1 }) := by
  refine ⟨reserve_small hn, fun hl hg v => ⟨by simp only [needs]; omega, ?_⟩⟩
  obtain ⟨u, r⟩ := hr.repr
  rw [uses_reprU r.1] at hu
  subst hu
  have hF : K.hasFallback = true := by
    rcases r.1 with ⟨h1, _⟩ | ⟨_, _, h1⟩
    · cases h1
    · exact h1
  rw [capacity_repr r] at hc
  simp only [Out.done.injEq, true_and] at hc
  exact ((emplaceBack_out (L := L) (grant := grant) (v := v) r (.inl hF)).2 (by omega)).2 hg

example : emplaceBack exK exL (· < 2) 9 ⟨⟨⟨none, [none, none, none], [7]⟩, none⟩, ⟨1, 2⟩, 2⟩ =
    .thrown ⟨⟨⟨none, [none, none, none], [7]⟩, none⟩, ⟨1, 2⟩, 3⟩ :=
  (C101_reserve_violated (n := 3) (c := 1) (exFallback true) rfl rfl (by decide) (by decide)).2 rfl rfl 9 |>.2

/-! ### C102 -/

/-- The elements below `kept` are those there were. -/
theorem C102_kept_values (o : Op α) (l : List α) {cap : Nat} {fb : Bool} (hok : o.ok cap fb l) {i : Nat} (hi : i < kept o l) :
    i < l.length ∧ (o.spec l).1[i]? = l[i]? := by
  cases o <;> simp only [kept, Op.ok, Op.spec] at hi hok ⊢
  case pushBack v => exact ⟨hi, by rw [List.getElem?_append_left hi]⟩
  case emplace j v =>
    refine ⟨by omega, ?_⟩
    rw [List.getElem?_append_left (by simp; omega), List.getElem?_take_of_lt hi]
  case erase j =>
    refine ⟨by omega, ?_⟩
    rw [List.getElem?_append_left (by simp; omega), List.getElem?_take_of_lt hi]
  case eraseRange f t =>
    refine ⟨by omega, ?_⟩
    rw [List.getElem?_append_left (by simp; omega), List.getElem?_take_of_lt hi]
  case popBack => exact ⟨by omega, by rw [List.getElem?_take_of_lt hi]⟩
  case resize n v =>
    refine ⟨by omega, ?_⟩
    rw [List.getElem?_append_left (by simp; omega), List.getElem?_take_of_lt (by omega)]
  case reserve n => exact ⟨hi, trivial⟩
  case assignAt j v => exact ⟨by omega, by rw [List.getElem?_set_ne (by omega)]⟩
  case clear => omega

/-- C102: references to the elements before the place of the call stay valid, and refer to the same values, through any history that needs no more than `capacity()`
elements. -/
theorem C102_stable {h : HSt α} {l : List α} {c : Nat} (hr : Reachable K L grant nt h l) (hc : capacity K h = .done h c) (ops : List (Op α))
    (hw : Within K.capacity K.hasFallback c ops l) {i : Nat} (hi : i < l.length) (hk : KeptAll i ops l) :
    ∃ h' rs l', runAll K L grant ops h = .ok (h', rs) ∧ Shows K h'.st l' ∧ storage K h' = storage K h ∧ l'[i]? = l[i]? ∧ i < l'.length := by
  obtain ⟨h', e, sh, _, _, st, _⟩ := C101_history hr hc ops hw
  refine ⟨h', _, _, e, sh, st, ?_⟩
  clear e sh st hc
  rename_i hr2
  clear hr hr2
  induction ops generalizing l with
  | nil => exact ⟨rfl, hi⟩
  | cons o os ih =>
    obtain ⟨hok, hn, hw⟩ := hw
    have := C102_kept_values o l hok hk.1
    have hlt : i < (o.spec l).1.length := by
      have h1 := this.2
      rw [List.getElem?_eq_getElem hi] at h1
      exact (List.getElem?_eq_some_iff.mp h1).1
    have := ih hw hlt hk.2
    simp only [specAll]
    exact ⟨this.1.trans (C102_kept_values o l hok hk.1).2, this.2⟩

example : KeptAll 0 [.pushBack 1, .emplace 1 2, .erase 1, .resize 2 0, .popBack] [5] ∧
    Within exK.capacity exK.hasFallback 3 [.pushBack 1, .emplace 1 2, .erase 1, .resize 2 0, .popBack] [5] := by
  simp [KeptAll, Within, Op.ok, Op.spec, needs, kept, exK]

/-- C102: a call that allocates moves the elements to a storage they have not been in; a call that does not leaves them where they are. -/
theorem C102_moves {h h' : HSt α} {l : List α} (hr : Reachable K L grant nt h l) (o : Op α) (hok : o.ok K.capacity K.hasFallback l) {x : Option Nat}
    (e : run K L grant o h = .done h' x) : storage K h' = storage K h ↔ h'.tries = h.tries := by
  obtain ⟨u, r⟩ := hr.repr
  have ho := run_out (L := L) (grant := grant) o r hok
  rcases Nat.lt_or_ge (capOf K u h) (needs' K o l) with hc | hc
  · cases hg : grant h.tries with
    | true =>
      obtain ⟨s', c, _, e', r'⟩ := (ho.2 hc).1 hg
      rw [e'] at e; cases e
      rw [storage_repr r, storage_repr r']
      have := r.2.2.2
      cases u <;> simp
      omega
    | false => rw [(ho.2 hc).2 hg] at e; cases e
  · obtain ⟨s', e', r'⟩ := ho.1 hc
    rw [e'] at e; cases e
    rw [storage_repr r, storage_repr r']
    simp

/-- C102: a vector constructed by a move from one that uses its fallback has the storage of the source, so that references to the elements stay valid; the others are
moved one by one to the inline storage of the new vector. -/
theorem C102_move_construct {t h' : HSt α} {v' : Vec α × Buf} {m : List α} (ht : Reachable K L grant nt t m) (raw : Vec α) (b0 : Buf) (n : Nat)
    (e : moveConstruct K L grant (⟨⟨raw, none⟩, b0, n⟩, (t.st.vec, t.buf)) = .done (h', v') ()) :
    storage K h' = storage K t ∧ (storage K t ≠ .inline → Shows K ⟨v'.1, none⟩ []) := by
  obtain ⟨u, r⟩ := ht.repr
  rw [storage_repr r]
  rcases r.cases with ⟨rfl, hh, hl⟩ | ⟨rfl, hh, hF, hc⟩
  · rw [hh] at e
    obtain ⟨s', e', r'⟩ := moveConstruct_inl (L := L) (grant := grant) hl raw b0 n
    rw [e'] at e; cases e
    exact ⟨by rw [storage_repr r']; simp, by simp⟩
  · rw [hh] at e
    simp only at e
    rw [moveConstruct_fb hF] at e
    cases e
    refine ⟨by simp [storage, usesFallback_fb hF], fun _ => ?_⟩
    exact shows_repr (.inr ⟨rfl, hF⟩)

end Verif.FixedVectorAlloc
