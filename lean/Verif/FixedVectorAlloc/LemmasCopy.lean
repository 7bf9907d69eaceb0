import Verif.FixedVectorAlloc.Lemmas

/-!
# Copies and moves, with allocations that fail
-/

namespace Verif.FixedVectorAlloc
open Verif.Cpp Verif.FixedVector

variable {α : Type} {K : Cfg α} {L : Lib} {grant : Nat → Bool}

theorem noexcept_done {σ β : Type} {b : Bool} {m : X σ β} {s s' : σ} {a : β} (h : m s = .done s' a) : noexcept b m s = .done s' a := by
  simp [noexcept, h]
theorem noexcept_thrown {σ β : Type} {b : Bool} {m : X σ β} {s s' : σ} (h : m s = .thrown s') :
    noexcept b m s = if b then .fail .terminate else .thrown s' := by
  simp [noexcept, h]
theorem noexcept_fail {σ β : Type} {b : Bool} {m : X σ β} {s : σ} {e : Err} (h : m s = .fail e) : noexcept b m s = .fail e := by
  simp [noexcept, h]

/-- A loop whose iterations may throw or fail. -/
theorem forUp_cases {σ : Type} {lo n : Nat} {f : Nat → X σ Unit} (I : Nat → σ → Prop) (T : σ → Prop) (E : Err → Prop) {s : σ} (h0 : I 0 s)
    (h : ∀ k s, k < n → I k s → (∃ s', f (lo + k) s = .done s' () ∧ I (k + 1) s') ∨ (∃ s', f (lo + k) s = .thrown s' ∧ T s') ∨
      ∃ e, f (lo + k) s = .fail e ∧ E e) :
    (∃ s', X.forUp lo n f s = .done s' () ∧ I n s') ∨ (∃ s', X.forUp lo n f s = .thrown s' ∧ T s') ∨ ∃ e, X.forUp lo n f s = .fail e ∧ E e := by
  induction n generalizing lo I s with
  | zero => exact .inl ⟨s, rfl, h0⟩
  | succ n ih =>
    have h1 := h 0 s (by omega) h0
    rw [Nat.add_zero] at h1
    rcases h1 with ⟨s1, e1, i1⟩ | ⟨s1, e1, t1⟩ | ⟨e, e1, t1⟩
    · have := ih (lo := lo + 1) (fun k => I (k + 1)) i1 (fun k s hk hI => by
        have := h (k + 1) s (by omega) hI
        rwa [show lo + (k + 1) = lo + 1 + k by omega] at this)
      simp only [X.forUp, X.bind_done e1]
      exact this
    · exact .inr (.inl ⟨s1, by simp only [X.forUp, X.bind_thrown e1], t1⟩)
    · exact .inr (.inr ⟨e, by simp only [X.forUp, X.bind_fail e1], t1⟩)

/-! ## Copies -/

theorem pushBack_cases {u nt : Bool} {h : HSt α} {l : List α} {v : α} (hr : HRepr K u h l) (hl : l.length < K.capacity) :
    (∃ h', pushBack K L grant nt v h = .done h' l.length ∧ HRepr K u h' (l ++ [v]) ∧ (u = false → h'.tries = h.tries)) ∨
    (u = true ∧ ((∃ h', nt = false ∧ pushBack K L grant nt v h = .thrown h' ∧ HRepr K u h' l) ∨
      (nt = true ∧ pushBack K L grant nt v h = .fail .terminate))) := by
  have ho := emplaceBack_out (L := L) (grant := grant) (v := v) hr (.inr hl)
  rcases Nat.lt_or_ge (capOf K u h) (l.length + 1) with hc | hc
  · have hu : u = true := by
      cases u with
      | true => rfl
      | false => simp only [capOf, Bool.false_eq_true, if_false] at hc; omega
    subst hu
    cases hg : grant h.tries with
    | true =>
      obtain ⟨s', c, _, e, r⟩ := (ho.2 hc).1 hg
      exact .inl ⟨_, noexcept_done e, r, by simp⟩
    | false =>
      have e := (ho.2 hc).2 hg
      cases nt with
      | true => exact .inr ⟨rfl, .inr ⟨rfl, by rw [pushBack, noexcept_thrown e]; rfl⟩⟩
      | false =>
        refine .inr ⟨rfl, .inl ⟨⟨h.st, h.buf, h.tries + 1⟩, rfl, by rw [pushBack, noexcept_thrown e]; rfl, hr.1, by simp, hr.2.2.1, ?_⟩⟩
        exact Nat.le_succ_of_le hr.2.2.2
  · obtain ⟨s', e, r⟩ := ho.1 hc
    exact .inl ⟨_, noexcept_done e, r, fun _ => rfl⟩

/-- The loop of the copy operations. -/
theorem copyLoop_cases {u nt : Bool} {h : HSt α} {m : List α} {vec : Vec α} (hr : HRepr K u h []) (hm : m.length ≤ K.capacity)
    (hv : vec.data = Slots.ofList K.capacity m) :
    (∃ h', copyLoop K L grant nt vec m.length h = .done h' () ∧ HRepr K u h' m) ∨
    (u = true ∧ nt = false ∧ ∃ h' k, copyLoop K L grant nt vec m.length h = .thrown h' ∧ HRepr K u h' (m.take k)) ∨
    (u = true ∧ nt = true ∧ copyLoop K L grant nt vec m.length h = .fail .terminate) := by
  have := forUp_cases (lo := 0) (n := m.length) (f := copyOne K L grant nt vec) (fun k s => HRepr K u s (m.take k))
    (fun s => u = true ∧ nt = false ∧ ∃ k, HRepr K u s (m.take k)) (fun e => u = true ∧ nt = true ∧ e = .terminate) (s := h) (by simpa using hr) (by
      intro k s hk hI
      simp only [Nat.zero_add, copyOne]
      rw [hv, read_ofList hk hm]
      simp only
      rcases pushBack_cases (L := L) (grant := grant) (nt := nt) (v := m[k]) hI (by simp; omega) with ⟨h', e, r, _⟩ | ⟨hu, ⟨h', hnt, e, r⟩ | ⟨hnt, e⟩⟩
      · exact .inl ⟨h', by rw [X.bind_done e]; rfl, by rwa [List.take_succ_eq_append_getElem hk]⟩
      · exact .inr (.inl ⟨h', by rw [X.bind_thrown e], hu, hnt, k, r⟩)
      · exact .inr (.inr ⟨.terminate, by rw [X.bind_fail e], hu, hnt, rfl⟩))
  rcases this with ⟨s', e, r⟩ | ⟨s', e, hu, hnt, k, r⟩ | ⟨e', e, hu, hnt, rfl⟩
  · exact .inl ⟨s', e, by rwa [List.take_length] at r⟩
  · exact .inr (.inl ⟨hu, hnt, s', k, e, r⟩)
  · exact .inr (.inr ⟨hu, hnt, e⟩)

/-- The loop of the copy operations, with enough room: no allocation. -/
theorem copyLoop_room {u nt : Bool} {h : HSt α} {m : List α} {vec : Vec α} (hr : HRepr K u h []) (hm : m.length ≤ K.capacity)
    (hc : m.length ≤ capOf K u h) (hv : vec.data = Slots.ofList K.capacity m) :
    ∃ s', copyLoop K L grant nt vec m.length h = .done ⟨s', h.buf, h.tries⟩ () ∧ HRepr K u ⟨s', h.buf, h.tries⟩ m := by
  have := X.forUp_ok (lo := 0) (n := m.length) (f := copyOne K L grant nt vec)
    (fun k s => HRepr K u s (m.take k) ∧ s.buf = h.buf ∧ s.tries = h.tries) (s := h) (by simpa using hr) (by
      intro k s hk hI
      simp only [Nat.zero_add, copyOne]
      rw [hv, read_ofList hk hm]
      simp only
      have ho := emplaceBack_out (L := L) (grant := grant) (v := m[k]) hI.1 (.inr (by simp; omega))
      obtain ⟨s', e, r⟩ := ho.1 (by
        have : capOf K u s = capOf K u h := by simp only [capOf, hI.2.1]
        rw [this]; simp; omega)
      refine ⟨⟨s', s.buf, s.tries⟩, ?_, by rw [List.take_succ_eq_append_getElem hk]; exact r, hI.2⟩
      have e' : pushBack K L grant nt m[k] s = _ := noexcept_done e
      rw [X.bind_done e']; rfl)
  obtain ⟨⟨s', b, t⟩, e, r, hb, ht⟩ := this
  simp only at hb ht
  subst hb ht
  exact ⟨s', e, by rwa [List.take_length] at r⟩

theorem copyConstruct_inl {nt : Bool} {m : List α} (hm : m.length ≤ K.capacity) (v0 : Vec α) (b0 : Buf) (n : Nat) :
    ∃ s', copyConstruct K L grant nt (inl K m none).vec ⟨⟨v0, none⟩, b0, n⟩ = .done ⟨s', ⟨0, 0⟩, n⟩ () ∧ HRepr K false ⟨s', ⟨0, 0⟩, n⟩ m := by
  have h0 : HRepr K false ⟨⟨empty K, none⟩, ⟨0, 0⟩, n⟩ [] := by
    refine ⟨?_, fun _ => rfl, by simp, by simp⟩
    rw [empty_eq]
    exact .inl ⟨rfl, rfl, by simp⟩
  obtain ⟨s', e, r⟩ := copyLoop_room (L := L) (grant := grant) (nt := nt) (vec := (inl K m none).vec) h0 hm (by simpa [capOf] using hm) rfl
  refine ⟨s', ?_, r⟩
  rw [copyConstruct, X.bind_done (lift_done (s' := ⟨empty K, none⟩) (a := ()) rfl)]
  have e1 : copyBuffer L grant (inl K m none).vec.fallback.length (⟨⟨empty K, none⟩, b0, n⟩ : HSt α) = .done ⟨⟨empty K, none⟩, ⟨0, 0⟩, n⟩ () := by
    simp [copyBuffer, inl]
  rw [X.bind_done e1, X.bind_done (lift_done (s' := ⟨empty K, none⟩) (a := ()) (by simp [setFallback, inl, empty]))]
  simp only [usesFallback_inl, Bool.not_false, if_true]
  rw [X.bind_done (lift_done (s' := ⟨empty K, none⟩) (a := ()) (by simp [setSize, empty]))]
  exact e

theorem copyConstruct_fb {nt : Bool} {m : List α} (hF : K.hasFallback = true) (v0 : Vec α) (b0 : Buf) (n : Nat) :
    copyConstruct K L grant nt (fb K m none).vec ⟨⟨v0, none⟩, b0, n⟩ =
      if m = [] then .done ⟨fb K m none, ⟨0, 0⟩, n⟩ ()
      else if grant n then .done ⟨fb K m none, ⟨L.copy m.length, n + 1⟩, n + 1⟩ ()
      else .thrown ⟨⟨empty K, none⟩, b0, n + 1⟩ := by
  rw [copyConstruct, X.bind_done (lift_done (s' := ⟨empty K, none⟩) (a := ()) rfl)]
  have e2 : ∀ b t, (lift (setFallback (fb K m none).vec.fallback) >>= fun _ =>
      if (!(fb K m none).vec.usesFallback K) = true then (lift (setSize (some 0)) >>= fun _ =>
        match (fb K m none).vec.size with
        | some n => copyLoop K L grant nt (fb K m none).vec n
        | none => X.fail .ub) else lift (setSize none)) (⟨⟨empty K, none⟩, b, t⟩ : HSt α) = .done ⟨fb K m none, b, t⟩ () := by
    intro b t
    rw [X.bind_done (lift_done (s' := ⟨{ (empty K) with fallback := m }, none⟩) (a := ()) (by simp [setFallback, fb]))]
    simp only [usesFallback_fb hF, Bool.not_true, Bool.false_eq_true, if_false]
    apply lift_done
    have h0 := empty_eq K (none : Option Nat)
    simp only [inl, St.mk.injEq, and_true] at h0
    simp only [setSize, X.modify_run, h0]
    rfl
  by_cases hm : m = []
  · rw [if_pos hm]
    rw [X.bind_done (s' := ⟨⟨empty K, none⟩, ⟨0, 0⟩, n⟩) (a := ()) (by simp [copyBuffer, fb, hm])]
    exact e2 _ _
  · rw [if_neg hm]
    have hlen : ¬ (fb K m none).vec.fallback.length = 0 := by simpa [fb] using hm
    cases hg : grant n with
    | true =>
      rw [X.bind_done (s' := ⟨⟨empty K, none⟩, ⟨L.copy m.length, n + 1⟩, n + 1⟩) (a := ()) (by
        rw [copyBuffer, if_neg hlen, allocate]
        simp only [hg, if_true]
        rfl)]
      exact e2 _ _
    | false =>
      rw [X.bind_thrown (s' := ⟨⟨empty K, none⟩, b0, n + 1⟩) (by
        rw [copyBuffer, if_neg hlen, allocate]
        simp [hg])]
      rfl

theorem copyAssign_fb {u nt : Bool} {h : HSt α} {l m : List α} (hr : HRepr K u h l) (hF : K.hasFallback = true) (hg : u = true ∨ l = []) :
    copyAssign K L grant nt (fb K m none).vec h =
      if m.length ≤ h.buf.cap then .done ⟨fb K m none, h.buf, h.tries⟩ ()
      else if grant h.tries then .done ⟨fb K m none, ⟨L.grow h.buf.cap m.length, h.tries + 1⟩, h.tries + 1⟩ ()
      else .thrown ⟨h.st, h.buf, h.tries + 1⟩ := by
  obtain ⟨s, b, t⟩ := h
  have hd : s.vec.data = Slots.ofList K.capacity [] ∧ s.fuse = none := by
    rcases hr.1 with ⟨rfl, hs, _⟩ | ⟨rfl, hs, _⟩
    · rcases hg with h | rfl
      · simp at h
      · simp only at hs; subst hs; exact ⟨rfl, rfl⟩
    · simp only at hs; subst hs; exact ⟨rfl, rfl⟩
  have e2 : ∀ b t, (lift (setFallback (fb K m none).vec.fallback) >>= fun _ => lift (setSize (fb K m none).vec.size)) (⟨s, b, t⟩ : HSt α) =
      .done ⟨fb K m none, b, t⟩ () := by
    intro b t
    rw [← lift_bind]
    apply lift_done
    obtain ⟨⟨a, d, c⟩, f⟩ := s
    obtain ⟨h1, h2⟩ := hd
    simp only at h1 h2
    subst h1 h2
    rfl
  rw [copyAssign]
  simp only [usesFallback_fb hF, if_true]
  by_cases hc : m.length ≤ b.cap
  · rw [if_pos hc, show (fb K m none).vec.fallback.length = m.length from rfl, X.bind_done (room_le hc)]
    exact e2 _ _
  · rw [if_neg hc, X.bind_run, show (fb K m none).vec.fallback.length = m.length from rfl, room_gt (by omega)]
    cases grant t with
    | true =>
      simp only [if_true]
      exact e2 _ _
    | false => rfl

/-- Copy assignment from a vector that does not use its fallback, up to the loop. -/
theorem copyAssign_inl {u nt : Bool} {h : HSt α} {l m : List α} (hr : HRepr K u h l) (hm : m.length ≤ K.capacity) :
    ∃ s0, copyAssign K L grant nt (inl K m none).vec h = copyLoop K L grant nt (inl K m none).vec m.length ⟨s0, h.buf, h.tries⟩ ∧
      HRepr K u ⟨s0, h.buf, h.tries⟩ [] := by
  obtain ⟨s, b, t⟩ := h
  obtain ⟨s0, e0, r0⟩ := clear_reprU hr.1
  refine ⟨s0, ?_, r0, hr.2.1, fun _ => by simp, hr.2.2.2⟩
  rw [copyAssign]
  simp only [usesFallback_inl, Bool.false_eq_true, if_false]
  rw [X.bind_done (lift_done e0)]
  simp only [inl]
  rw [X.bind_done (reserve_small hm)]

/-! ## Moves -/

theorem onThis_done {β : Type} {m : X (HSt α) β} {s s' : HSt α} {v : Vec α × Buf} {a : β} (h : m s = .done s' a) :
    onThis m (s, v) = .done (s', v) a := by
  simp [onThis, X.zoom, h]

theorem onThis_fail {β : Type} {m : X (HSt α) β} {s : HSt α} {v : Vec α × Buf} {e : Err} (h : m s = .fail e) :
    onThis m (s, v) = .fail e := by
  simp [onThis, X.zoom, h]

/-- `push_back(T&&)` leaves what `emplace_back` leaves. -/
theorem pushBackMoveBody_eq {u : Bool} {h : HSt α} {l : List α} {v : α} (hr : HRepr K u h l) (hl : l.length < K.capacity) :
    pushBackMoveBody K L grant v h = (emplaceBack K L grant v >>= fun _ => pure (leftIn K u v)) h := by
  obtain ⟨s, b, t⟩ := h
  rcases hr.1 with ⟨rfl, hs, _⟩ | ⟨rfl, hs, hF⟩
  · simp only at hs; subst hs
    obtain ⟨s', e, r⟩ := (emplaceBack_out (L := L) (grant := grant) (v := v) hr (.inr hl)).1 (by simp [capOf]; omega)
    rw [X.bind_done e]
    rw [emplaceBack, X.bind_done (check_inl hl)] at e
    simp only [Bool.false_eq_true, if_false] at e
    rw [X.bind_done (lift_done (mSize_inl _ _))] at e
    simp only [hl, decide_true, X.assert_true, X.pure_bind'] at e
    rw [X.bind_done (lift_done (s' := ⟨⟨some (l.length + 1), Slots.ofList K.capacity l, []⟩, none⟩) (a := ()) rfl)] at e
    rw [X.bind_done (lift_done (construct_run (create_ofList v hl)))] at e
    rw [pushBackMoveBody, X.bind_done (check_inl hl)]
    simp only [Bool.false_eq_true, if_false]
    rw [X.bind_done (lift_done (mSize_inl _ _))]
    simp only [hl, decide_true, X.assert_true, X.pure_bind']
    rw [X.bind_done (lift_done (s' := ⟨⟨some (l.length + 1), Slots.ofList K.capacity l, []⟩, none⟩) (a := ()) rfl)]
    rw [X.bind_done (lift_done (onData_run (f := fun x => Slots.create x l.length v) (create_ofList v hl)))]
    simp only [X.pure_run, Out.done.injEq, and_true] at e
    simp only [X.pure_run, leftIn, Bool.false_eq_true, if_false, Out.done.injEq, and_true]
    exact e
  · simp only at hs; subst hs
    rw [pushBackMoveBody, X.bind_done (check_fb hF), X.bind_run, emplaceBack, X.bind_done (check_fb hF)]
    simp only [if_true]
    rw [X.bind_done (lift_done (getFallback_fb _ _)), X.bind_done (lift_done (getFallback_fb _ _))]
    simp only [X.bind_run]
    cases emplaceInFallback L grant l.length v ⟨fb K l none, b, t⟩ <;> rfl

theorem pushBackMove_cases {u : Bool} {h : HSt α} {l : List α} {v : α} (hr : HRepr K u h l) (hl : l.length < K.capacity) :
    (∃ h', pushBackMove K L grant v h = .done h' (leftIn K u v) ∧ HRepr K u h' (l ++ [v]) ∧ (u = false → h'.tries = h.tries)) ∨
    (u = true ∧ pushBackMove K L grant v h = .fail .terminate) := by
  rcases pushBack_cases (L := L) (grant := grant) (nt := true) (v := v) hr hl with ⟨h', e, r, ht⟩ | ⟨hu, ⟨h', hnt, e, r⟩ | ⟨hnt, e⟩⟩
  · refine .inl ⟨h', noexcept_done ?_, r, ht⟩
    rw [pushBackMoveBody_eq hr hl, X.bind_run]
    rw [pushBack, noexcept] at e
    split at e
    · simp at e
    · rw [e]; rfl
  · simp at hnt
  · refine .inr ⟨hu, ?_⟩
    rw [pushBack, noexcept] at e
    rw [pushBackMove, noexcept, pushBackMoveBody_eq hr hl, X.bind_run]
    split at e
    · rename_i s' h1; rw [h1]; rfl
    · rw [e]

/-- The loop of the move operations. -/
theorem moveLoop_cases {u : Bool} {h : HSt α} {m : List α} {b' : Buf} (hr : HRepr K u h []) (hm : m.length ≤ K.capacity) :
    (∃ h', moveLoop K L grant m.length (h, ((inl K m none).vec, b')) = .done (h', ((inl K (m.map (leftIn K u)) none).vec, b')) () ∧ HRepr K u h' m ∧
      (u = false → h'.tries = h.tries)) ∨
    (u = true ∧ moveLoop K L grant m.length (h, ((inl K m none).vec, b')) = .fail .terminate) := by
  have := forUp_cases (lo := 0) (n := m.length) (f := moveOne K L grant)
    (fun k (s : Pair α) => HRepr K u s.1 (m.take k) ∧ s.2 = (⟨some m.length, Slots.ofList K.capacity (movedPart (leftIn K u) m k), []⟩, b') ∧
      (u = false → s.1.tries = h.tries))
    (fun _ => False) (fun e => u = true ∧ e = .terminate) (s := (h, ((inl K m none).vec, b'))) (by simpa [movedPart, inl] using hr) (by
      rintro k ⟨s, v⟩ hk ⟨hI, hv, ht⟩
      simp only at hI hv ht
      subst hv
      rw [Nat.zero_add, moveOne, X.bind_done (X.get_run _)]
      have hg : (movedPart (leftIn K u) m k)[k]? = some m[k] := by rw [movedPart_get]; simp [hk]
      simp only [Slots.ofList]
      rw [Slots.read_mk (v := m[k]) (by omega) hg]
      simp only
      rcases pushBackMove_cases (L := L) (grant := grant) (v := m[k]) hI (by simp; omega) with ⟨s', e, r, ht'⟩ | ⟨hu, e⟩
      · refine .inl ⟨(s', (⟨some m.length, Slots.ofList K.capacity (movedPart (leftIn K u) m (k + 1)), []⟩, b')), ?_, ?_, rfl, fun hu => (ht' hu).trans (ht hu)⟩
        · rw [X.bind_done (onThis_done e), X.bind_done (X.get_run _)]
          simp only
          rw [Slots.assign_mk (leftIn K u m[k]) (u := m[k]) (by omega) hg]
          simp only [X.set_run]
          congr 4
          apply Slots.mk_congr
          intro p hp
          simp only [Slots.upd, movedPart_get]
          by_cases h1 : p = k
          · subst h1; simp [hk]
          · have : p < k ↔ p < k + 1 := by omega
            simp [h1, this]
        · simp only
          rwa [List.take_succ_eq_append_getElem hk]
      · exact .inr (.inr ⟨.terminate, by rw [X.bind_fail (onThis_fail e)], hu, rfl⟩))
  rcases this with ⟨⟨s', v⟩, e, r, hv, ht⟩ | ⟨_, _, h⟩ | ⟨e', e, hu, rfl⟩
  · simp only at r hv ht
    refine .inl ⟨s', ?_, by rwa [List.take_length] at r, ht⟩
    have hmap : movedPart (leftIn K u) m m.length = m.map (leftIn K u) := by simp [movedPart]
    rw [hmap] at hv
    rw [moveLoop, e, hv]
    simp [inl]
  · exact h.elim
  · exact .inr ⟨hu, e⟩

theorem repr_new (K : Cfg α) (n : Nat) : HRepr K false ⟨⟨empty K, none⟩, ⟨0, 0⟩, n⟩ [] := by
  refine ⟨?_, fun _ => rfl, by simp, by simp⟩
  rw [empty_eq]
  exact .inl ⟨rfl, rfl, by simp⟩

/-- Inline storage never allocates. -/
theorem moveLoop_inl {h : HSt α} {m : List α} {b' : Buf} (hr : HRepr K false h []) (hm : m.length ≤ K.capacity) :
    ∃ s', moveLoop K L grant m.length (h, ((inl K m none).vec, b')) = .done (⟨s', ⟨0, 0⟩, h.tries⟩, ((inl K (m.map K.mv) none).vec, b')) () ∧
      HRepr K false ⟨s', ⟨0, 0⟩, h.tries⟩ m := by
  rcases moveLoop_cases (L := L) (grant := grant) (b' := b') hr hm with ⟨⟨s', b, t⟩, e, r, ht⟩ | ⟨hu, _⟩
  · have hb := r.2.1 rfl
    have ht2 := ht rfl
    simp only at hb ht2
    subst hb ht2
    exact ⟨s', e, r⟩
  · simp at hu

theorem moveConstruct_inl {m : List α} (hm : m.length ≤ K.capacity) (v0 : Vec α) (b0 : Buf) (n : Nat) :
    ∃ s', moveConstruct K L grant (⟨⟨v0, none⟩, b0, n⟩, ((inl K m none).vec, ⟨0, 0⟩)) =
      .done (⟨s', ⟨0, 0⟩, n⟩, ((inl K (m.map K.mv) none).vec, ⟨0, 0⟩)) () ∧ HRepr K false ⟨s', ⟨0, 0⟩, n⟩ m := by
  obtain ⟨s', e, r⟩ := moveLoop_inl (L := L) (grant := grant) (b' := ⟨0, 0⟩) (repr_new K n) hm
  refine ⟨s', noexcept_done ?_, r⟩
  have e0 : ({ (inl K m none).vec with fallback := [] } : Vec α) = (inl K m none).vec := rfl
  simp only [moveConstructBody, X.bind_run, X.modify_run, X.get_run, e0, usesFallback_inl, Bool.not_false, if_true]
  exact e

theorem moveConstruct_fb {m : List α} (hF : K.hasFallback = true) (v0 : Vec α) (b0 b : Buf) (n : Nat) :
    moveConstruct K L grant (⟨⟨v0, none⟩, b0, n⟩, ((fb K m none).vec, b)) = .done (⟨fb K m none, b, n⟩, ((fb K [] none).vec, ⟨0, 0⟩)) () := by
  refine noexcept_done ?_
  have e0 : ({ (fb K m none).vec with fallback := [] } : Vec α) = (fb K [] none).vec := rfl
  have h0 := empty_eq K (none : Option Nat)
  simp only [inl, St.mk.injEq, and_true] at h0
  simp only [moveConstructBody, X.bind_run, X.modify_run, X.get_run, e0, usesFallback_fb hF, Bool.not_true, Bool.false_eq_true, if_false, h0]
  rfl

theorem moveAssign_fb {u : Bool} {h : HSt α} {l m : List α} (hr : HRepr K u h l) (hF : K.hasFallback = true) (hg : u = true ∨ l = []) (b : Buf) :
    moveAssign K L grant (h, ((fb K m none).vec, b)) = .done (⟨fb K m none, b, h.tries⟩, ((fb K [] none).vec, ⟨0, 0⟩)) () := by
  refine noexcept_done ?_
  obtain ⟨s, b1, t⟩ := h
  have hd : s.vec.data = Slots.ofList K.capacity [] ∧ s.fuse = none := by
    rcases hr.1 with ⟨rfl, hs, _⟩ | ⟨rfl, hs, _⟩
    · rcases hg with h | rfl
      · simp at h
      · simp only at hs; subst hs; exact ⟨rfl, rfl⟩
    · simp only at hs; subst hs; exact ⟨rfl, rfl⟩
  have e0 : ({ (fb K m none).vec with fallback := [] } : Vec α) = (fb K [] none).vec := rfl
  obtain ⟨⟨a, d, c⟩, f⟩ := s
  obtain ⟨h1, h2⟩ := hd
  simp only at h1 h2
  subst h1 h2
  simp only [moveAssignBody, X.bind_run, X.modify_run, X.get_run, e0, usesFallback_fb hF, if_true]
  rfl

/-- Move assignment from a vector that does not use its fallback, up to the loop: the buffer of the target is gone. -/
theorem moveAssign_inl {u : Bool} {h : HSt α} {l m : List α} (hr : HRepr K u h l) (hm : m.length ≤ K.capacity) :
    ∃ s0, moveAssign K L grant (h, ((inl K m none).vec, ⟨0, 0⟩)) =
      noexcept true (moveLoop K L grant m.length) (⟨s0, ⟨0, 0⟩, h.tries⟩, ((inl K m none).vec, ⟨0, 0⟩)) ∧
      HRepr K u ⟨s0, ⟨0, 0⟩, h.tries⟩ [] := by
  obtain ⟨s, b, t⟩ := h
  have hs0 : ∃ l', ReprU K u ⟨{ s.vec with fallback := [] }, s.fuse⟩ l' none := by
    rcases hr.1 with ⟨rfl, hs, hl⟩ | ⟨rfl, hs, hF⟩
    · simp only at hs; subst hs; exact ⟨l, .inl ⟨rfl, rfl, hl⟩⟩
    · simp only at hs; subst hs; exact ⟨[], .inr ⟨rfl, rfl, hF⟩⟩
  obtain ⟨l', hs0⟩ := hs0
  obtain ⟨s0, e0, r0⟩ := clear_reprU hs0
  refine ⟨s0, ?_, r0, fun _ => rfl, fun _ => by simp, by simp⟩
  have e1 : ({ (inl K m none).vec with fallback := [] } : Vec α) = (inl K m none).vec := rfl
  have e2 : (inl K m none).vec.fallback = [] := rfl
  have e3 : moveAssignBody K L grant (⟨s, b, t⟩, ((inl K m none).vec, ⟨0, 0⟩)) =
      moveLoop K L grant m.length (⟨s0, ⟨0, 0⟩, t⟩, ((inl K m none).vec, ⟨0, 0⟩)) := by
    rw [moveAssignBody, X.bind_done (X.modify_run _ _), X.bind_done (X.get_run _)]
    simp only [e1, e2, usesFallback_inl, Bool.false_eq_true, if_false]
    rw [X.bind_done (onThis_done (lift_done e0))]
    simp only [inl]
    rw [X.bind_done (onThis_done (reserve_small hm))]
  rw [moveAssign, noexcept, noexcept, e3]

end Verif.FixedVectorAlloc
