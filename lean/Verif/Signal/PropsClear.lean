import Verif.Signal.Props

/-!
# C148: `Clear` called by a callback ends the emission
-/

namespace Verif.Signal
open Verif.Cpp

/-- No callback emits signal `s`.  (They may emit other signals, and do anything else to signal `s`.) -/
def Script.NeverEmits (script : Script) (s : Nat) : Prop := ∀ tr arg, Action.emit s arg ∉ script tr

/-- Once signal `s` has been cleared, none of its slots is called. -/
def SilentAfterClear (s : Nat) (es : List Event) : Prop :=
  ∀ es1 es2, es = es1 ++ Event.clear s :: es2 → ∀ id cb arg, Event.call s id cb arg ∉ es2

/-! ## Helpers -/

private theorem bind_inv {α β : Type} {x : M α} {f : α → M β} {b : β} (h : (x >>= f) = .ok b) : ∃ a, x = .ok a ∧ f a = .ok b := by
  cases x with
  | error e => cases h
  | ok a => exact ⟨a, rfl, h⟩

/-- The iterator is at the end. -/
private def Ended (s : Nat) (w : World) : Prop := ∃ g i, w.sigs s = some g ∧ g.iter = some i ∧ g.slots.length ≤ i

private theorem silent_append {s : Nat} {es : List Event} {e : Event} (h : SilentAfterClear s es) (he : (∃ id cb arg, e = .call s id cb arg) → Event.clear s ∉ es) :
    SilentAfterClear s (es ++ [e]) := by
  intro es1 es2 heq id cb arg hm
  rcases List.eq_nil_or_concat es2 with rfl | ⟨es3, x, rfl⟩
  · simp at hm
  · simp only [List.concat_eq_append] at heq hm
    have h2 : es1 ++ Event.clear s :: (es3 ++ [x]) = (es1 ++ Event.clear s :: es3) ++ [x] := by simp
    rw [h2] at heq
    obtain ⟨h3, h4⟩ := List.append_inj' heq rfl
    rcases List.mem_append.mp hm with hm | hm
    · exact h es1 es3 h3 id cb arg hm
    · have h5 : Event.call s id cb arg = x := by simpa using hm
      have h6 : e = x := by simpa using h4
      exact he ⟨id, cb, arg, by rw [h6, h5]⟩ (by rw [h3]; simp)

/-- What holds all the time in an emission of `s` that began with the trace `base`. -/
private def Quiet (s : Nat) (base : List Event) (w : World) : Prop :=
  ∃ es, w.trace = base ++ es ∧ SilentAfterClear s es ∧ (Event.clear s ∈ es → Ended s w)

private theorem Quiet.record {s : Nat} {base : List Event} {w w' : World} {e : Event} (h : Quiet s base w) (ht : w'.trace = w.trace)
    (he : Ended s w → Ended s w') (hne : (∃ id cb arg, e = .call s id cb arg) → ¬ Ended s w) (hc : e ≠ .clear s) : Quiet s base (w'.record e) := by
  obtain ⟨es, h1, h2, h3⟩ := h
  refine ⟨es ++ [e], by simp [World.record, ht, h1], silent_append h2 (fun hx hm => hne hx (h3 hm)), fun hm => ?_⟩
  have : Event.clear s ∈ es := by
    rcases List.mem_append.mp hm with hm | hm
    · exact hm
    · exact absurd (by simpa using hm : Event.clear s = e).symm hc
  exact he (h3 this)

private theorem releaseAll_trace (w : World) (l : List (Option Nat)) : (w.releaseAll l).trace = w.trace ∧ (w.releaseAll l).sigs = w.sigs := by
  induction l generalizing w with
  | nil => exact ⟨rfl, rfl⟩
  | cons p ps ih =>
    simp only [World.releaseAll]
    rw [(ih _).1, (ih _).2]
    cases p with
    | none => exact ⟨rfl, rfl⟩
    | some id => simp only [World.release]; split <;> exact ⟨rfl, rfl⟩

private theorem release_same (w : World) (p : Option Nat) : (w.release p).trace = w.trace ∧ (w.release p).sigs = w.sigs := releaseAll_trace w [p]

private theorem setIndex_same {w w' : World} {p : Option Nat} {k : Nat} (h : w.setIndex p k = .ok w') : w'.trace = w.trace ∧ w'.sigs = w.sigs := by
  cases p with
  | none => cases h
  | some id =>
    simp only [World.setIndex] at h
    split at h
    · cases h
    · cases h; exact ⟨rfl, rfl⟩

private theorem sig_ok {w : World} {s : Nat} {g : Sig} (h : w.sig s = .ok g) : w.sigs s = some g := by
  simp only [World.sig] at h
  split at h
  · rename_i g' hg; cases h; exact hg
  · cases h

private theorem connect_keeps {s t cb : Nat} {w : World} {r : World × Nat} (h : connect t cb w = .ok r) :
    r.1.trace = w.trace ∧ (Ended s w → Ended s r.1) := by
  simp only [connect] at h
  cases hg : w.sig t with
  | error e => rw [hg] at h; cases h
  | ok g =>
    rw [hg] at h; cases h
    refine ⟨rfl, fun ⟨g', i, h1, h2, h3⟩ => ?_⟩
    by_cases hst : s = t
    · subst hst
      rw [sig_ok hg] at h1; cases h1
      refine ⟨_, g.slots.length + 1, by simp [World.setSig, World.setSlot, update]; rfl, ?_, ?_⟩
      · simp [Sig.connected, h2, iterGe, h3]
      · simp [Sig.connected]
    · exact ⟨g', i, by simp [World.setSig, World.setSlot, update, hst, h1], h2, h3⟩

private theorem clear_keeps {s t : Nat} {w w' : World} (h : clear t w = .ok w') : w'.trace = w.trace ∧ (Ended s w ∨ t = s → Ended s w') := by
  simp only [clear] at h
  cases hg : w.sig t with
  | error e => rw [hg] at h; cases h
  | ok g =>
    rw [hg] at h; cases h
    refine ⟨(releaseAll_trace w g.slots).1, fun hx => ?_⟩
    by_cases hst : s = t
    · subst hst
      exact ⟨_, 0, by simp [World.setSig, update]; rfl, rfl, by simp⟩
    · rcases hx with ⟨g', i, h1, h2, h3⟩ | hx
      · exact ⟨g', i, by simp [World.setSig, update, hst, (releaseAll_trace w g.slots).2, h1], h2, h3⟩
      · exact absurd hx.symm hst

private theorem disconnect_keeps {s : Nat} {c : Option Nat} {w w' : World} (h : disconnect c w = .ok w') : w'.trace = w.trace ∧ (Ended s w → Ended s w') := by
  cases c with
  | none => cases h; exact ⟨rfl, id⟩
  | some id =>
    simp only [disconnect] at h
    split at h
    · cases h; exact ⟨rfl, fun x => x⟩
    rename_i slot hslot
    simp only [disconnectSlot] at h
    obtain ⟨g, hg, h⟩ := bind_inv h
    obtain ⟨_, _, h⟩ := bind_inv h
    split at h
    · simp only [disconnectSimple] at h
      obtain ⟨victim, hv, h⟩ := bind_inv h
      obtain ⟨back, _, h⟩ := bind_inv h
      obtain ⟨w1, h1, h⟩ := bind_inv h
      cases h
      obtain ⟨t1, s1⟩ := setIndex_same h1
      refine ⟨by rw [(release_same _ _).1]; exact t1, fun ⟨g', i, e1, e2, e3⟩ => ?_⟩
      by_cases hst : s = slot.signal
      · rw [hst] at e1
        rw [sig_ok hg] at e1; cases e1
        exact ⟨⟨(g.slots.set slot.index back).dropLast, g.fallback, g.iter⟩, i, by rw [(release_same _ _).2]; simp [World.setSig, update, hst], e2, by simp; omega⟩
      · exact ⟨g', i, by rw [(release_same _ _).2]; simp [World.setSig, update, hst, s1, e1], e2, e3⟩
    · rename_i hcond
      split at h
      · cases h
      rename_i i hi
      simp only [disconnectTricky] at h
      obtain ⟨victim, hv, h⟩ := bind_inv h
      obtain ⟨cur, _, h⟩ := bind_inv h
      obtain ⟨w1, h1, h⟩ := bind_inv h
      obtain ⟨back, _, h⟩ := bind_inv h
      obtain ⟨w2, h2, h⟩ := bind_inv h
      cases h
      obtain ⟨t1, s1⟩ := setIndex_same h1
      obtain ⟨t2, s2⟩ := setIndex_same h2
      refine ⟨by rw [(release_same _ _).1]; exact t2.trans t1, fun ⟨g', j, e1, e2, e3⟩ => ?_⟩
      by_cases hst : s = slot.signal
      · rw [hst, sig_ok hg] at e1; cases e1
        rw [hi] at e2; cases e2
        exact absurd (by simp [hi, iterGe]; left; omega) hcond
      · exact ⟨g', j, by rw [(release_same _ _).2]; simp [World.setSig, update, hst, s2, s1, e1], e2, e3⟩

private theorem setIter_keeps {s t : Nat} {f : Option Nat → Option Nat} {w w' : World} (h : setIter t f w = .ok w') (hf : t ≠ s ∨ f = iterInc) :
    w'.trace = w.trace ∧ (Ended s w → Ended s w') := by
  simp only [setIter] at h
  obtain ⟨g, hg, h⟩ := bind_inv h
  cases h
  refine ⟨rfl, fun ⟨g', i, e1, e2, e3⟩ => ?_⟩
  by_cases hst : s = t
  · rcases hf with hf | rfl
    · exact absurd hst.symm hf
    · subst hst
      rw [sig_ok hg] at e1; cases e1
      exact ⟨⟨g.slots, g.fallback, some (i + 1)⟩, i + 1, by simp [World.setSig, update, e2, iterInc], rfl, by simp; omega⟩
  · exact ⟨g', i, by simp [World.setSig, update, hst, e1], e2, e3⟩

private theorem Quiet.keep {s : Nat} {base : List Event} {w w' : World} (h : Quiet s base w) (hk : w'.trace = w.trace ∧ (Ended s w → Ended s w')) : Quiet s base w' := by
  obtain ⟨es, h1, h2, h3⟩ := h
  exact ⟨es, by rw [hk.1, h1], h2, fun hm => hk.2 (h3 hm)⟩

private theorem runActions_quiet {s : Nat} {base : List Event} {em : Nat → Nat → World → M World} {xs : List Action}
    (hem : ∀ t arg w w', Action.emit t arg ∈ xs → Quiet s base w → em t arg w = .ok w' → Quiet s base w') {w w' : World}
    (hq : Quiet s base w) (h : runActions em xs w = .ok w') : Quiet s base w' := by
  induction xs generalizing w with
  | nil => cases h; exact hq
  | cons x xs ih =>
    simp only [runActions] at h
    obtain ⟨w1, h1, h⟩ := bind_inv h
    refine ih (fun t arg v v' hm => hem t arg v v' (List.mem_cons_of_mem _ hm)) ?_ h
    cases x with
    | connect t cb =>
      simp only [Action.run] at h1
      obtain ⟨r, hr, h1⟩ := bind_inv h1
      cases h1
      exact hq.record (connect_keeps (s := s) hr).1 (connect_keeps (s := s) hr).2 (by rintro ⟨_, _, _, h⟩; cases h) (by intro h; cases h)
    | disconnect id =>
      simp only [Action.run] at h1
      obtain ⟨r, hr, h1⟩ := bind_inv h1
      cases h1
      exact hq.record (disconnect_keeps (s := s) hr).1 (disconnect_keeps (s := s) hr).2 (by rintro ⟨_, _, _, h⟩; cases h) (by intro h; cases h)
    | clear t =>
      simp only [Action.run] at h1
      obtain ⟨r, hr, h1⟩ := bind_inv h1
      cases h1
      obtain ⟨k1, k2⟩ := clear_keeps (s := s) hr
      by_cases hst : t = s
      · obtain ⟨es, e1, e2, e3⟩ := hq
        exact ⟨es ++ [.clear t], by simp [World.record, k1, e1], silent_append e2 (by rintro ⟨_, _, _, h⟩; cases h), fun _ => k2 (.inr hst)⟩
      · exact hq.record k1 (fun x => k2 (.inl x)) (by rintro ⟨_, _, _, h⟩; cases h) (by intro h; cases h; exact hst rfl)
    | emit t arg =>
      exact hem t arg w w1 (by simp) hq h1

private theorem currentSlot_ended {s : Nat} {w : World} (h : Ended s w) : currentSlot s w = .ok none := by
  obtain ⟨g, i, h1, h2, h3⟩ := h
  simp only [currentSlot, World.sig, h1, ok_bind, h2]
  rw [List.getElem?_eq_none h3]
  rfl

private theorem emitLoop_quiet {script : Script} {s : Nat} (hne : script.NeverEmits s) {base : List Event} (fuel : Nat) {t arg : Nat} {w w' : World}
    (hq : Quiet s base w) (h : emitLoop script fuel t arg w = .ok w') : Quiet s base w' := by
  induction fuel generalizing t arg w w' with
  | zero => cases h
  | succ fuel ih =>
    simp only [emitLoop] at h
    obtain ⟨c, hc, h⟩ := bind_inv h
    cases c with
    | none =>
      cases h
      exact hq.record rfl id (by rintro ⟨_, _, _, h⟩; cases h) (by intro h; cases h)
    | some p =>
      obtain ⟨id, slot⟩ := p
      simp only at h
      obtain ⟨w1, h1, h⟩ := bind_inv h
      obtain ⟨w2, h2, h⟩ := bind_inv h
      refine ih (Quiet.keep ?_ (setIter_keeps h2 (.inr rfl))) h
      refine runActions_quiet ?_ ?_ h1
      · intro t' arg' v v' hm hv hv'
        have ht' : t' ≠ s := by rintro rfl; exact hne _ _ hm
        obtain ⟨v1, e1, hv'⟩ := bind_inv hv'
        obtain ⟨k1, k2⟩ := setIter_keeps e1 (.inl ht')
        exact ih (hv.record k1 k2 (by rintro ⟨_, _, _, h⟩; cases h) (by intro h; cases h)) hv'
      · refine hq.record rfl (fun x => x) ?_ (by intro h; cases h)
        rintro ⟨_, _, _, he⟩ hend
        injection he with he _ _ _
        subst he
        rw [currentSlot_ended hend] at hc
        cases hc

private theorem runActions_plain {em : Nat → Nat → World → M World} {xs : List Action} (hxs : ∀ t arg, Action.emit t arg ∉ xs) {w : World} {a : Abs} (h : Rel w a)
    (hx : ∀ x ∈ xs, x.ok a) :
    ∃ w' es, runActions em xs w = .ok w' ∧ w'.trace = w.trace ++ es ∧ Rel w' (a.events es) ∧ (∀ t id cb arg, Event.call t id cb arg ∉ es) ∧
      ∀ t, Action.clear t ∈ xs → Event.clear t ∈ es := by
  induction xs generalizing w a with
  | nil => exact ⟨w, [], rfl, by simp, h, by simp, by simp⟩
  | cons x xs ih =>
    have key : ∃ w1 e, x.run em w = .ok w1 ∧ w1.trace = w.trace ++ [e] ∧ Rel w1 (a.events [e]) ∧ (∀ t id cb arg, Event.call t id cb arg ≠ e) ∧
        ∀ t, Action.clear t = x → Event.clear t = e := by
      cases x with
      | connect s cb =>
        obtain ⟨w', h1, h2, h3, _⟩ := h.connect (s := s) (hx (.connect s cb) (by simp)) cb
        exact ⟨w'.record (.connect s a.next cb), .connect s a.next cb, by simp [Action.run, h1], by simp [World.record, h3], h2.record _, by simp, by simp⟩
      | disconnect id =>
        obtain ⟨w', h1, h2, h3, _⟩ := h.disconnect id
        exact ⟨w'.record (.disconnect id), .disconnect id, by simp [Action.run, h1], by simp [World.record, h3], h2.record _, by simp, by simp⟩
      | clear s =>
        obtain ⟨l, hl⟩ : a.Live s := hx (.clear s) (by simp)
        obtain ⟨w', h1, h2, h3, _⟩ := h.clear (s := s) (by rw [hl]; simp)
        exact ⟨w'.record (.clear s), .clear s, by simp [Action.run, h1], by simp [World.record, h3], h2.record _, by simp, by simp⟩
      | emit t arg => exact absurd (by simp) (hxs t arg)
    obtain ⟨w1, e, k1, k2, k3, k4, k5⟩ := key
    obtain ⟨w2, es, m1, m2, m3, m4, m5⟩ := ih (w := w1) (a := a.events [e]) (fun t arg hm => hxs t arg (List.mem_cons_of_mem _ hm)) k3
      (fun y hy => Action.ok_events (hx y (List.mem_cons_of_mem _ hy)) [e])
    refine ⟨w2, e :: es, by simp [runActions, k1, m1], by simp [m2, k2], m3, ?_, ?_⟩
    · intro t id cb arg hm
      rcases List.mem_cons.mp hm with hm | hm
      · exact k4 _ _ _ _ hm
      · exact m4 _ _ _ _ hm
    · intro t ht
      rcases List.mem_cons.mp ht with ht | ht
      · exact List.mem_cons.mpr (.inl (k5 t ht))
      · exact List.mem_cons.mpr (.inr (m5 t ht))

/-! ## The property -/

/-- Callbacks that do anything but emit signal `s` again: once one of them (or a callback of another signal that one of them emits) has cleared signal `s`, the emission
of `s` calls no more slots, in particular none that is connected after the `Clear`.  The slots connected at the end are those of the history of events. -/
theorem C148_clear_ends {w w' : World} {a : Abs} (h : Reached w a) {script : Script} (hok : script.Ok a) {s : Nat} (hs : a.Live s) (hne : script.NeverEmits s) (arg fuel : Nat)
    (hrun : emit script fuel s arg w = .ok w') :
    ∃ es, w'.trace = w.trace ++ es ∧ Reached w' (a.events es) ∧ SilentAfterClear s es := by
  rcases C39_safe h hok hs arg fuel with e | ⟨w1, es, m1, m2, _, m4, _⟩
  · rw [e] at hrun; cases hrun
  · rw [m1] at hrun; cases hrun
    refine ⟨es, m2, m4, ?_⟩
    simp only [emit] at m1
    obtain ⟨w0, h0, m1⟩ := bind_inv m1
    have ht : w0.trace = w.trace := by
      simp only [setIter] at h0
      obtain ⟨g, _, h0⟩ := bind_inv h0
      cases h0; rfl
    have hq : Quiet s w.trace (w0.record (.emit s arg)) :=
      ⟨[.emit s arg], by simp [World.record, ht], by
        intro es1 es2 heq
        exfalso
        have : Event.clear s ∈ [Event.emit s arg] := by rw [heq]; simp
        simp at this, by intro hm; simp at hm⟩
    obtain ⟨es', k1, k2, _⟩ := emitLoop_quiet hne fuel hq m1
    rw [m2, List.append_cancel_left_eq] at k1
    rw [k1]; exact k2

/-- If the callback that is called first clears the signal, and emits nothing, the emission ends after this call: whatever else that callback does, and whatever the
callbacks that it connects would do.  (Without the `Clear` the emission might call the connected slots, or run forever: `C42_called_now_violated`,
`C42_diverges_violated`.) -/
theorem C148_one_call {w : World} {a : Abs} (h : Reached w a) {script : Script} (hok : script.Ok a) {s : Nat} {l : List Nat} (hs : a.conn s = .live l) (hl : l ≠ []) (arg : Nat)
    (hc : ∀ id cb, Action.clear s ∈ script (w.trace ++ [.emit s arg, .call s id cb arg]))
    (hne : ∀ id cb t x, Action.emit t x ∉ script (w.trace ++ [.emit s arg, .call s id cb arg])) {fuel : Nat} (hf : 2 ≤ fuel) :
    ∃ w' es, emit script fuel s arg w = .ok w' ∧ w'.trace = w.trace ++ es ∧ Reached w' (a.events es) ∧ ∃ id ∈ l, calls s es = [id] := by
  obtain ⟨w0, ids, h1, h2, h3, h4⟩ := (reached_rel h).head ⟨l, hs⟩ arg
  have hsl : a.slots s = l := by simp [Abs.slots, hs]
  rw [hsl] at h4
  have hlen := h4.length_eq
  have hl0 : 0 < l.length := List.length_pos_iff.mpr hl
  obtain ⟨id, hid⟩ : ∃ id, ids[0]? = some id := ⟨_, List.getElem?_eq_getElem (by omega)⟩
  have hidl : id ∈ l := h4.mem_iff.mp (List.mem_of_getElem? hid)
  obtain ⟨fb, hg⟩ := h3.sig
  obtain ⟨fuel, rfl⟩ : ∃ f, fuel = f + 2 := ⟨fuel - 2, by omega⟩
  have htr : (w0.record (.call s id (a.cb id) arg)).trace = w.trace ++ [.emit s arg, .call s id (a.cb id) arg] := by simp [World.record, h2]
  obtain ⟨w1, es, m1, m2, m3, m4, m5⟩ := runActions_plain (em := fun s a w => do
        let w ← setIter s (fun _ => some 0) w
        emitLoop script (fuel + 1) s a (w.record (.emit s a))) (xs := script (w0.record (.call s id (a.cb id) arg)).trace)
    (by rw [htr]; exact hne _ _) (h3.rel.record (.call s id (a.cb id) arg)) (hok _)
  have hq : Quiet s (w.trace ++ [.emit s arg, .call s id (a.cb id) arg]) (w0.record (.call s id (a.cb id) arg)) :=
    ⟨[], by rw [htr]; simp, by intro es1 es2 heq; simp at heq, by intro hm; cases hm⟩
  obtain ⟨es', q1, _, q3⟩ := runActions_quiet (s := s) (fun t x _ _ hm => absurd hm (by rw [htr]; exact hne _ _ t x)) hq m1
  have he : es' = es := by rw [m2, htr, List.append_cancel_left_eq] at q1; exact q1.symm
  subst he
  have hend := q3 (m5 s (by rw [htr]; exact hc _ _))
  obtain ⟨l', hl'⟩ : (a.events es').Live s := live_events ⟨l, hs⟩ es'
  obtain ⟨ids', it', hg', _⟩ := m3.live hl'
  obtain ⟨i1, i2⟩ := m3.setIter (s := s) iterInc hg'
  have hend' := (setIter_keeps (s := s) i1 (.inr rfl)).2 hend
  have hrun : emit script (fuel + 2) s arg w = .ok ((w1.setSig s (some ⟨ids'.map some, (a.events es').grown s, iterInc it'⟩)).record (.done s)) := by
    rw [h1]
    show emitLoop script (fuel + 1 + 1) s arg w0 = _
    rw [emitLoop, currentSlot_ok h3.rel hg]
    simp only [hid, Option.map_some, ok_bind, m1, i1]
    rw [emitLoop, currentSlot_ended hend']
    rfl
  have htrace : ((w1.setSig s (some ⟨ids'.map some, (a.events es').grown s, iterInc it'⟩)).record (.done s)).trace =
      w.trace ++ ([.emit s arg, .call s id (a.cb id) arg] ++ es' ++ [.done s]) := by
    simp only [World.record, World.setSig]
    rw [m2, htr]; simp
  refine ⟨_, _, hrun, htrace, .step (.emit script (fuel + 2) s arg) _ h ⟨⟨l, hs⟩, hok⟩ hrun htrace, id, hidl, ?_⟩
  have : calls s es' = [] := by
    simp only [calls, List.filterMap_eq_nil_iff]
    intro e hem
    cases e with
    | call t j cb x => exact absurd hem (m4 t j cb x)
    | _ => rfl
  simp only [calls] at this
  simp [calls, this]

/-! ## The hypotheses can be met -/

/-- Every callback connects a slot to signal 7, clears it, connects two more and disconnects one of them. -/
def clearing : Script := fun _ => [.connect 7 20, .clear 7, .connect 7 21, .connect 7 22, .disconnect 4]

theorem clearing_ok {a : Abs} (h : a.Live 7) : clearing.Ok a := by
  intro tr x hx
  simp only [clearing, List.mem_cons, List.not_mem_nil, or_false] at hx
  rcases hx with rfl | rfl | rfl | rfl | rfl
  · exact h
  · exact h
  · exact h
  · exact h
  · trivial

theorem clearing_never : clearing.NeverEmits 7 := by
  intro tr arg hx
  simp [clearing] at hx

/-- Signal 7 has three slots; the emission calls one of them and none of the three that are connected meanwhile. -/
example : ∃ w a w' es, Reached w a ∧ emit clearing 2 7 5 w = .ok w' ∧ w'.trace = w.trace ++ es ∧ (∃ id, id < 3 ∧ calls 7 es = [id]) ∧ SilentAfterClear 7 es := by
  obtain ⟨w, a, h, h1, _⟩ := example_reached
  obtain ⟨w', es, k1, k2, _, id, k3, k4⟩ := C148_one_call h (clearing_ok ⟨_, h1⟩) h1 (by simp) 5 (by intros; simp [clearing]) (by intros; simp [clearing])
    (fuel := 2) (Nat.le_refl 2)
  obtain ⟨es', m1, _, m3⟩ := C148_clear_ends h (clearing_ok ⟨_, h1⟩) ⟨_, h1⟩ clearing_never 5 2 k1
  rw [k2, List.append_cancel_left_eq] at m1
  subst m1
  refine ⟨w, a, w', es, h, k1, k2, ⟨id, ?_, k4⟩, m3⟩
  simp at k3; omega

end Verif.Signal
