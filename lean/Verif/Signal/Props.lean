import Verif.Signal.LemmasCalm

/-! # Signals: the properties C38 - C41 -/

namespace Verif.Signal
open Verif.Cpp

/-! ## A world for the examples: signal 7 has the slots 0, 1, 2 with callbacks 10, 11, 12 -/

/-- Calls other than emissions, in a reachable world. -/
theorem reached_op {w : World} {a : Abs} (h : Reached w a) {o : Op} (ho : o.ok a) (hne : ∀ sc f s x, o ≠ .emit sc f s x)
    (hneX : ∀ sc f s x, o ≠ .emitX sc f s x := by intros; simp) :
    ∃ w', o.run w = .ok w' ∧ Reached w' (o.spec [] a) := by
  have hrel := reached_rel h
  have key : ∃ w', o.run w = .ok w' ∧ w'.trace = w.trace := by
    cases o with
    | create s => exact ⟨_, rfl, rfl⟩
    | destroy s => obtain ⟨w2, h1, _, h3⟩ := hrel.destroy ho; exact ⟨w2, h1, h3⟩
    | connect s cb => obtain ⟨w2, h1, _, h3, _⟩ := hrel.connect ho cb; exact ⟨w2, by simp [Op.run, h1], h3⟩
    | disconnect id => obtain ⟨w2, h1, _, h3, _⟩ := hrel.disconnect id; exact ⟨w2, h1, h3⟩
    | clear s => obtain ⟨w2, h1, _, h3, _⟩ := hrel.clear ho; exact ⟨w2, h1, h3⟩
    | emit sc f s x => exact absurd rfl (hne sc f s x)
    | emitX sc f s x => exact absurd rfl (hneX sc f s x)
    | moveConstruct s t => obtain ⟨w2, h1, _, h3⟩ := hrel.moveConstruct ho.1 ho.2; exact ⟨w2, h1, h3⟩
    | moveAssign s t => obtain ⟨w2, h1, _, h3⟩ := hrel.moveAssign ho.1 ho.2.1 ho.2.2.1 ho.2.2.2.1 ho.2.2.2.2; exact ⟨w2, h1, h3⟩
  obtain ⟨w', h1, h2⟩ := key
  exact ⟨w', h1, Reached.step o [] h ho h1 (by rw [h2, List.append_nil])⟩

theorem example_reached : ∃ w a, Reached w a ∧ a.conn 7 = .live [0, 1, 2] ∧ a.grown 7 = true ∧ a.conn 8 = .absent ∧ a.cb 0 = 10 ∧ a.cb 1 = 11 ∧ a.cb 2 = 12 ∧ a.next = 3 := by
  obtain ⟨w1, _, h1⟩ := reached_op .empty (o := .create 7) rfl (by intros; simp)
  obtain ⟨w2, _, h2⟩ := reached_op h1 (o := .connect 7 10) ⟨_, rfl⟩ (by intros; simp)
  obtain ⟨w3, _, h3⟩ := reached_op h2 (o := .connect 7 11) ⟨_, rfl⟩ (by intros; simp)
  obtain ⟨w4, _, h4⟩ := reached_op h3 (o := .connect 7 12) ⟨_, rfl⟩ (by intros; simp)
  exact ⟨w4, _, h4, rfl, rfl, rfl, rfl, rfl, rfl, rfl⟩

/-! ## C38: passive callbacks -/

/-- The step to the next slot, after a callback that did nothing. -/
theorem Head.advance {s : Nat} {V : List Nat} {w : World} {a : Abs} {ids : List Nat} {c id : Nat} (h : Head s V w a ids c) (arg : Nat)
    (hid : ids[c]? = some id) :
    ∃ w' : World, setIter s iterInc (w.record (.call s id (a.cb id) arg)) = .ok w' ∧ w'.trace = w.trace ++ [.call s id (a.cb id) arg] ∧
      Head s (V ++ [id]) w' a ids (c + 1) := by
  obtain ⟨fb, hg⟩ := h.sig
  have hcl : c < ids.length := by by_contra hc; rw [List.getElem?_eq_none (by omega)] at hid; cases hid
  have hidc : ids[c] = id := by rw [List.getElem?_eq_getElem hcl] at hid; exact Option.some.inj hid
  have hdrop : ids.drop c = id :: ids.drop (c + 1) := by rw [List.drop_eq_getElem_cons hcl, hidc]
  have htake : ids.take (c + 1) = ids.take c ++ [id] := by rw [List.take_succ_eq_append_getElem hcl, hidc]
  have hn := h.rel.ids_nodup hg
  obtain ⟨i1, i2⟩ := (h.rel.record (.call s id (a.cb id) arg)).setIter (s := s) (g := ⟨ids.map some, fb, some c⟩) iterInc hg
  refine ⟨(w.record (.call s id (a.cb id) arg)).setSig s (some ⟨ids.map some, fb, some (c + 1)⟩), i1, rfl, i2, h.live, ⟨fb, by simp [World.setSig]⟩, ?_, ?_, ?_, ?_⟩
  · intro j hj
    rw [htake] at hj
    rcases List.mem_append.mp hj with hj | hj
    · simp [h.before j hj]
    · rw [List.mem_append]; exact Or.inr hj
  · intro j hj
    rw [List.mem_append, not_or]
    refine ⟨h.after j (by rw [hdrop]; simp [hj]), ?_⟩
    rw [List.mem_singleton]
    rintro rfl
    have : (ids.drop c).Nodup := hn.drop
    rw [hdrop, List.nodup_cons] at this
    exact this.1 hj
  · intro j hj
    rcases List.mem_append.mp hj with hj | hj
    · exact h.old j hj
    · rw [List.mem_singleton] at hj
      subst hj
      obtain ⟨x, hx, _⟩ := (h.rel.heap_iff hg _).mp (List.mem_of_getElem? hid)
      exact h.rel.fresh _ x hx
  · rw [List.nodup_append]
    refine ⟨h.nodup, by simp, ?_⟩
    intro x hx y hy
    rw [List.mem_singleton] at hy
    subst hy
    rintro rfl
    exact h.after _ (by rw [hdrop]; simp) hx

/-- One iteration whose callback does nothing. -/
theorem Head.quiet {s : Nat} {V : List Nat} {w : World} {a : Abs} {ids : List Nat} {c id : Nat} (h : Head s V w a ids c) {script : Script} (arg : Nat)
    (hid : ids[c]? = some id) (hq : script (w.trace ++ [.call s id (a.cb id) arg]) = []) :
    ∃ w' : World, (∀ fuel, emitLoop script (fuel + 1) s arg w = emitLoop script fuel s arg w') ∧ w'.trace = w.trace ++ [.call s id (a.cb id) arg] ∧
      Head s (V ++ [id]) w' a ids (c + 1) := by
  obtain ⟨w', i1, h1, h2⟩ := h.advance arg hid
  refine ⟨w', fun fuel => ?_, h1, h2⟩
  obtain ⟨fb, hg⟩ := h.sig
  have hq' : script (w.record (.call s id (a.cb id) arg)).trace = [] := hq
  simp only [emitLoop, currentSlot_ok h.rel hg, ok_bind, hid, Option.map_some, hq', runActions, pure_ok, i1]

/-- A loop whose callbacks do nothing; `P` is what is known of the trace. -/
theorem Head.quiet_loop {s : Nat} {script : Script} {P : List Event → Prop} (arg : Nat) (hq : ∀ tr id cb, P tr → script (tr ++ [.call s id cb arg]) = [])
    (hP : ∀ tr id cb, P tr → P (tr ++ [.call s id cb arg])) (fuel : Nat) {V : List Nat} {w : World} {a : Abs} {ids : List Nat} {c : Nat} (h : Head s V w a ids c)
    (hw : P w.trace) (hf : (ids.drop c).length < fuel) :
    ∃ w' c' V', emitLoop script fuel s arg w = .ok (w'.record (.done s)) ∧ w'.trace = w.trace ++ (ids.drop c).map (fun id => .call s id (a.cb id) arg) ∧
      Head s V' w' a ids c' ∧ ids.length ≤ c' := by
  induction fuel generalizing V w c with
  | zero => omega
  | succ fuel ih =>
    by_cases hc : ids.length ≤ c
    · exact ⟨w, c, V, h.done script fuel arg hc, by simp [List.drop_of_length_le hc], h, hc⟩
    · obtain ⟨id, hid⟩ : ∃ id, ids[c]? = some id := ⟨_, List.getElem?_eq_getElem (by omega)⟩
      have hcl : c < ids.length := by omega
      have hidc : ids[c] = id := by rw [List.getElem?_eq_getElem hcl] at hid; exact Option.some.inj hid
      have hdrop : ids.drop c = id :: ids.drop (c + 1) := by rw [List.drop_eq_getElem_cons hcl, hidc]
      obtain ⟨w1, k1, k2, k3⟩ := h.quiet (script := script) arg hid (hq _ _ _ hw)
      rw [hdrop] at hf
      obtain ⟨w', c', V', m1, m2, m3, m4⟩ := ih k3 (by rw [k2]; exact hP _ _ _ hw) (by simp at hf ⊢; omega)
      refine ⟨w', c', V', by rw [k1]; exact m1, ?_, m3, m4⟩
      rw [m2, k2, hdrop]
      simp

/-- After any history, an emission whose callbacks leave signals alone ends; it calls every slot connected to the signal exactly once, with its callback and
the emitted argument, and calls nothing else; and the next emission starts from the same connections. -/
theorem C38_emit {w : World} {a : Abs} (h : Reached w a) {s : Nat} {l : List Nat} (hs : a.conn s = .live l) (arg : Nat) {fuel : Nat} (hf : l.length < fuel) :
    ∃ w' cs, emit passive fuel s arg w = .ok w' ∧ w'.trace = w.trace ++ ([.emit s arg] ++ cs ++ [.done s]) ∧
      cs.Perm (l.map (fun id => .call s id (a.cb id) arg)) ∧ l.Nodup ∧ Reached w' a := by
  obtain ⟨w0, ids, h1, h2, h3, h4⟩ := (reached_rel h).head ⟨l, hs⟩ arg
  have hsl : a.slots s = l := by simp [Abs.slots, hs]
  rw [hsl] at h4
  obtain ⟨w1, _, _, k1, k2', _, _⟩ := h3.quiet_loop (script := passive) (P := fun _ => True) arg (fun _ _ _ _ => rfl) (fun _ _ _ _ => trivial) fuel trivial
    (by simpa [h4.length_eq] using hf)
  obtain ⟨w', hw'⟩ : ∃ w', w' = w1.record (.done s) := ⟨_, rfl⟩
  rw [← hw'] at k1
  have k2 : w'.trace = w0.trace ++ (ids.map (fun id => .call s id (a.cb id) arg) ++ [.done s]) := by
    rw [hw']; simp only [World.record]; rw [k2']; simp
  obtain ⟨fb, hg⟩ := h3.sig
  have hnod : l.Nodup := h4.nodup_iff.mp (h3.rel.ids_nodup hg)
  have hev : ∀ (xs : List Nat) (b : Abs), b.events ([.emit s arg] ++ xs.map (fun id => .call s id (a.cb id) arg) ++ [.done s]) = b := by
    intro xs b
    rw [events_append, events_append]
    show ((b.events (xs.map _))).events [.done s] = b
    have : b.events (xs.map (fun id => .call s id (a.cb id) arg)) = b := by
      induction xs with
      | nil => rfl
      | cons x xs ih => exact ih
    rw [this]; rfl
  refine ⟨w', ids.map (fun id => .call s id (a.cb id) arg), by rw [h1]; exact k1, ?_, h4.map _, hnod, ?_⟩
  · rw [k2, h2]; simp
  · have := Reached.step (.emit passive fuel s arg) ([.emit s arg] ++ ids.map (fun id => .call s id (a.cb id) arg) ++ [.done s]) h ⟨⟨l, hs⟩, by intro tr x hx; simp [passive] at hx⟩
      (w' := w') (by simp only [Op.run]; rw [h1]; exact k1) (by rw [k2, h2]; simp)
    simp only [Op.spec] at this
    rw [hev] at this
    exact this

/-- Every allowed call in a reachable world has an ordinary outcome, except that an emission may run forever: no assertion fails and nothing undefined happens. -/
theorem C38_calls_defined {w : World} {a : Abs} (h : Reached w a) {o : Op} (hok : o.ok a) :
    (∃ w', o.run w = .ok w') ∨ (((∃ sc f s x, o = .emit sc f s x) ∨ ∃ sc f s x, o = .emitX sc f s x) ∧ o.run w = .error .diverge) := by
  have ih := reached_rel h
  cases o with
  | create s => exact Or.inl ⟨_, rfl⟩
  | destroy s => obtain ⟨w1, h1, _⟩ := ih.destroy hok; exact Or.inl ⟨w1, h1⟩
  | connect s cb => obtain ⟨w1, h1, _⟩ := ih.connect hok cb; exact Or.inl ⟨w1, by simp [Op.run, h1]⟩
  | disconnect id => obtain ⟨w1, h1, _⟩ := ih.disconnect id; exact Or.inl ⟨w1, h1⟩
  | clear s => obtain ⟨w1, h1, _⟩ := ih.clear hok; exact Or.inl ⟨w1, h1⟩
  | emit script fuel s arg =>
    rcases emit_good script fuel arg ih hok.1 hok.2 with e | ⟨w1, es1, h1, _⟩
    · exact Or.inr ⟨Or.inl ⟨_, _, _, _, rfl⟩, e⟩
    · exact Or.inl ⟨w1, h1⟩
  | emitX script fuel s arg =>
    rcases emitX_good script fuel arg ih hok.1 hok.2 with e | ⟨w1, b, es1, h1, _⟩
    · exact Or.inr ⟨Or.inr ⟨_, _, _, _, rfl⟩, by simp [Op.run, e]⟩
    · exact Or.inl ⟨w1, by simp [Op.run, h1]⟩
  | moveConstruct s t => obtain ⟨w1, h1, _⟩ := ih.moveConstruct hok.1 hok.2; exact Or.inl ⟨w1, h1⟩
  | moveAssign s t => obtain ⟨w1, h1, _⟩ := ih.moveAssign hok.1 hok.2.1 hok.2.2.1 hok.2.2.2.1 hok.2.2.2.2; exact Or.inl ⟨w1, h1⟩

example : ∃ w a, Reached w a ∧ ∃ w' cs, emit passive 4 7 5 w = .ok w' ∧ w'.trace = w.trace ++ ([.emit 7 5] ++ cs ++ [.done 7]) ∧
    cs.Perm [.call 7 0 10 5, .call 7 1 11 5, .call 7 2 12 5] := by
  obtain ⟨w, a, h, h1, _, _, c0, c1, c2, _⟩ := example_reached
  obtain ⟨w', cs, k1, k2, k3, _⟩ := C38_emit h h1 5 (fuel := 4) (by decide)
  refine ⟨w, a, h, w', cs, k1, k2, ?_⟩
  simpa [c0, c1, c2] using k3

/-! ## C39: callbacks that disconnect slots -/

/-- Whatever callbacks do (connect, disconnect, clear, emit again, to any depth), an emission either runs forever or ends in an ordinary way; only slots that are connected at that moment
are called, with their own callback, and the connections afterwards are those that the events make. -/
theorem C39_safe {w : World} {a : Abs} (h : Reached w a) {script : Script} (hok : script.Ok a) {s : Nat} (hs : a.Live s) (arg fuel : Nat) :
    emit script fuel s arg w = .error .diverge ∨
    ∃ w' es, emit script fuel s arg w = .ok w' ∧ w'.trace = w.trace ++ es ∧ Valid a es ∧ Reached w' (a.events es) ∧
      ∀ id, isConnected (some id) w' = true ↔ (a.events es).Connected id := by
  rcases emit_good script fuel arg (reached_rel h) hs hok with e | ⟨w', es, h1, h2, h3, h4⟩
  · exact Or.inl e
  · exact Or.inr ⟨w', es, h1, h2, h3, Reached.step (.emit script fuel s arg) es h ⟨hs, hok⟩ h1 h2, fun id => (h4.connected id).symm⟩

theorem next_event (a : Abs) (e : Event) : a.next ≤ (a.event e).next := by
  cases e <;> simp [Abs.event, Abs.connect, Abs.disconnect, Abs.clear]

theorem gone_event {a : Abs} {id : Nat} (hid : id < a.next) (hgone : ¬ a.Connected id) {e : Event} (he : Valid a [e]) : ¬ (a.event e).Connected id := by
  rintro ⟨s, hm⟩
  apply hgone
  cases e with
  | connect t i cb =>
    simp only [Abs.event, Abs.connect, Abs.slots] at hm
    by_cases hst : s = t
    · subst hst
      rw [update_same] at hm
      simp only [List.mem_append, List.mem_singleton] at hm
      rcases hm with hm | hm
      · exact ⟨s, hm⟩
      · omega
    · rw [update_ne _ _ hst] at hm; exact ⟨s, hm⟩
  | disconnect i =>
    refine ⟨s, ?_⟩
    simp only [Abs.event, Abs.disconnect, Abs.slots] at hm ⊢
    cases hc : a.conn s with
    | absent => rw [hc] at hm; simp [Status.map] at hm
    | hollow => rw [hc] at hm; simp [Status.map] at hm
    | live l => rw [hc] at hm; simp [Status.map] at hm; exact hm.1
  | clear t =>
    refine ⟨s, ?_⟩
    simp only [Abs.event, Abs.clear, Abs.slots] at hm ⊢
    by_cases hst : s = t
    · subst hst; rw [update_same] at hm; simp at hm
    · rw [update_ne _ _ hst] at hm; exact hm
  | emit _ _ => exact ⟨s, hm⟩
  | call _ _ _ _ => exact ⟨s, hm⟩
  | done _ => exact ⟨s, hm⟩

theorem gone_events {a : Abs} {id : Nat} (hid : id < a.next) (hgone : ¬ a.Connected id) {es : List Event} (hv : Valid a es) :
    (∀ t cb b, Event.call t id cb b ∉ es) ∧ ¬ (a.events es).Connected id := by
  induction es generalizing a with
  | nil => exact ⟨by simp, hgone⟩
  | cons e es ih =>
    have he : Valid a [e] := ⟨hv.1, trivial⟩
    obtain ⟨k1, k2⟩ := ih (Nat.lt_of_lt_of_le hid (next_event a e)) (gone_event hid hgone he) hv.2
    refine ⟨?_, k2⟩
    intro t cb b hm
    rcases List.mem_cons.mp hm with rfl | hm
    · exact hgone ⟨t, hv.1.1⟩
    · exact k1 t cb b hm

theorem disconnect_gone (a : Abs) (id : Nat) : ¬ (a.disconnect id).Connected id := by
  rintro ⟨s, hm⟩
  simp only [Abs.disconnect, Abs.slots] at hm
  cases hc : a.conn s with
  | absent => rw [hc] at hm; simp [Status.map] at hm
  | hollow => rw [hc] at hm; simp [Status.map] at hm
  | live l => rw [hc] at hm; simp [Status.map] at hm

/-- Once a slot has been disconnected during an emission, it is not called any more: whatever callbacks do. -/
theorem C39_not_called_after {w w' : World} {a : Abs} (h : Reached w a) {script : Script} (hok : script.Ok a) {s : Nat} (hs : a.Live s) (arg fuel : Nat)
    (hrun : emit script fuel s arg w = .ok w') {es1 es2 : List Event} {id : Nat} (ht : w'.trace = w.trace ++ (es1 ++ .disconnect id :: es2))
    (hid : id < (a.events es1).next) : (∀ t cb b, Event.call t id cb b ∉ es2) ∧ isConnected (some id) w' = false := by
  rcases C39_safe h hok hs arg fuel with e | ⟨w1, es, h1, h2, h3, _, h5⟩
  · rw [e] at hrun; cases hrun
  · rw [h1] at hrun; cases hrun
    rw [h2, List.append_cancel_left_eq] at ht
    subst ht
    obtain ⟨v1, v2⟩ := valid_append.mp h3
    have hg := gone_events (a := (a.events es1).disconnect id) (by simpa [Abs.disconnect] using hid) (disconnect_gone _ _) v2.2
    refine ⟨hg.1, ?_⟩
    rw [← Bool.not_eq_true, h5 id, events_append]
    exact hg.2

theorem conn_of_disconnects {a : Abs} {es : List Event} {s id : Nat} (hid : id ∈ a.slots s) (hd : Event.disconnect id ∉ es) (hc : ∀ t, Event.clear t ∉ es) :
    id ∈ (a.events es).slots s := by
  induction es generalizing a with
  | nil => exact hid
  | cons e es ih =>
    refine ih (a := a.event e) ?_ (fun hm => hd (by simp [hm])) (fun t hm => hc t (by simp [hm]))
    cases e with
    | connect t i cb =>
      simp only [Abs.event, Abs.connect, Abs.slots]
      by_cases hst : s = t
      · subst hst; rw [update_same]; exact List.mem_append_left _ hid
      · rw [update_ne _ _ hst]; exact hid
    | disconnect i =>
      have hne : id ≠ i := by rintro rfl; exact hd (by simp)
      simp only [Abs.slots] at hid
      simp only [Abs.event, Abs.disconnect, Abs.slots]
      cases hc' : a.conn s with
      | absent => rw [hc'] at hid; simp at hid
      | hollow => rw [hc'] at hid; simp at hid
      | live l => rw [hc'] at hid; simp only [Status.map]; rw [List.mem_filter]; exact ⟨hid, by simpa using hne⟩
    | clear t => exact absurd (by simp) (hc t)
    | emit _ _ => exact hid
    | call _ _ _ _ => exact hid
    | done _ => exact hid

/-- Callbacks that connect slots and then disconnect slots, in an emission that ends: no slot is called twice, and every slot that is connected at the end has been called. -/
theorem calm_emit {w w' : World} {a : Abs} (h : Rel w a) {script : Script} (hcalm : script.ConnectsFirst) (hok : script.Ok a) {s : Nat} (hs : a.Live s) (arg fuel : Nat)
    (hrun : emit script fuel s arg w = .ok w') :
    ∃ es, w'.trace = w.trace ++ es ∧ CallsFor s arg es ∧ (calls s es).Nodup ∧ (∀ j ∈ (a.events es).slots s, j ∈ calls s es) ∧
      (script.OnlyDisconnects → DiscEvents es) := by
  obtain ⟨w0, ids, h1, h2, h3, h4⟩ := h.head hs arg
  rw [h1] at hrun
  obtain ⟨es, k1, k2, k3, k4, k5⟩ := h3.loop hcalm arg fuel hok hrun
  refine ⟨.emit s arg :: es, by rw [k1, h2]; simp, ?_, ?_, ?_, ?_⟩
  · intro e he t id cb b heq
    rcases List.mem_cons.mp he with rfl | he
    · cases heq
    · exact k2 e he t id cb b heq
  · simpa [calls] using k3
  · intro j hj
    have := k4 j hj
    simpa [calls] using this
  · intro hod e he
    rcases List.mem_cons.mp he with rfl | he
    · exact Or.inr (Or.inl ⟨_, _, rfl⟩)
    · exact k5 hod e he

/-- Callbacks that disconnect any slots: the emission ends; no slot is called twice; a slot that is still connected at the end has been called; only slots connected at the
start are called, with the emitted argument. -/
theorem C39_disconnecting {w : World} {a : Abs} (h : Reached w a) {script : Script} (hod : script.OnlyDisconnects) {s : Nat} {l : List Nat} (hs : a.conn s = .live l)
    (arg : Nat) {fuel : Nat} (hf : l.length < fuel) :
    ∃ w' es, emit script fuel s arg w = .ok w' ∧ w'.trace = w.trace ++ es ∧ Valid a es ∧ (calls s es).Nodup ∧ (∀ id ∈ calls s es, id ∈ l) ∧
      (∀ id ∈ l, isConnected (some id) w' = true → id ∈ calls s es) ∧ ∀ e ∈ es, ∀ t id cb b, e = .call t id cb b → t = s ∧ cb = a.cb id ∧ b = arg := by
  have hrel := reached_rel h
  have hcalm := OnlyDisconnects.calm hod
  have hok := OnlyDisconnects.ok hod a
  obtain ⟨w0, ids, h1, h2, h3, h4⟩ := hrel.head ⟨l, hs⟩ arg
  have hsl : a.slots s = l := by simp [Abs.slots, hs]
  rw [hsl] at h4
  obtain ⟨w', hrun⟩ := h3.ends hcalm hod arg fuel hok (by simpa [h4.length_eq] using hf)
  rw [← h1] at hrun
  obtain ⟨es, k1, k2, k3, k4, k5⟩ := calm_emit hrel hcalm hok ⟨l, hs⟩ arg fuel hrun
  rcases C39_safe h hok ⟨l, hs⟩ arg fuel with e | ⟨w1, es1, m1, m2, m3, m4, m5⟩
  · rw [e] at hrun; cases hrun
  · rw [m1] at hrun; cases hrun
    rw [m2, List.append_cancel_left_eq] at k1
    subst k1
    -- only slots of the start and their callbacks
    have key : ∀ (es : List Event) (b : Abs), Valid b es → (∀ t, ∀ i ∈ b.slots t, i ∈ a.slots t) → b.cb = a.cb →
        DiscEvents es →
        ∀ e ∈ es, ∀ t i c x, e = .call t i c x → i ∈ a.slots t ∧ c = a.cb i := by
      intro es
      induction es with
      | nil => intro b _ _ _ _ e he; simp at he
      | cons e es ih =>
        intro b hv hsub hcb hkind e' he' t i c x heq
        rcases List.mem_cons.mp he' with rfl | he'
        · subst heq
          exact ⟨hsub t i hv.1.1, by rw [← hcb]; exact hv.1.2⟩
        · refine ih (b.event e) hv.2 ?_ ?_ (fun e1 h1 => hkind e1 (by simp [h1])) e' he' t i c x heq
          · intro t' i' hm
            apply hsub t' i'
            rcases hkind e (by simp) with ⟨j, rfl⟩ | ⟨_, _, rfl⟩ | ⟨_, _, _, _, rfl⟩ | ⟨_, rfl⟩
            · simp only [Abs.event, Abs.disconnect, Abs.slots] at hm ⊢
              cases hc : b.conn t' with
              | absent => rw [hc] at hm; simp [Status.map] at hm
              | hollow => rw [hc] at hm; simp [Status.map] at hm
              | live l' => rw [hc] at hm; simp [Status.map] at hm; exact hm.1
            · exact hm
            · exact hm
            · exact hm
          · rcases hkind e (by simp) with ⟨j, rfl⟩ | ⟨_, _, rfl⟩ | ⟨_, _, _, _, rfl⟩ | ⟨_, rfl⟩ <;> exact hcb
    have hkind : DiscEvents es1 := k5 hod
    have hall := key es1 a m3 (fun _ _ hm => hm) rfl hkind
    refine ⟨_, es1, m1, m2, m3, k3, ?_, ?_, ?_⟩
    · intro id hid
      simp only [calls, List.mem_filterMap] at hid
      obtain ⟨e, he, hc⟩ := hid
      cases e with
      | call t i c x =>
        by_cases hts : t = s
        · subst hts
          simp at hc; subst hc
          have := (hall _ he t i c x rfl).1
          rw [hsl] at this; exact this
        · simp [hts] at hc
      | _ => simp at hc
    · intro id hid hcon
      by_cases hd : Event.disconnect id ∈ es1
      · exfalso
        obtain ⟨p, q, rfl⟩ := List.append_of_mem hd
        have hlt : id < a.next := by
          obtain ⟨x, hx, _⟩ := (hrel.mem_slots s id).mp (by rw [hsl]; exact hid)
          rw [hrel.next]; exact hrel.fresh id x hx
        have hmono : ∀ (es : List Event) (b : Abs), b.next ≤ (b.events es).next := by
          intro es
          induction es with
          | nil => intro b; exact Nat.le_refl _
          | cons e es ih => intro b; exact Nat.le_trans (next_event b e) (ih (b.event e))
        have := (C39_not_called_after h hok ⟨l, hs⟩ arg fuel m1 m2 (Nat.lt_of_lt_of_le hlt (hmono p a))).2
        rw [this] at hcon; cases hcon
      · refine k4 id (conn_of_disconnects (by rw [hsl]; exact hid) hd ?_)
        intro t hm
        rcases hkind _ hm with ⟨j, e⟩ | ⟨_, _, e⟩ | ⟨_, _, _, _, e⟩ | ⟨_, e⟩ <;> cases e
    · intro e he t id cb b heq
      exact ⟨(k2 e he t id cb b heq).1, (hall e he t id cb b heq).2, (k2 e he t id cb b heq).2⟩

/-- Callbacks of the example: the first callback disconnects the slots 0 and 1. -/
def exampleDisconnects : Script := fun tr => if (calls 7 tr).length = 1 then [.disconnect 0, .disconnect 1] else []

example : ∃ w a, Reached w a ∧ ∃ w' es, emit exampleDisconnects 4 7 5 w = .ok w' ∧ w'.trace = w.trace ++ es ∧ Valid a es ∧ (calls 7 es).Nodup ∧
    (isConnected (some 2) w' = true → 2 ∈ calls 7 es) := by
  obtain ⟨w, a, h, h1, _⟩ := example_reached
  obtain ⟨w', es, k1, k2, k3, k4, _, k6, _⟩ := C39_disconnecting h (script := exampleDisconnects) (by
    intro tr x hx
    simp only [exampleDisconnects] at hx
    split at hx
    · simp at hx; rcases hx with rfl | rfl <;> exact ⟨_, rfl⟩
    · simp at hx) h1 5 (fuel := 4) (by decide)
  exact ⟨w, a, h, w', es, k1, k2, k3, k4, k6 2 (by simp)⟩

/-! ## C40: connections -/

/-- A connection says that it is connected exactly if the history says so. -/
theorem C40_isConnected {w : World} {a : Abs} (h : Reached w a) (id : Nat) : isConnected (some id) w = true ↔ ∃ s l, a.conn s = .live l ∧ id ∈ l := by
  rw [← (reached_rel h).connected]
  constructor
  · rintro ⟨s, hm⟩
    cases hc : a.conn s with
    | live l => exact ⟨s, l, rfl.trans hc, by simpa [Abs.slots, hc] using hm⟩
    | absent => simp [Abs.slots, hc] at hm
    | hollow => simp [Abs.slots, hc] at hm
  · rintro ⟨s, l, hc, hm⟩
    exact ⟨s, by simpa [Abs.slots, hc] using hm⟩

/-- A slot is connected to one signal only. -/
theorem C40_one_signal {w : World} {a : Abs} (h : Reached w a) {s t id : Nat} (hs : id ∈ a.slots s) (ht : id ∈ a.slots t) : s = t := by
  obtain ⟨x, hx, e1⟩ := ((reached_rel h).mem_slots s id).mp hs
  obtain ⟨y, hy, e2⟩ := ((reached_rel h).mem_slots t id).mp ht
  rw [hx] at hy; cases hy
  exact e1.symm.trans e2

theorem isConnected_abs {w : World} {a : Abs} (h : Rel w a) {w' : World} {a' : Abs} (h' : Rel w' a') {id id' : Nat} (hc : a.Connected id ↔ a'.Connected id') :
    isConnected (some id) w = isConnected (some id') w' := by
  rw [Bool.eq_iff_iff, ← h.connected, ← h'.connected, hc]

theorem connected_disconnect (a : Abs) (id j : Nat) : (a.disconnect id).Connected j ↔ a.Connected j ∧ j ≠ id := by
  simp only [Abs.Connected, Abs.disconnect, Abs.slots]
  constructor
  · rintro ⟨s, hm⟩
    cases hc : a.conn s with
    | absent => rw [hc] at hm; simp [Status.map] at hm
    | hollow => rw [hc] at hm; simp [Status.map] at hm
    | live l => rw [hc] at hm; simp [Status.map] at hm; exact ⟨⟨s, by rw [hc]; exact hm.1⟩, hm.2⟩
  · rintro ⟨⟨s, hm⟩, hne⟩
    cases hc : a.conn s with
    | absent => rw [hc] at hm; simp at hm
    | hollow => rw [hc] at hm; simp at hm
    | live l => rw [hc] at hm; exact ⟨s, by rw [hc]; simp [Status.map, hm, hne]⟩

/-- `Disconnect` disconnects this slot and no other; it can be repeated without effect. -/
theorem C40_disconnect {w : World} {a : Abs} (h : Reached w a) (c : Option Nat) :
    ∃ w', disconnect c w = .ok w' ∧ isConnected c w' = false ∧ (∀ j, some j ≠ c → isConnected (some j) w' = isConnected (some j) w) ∧ disconnect c w' = .ok w' ∧
      Reached w' (match c with
        | none => a
        | some id => a.disconnect id) := by
  cases c with
  | none => exact ⟨w, rfl, rfl, fun _ _ => rfl, rfl, h⟩
  | some id =>
    obtain ⟨w', h1, h2⟩ := reached_op h (o := .disconnect id) trivial (by intros; simp)
    have hr := reached_rel h
    have hr' := reached_rel h2
    have hoff : isConnected (some id) w' = false := by
      rw [← Bool.not_eq_true, ← hr'.connected]
      intro hc
      exact ((connected_disconnect a id id).mp hc).2 rfl
    refine ⟨w', h1, hoff, ?_, ?_, h2⟩
    · intro j hj
      refine isConnected_abs hr' hr ?_
      exact (connected_disconnect a id j).trans ⟨fun x => x.1, fun x => ⟨x, fun e => hj (by rw [e])⟩⟩
    · simp only [disconnect]
      cases hx : w'.heap id with
      | none => rfl
      | some x => simp [isConnected, hx] at hoff

/-- `Connect` gives a new connection that is connected; the others remain as they are. -/
theorem C40_connect {w : World} {a : Abs} (h : Reached w a) {s : Nat} {l : List Nat} (hs : a.conn s = .live l) (cb : Nat) :
    ∃ w' id, connect s cb w = .ok (w', id) ∧ isConnected (some id) w = false ∧ isConnected (some id) w' = true ∧
      (∀ j, j ≠ id → isConnected (some j) w' = isConnected (some j) w) ∧ Reached w' (a.connect s cb) ∧ (a.connect s cb).conn s = .live (l ++ [id]) := by
  have hr := reached_rel h
  obtain ⟨w', h1, h2, h3, _⟩ := hr.connect ⟨l, hs⟩ cb
  have hreach : Reached w' (a.connect s cb) :=
    Reached.step (.connect s cb) [] h ⟨l, hs⟩ (by simp [Op.run, h1]) (by rw [h3, List.append_nil])
  have hcon : ∀ j, (a.connect s cb).Connected j ↔ a.Connected j ∨ j = a.next := by
    intro j
    simp only [Abs.Connected, Abs.connect, Abs.slots]
    constructor
    · rintro ⟨t, hm⟩
      by_cases hts : t = s
      · subst hts
        simp only [update_same, List.mem_append, List.mem_singleton] at hm
        rcases hm with hm | hm
        · exact Or.inl ⟨t, hm⟩
        · exact Or.inr hm
      · rw [update_ne _ _ hts] at hm; exact Or.inl ⟨t, hm⟩
    · rintro (⟨t, hm⟩ | rfl)
      · by_cases hts : t = s
        · subst hts; exact ⟨t, by simp only [update_same]; exact List.mem_append_left _ hm⟩
        · exact ⟨t, by rw [update_ne _ _ hts]; exact hm⟩
      · exact ⟨s, by simp⟩
  have hfresh : isConnected (some a.next) w = false := by
    rw [hr.next]
    cases hx : w.heap w.next with
    | none => simp [isConnected, hx]
    | some x => exact absurd (hr.fresh _ x hx) (Nat.lt_irrefl _)
  refine ⟨w', a.next, h1, hfresh, ?_, ?_, hreach, by simp [Abs.connect, Abs.slots, hs]⟩
  · exact (h2.connected a.next).mp ((hcon _).mpr (Or.inr rfl))
  · intro j hj
    exact isConnected_abs h2 hr ((hcon j).trans ⟨fun x => x.resolve_right hj, Or.inl⟩)

theorem connected_update (a a' : Abs) (s j : Nat) (h1 : a'.slots s = []) (h2 : ∀ t, t ≠ s → a'.slots t = a.slots t) (hone : ∀ t, j ∈ a.slots s → j ∈ a.slots t → s = t) :
    a'.Connected j ↔ a.Connected j ∧ j ∉ a.slots s := by
  constructor
  · rintro ⟨t, hm⟩
    have hts : t ≠ s := by rintro rfl; rw [h1] at hm; simp at hm
    rw [h2 t hts] at hm
    exact ⟨⟨t, hm⟩, fun hs => hts (hone t hs hm).symm⟩
  · rintro ⟨⟨t, hm⟩, hn⟩
    have hts : t ≠ s := by rintro rfl; exact hn hm
    exact ⟨t, by rw [h2 t hts]; exact hm⟩

/-- `Clear` disconnects the slots of this signal and no others. -/
theorem C40_clear {w : World} {a : Abs} (h : Reached w a) {s : Nat} {l : List Nat} (hs : a.conn s = .live l) :
    ∃ w', clear s w = .ok w' ∧ (∀ j, isConnected (some j) w' = (isConnected (some j) w && decide (j ∉ l))) ∧ Reached w' (a.clear s) := by
  obtain ⟨w', h1, h2⟩ := reached_op h (o := .clear s) (by simp [Op.ok, hs]) (by intros; simp)
  refine ⟨w', h1, ?_, h2⟩
  intro j
  have hc := connected_update a (a.clear s) s j (by simp [Abs.clear, Abs.slots]) (fun t ht => by simp [Abs.clear, Abs.slots, update_ne _ _ ht])
    (fun t => C40_one_signal h)
  have hsl : a.slots s = l := by simp [Abs.slots, hs]
  rw [Bool.eq_iff_iff, ← (reached_rel h2).connected, Bool.and_eq_true, ← (reached_rel h).connected, decide_eq_true_eq, ← hsl]
  exact hc

/-- The destruction of a signal disconnects its slots and no others. -/
theorem C40_destroy {w : World} {a : Abs} (h : Reached w a) {s : Nat} {l : List Nat} (hs : a.conn s = .live l) :
    ∃ w', destroySignal s w = .ok w' ∧ (∀ j, isConnected (some j) w' = (isConnected (some j) w && decide (j ∉ l))) ∧ Reached w' (a.destroy s) := by
  obtain ⟨w', h1, h2⟩ := reached_op h (o := .destroy s) (by simp [Op.ok, hs]) (by intros; simp)
  refine ⟨w', h1, ?_, h2⟩
  intro j
  have hc := connected_update a (a.destroy s) s j (by simp [Abs.destroy, Abs.slots]) (fun t ht => by simp [Abs.destroy, Abs.slots, update_ne _ _ ht])
    (fun t => C40_one_signal h)
  have hsl : a.slots s = l := by simp [Abs.slots, hs]
  rw [Bool.eq_iff_iff, ← (reached_rel h2).connected, Bool.and_eq_true, ← (reached_rel h).connected, decide_eq_true_eq, ← hsl]
  exact hc

example : ∃ w a, Reached w a ∧ isConnected (some 1) w = true ∧ isConnected (some 3) w = false ∧
    ∃ w', disconnect (some 1) w = .ok w' ∧ isConnected (some 1) w' = false ∧ isConnected (some 2) w' = true := by
  obtain ⟨w, a, h, h1, _⟩ := example_reached
  obtain ⟨w', k1, k2, k3, _⟩ := C40_disconnect h (some 1)
  have c2 : isConnected (some 2) w = true := (C40_isConnected h 2).mpr ⟨7, _, h1, by simp⟩
  refine ⟨w, a, h, (C40_isConnected h 1).mpr ⟨7, _, h1, by simp⟩, ?_, w', k1, k2, by rw [k3 2 (by simp)]; exact c2⟩
  cases hx : w.heap 3 with
  | none => simp [isConnected, hx]
  | some x =>
    have := (reached_rel h).fresh 3 x hx
    rw [← (reached_rel h).next] at this
    obtain ⟨w, a, h, h1, _, _, _, _, _, hn⟩ := example_reached
    simp_all

/-! ## C41: guards -/

/-- The destruction of a guard (or its `Disconnect`) disconnects its slot and no other. -/
theorem C41_destroy {w : World} {a : Abs} (h : Reached w a) (c : Option Nat) :
    ∃ w', guardDisconnect c w = .ok w' ∧ isConnected c w' = false ∧ ∀ j, some j ≠ c → isConnected (some j) w' = isConnected (some j) w := by
  obtain ⟨w', k1, k2, k3, _⟩ := C40_disconnect h c
  exact ⟨w', k1, k2, k3⟩

/-- `ConnectionGuard::Connect` disconnects the slot of the guard (a slot that was connected at some time) and connects a new slot, which the guard then has. -/
theorem C41_connect {w : World} {a : Abs} (h : Reached w a) (c : Option Nat) (hc : ∀ i, c = some i → i < a.next) {s : Nat} (hs : a.Live s) (cb : Nat) :
    ∃ w' id, guardConnect c s cb w = .ok (w', some id) ∧ isConnected (some id) w = false ∧ isConnected (some id) w' = true ∧ isConnected c w' = false ∧
      ∀ j, some j ≠ c → j ≠ id → isConnected (some j) w' = isConnected (some j) w := by
  obtain ⟨w1, k1, k2, k3, _, k5⟩ := C40_disconnect h c
  have hl : ∃ l, (match c with | none => a | some id => a.disconnect id).conn s = .live l := by
    cases c with
    | none => exact hs
    | some id => exact live_event hs (.disconnect id)
  obtain ⟨l, hl⟩ := hl
  obtain ⟨w2, id, m1, m2, m3, m4, _⟩ := C40_connect k5 hl cb
  have hne : some id ≠ c := by
    obtain ⟨w', q1, _⟩ := (reached_rel k5).connect ⟨l, hl⟩ cb
    rw [m1] at q1
    simp only [Except.ok.injEq, Prod.mk.injEq] at q1
    rintro rfl
    have := hc id rfl
    have hid : id = a.next := q1.2
    omega
  refine ⟨w2, id, by simp [guardConnect, k1, m1], by rw [← k3 id hne]; exact m2, m3, ?_, ?_⟩
  · cases c with
    | none => rfl
    | some i => rw [m4 i (by rintro rfl; exact hne rfl)]; exact k2
  · intro j hj hjid
    rw [m4 j hjid, k3 j hj]

/-- Assigning a connection to a guard disconnects the slot that the guard had and no other; the guard has the new slot. -/
theorem C41_assign {w : World} {a : Abs} (h : Reached w a) (c c' : Option Nat) :
    ∃ w', guardAssign c c' w = .ok (w', c') ∧ isConnected c w' = false ∧ ∀ j, some j ≠ c → isConnected (some j) w' = isConnected (some j) w := by
  obtain ⟨w', k1, k2, k3, _⟩ := C40_disconnect h c
  exact ⟨w', by simp [guardAssign, k1], k2, k3⟩

/-- Move assignment of a guard disconnects the slot that the target had and no other; the target has the slot of the source, which has none. -/
theorem C41_moveAssign {w : World} {a : Abs} (h : Reached w a) (c c' : Option Nat) :
    ∃ w', guardMoveAssign c c' w = .ok (w', c', none) ∧ isConnected c w' = false ∧ ∀ j, some j ≠ c → isConnected (some j) w' = isConnected (some j) w := by
  obtain ⟨w', k1, k2, k3, _⟩ := C40_disconnect h c
  exact ⟨w', by simp [guardMoveAssign, k1], k2, k3⟩

/-- After the move construction of a guard, the destruction of the source has no effect, and that of the new guard disconnects the slot. -/
theorem C41_moveConstruct {w : World} {a : Abs} (h : Reached w a) (c : Option Nat) :
    guardDisconnect (guardMoveConstruct c).2 w = .ok w ∧
    ∃ w', guardDisconnect (guardMoveConstruct c).1 w = .ok w' ∧ isConnected c w' = false ∧ ∀ j, some j ≠ c → isConnected (some j) w' = isConnected (some j) w :=
  ⟨rfl, C41_destroy h c⟩

/-- A slot disconnected by a guard stays disconnected, whatever the program does next. -/
theorem C41_stays_disconnected {w w' : World} {a a' : Abs} (h : Reached w a) {id : Nat} (hid : id < a.next) (hoff : isConnected (some id) w = false) (o : Op)
    (es : List Event) (hok : o.ok a) (hrun : o.run w = .ok w') (hes : w'.trace = w.trace ++ es) (ha : a' = o.spec es a) :
    isConnected (some id) w' = false ∧ id < a'.next := by
  subst ha
  have hr := reached_rel h
  have hr' := reached_rel (Reached.step o es h hok hrun hes)
  have hgone : ¬ a.Connected id := by rw [hr.connected, hoff]; simp
  suffices hs : ¬ (o.spec es a).Connected id ∧ id < (o.spec es a).next by
    refine ⟨?_, hs.2⟩
    rw [← Bool.not_eq_true, ← hr'.connected]; exact hs.1
  have nil_update : ∀ (a1 : Abs) (s : Nat), (∀ t, t ≠ s → a1.slots t = a.slots t) → a1.slots s = [] → ¬ a1.Connected id := by
    rintro a1 s h1 h2 ⟨t, hm⟩
    by_cases hts : t = s
    · subst hts; rw [h2] at hm; simp at hm
    · rw [h1 t hts] at hm; exact hgone ⟨t, hm⟩
  have move_gone : ∀ (a1 : Abs) (s t : Nat), ¬ a1.Connected id → ¬ (a1.move s t).Connected id := by
    rintro a1 s t h1 ⟨u, hm⟩
    by_cases hut : u = t
    · subst hut
      by_cases hg : a1.grown u = false ∧ a1.slots u ≠ []
      · simp [Abs.move, Abs.slots] at hm
        grind [Abs.slots]
      · simp only [Abs.move] at hm
        rw [if_neg hg] at hm
        simp [Abs.slots] at hm
    · simp only [Abs.move, Abs.slots] at hm
      rw [update_ne _ _ hut] at hm
      by_cases hus : u = s
      · subst hus; rw [update_same] at hm; exact h1 ⟨t, hm⟩
      · rw [update_ne _ _ hus] at hm; exact h1 ⟨u, hm⟩
  cases o with
  | create s => exact ⟨nil_update _ s (fun t ht => by simp [Op.spec, Abs.create, Abs.slots, update_ne _ _ ht]) (by simp [Op.spec, Abs.create, Abs.slots]), hid⟩
  | destroy s => exact ⟨nil_update _ s (fun t ht => by simp [Op.spec, Abs.destroy, Abs.slots, update_ne _ _ ht]) (by simp [Op.spec, Abs.destroy, Abs.slots]), hid⟩
  | clear s => exact ⟨nil_update _ s (fun t ht => by simp [Op.spec, Abs.clear, Abs.slots, update_ne _ _ ht]) (by simp [Op.spec, Abs.clear, Abs.slots]), hid⟩
  | connect s cb => exact ⟨gone_event (e := .connect s a.next cb) hid hgone ⟨⟨hok, rfl⟩, trivial⟩, Nat.lt_succ_of_lt hid⟩
  | disconnect i => exact ⟨gone_event (e := .disconnect i) hid hgone ⟨trivial, trivial⟩, hid⟩
  | emit sc f s x =>
    rcases C39_safe h hok.2 hok.1 x f with e | ⟨w1, es1, m1, m2, m3, _⟩
    · simp only [Op.run, e] at hrun; cases hrun
    · simp only [Op.run, m1, Except.ok.injEq] at hrun
      subst hrun
      rw [m2, List.append_cancel_left_eq] at hes
      subst hes
      have hmono : ∀ (es : List Event) (b : Abs), b.next ≤ (b.events es).next := by
        intro es
        induction es with
        | nil => intro b; exact Nat.le_refl _
        | cons e es ih => intro b; exact Nat.le_trans (next_event b e) (ih (b.event e))
      exact ⟨(gone_events hid hgone m3).2, Nat.lt_of_lt_of_le hid (hmono _ _)⟩
  | emitX sc f s x =>
    rcases emitX_good sc f x hr hok.1 hok.2 with e | ⟨w1, b, es1, m1, m2, m3, _⟩
    · simp only [Op.run, e] at hrun; cases hrun
    · simp only [Op.run, m1, ok_bind, pure_ok, Except.ok.injEq] at hrun
      subst hrun
      rw [m2, List.append_cancel_left_eq] at hes
      subst hes
      have hmono : ∀ (es : List Event) (b : Abs), b.next ≤ (b.events es).next := by
        intro es
        induction es with
        | nil => intro b; exact Nat.le_refl _
        | cons e es ih => intro b; exact Nat.le_trans (next_event b e) (ih (b.event e))
      exact ⟨(gone_events hid hgone m3).2, Nat.lt_of_lt_of_le hid (hmono _ _)⟩
  | moveConstruct s t =>
    exact ⟨move_gone _ s t (nil_update _ s (fun t ht => by simp [Abs.create, Abs.slots, update_ne _ _ ht]) (by simp [Abs.create, Abs.slots])), hid⟩
  | moveAssign s t => exact ⟨move_gone a s t hgone, hid⟩

example : ∃ w a, Reached w a ∧ ∃ w' id, guardConnect (some 1) 7 99 w = .ok (w', some id) ∧ isConnected (some id) w' = true ∧ isConnected (some 1) w' = false ∧
    isConnected (some 2) w = true := by
  obtain ⟨w, a, h, h1, _, _, _, _, _, hn⟩ := example_reached
  obtain ⟨w', id, k1, _, k2, k3, _⟩ := C41_connect h (some 1) (by intro i hi; cases hi; omega) ⟨_, h1⟩ 99
  exact ⟨w, a, h, w', id, k1, k2, k3, (C40_isConnected h 2).mpr ⟨7, _, h1, by simp⟩⟩

end Verif.Signal
