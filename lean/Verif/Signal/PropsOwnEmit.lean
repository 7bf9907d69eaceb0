import Verif.Signal.LemmasOwnNest

/-! # Signals: emissions whose callbacks own guards (C135) -/

namespace Verif.Signal
open Verif.Cpp

/-- The emission, its events, and callbacks that own no guards with the same events. -/
theorem emitG_ran (owns : Nat → List Nat) {script : ScriptG} {w : World} {a : Abs} (h : Rel w a) (hok : script.Ok owns a) {s : Nat} (hs : a.Live s) (arg fuel : Nat) :
    emitG owns script fuel s arg w = .error .diverge ∨ ∃ (w' : World) (es : List Event) (script' : Script), emitG owns script fuel s arg w = .ok w' ∧ Ran owns script [] w a w' es ∧
      script'.Ok a ∧ emit script' fuel s arg w = .ok w' := by
  obtain ⟨l, hl⟩ := hs
  obtain ⟨ids, it, hg, _⟩ := h.live hl
  obtain ⟨g1, g2⟩ := h.setIter (fun _ => some 0) hg
  obtain ⟨w1, hw1⟩ : ∃ w1, setIter s (fun _ => some 0) w = .ok w1 ∧ w1.trace = w.trace ∧ Rel w1 a := ⟨_, g1, rfl, g2⟩
  obtain ⟨i1, i2, i3⟩ := hw1
  rcases loop_ran w.trace.length owns script fuel s arg (w1.record (.emit s arg)) a (by simp [World.record, i2]) (i3.record _) hok ⟨l, hl⟩ with e | ⟨w', es, p1, p2, p3, p4, p5⟩
  · left; simp only [emitG, i1, ok_bind, e]
  · have h1 : Ran owns script [] w a (w1.record (.emit s arg)) [.emit s arg] :=
      .one (by simp [World.record, i2]) ⟨trivial, trivial⟩ (i3.record _) (by simp) (by intro s2 x e2; cases e2; exact ⟨l, hl⟩) (by simp) (by simp)
    have hall := h1.append p2
    refine Or.inr ⟨w', .emit s arg :: es, replay w.trace.length w'.trace, by simp only [emitG, i1, ok_bind, p1], hall, ?_, by
      simp only [emit, i1, ok_bind, p5 w'.trace (List.prefix_refl _)]⟩
    intro tr x hx
    simp only [replay] at hx
    split at hx
    · split at hx
      · rename_i hc
        rw [hall.trace, List.drop_append, List.drop_eq_nil_of_le hc.1, List.nil_append] at hx
        exact level_ok 0 (fun s x hm => hall.emits s x (List.mem_of_mem_drop hm)) (fun s i c hm => hall.connects s i c (List.mem_of_mem_drop hm))
          (fun s hm => hall.clears s (List.mem_of_mem_drop hm)) x hx
      · cases hx
    · cases hx

/-- Whatever callbacks that own guards do (connect, disconnect, clear, emit again, to any depth; clearing only signals none of whose callbacks owns guards of its other slots), an emission either runs forever or ends in an ordinary way, in a state that callbacks without guards
could have produced by disconnecting the same slots themselves: only slots that are connected at that moment are called, with their own callback, and the connections afterwards are those
that the events make. -/
theorem C135_safe_partial {w : World} {a : Abs} (h : Reached w a) (owns : Nat → List Nat) {script : ScriptG} (hok : script.Ok owns a) {s : Nat} (hs : a.Live s) (arg fuel : Nat) :
    emitG owns script fuel s arg w = .error .diverge ∨
    ∃ w' es, emitG owns script fuel s arg w = .ok w' ∧ w'.trace = w.trace ++ es ∧ Valid a es ∧ Reached w' (a.events es) ∧
      (∀ id, isConnected (some id) w' = true ↔ (a.events es).Connected id) ∧ Cascades owns a es ∧ Asked owns script a w.trace es := by
  rcases emitG_ran owns (reached_rel h) hok hs arg fuel with e | ⟨w', es, script', h1, h2, h3, h4⟩
  · exact Or.inl e
  · refine Or.inr ⟨w', es, h1, h2.trace, h2.valid, Reached.step (.emit script' fuel s arg) es h ⟨hs, h3⟩ h4 h2.trace, fun id => (h2.rel.connected id).symm, h2.cascades, ?_⟩
    refine ⟨fun j hj => ?_, fun t ht => ?_⟩
    · rcases h2.asked.1 j hj with k | k
      · cases k
      · exact k
    · rcases h2.asked.2 t ht with k | k
      · cases k
      · exact k

/-- An emission of callbacks that own guards is one of callbacks that own none, with the same events. -/
theorem C135_without_guards {w w' : World} {a : Abs} (h : Reached w a) {owns : Nat → List Nat} {script : ScriptG} (hok : script.Ok owns a) {s : Nat} (hs : a.Live s) {arg fuel : Nat}
    (hrun : emitG owns script fuel s arg w = .ok w') : ∃ script' : Script, script'.Ok a ∧ emit script' fuel s arg w = .ok w' := by
  rcases emitG_ran owns (reached_rel h) hok hs arg fuel with e | ⟨w1, es, script', h1, h2, h3, h4⟩
  · rw [e] at hrun; cases hrun
  · rw [h1] at hrun; cases hrun
    exact ⟨script', h3, h4⟩

/-- The slots that fall with `i` are disconnected right after it. -/
theorem falls_next {owns : Nat → List Nat} {a : Abs} {es1 es2 : List Event} {i : Nat} (h : Cascades owns a (es1 ++ .disconnect i :: es2)) {j : Nat} (hf : Falls owns (a.events es1) i j) :
    ∃ (ds : List Nat) (rest : List Event), .disconnect i :: es2 = ds.map Event.disconnect ++ rest ∧ j ∈ ds := by
  induction hf with
  | self => exact ⟨[i], es2, rfl, List.mem_singleton.mpr rfl⟩
  | @owned i' j _ hc hm ih =>
    obtain ⟨ds, rest, e, hi⟩ := ih
    obtain ⟨d1, d2, e1, e2⟩ := List.eq_append_cons_of_mem hi
    subst e1
    have hc' : (a.events (es1 ++ d1.map Event.disconnect)).Connected i' := by
      rw [events_append, events_disconnects, connected_drop]; exact ⟨hc, e2⟩
    obtain ⟨ds', rest', k1, k2⟩ := h (es1 ++ d1.map Event.disconnect) (.disconnect i') (d2.map Event.disconnect ++ rest) (by rw [e]; simp) i' ⟨rfl, hc'⟩ j hm
    refine ⟨d1 ++ i' :: ds', rest', ?_, by simp [k2]⟩
    rw [e]
    simp only [List.map_append, List.map_cons, List.append_assoc, List.cons_append]
    rw [k1]

/-- Once a connected slot has been disconnected during an emission, neither it nor a slot whose guard dies with it is called any more, and they are not connected at the end. -/
theorem C135_not_called_after {w w' : World} {a : Abs} (h : Reached w a) {owns : Nat → List Nat} {script : ScriptG} (hok : script.Ok owns a) {s : Nat} (hs : a.Live s) {arg fuel : Nat}
    (hrun : emitG owns script fuel s arg w = .ok w') {es1 es2 : List Event} {i j : Nat} (ht : w'.trace = w.trace ++ (es1 ++ .disconnect i :: es2))
    (hf : Falls owns (a.events es1) i j) (hj : j < (a.events es1).next) : (∀ t cb b, Event.call t j cb b ∉ es2) ∧ isConnected (some j) w' = false := by
  rcases emitG_ran owns (reached_rel h) hok hs arg fuel with e | ⟨w1, es, script', h1, h2, h3, h4⟩
  · rw [e] at hrun; cases hrun
  · rw [h1] at hrun; cases hrun
    have ht' := ht
    rw [h2.trace, List.append_cancel_left_eq] at ht'
    subst ht'
    obtain ⟨ds, rest, e, hm⟩ := falls_next h2.cascades hf
    obtain ⟨d1, d2, rfl⟩ := List.append_of_mem hm
    obtain ⟨k1, k2⟩ := C39_not_called_after h h3 hs arg fuel h4 (es1 := es1 ++ d1.map Event.disconnect) (es2 := d2.map Event.disconnect ++ rest) (id := j)
      (by rw [ht, e]; simp) (by rw [events_append, events_disconnects, next_drop]; exact hj)
    refine ⟨fun t cb b hc => ?_, k2⟩
    have : Event.call t j cb b ∈ Event.disconnect i :: es2 := List.mem_cons_of_mem _ hc
    rw [e] at this
    simp only [List.map_append, List.map_cons, List.append_assoc, List.cons_append, List.mem_append, List.mem_cons, List.mem_map, reduceCtorEq, and_false, exists_false,
      false_or] at this
    exact k1 t cb b (by simp [this])

/-- The slots that fall with a slot of a signal that is cleared are slots of it, or are disconnected right after. -/
theorem falls_clear {owns : Nat → List Nat} {a : Abs} {es1 es2 : List Event} {u : Nat} (h : Cascades owns a (es1 ++ .clear u :: es2)) {i j : Nat} (hi : i ∈ (a.events es1).slots u)
    (hf : Falls owns (a.events es1) i j) : j ∈ (a.events es1).slots u ∨ ∃ (ds : List Nat) (rest : List Event), es2 = ds.map Event.disconnect ++ rest ∧ j ∈ ds := by
  induction hf with
  | self => exact Or.inl hi
  | @owned i' j _ hc hm ih =>
    right
    by_cases hu : i' ∈ (a.events es1).slots u
    · exact h es1 (.clear u) es2 rfl i' hu j hm
    · obtain ⟨ds, rest, e, hi'⟩ := ih.resolve_left hu
      obtain ⟨d1, d2, e1, e2⟩ := List.eq_append_cons_of_mem hi'
      subst e1
      have hc' : (a.events (es1 ++ .clear u :: d1.map Event.disconnect)).Connected i' := by
        rw [events_append, show ((a.events es1).events (.clear u :: d1.map Event.disconnect)) = ((a.events es1).clear u).events (d1.map Event.disconnect) from rfl, events_disconnects,
          connected_drop]
        refine ⟨?_, e2⟩
        obtain ⟨t, ht⟩ := hc
        have htu : t ≠ u := fun e => hu (e ▸ ht)
        exact ⟨t, by simpa [Abs.slots, Abs.clear, update_ne _ _ htu] using ht⟩
      obtain ⟨ds', rest', k1, k2⟩ := h (es1 ++ .clear u :: d1.map Event.disconnect) (.disconnect i') (d2.map Event.disconnect ++ rest) (by rw [e]; simp) i' ⟨rfl, hc'⟩ j hm
      refine ⟨d1 ++ i' :: ds', rest', ?_, by simp [k2]⟩
      rw [e]
      simp only [List.map_append, List.map_cons, List.append_assoc, List.cons_append]
      rw [k1]

theorem mem_slots_connect {a : Abs} {s cb t j : Nat} (h : j ∈ (a.connect s cb).slots t) : j ∈ a.slots t ∨ (t = s ∧ j = a.next) := by
  by_cases e : t = s
  · subst e
    have h : j ∈ a.slots t ++ [a.next] := by simpa [Abs.slots, Abs.connect, update] using h
    rcases List.mem_append.mp h with h | h
    · exact Or.inl h
    · exact Or.inr ⟨rfl, List.mem_singleton.mp h⟩
  · left; simpa [Abs.slots, Abs.connect, update_ne _ _ e] using h

theorem mem_slots_clear {a : Abs} {s t j : Nat} (h : j ∈ (a.clear s).slots t) : j ∈ a.slots t := by
  by_cases e : t = s
  · subst e; simp [Abs.slots, Abs.clear] at h
  · simpa [Abs.slots, Abs.clear, update_ne _ _ e] using h

/-- A slot is connected to one signal, whatever happens. -/
theorem unique_events {a : Abs} (h : (∀ s t id, id ∈ a.slots s → id ∈ a.slots t → s = t) ∧ Bounded a) (es : List Event) :
    (∀ s t id, id ∈ (a.events es).slots s → id ∈ (a.events es).slots t → s = t) ∧ Bounded (a.events es) := by
  induction es generalizing a with
  | nil => exact h
  | cons e es ih =>
    refine ih (a := a.event e) ?_
    cases e with
    | connect s i cb =>
      refine ⟨fun u t id hu ht => ?_, fun i hi => ?_⟩
      · rcases mem_slots_connect hu with hu' | ⟨e0, e1⟩
        · rcases mem_slots_connect ht with ht' | ⟨_, e2⟩
          · exact h.1 u t id hu' ht'
          · have := h.2 id ⟨u, hu'⟩; omega
        · rcases mem_slots_connect ht with ht' | ⟨e3, e2⟩
          · have := h.2 id ⟨t, ht'⟩; omega
          · rw [e0, e3]
      · obtain ⟨t, ht⟩ := hi
        show i < a.next + 1
        rcases mem_slots_connect ht with ht | ⟨_, e2⟩
        · have := h.2 i ⟨t, ht⟩; omega
        · omega
    | disconnect i =>
      refine ⟨fun u t id hu ht => h.1 u t id ?_ ?_, h.2.drop [i]⟩
      · exact ((mem_slots_drop a [i] u id).mp hu).1
      · exact ((mem_slots_drop a [i] t id).mp ht).1
    | clear s => exact ⟨fun u t id hu ht => h.1 u t id (mem_slots_clear hu) (mem_slots_clear ht), fun i ⟨t, ht⟩ => h.2 i ⟨t, mem_slots_clear ht⟩⟩
    | emit => exact h
    | call => exact h
    | done => exact h

/-- Once a signal has been cleared during an emission, neither a slot that was connected to it nor a slot whose guard dies with such a slot is called any more, and they are not connected
at the end. -/
theorem C135_not_called_after_clear {w w' : World} {a : Abs} (h : Reached w a) {owns : Nat → List Nat} {script : ScriptG} (hok : script.Ok owns a) {s : Nat} (hs : a.Live s) {arg fuel : Nat}
    (hrun : emitG owns script fuel s arg w = .ok w') {es1 es2 : List Event} {u i j : Nat} (ht : w'.trace = w.trace ++ (es1 ++ .clear u :: es2))
    (hi : i ∈ (a.events es1).slots u) (hf : Falls owns (a.events es1) i j) (hj : j < (a.events es1).next) : (∀ t cb b, Event.call t j cb b ∉ es2) ∧ isConnected (some j) w' = false := by
  rcases emitG_ran owns (reached_rel h) hok hs arg fuel with e | ⟨w1, es, script', h1, h2, h3, h4⟩
  · rw [e] at hrun; cases hrun
  · rw [h1] at hrun; cases hrun
    have ht' := ht
    rw [h2.trace, List.append_cancel_left_eq] at ht'
    subst ht'
    rcases falls_clear h2.cascades hi hf with hu | ⟨ds, rest, e, hm⟩
    · obtain ⟨v1, v2⟩ := valid_append.mp h2.valid
      have hone : ∀ t, j ∈ (a.events es1).slots t → t = u := by
        intro t hjt
        exact (unique_events ⟨fun s t id => C40_one_signal h, (reached_rel h).bounded⟩ es1).1 t u j hjt hu
      have hgone : ¬ ((a.events es1).clear u).Connected j := by
        rintro ⟨t, hjt⟩
        by_cases e : t = u
        · subst e; simp [Abs.slots, Abs.clear] at hjt
        · exact e (hone t (by simpa [Abs.slots, Abs.clear, update_ne _ _ e] using hjt))
      have hg := gone_events (a := (a.events es1).clear u) hj hgone v2.2
      refine ⟨hg.1, ?_⟩
      rw [← Bool.not_eq_true, ← h2.rel.connected j, events_append]
      exact hg.2
    · obtain ⟨d1, d2, rfl⟩ := List.append_of_mem hm
      obtain ⟨k1, k2⟩ := C39_not_called_after h h3 hs arg fuel h4 (es1 := es1 ++ .clear u :: d1.map Event.disconnect) (es2 := d2.map Event.disconnect ++ rest) (id := j)
        (by rw [ht, e]; simp) (by
          rw [events_append, show ((a.events es1).events (.clear u :: d1.map Event.disconnect)) = ((a.events es1).clear u).events (d1.map Event.disconnect) from rfl, events_disconnects,
            next_drop]; exact hj)
      refine ⟨fun t cb b hc => ?_, k2⟩
      rw [e] at hc
      simp only [List.map_append, List.map_cons, List.append_assoc, List.cons_append, List.mem_append, List.mem_cons, List.mem_map, reduceCtorEq, and_false, exists_false,
        false_or] at hc
      exact k1 t cb b (by simp [hc])

/-- Otherwise: each signal with two slots has two of them such that, if the callback of the one owns a guard of the other, an emission whose first callback clears the signal is undefined. -/
theorem C135_clear_violated {w : World} {a : Abs} (h : Reached w a) {s : Nat} {l : List Nat} (hs : a.conn s = .live l) (hl : 2 ≤ l.length) (arg : Nat) :
    ∃ p ∈ l, ∃ q ∈ l, p ≠ q ∧ ∀ (owns : Nat → List Nat) (rest : List Nat), owns p = q :: rest →
      ∀ script : ScriptG, (∀ id cb, ∃ xs, script (w.trace ++ [.emit s arg, .call s id cb arg]) = .clear s :: xs) → ∀ fuel, emitG owns script (fuel + 1) s arg w = .error .ub := by
  have hr := reached_rel h
  obtain ⟨ids, it, hg, hp, _⟩ := hr.live hs
  have hlen := hp.length_eq
  have hn := hr.ids_nodup hg
  match ids, hg, hp, hlen, hn with
  | [], _, _, hlen, _ => simp at hlen; omega
  | [_], _, _, hlen, _ => simp at hlen; omega
  | p :: q :: ids, hg, hp, _, hn =>
    have hpq : p ≠ q := by
      intro e
      subst e
      simp at hn
    have hheap := hr.fwd s _ 1 q hg rfl
    have hheap0 := hr.fwd s _ 0 p hg rfl
    refine ⟨p, hp.mem_iff.mp (by simp), q, hp.mem_iff.mp (by simp), hpq, fun owns rest ho script hsc fuel => ?_⟩
    obtain ⟨xs, hxs⟩ := hsc p (a.cb p)
    simp only [emitG, setIter, sig_some hg, ok_bind, pure_ok]
    obtain ⟨w1, hw1⟩ : ∃ w1, w1 = (w.setSig s (some ⟨(p :: q :: ids).map some, a.grown s, some 0⟩)).record (.emit s arg) := ⟨_, rfl⟩
    rw [← hw1]
    have hs1 : w1.sigs s = some ⟨(p :: q :: ids).map some, a.grown s, some 0⟩ := by rw [hw1]; simp [World.record, World.setSig]
    have hh0 : w1.heap p = some ⟨a.cb p, s, 0⟩ := by rw [hw1]; exact hheap0
    have hcur : currentSlot s w1 = .ok (some (p, ⟨a.cb p, s, 0⟩)) := by
      simp only [currentSlot, sig_some hs1, ok_bind, List.map_cons, List.getElem?_cons_zero, hh0]; rfl
    simp only [emitLoopG, hcur, ok_bind]
    obtain ⟨w2, hw2⟩ : ∃ w2, w2 = w1.record (.call s p (a.cb p) arg) := ⟨_, rfl⟩
    rw [← hw2]
    have htr : w2.trace = w.trace ++ [.emit s arg, .call s p (a.cb p) arg] := by rw [hw2, hw1]; simp [World.record, World.setSig]
    have hs2 : w2.sigs s = some ⟨(p :: q :: ids).map some, a.grown s, some 0⟩ := by rw [hw2]; exact hs1
    have hq2 : w2.heap q = some ⟨a.cb q, s, 1⟩ := by rw [hw2, hw1]; exact hheap
    have hsh : w2.shared = [] := by rw [hw2, hw1]; exact hr.leak
    have key : clearT owns (w2.next + 1) s w2 = .error .ub := by
      simp only [clearT, sig_some hs2, ok_bind, List.map_cons, releaseT]
      have hrel : ((w2.setSig s none).record (.clear s)).release (some p) = ((w2.setSig s none).record (.clear s)).setSlot p none := by
        simp [World.release, World.setSig, World.record, hsh]
      have hdead : (((w2.setSig s none).record (.clear s)).setSlot p none).heap p = none := by simp [World.setSlot]
      have hq : (((w2.setSig s none).record (.clear s)).setSlot p none).heap q = some ⟨a.cb q, s, 1⟩ := by
        simp only [World.setSlot, update_ne _ _ (Ne.symm hpq)]; exact hq2
      have hd : disconnectT owns (w2.next + 1) q (((w2.setSig s none).record (.clear s)).setSlot p none) = .error .ub := by
        have hsig : (((w2.setSig s none).record (.clear s)).setSlot p none).sig s = .error .ub := by simp [World.sig, World.setSlot, World.setSig, World.record]
        simp only [disconnectT, hq, disconnectSlot, hsig]
        rfl
      simp only [hrel, hdead, ho, List.foldlM_cons, hd]
      rfl
    rw [htr, hxs]
    simp only [runActionsG, ActionG.run, key]
    rfl

/-- Callbacks that own guards and disconnect any slots: the emission ends; no slot is called twice; a slot that is still connected at the end has been called; only slots connected at the
start are called, with the emitted argument. -/
theorem C135_disconnecting {w : World} {a : Abs} (h : Reached w a) (owns : Nat → List Nat) {script : ScriptG} (hod : script.OnlyDisconnects) {s : Nat} {l : List Nat}
    (hs : a.conn s = .live l) (arg : Nat) {fuel : Nat} (hf : l.length < fuel) :
    ∃ w' es, emitG owns script fuel s arg w = .ok w' ∧ w'.trace = w.trace ++ es ∧ Valid a es ∧ (calls s es).Nodup ∧ (∀ id ∈ calls s es, id ∈ l) ∧
      (∀ id ∈ l, isConnected (some id) w' = true → id ∈ calls s es) ∧ ∀ e ∈ es, ∀ t id cb b, e = .call t id cb b → t = s ∧ cb = a.cb id ∧ b = arg := by
  have hok : script.Ok owns a := by
    intro tr x hx
    obtain ⟨id, e⟩ := hod tr x hx
    rw [e]; trivial
  obtain ⟨script', _, k2, _, k4⟩ := calm_emitG owns (script := script) (fun tr => ⟨[], script tr, rfl, by simp, hod tr⟩) (reached_rel h) hok ⟨l, hs⟩ arg
  rw [k4 fuel]
  exact C39_disconnecting h (k2 hod) hs arg hf

/-- Callbacks that own guards, and connect slots and then disconnect slots: if the emission ends, no slot has been called twice and every slot of this signal that is connected at the end
has been called; in particular every slot connected at the start and never disconnected. -/
theorem C135_connecting_partial {w w' : World} {a : Abs} (h : Reached w a) {owns : Nat → List Nat} {script : ScriptG}
    (hcf : ∀ tr, ∃ xs ys, script tr = xs ++ ys ∧ (∀ x ∈ xs, ∃ s cb, x = .connect s cb) ∧ ∀ y ∈ ys, ∃ id, y = .disconnect id) (hok : script.Ok owns a) {s : Nat} {l : List Nat}
    (hs : a.conn s = .live l) (arg fuel : Nat) (hrun : emitG owns script fuel s arg w = .ok w') :
    ∃ es, w'.trace = w.trace ++ es ∧ Valid a es ∧ Reached w' (a.events es) ∧ (calls s es).Nodup ∧ (∀ id ∈ (a.events es).slots s, id ∈ calls s es) ∧
      (∀ id ∈ l, Event.disconnect id ∉ es → (∀ t, Event.clear t ∉ es) → id ∈ calls s es) ∧ ∀ e ∈ es, ∀ t id cb b, e = .call t id cb b → t = s ∧ b = arg := by
  obtain ⟨script', k1, _, k3, k4⟩ := calm_emitG owns (script := script) hcf (reached_rel h) hok ⟨l, hs⟩ arg
  rw [k4 fuel] at hrun
  exact C42_connecting_partial h k1 k3 hs arg fuel hrun

/-! ## Examples: signal 7 with the slots 0, 1, 2 -/

/-- The callback that is called first disconnects slot 2; the others do nothing. -/
def dropTwo : ScriptG := fun tr => if (tr.filter (fun e => match e with | .call _ _ _ _ => true | _ => false)).length = 1 then [.disconnect 2] else []

theorem dropTwo_only : dropTwo.OnlyDisconnects := by
  intro tr x hx
  simp only [dropTwo] at hx
  split at hx
  · exact ⟨2, List.mem_singleton.mp hx⟩
  · cases hx

/-- The callback of slot 2 owns guards of slots 0 and 1: all slots are gone after the first call. -/
example : (do
    let r ← connect 7 10 (newSignal 7 World.empty)
    let r ← connect 7 11 r.1
    let r ← connect 7 12 r.1
    let w ← emitG (fun i => if i = 2 then [0, 1] else []) dropTwo 5 7 9 r.1
    pure w.trace) = .ok [.emit 7 9, .call 7 0 10 9, .disconnect 2, .disconnect 0, .disconnect 1, .done 7] := by decide +kernel

/-- The callback of slot 2 owns a guard of slot 0, which is being called: slot 1 is still called. -/
example : (do
    let r ← connect 7 10 (newSignal 7 World.empty)
    let r ← connect 7 11 r.1
    let r ← connect 7 12 r.1
    let w ← emitG ring dropTwo 5 7 9 r.1
    pure w.trace) = .ok [.emit 7 9, .call 7 0 10 9, .disconnect 2, .disconnect 0, .disconnect 0, .disconnect 2, .call 7 1 11 9, .done 7] := by decide +kernel

/-- The callback that is called first emits the signal again; the one that is called next disconnects slot 2, and with it slot 0, whose emission is going on. -/
example : (do
    let r ← connect 7 10 (newSignal 7 World.empty)
    let r ← connect 7 11 r.1
    let r ← connect 7 12 r.1
    let w ← emitG ring (fun tr => if tr.length = 2 then [.emit 7 8] else if tr.length = 4 then [.disconnect 2] else []) 9 7 9 r.1
    pure w.trace) = .ok [.emit 7 9, .call 7 0 10 9, .emit 7 8, .call 7 0 10 8, .disconnect 2, .disconnect 0, .disconnect 0, .disconnect 2, .call 7 1 11 8, .done 7, .done 7] := by
  decide +kernel

/-- A slot never goes over to another signal during an emission. -/
theorem stays_out {a : Abs} {t j : Nat} (hj : j < a.next) (h : j ∉ a.slots t) (es : List Event) : j ∉ (a.events es).slots t := by
  induction es generalizing a with
  | nil => exact h
  | cons e es ih =>
    refine ih (a := a.event e) (Nat.lt_of_lt_of_le hj (next_event a e)) ?_
    cases e with
    | connect s i cb =>
      intro hm
      rcases mem_slots_connect hm with hm | ⟨_, e⟩
      · exact h hm
      · omega
    | disconnect i => exact fun hm => h ((mem_slots_drop a [i] t j).mp hm).1
    | clear s => exact fun hm => h (mem_slots_clear hm)
    | emit => exact h
    | call => exact h
    | done => exact h

/-- Signals 7 with the slots 0 and 1, and 8 with slot 2, whose callback owns guards of slots 1 and 2.  The callback of slot 0 clears signal 8: slot 1 is not called. -/
example : (do
    let r ← connect 7 10 (newSignal 8 (newSignal 7 World.empty))
    let r ← connect 7 11 r.1
    let r ← connect 8 12 r.1
    let w ← emitG (fun i => if i = 2 then [1, 2] else []) (fun tr => if tr.length = 2 then [.clear 8] else []) 5 7 9 r.1
    pure (w.trace, isConnected (some 0) w, isConnected (some 1) w, isConnected (some 2) w)) =
      .ok ([.emit 7 9, .call 7 0 10 9, .clear 8, .disconnect 1, .disconnect 2, .done 7], true, false, false) := by decide +kernel

/-- Callbacks that own their own guards clear the signal that is being emitted. -/
example : (do
    let r ← connect 7 10 (newSignal 7 World.empty)
    let r ← connect 7 11 r.1
    let w ← emitG (fun i => [i]) (fun tr => if tr.length = 2 then [.clear 7, .connect 7 13] else []) 5 7 9 r.1
    pure w.trace) = .ok [.emit 7 9, .call 7 0 10 9, .clear 7, .disconnect 0, .disconnect 1, .connect 7 2 13, .done 7] := by decide +kernel

/-- The condition on callbacks that clear signals: a callback owns a guard of a slot of another signal. -/
example {a : Abs} {t u p q : Nat} (hl : a.Live t) (hq : q < a.next) (hqt : q ∉ a.slots t) (hu : a.Live u) :
    ScriptG.Ok (fun i => if i = p then [q] else []) (fun _ => [.clear t, .emit u 3]) a := by
  intro tr x hx
  rcases List.mem_cons.mp hx with e | hx
  · subst e
    refine ⟨hl, fun es _ i hi j hj hf => ?_⟩
    have hq' := stays_out hq hqt es
    have := hf.closed (ids := [i, q]) (fun i' _ _ j' hj' => by
      by_cases e : i' = p
      · simp only [if_pos e, List.mem_singleton] at hj'; simp [hj']
      · simp [e] at hj') (by simp)
    rcases List.mem_cons.mp this with e | e
    · exact e
    · rw [List.mem_singleton.mp e] at hj; exact absurd hj hq'
  · rw [List.mem_singleton.mp hx]; exact hu

/-- The hypotheses are met. -/
example : ∃ w a, Reached w a ∧ ∃ w' es, emitG ring dropTwo 4 7 9 w = .ok w' ∧ w'.trace = w.trace ++ es ∧ (calls 7 es).Nodup ∧ Cascades ring a es := by
  obtain ⟨w, a, h, h1, _⟩ := example_reached
  obtain ⟨w', es, k1, k2, k3, k4, _⟩ := C135_disconnecting h ring dropTwo_only h1 9 (fuel := 4) (by simp)
  rcases C135_safe_partial h ring (script := dropTwo) (fun tr x hx => by obtain ⟨id, e⟩ := dropTwo_only tr x hx; rw [e]; trivial) ⟨_, h1⟩ 9 4 with e | ⟨w1, es1, m1, m2, _, _, _, m6, _⟩
  · rw [k1] at e; cases e
  · rw [k1] at m1; cases m1
    rw [k2, List.append_cancel_left_eq] at m2
    subst m2
    exact ⟨w, a, h, w', es, k1, k2, k4, m6⟩

end Verif.Signal
