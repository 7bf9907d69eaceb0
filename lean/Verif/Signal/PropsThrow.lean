import Verif.Signal.PropsMore

/-! # Signals: callbacks that throw (C96)

The theorems C38 - C43 range over histories that include emissions ended by an exception (`Op.emitX`). -/

namespace Verif.Signal
open Verif.Cpp

/-- Whatever callbacks do, throwing and catching exceptions included, an emission runs forever or ends, with or without an exception; only slots connected at
that moment are called, with their own callback; the world it leaves is reachable, so that all other theorems apply to it, and the connections are those that the events make. -/
theorem C96_safe {w : World} {a : Abs} (h : Reached w a) {script : ScriptX} (hok : script.Ok a) {s : Nat} (hs : a.Live s) (arg fuel : Nat) :
    emitX script fuel s arg w = .error .diverge ∨
    ∃ w' thrown es, emitX script fuel s arg w = .ok (w', thrown) ∧ w'.trace = w.trace ++ es ∧ Valid a es ∧ Reached w' (a.events es) ∧
      ∀ id, isConnected (some id) w' = true ↔ (a.events es).Connected id := by
  rcases emitX_good script fuel arg (reached_rel h) hs hok with e | ⟨w', b, es, h1, h2, h3, h4⟩
  · exact Or.inl e
  · exact Or.inr ⟨w', b, es, h1, h2, h3, Reached.step (.emitX script fuel s arg) es h ⟨hs, hok⟩ (by simp [Op.run, h1]) h2, fun id => (h4.connected id).symm⟩

/-- After an emission that was left by an exception (or not), the next emission calls every slot that is connected then exactly once. -/
theorem C96_next_emission {w w' : World} {a : Abs} (h : Reached w a) {script : ScriptX} (hok : script.Ok a) {s : Nat} (hs : a.Live s) {arg fuel : Nat} {thrown : Bool}
    (hrun : emitX script fuel s arg w = .ok (w', thrown)) (arg' : Nat) :
    ∃ (a' : Abs) (l : List Nat), a'.conn s = .live l ∧ l.Nodup ∧ (∀ id, isConnected (some id) w' = true ↔ a'.Connected id) ∧
      ∀ fuel', l.length < fuel' →
        ∃ w'' cs, emit passive fuel' s arg' w' = .ok w'' ∧ w''.trace = w'.trace ++ ([.emit s arg'] ++ cs ++ [.done s]) ∧
          cs.Perm (l.map (fun id => .call s id (a'.cb id) arg')) := by
  rcases C96_safe h hok hs arg fuel with e | ⟨w1, b, es, h1, _, _, h4, h5⟩
  · rw [e] at hrun; cases hrun
  · rw [h1] at hrun; cases hrun
    obtain ⟨l, hl⟩ := live_events hs es
    obtain ⟨_, _, _, _, _, hn, _⟩ := C38_emit h4 hl arg' (fuel := l.length + 1) (by omega)
    refine ⟨a.events es, l, hl, hn, h5, fun fuel' hf => ?_⟩
    obtain ⟨w'', cs, k1, k2, k3, _, _⟩ := C38_emit h4 hl arg' hf
    exact ⟨w'', cs, k1, k2, k3⟩

/-- The slots chosen by `P` throw when they are called, the others do nothing. -/
def throwIf (P : Nat → Bool) : ScriptX := fun tr =>
  match tr.getLast? with
  | some (.call _ id _ _) => if P id then [.throw] else []
  | _ => []

theorem throwIf_ok (P : Nat → Bool) (a : Abs) : (throwIf P).Ok a := by
  intro tr x hx
  unfold throwIf at hx
  split at hx
  · split at hx
    · rw [List.mem_singleton] at hx; subst hx; trivial
    · simp at hx
  · simp at hx

theorem throwIf_call (P : Nat → Bool) (tr : List Event) (s id cb arg : Nat) :
    throwIf P (tr ++ [.call s id cb arg]) = if P id then [.throw] else [] := by
  simp [throwIf]

/-- The slots of a list up to and including the first one that throws. -/
def upToThrow (P : Nat → Bool) : List Nat → List Nat
  | [] => []
  | id :: ids => if P id then [id] else id :: upToThrow P ids

theorem Head.throwing_loop {s : Nat} (P : Nat → Bool) (arg : Nat) (fuel : Nat) {V : List Nat} {w : World} {a : Abs} {ids : List Nat} {c : Nat} (h : Head s V w a ids c)
    (hf : (ids.drop c).length < fuel) :
    ∃ w' : World, emitLoopX (throwIf P) fuel s arg w = .ok (w', (ids.drop c).any P) ∧
      w'.trace = w.trace ++ (upToThrow P (ids.drop c)).map (fun id => .call s id (a.cb id) arg) ++ (if (ids.drop c).any P then [] else [.done s]) := by
  induction fuel generalizing V w c with
  | zero => omega
  | succ fuel ih =>
    obtain ⟨fb, hg⟩ := h.sig
    by_cases hc : ids.length ≤ c
    · refine ⟨w.record (.done s), ?_, ?_⟩
      · simp only [emitLoopX, currentSlot_ok h.rel hg, ok_bind]
        rw [List.getElem?_eq_none hc, List.drop_of_length_le hc]
        rfl
      · simp [List.drop_of_length_le hc, upToThrow, World.record]
    · obtain ⟨id, hid⟩ : ∃ id, ids[c]? = some id := ⟨_, List.getElem?_eq_getElem (by omega)⟩
      have hcl : c < ids.length := by omega
      have hidc : ids[c] = id := by rw [List.getElem?_eq_getElem hcl] at hid; exact Option.some.inj hid
      have hdrop : ids.drop c = id :: ids.drop (c + 1) := by rw [List.drop_eq_getElem_cons hcl, hidc]
      have hsc : throwIf P (w.record (.call s id (a.cb id) arg)).trace = if P id then [.throw] else [] := throwIf_call P w.trace s id (a.cb id) arg
      cases hp : P id with
      | true =>
        refine ⟨w.record (.call s id (a.cb id) arg), ?_, ?_⟩
        · simp only [emitLoopX, currentSlot_ok h.rel hg, ok_bind, hid, Option.map_some, hsc, hp, runActionsX, pure_ok, if_true]
          rw [hdrop]; simp [hp]
        · rw [hdrop]; simp [upToThrow, hp, World.record]
      | false =>
        obtain ⟨w1, i1, k2, k3⟩ := h.advance arg hid
        rw [hdrop] at hf
        obtain ⟨w', m1, m2⟩ := ih k3 (by simp at hf ⊢; omega)
        refine ⟨w', ?_, ?_⟩
        · simp only [emitLoopX, currentSlot_ok h.rel hg, ok_bind, hid, Option.map_some, hsc, hp, Bool.false_eq_true, if_false, runActionsX, pure_ok, i1, m1]
          rw [hdrop]; simp [hp]
        · rw [m2, k2, hdrop]
          simp [upToThrow, hp]

theorem Rel.headX {w : World} {a : Abs} (h : Rel w a) {s : Nat} (hs : a.Live s) (arg : Nat) :
    ∃ w0 ids, (∀ script fuel, emitX script fuel s arg w = emitLoopX script fuel s arg w0) ∧ w0.trace = w.trace ++ [.emit s arg] ∧ Head s [] w0 a ids 0 ∧
      ids.Perm (a.slots s) := by
  obtain ⟨l, hl⟩ := hs
  obtain ⟨ids, it, hg, hp, _⟩ := h.live hl
  obtain ⟨h1, h2⟩ := h.setIter (fun _ => some 0) hg
  refine ⟨(w.setSig s (some ⟨ids.map some, a.grown s, some 0⟩)).record (.emit s arg), ids, ?_, rfl, ?_, by simpa [Abs.slots, hl] using hp⟩
  · intro script fuel; simp only [emitX, h1, ok_bind]
  · exact ⟨h2.record _, ⟨l, hl⟩, ⟨a.grown s, by simp [World.record, World.setSig]⟩, by simp, by simp, by simp, by simp⟩

/-- If some of the slots of a signal throw, the emission calls the slots in some order, each at most once, up to the first one that throws; the exception leaves
the emission if and only if there is such a slot; all slots stay connected. -/
theorem C96_throw {w : World} {a : Abs} (h : Reached w a) {s : Nat} {l : List Nat} (hs : a.conn s = .live l) (P : Nat → Bool) (arg : Nat) {fuel : Nat}
    (hf : l.length < fuel) :
    ∃ w' ids, ids.Perm l ∧ emitX (throwIf P) fuel s arg w = .ok (w', l.any P) ∧
      w'.trace = w.trace ++ ([.emit s arg] ++ (upToThrow P ids).map (fun id => .call s id (a.cb id) arg) ++ (if l.any P then [] else [.done s])) ∧
      Reached w' a ∧ ∀ id, isConnected (some id) w' = isConnected (some id) w := by
  obtain ⟨w0, ids, h1, h2, h3, h4⟩ := (reached_rel h).headX ⟨l, hs⟩ arg
  have hsl : a.slots s = l := by simp [Abs.slots, hs]
  rw [hsl] at h4
  have hany : ids.any P = l.any P := by
    rw [Bool.eq_iff_iff]
    simp only [List.any_eq_true, h4.mem_iff]
  obtain ⟨w', k1, k2⟩ := h3.throwing_loop P arg fuel (by simpa [h4.length_eq] using hf)
  simp only [List.drop_zero] at k1 k2
  rw [hany] at k1 k2
  have hrun : emitX (throwIf P) fuel s arg w = .ok (w', l.any P) := by rw [← k1]; exact h1 _ _
  have htr : w'.trace = w.trace ++ ([.emit s arg] ++ (upToThrow P ids).map (fun id => .call s id (a.cb id) arg) ++ (if l.any P then [] else [.done s])) := by
    rw [k2, h2]; simp
  have hcalls : ∀ xs : List Nat, a.events (xs.map (fun id => .call s id (a.cb id) arg)) = a := by
    intro xs
    induction xs with
    | nil => rfl
    | cons x xs ih => exact ih
  have hev : a.events ([.emit s arg] ++ (upToThrow P ids).map (fun id => .call s id (a.cb id) arg) ++ (if l.any P then [] else [.done s])) = a := by
    rw [events_append, events_append]
    show ((a.events ((upToThrow P ids).map _))).events _ = a
    rw [hcalls]
    split <;> rfl
  have hr : Reached w' a := by
    have := Reached.step (.emitX (throwIf P) fuel s arg) _ h ⟨⟨l, hs⟩, throwIf_ok P a⟩ (by simp [Op.run, hrun]) htr
    simpa only [Op.spec, hev] using this
  refine ⟨w', ids, h4, hrun, htr, hr, fun id => ?_⟩
  rw [Bool.eq_iff_iff]
  exact ((reached_rel hr).connected id).symm.trans ((reached_rel h).connected id)

/-- The throwing model and the one without exceptions agree when nothing is thrown. -/
theorem runActionsX_map_act {em : Nat → Nat → World → M World} {emX : Nat → Nat → World → M (World × Bool)}
    (hem : ∀ s arg w, emX s arg w = (em s arg w >>= fun w' => pure (w', false))) (acts : List Action) (w : World) :
    runActionsX emX (acts.map .act) w = (runActions em acts w >>= fun w' => pure (w', false)) := by
  induction acts generalizing w with
  | nil => rfl
  | cons x xs ih =>
    cases x with
    | emit s a =>
      simp only [List.map_cons, runActionsX, runActions, Action.run, hem]
      cases em s a w with
      | error e => rfl
      | ok w' => exact ih w'
    | _ =>
      simp only [List.map_cons, runActionsX, runActions, Action.run, bind_assoc, ih]

/-- The loops agree. -/
theorem emitLoopX_map_act (script : Script) (fuel s arg : Nat) (w : World) :
    emitLoopX (fun tr => (script tr).map .act) fuel s arg w = (emitLoop script fuel s arg w >>= fun w' => pure (w', false)) := by
  induction fuel generalizing s arg w with
  | zero => rfl
  | succ fuel ih =>
    simp only [emitLoopX, emitLoop]
    cases currentSlot s w with
    | error e => rfl
    | ok c =>
      cases c with
      | none => rfl
      | some c =>
        obtain ⟨id, slot⟩ := c
        simp only [ok_bind]
        rw [runActionsX_map_act (em := fun s a w => do
          let w ← setIter s (fun _ => some 0) w
          emitLoop script fuel s a (w.record (.emit s a))) (fun s a w => by simp only [ih, bind_assoc])]
        simp only [bind_assoc, pure_ok, ok_bind, Bool.false_eq_true, if_false, ih]

/-- A script whose callbacks throw nothing runs as it does without exceptions. -/
theorem C96_no_throw (script : Script) (fuel s arg : Nat) (w : World) :
    emitX (fun tr => (script tr).map .act) fuel s arg w = (emit script fuel s arg w >>= fun w' => pure (w', false)) := by
  simp only [emitX, emit, emitLoopX_map_act, bind_assoc]

/-! Examples -/

/-- The hypotheses of `C96_throw` are met: three slots, one of which throws. -/
example : ∃ w a, Reached w a ∧ ∃ w' ids, ids.Perm [0, 1, 2] ∧ emitX (throwIf (· == 1)) 4 7 5 w = .ok (w', true) ∧
    w'.trace = w.trace ++ ([.emit 7 5] ++ (upToThrow (· == 1) ids).map (fun id => .call 7 id (a.cb id) 5) ++ []) ∧ isConnected (some 1) w' = isConnected (some 1) w := by
  obtain ⟨w, a, h, h1, _⟩ := example_reached
  obtain ⟨w', ids, k1, k2, k3, _, k4⟩ := C96_throw h h1 (· == 1) 5 (fuel := 4) (by decide)
  exact ⟨w, a, h, w', ids, k1, k2, k3, k4 1⟩

/-- The callback of slot 0 emits the signal again and catches what the callback of slot 1 throws after having disconnected itself. -/
def exampleCatch : ScriptX := fun tr =>
  match tr.getLast? with
  | some (.call _ _ 10 5) => [.tryEmit 7 6]
  | some (.call _ _ 11 6) => [.act (.disconnect 1), .throw]
  | _ => []

/-- The hypotheses of `C96_safe` and of `C96_next_emission` are met by it. -/
example : ∃ w a, Reached w a ∧ exampleCatch.Ok a ∧ a.Live 7 := by
  obtain ⟨w, a, h, h1, _⟩ := example_reached
  refine ⟨w, a, h, ?_, ⟨_, h1⟩⟩
  intro tr x hx
  unfold exampleCatch at hx
  split at hx
  · rw [List.mem_singleton] at hx; subst hx; exact ⟨_, h1⟩
  · simp only [List.mem_cons, List.not_mem_nil, or_false] at hx
    rcases hx with rfl | rfl <;> trivial
  · simp at hx

/-- And the run ends. -/
example : (do
    let w ← Op.run (.create 7) World.empty
    let w ← Op.run (.connect 7 10) w
    let w ← Op.run (.connect 7 11) w
    let w ← Op.run (.connect 7 12) w
    let r ← emitX exampleCatch 9 7 5 w
    pure (r.2, r.1.trace) : M (Bool × List Event)) =
    .ok (false, [.emit 7 5, .call 7 0 10 5, .emit 7 6, .call 7 0 10 6, .call 7 1 11 6, .disconnect 1, .call 7 2 12 5, .done 7]) := rfl

end Verif.Signal
