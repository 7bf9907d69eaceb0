import Verif.Signal.LemmasDisc

/-! # Signals: emission -/

namespace Verif.Signal
open Verif.Cpp

theorem live_event {a : Abs} {s : Nat} (h : a.Live s) (e : Event) : (a.event e).Live s := by
  obtain ⟨l, hl⟩ := h
  cases e with
  | connect t id cb =>
    by_cases ht : s = t
    · subst ht; exact ⟨_, by simp [Abs.event, Abs.connect]; rfl⟩
    · exact ⟨l, by simp [Abs.event, Abs.connect, update_ne _ _ ht, hl]⟩
  | disconnect id => exact ⟨_, by simp [Abs.event, Abs.disconnect, hl, Status.map]; rfl⟩
  | clear t =>
    by_cases ht : s = t
    · subst ht; exact ⟨_, by simp [Abs.event, Abs.clear]; rfl⟩
    · exact ⟨l, by simp [Abs.event, Abs.clear, update_ne _ _ ht, hl]⟩
  | emit => exact ⟨l, hl⟩
  | call => exact ⟨l, hl⟩
  | done => exact ⟨l, hl⟩

theorem live_events {a : Abs} {s : Nat} (h : a.Live s) (es : List Event) : (a.events es).Live s := by
  induction es generalizing a with
  | nil => exact h
  | cons e es ih => exact ih (live_event h e)

theorem events_append (a : Abs) (es es' : List Event) : a.events (es ++ es') = (a.events es).events es' := by simp [Abs.events]

theorem valid_append {a : Abs} {es es' : List Event} : Valid a (es ++ es') ↔ Valid a es ∧ Valid (a.events es) es' := by
  induction es generalizing a with
  | nil => simp [Valid, Abs.events]
  | cons e es ih =>
    simp only [List.cons_append, Valid, ih, and_assoc]
    rfl

theorem Action.ok_events {a : Abs} {x : Action} (h : x.ok a) (es : List Event) : x.ok (a.events es) := by
  cases x with
  | connect s cb => exact live_events h es
  | disconnect id => trivial
  | clear s => exact live_events h es
  | emit s arg => exact live_events h es

theorem Script.ok_events {a : Abs} {script : Script} (h : script.Ok a) (es : List Event) : script.Ok (a.events es) :=
  fun tr x hx => Action.ok_events (h tr x hx) es

/-- Divergence, or an ordinary end with events that make sense. -/
def Good (w : World) (a : Abs) (r : M World) : Prop :=
  r = .error .diverge ∨ ∃ w' es, r = .ok w' ∧ w'.trace = w.trace ++ es ∧ Valid a es ∧ Rel w' (a.events es)

theorem Good.bind {w : World} {a : Abs} {r : M World} {f : World → M World} (h : Good w a r)
    (hf : ∀ w' es, w'.trace = w.trace ++ es → Valid a es → Rel w' (a.events es) → Good w' (a.events es) (f w')) : Good w a (r >>= f) := by
  rcases h with rfl | ⟨w', es, rfl, h1, h2, h3⟩
  · left; rfl
  · rcases hf w' es h1 h2 h3 with h | ⟨w'', es', h4, h5, h6, h7⟩
    · left; exact h
    · right
      refine ⟨w'', es ++ es', h4, ?_, ?_, ?_⟩
      · rw [h5, h1, List.append_assoc]
      · exact valid_append.mpr ⟨h2, h6⟩
      · rw [events_append]; exact h7

theorem Good.event {w : World} {a : Abs} {r : M World} (e : Event) (he : Valid a [e]) (h : Good (w.record e) (a.event e) r) : Good w a r := by
  rcases h with rfl | ⟨w', es, rfl, h1, h2, h3⟩
  · left; rfl
  · right
    refine ⟨w', e :: es, rfl, ?_, ?_, h3⟩
    · rw [h1]; simp [World.record]
    · exact ⟨he.1, h2⟩

theorem currentSlot_ok {w : World} {a : Abs} (h : Rel w a) {s : Nat} {ids : List Nat} {fb : Bool} {it : Option Nat} (hg : w.sigs s = some ⟨ids.map some, fb, it⟩) :
    currentSlot s w = .ok (match it with
      | none => none
      | some i => (ids[i]?).map (fun id => (id, ⟨a.cb id, s, i⟩))) := by
  simp only [currentSlot, sig_some hg, ok_bind]
  cases it with
  | none => rfl
  | some i =>
    simp only [List.getElem?_map]
    cases hi : ids[i]? with
    | none => rfl
    | some id =>
      have := h.fwd s _ i id hg (getElem?_map_some.mpr hi)
      simp [this]

/-- Actions of callbacks behave if emissions do. -/
theorem Action.good {em : Nat → Nat → World → M World} (hem : ∀ s arg w a, Rel w a → a.Live s → Good w a (em s arg w)) {x : Action} {w : World} {a : Abs}
    (h : Rel w a) (hx : x.ok a) : Good w a (x.run em w) := by
  cases x with
  | connect s cb =>
    obtain ⟨w', h1, h2, h3, _⟩ := h.connect hx cb
    right
    refine ⟨w'.record (.connect s a.next cb), [.connect s a.next cb], by simp [Action.run, h1], by simp [World.record, h3], ⟨⟨hx, rfl⟩, trivial⟩, h2.record _⟩
  | disconnect id =>
    obtain ⟨w', h1, h2, h3, _⟩ := h.disconnect id
    right
    refine ⟨w'.record (.disconnect id), [.disconnect id], by simp [Action.run, h1], by simp [World.record, h3], ⟨trivial, trivial⟩, h2.record _⟩
  | clear s =>
    obtain ⟨l, hl⟩ := hx
    obtain ⟨w', h1, h2, h3, _⟩ := h.clear (s := s) (by rw [hl]; simp)
    right
    refine ⟨w'.record (.clear s), [.clear s], by simp [Action.run, h1], by simp [World.record, h3], ⟨trivial, trivial⟩, h2.record _⟩
  | emit s arg => exact hem s arg w a h hx

theorem runActions_good {em : Nat → Nat → World → M World} {P : Abs → Prop} (hP : ∀ a es, P a → P (a.events es))
    (hem : ∀ s arg w a, Rel w a → P a → a.Live s → Good w a (em s arg w)) (xs : List Action) {w : World} {a : Abs} (h : Rel w a) (hPa : P a) (hx : ∀ x ∈ xs, x.ok a) :
    Good w a (runActions em xs w) := by
  induction xs generalizing w a with
  | nil => exact Or.inr ⟨w, [], rfl, by simp, trivial, h⟩
  | cons x xs ih =>
    simp only [runActions]
    have hgood : Good w a (x.run em w) := by
      cases x with
      | emit s arg => exact hem s arg w a h hPa (hx (.emit s arg) (by simp))
      | connect s cb =>
        have := Action.good (em := fun _ _ _ => .error .diverge) (x := .connect s cb) (fun _ _ _ _ _ _ => Or.inl rfl) h (hx (.connect s cb) (by simp))
        exact this
      | disconnect id =>
        have := Action.good (em := fun _ _ _ => .error .diverge) (x := .disconnect id) (fun _ _ _ _ _ _ => Or.inl rfl) h (hx (.disconnect id) (by simp))
        exact this
      | clear s =>
        have := Action.good (em := fun _ _ _ => .error .diverge) (x := .clear s) (fun _ _ _ _ _ _ => Or.inl rfl) h (hx (.clear s) (by simp))
        exact this
    refine hgood.bind ?_
    intro w' es _ _ h'
    exact ih h' (hP a es hPa) (fun y hy => Action.ok_events (hx y (by simp [hy])) es)

theorem setIter_good {w : World} {a : Abs} (h : Rel w a) {s : Nat} (hs : a.Live s) (f : Option Nat → Option Nat) : Good w a (setIter s f w) := by
  obtain ⟨l, hl⟩ := hs
  obtain ⟨ids, it, hg, _⟩ := h.live hl
  obtain ⟨h1, h2⟩ := h.setIter f hg
  exact Or.inr ⟨_, [], h1, by simp [World.setSig], trivial, h2⟩

theorem emitLoop_good (script : Script) (fuel : Nat) {s : Nat} (arg : Nat) {w : World} {a : Abs} (h : Rel w a) (hs : a.Live s) (hok : script.Ok a) :
    Good w a (emitLoop script fuel s arg w) := by
  induction fuel generalizing s arg w a with
  | zero => exact Or.inl rfl
  | succ fuel ih =>
    obtain ⟨l, hl⟩ := hs
    obtain ⟨ids, it, hg, hp, _⟩ := h.live hl
    simp only [emitLoop, currentSlot_ok h hg, ok_bind]
    have hdone : Good w a (pure (w.record (.done s))) :=
      Or.inr ⟨_, [.done s], rfl, by simp [World.record], ⟨trivial, trivial⟩, h.record _⟩
    cases it with
    | none => exact hdone
    | some i =>
      cases hi : ids[i]? with
      | none => simp only [hi, Option.map_none]; exact hdone
      | some id =>
        simp only [hi, Option.map_some]
        have hmem : id ∈ l := hp.mem_iff.mp (List.mem_of_getElem? hi)
        refine Good.event (.call s id (a.cb id) arg) ⟨⟨by simpa [Abs.slots, hl] using hmem, rfl⟩, trivial⟩ ?_
        refine (runActions_good (P := fun a => script.Ok a) (fun a es ha => Script.ok_events ha es) ?_ _ (h.record _) hok (hok _)).bind ?_
        · intro s' arg' w' a' h' hok' hs'
          refine (setIter_good h' hs' _).bind ?_
          intro w'' es' _ _ h''
          exact Good.event (.emit s' arg') ⟨trivial, trivial⟩ (ih arg' (h''.record _) (live_event (live_events hs' es') _) (Script.ok_events hok' es'))
        · intro w' es _ _ h'
          have hs' : (a.events es).Live s := live_events ⟨l, hl⟩ es
          refine (setIter_good h' hs' _).bind ?_
          intro w'' es' _ _ h''
          exact ih arg h'' (live_events hs' es') (Script.ok_events (Script.ok_events hok es) es')

theorem emit_good (script : Script) (fuel : Nat) {s : Nat} (arg : Nat) {w : World} {a : Abs} (h : Rel w a) (hs : a.Live s) (hok : script.Ok a) :
    Good w a (emit script fuel s arg w) := by
  simp only [emit]
  refine (setIter_good h hs _).bind ?_
  intro w' es _ _ h'
  exact Good.event (.emit s arg) ⟨trivial, trivial⟩ (emitLoop_good script fuel arg (h'.record _) (live_event (live_events hs es) _) (Script.ok_events hok es))

/-! ## Callbacks that throw -/

theorem ActionX.ok_events {a : Abs} {x : ActionX} (h : x.ok a) (es : List Event) : x.ok (a.events es) := by
  cases x with
  | act x => exact Action.ok_events (x := x) h es
  | tryEmit s arg => exact live_events h es
  | throw => trivial

theorem ScriptX.ok_events {a : Abs} {script : ScriptX} (h : script.Ok a) (es : List Event) : script.Ok (a.events es) :=
  fun tr x hx => ActionX.ok_events (h tr x hx) es

/-- Divergence, or an end, by an exception or not, with events that make sense. -/
def GoodX (w : World) (a : Abs) (r : M (World × Bool)) : Prop :=
  r = .error .diverge ∨ ∃ w' b es, r = .ok (w', b) ∧ w'.trace = w.trace ++ es ∧ Valid a es ∧ Rel w' (a.events es)

theorem Good.bindX {w : World} {a : Abs} {r : M World} {f : World → M (World × Bool)} (h : Good w a r)
    (hf : ∀ w' es, w'.trace = w.trace ++ es → Valid a es → Rel w' (a.events es) → GoodX w' (a.events es) (f w')) : GoodX w a (r >>= f) := by
  rcases h with rfl | ⟨w', es, rfl, h1, h2, h3⟩
  · left; rfl
  · rcases hf w' es h1 h2 h3 with h | ⟨w'', b, es', h4, h5, h6, h7⟩
    · left; exact h
    · right
      refine ⟨w'', b, es ++ es', h4, ?_, ?_, ?_⟩
      · rw [h5, h1, List.append_assoc]
      · exact valid_append.mpr ⟨h2, h6⟩
      · rw [events_append]; exact h7

theorem GoodX.bind {w : World} {a : Abs} {r : M (World × Bool)} {f : World × Bool → M (World × Bool)} (h : GoodX w a r)
    (hf : ∀ w' b es, w'.trace = w.trace ++ es → Valid a es → Rel w' (a.events es) → GoodX w' (a.events es) (f (w', b))) : GoodX w a (r >>= f) := by
  rcases h with rfl | ⟨w', b, es, rfl, h1, h2, h3⟩
  · left; rfl
  · rcases hf w' b es h1 h2 h3 with h | ⟨w'', b', es', h4, h5, h6, h7⟩
    · left; exact h
    · right
      refine ⟨w'', b', es ++ es', h4, ?_, ?_, ?_⟩
      · rw [h5, h1, List.append_assoc]
      · exact valid_append.mpr ⟨h2, h6⟩
      · rw [events_append]; exact h7

theorem GoodX.event {w : World} {a : Abs} {r : M (World × Bool)} (e : Event) (he : Valid a [e]) (h : GoodX (w.record e) (a.event e) r) : GoodX w a r := by
  rcases h with rfl | ⟨w', b, es, rfl, h1, h2, h3⟩
  · left; rfl
  · right
    refine ⟨w', b, e :: es, rfl, ?_, ?_, h3⟩
    · rw [h1]; simp [World.record]
    · exact ⟨he.1, h2⟩

theorem GoodX.here {w : World} {a : Abs} (h : Rel w a) (b : Bool) : GoodX w a (pure (w, b)) :=
  Or.inr ⟨w, b, [], rfl, by simp, trivial, h⟩

theorem runActionsX_good {em : Nat → Nat → World → M (World × Bool)} {P : Abs → Prop} (hP : ∀ a es, P a → P (a.events es))
    (hem : ∀ s arg w a, Rel w a → P a → a.Live s → GoodX w a (em s arg w)) (xs : List ActionX) {w : World} {a : Abs} (h : Rel w a) (hPa : P a)
    (hx : ∀ x ∈ xs, x.ok a) : GoodX w a (runActionsX em xs w) := by
  induction xs generalizing w a with
  | nil => exact .here h false
  | cons x xs ih =>
    have hrest : ∀ w' es, Rel w' (a.events es) → GoodX w' (a.events es) (runActionsX em xs w') :=
      fun w' es h' => ih h' (hP a es hPa) (fun y hy => ActionX.ok_events (hx y (by simp [hy])) es)
    have hx0 := hx x (by simp)
    cases x with
    | throw => exact .here h true
    | tryEmit s arg =>
      simp only [runActionsX]
      exact (hem s arg w a h hPa hx0).bind (fun w' b es _ _ h' => hrest w' es h')
    | act x =>
      cases x with
      | emit s arg =>
        simp only [runActionsX]
        refine (hem s arg w a h hPa hx0).bind (fun w' b es _ _ h' => ?_)
        cases b with
        | true => exact .here h' true
        | false => exact hrest w' es h'
      | connect s cb =>
        have := Action.good (em := fun _ _ _ => .error .diverge) (x := .connect s cb) (fun _ _ _ _ _ _ => Or.inl rfl) h hx0
        exact this.bindX (fun w' es _ _ h' => hrest w' es h')
      | disconnect id =>
        have := Action.good (em := fun _ _ _ => .error .diverge) (x := .disconnect id) (fun _ _ _ _ _ _ => Or.inl rfl) h hx0
        exact this.bindX (fun w' es _ _ h' => hrest w' es h')
      | clear s =>
        have := Action.good (em := fun _ _ _ => .error .diverge) (x := .clear s) (fun _ _ _ _ _ _ => Or.inl rfl) h hx0
        exact this.bindX (fun w' es _ _ h' => hrest w' es h')

theorem emitLoopX_good (script : ScriptX) (fuel : Nat) {s : Nat} (arg : Nat) {w : World} {a : Abs} (h : Rel w a) (hs : a.Live s) (hok : script.Ok a) :
    GoodX w a (emitLoopX script fuel s arg w) := by
  induction fuel generalizing s arg w a with
  | zero => exact Or.inl rfl
  | succ fuel ih =>
    obtain ⟨l, hl⟩ := hs
    obtain ⟨ids, it, hg, hp, _⟩ := h.live hl
    simp only [emitLoopX, currentSlot_ok h hg, ok_bind]
    have hdone : GoodX w a (pure (w.record (.done s), false)) :=
      Or.inr ⟨_, false, [.done s], rfl, by simp [World.record], ⟨trivial, trivial⟩, h.record _⟩
    cases it with
    | none => exact hdone
    | some i =>
      cases hi : ids[i]? with
      | none => simp only [hi, Option.map_none]; exact hdone
      | some id =>
        simp only [hi, Option.map_some]
        have hmem : id ∈ l := hp.mem_iff.mp (List.mem_of_getElem? hi)
        refine GoodX.event (.call s id (a.cb id) arg) ⟨⟨by simpa [Abs.slots, hl] using hmem, rfl⟩, trivial⟩ ?_
        refine (runActionsX_good (P := fun a => script.Ok a) (fun a es ha => ScriptX.ok_events ha es) ?_ _ (h.record _) hok (hok _)).bind ?_
        · intro s' arg' w' a' h' hok' hs'
          refine (setIter_good h' hs' _).bindX ?_
          intro w'' es' _ _ h''
          exact GoodX.event (.emit s' arg') ⟨trivial, trivial⟩ (ih arg' (h''.record _) (live_event (live_events hs' es') _) (ScriptX.ok_events hok' es'))
        · intro w' b es _ _ h'
          cases b with
          | true => exact .here h' true
          | false =>
            have hs' : (a.events es).Live s := live_events ⟨l, hl⟩ es
            refine (setIter_good h' hs' _).bindX ?_
            intro w'' es' _ _ h''
            exact ih arg h'' (live_events hs' es') (ScriptX.ok_events (ScriptX.ok_events hok es) es')

theorem emitX_good (script : ScriptX) (fuel : Nat) {s : Nat} (arg : Nat) {w : World} {a : Abs} (h : Rel w a) (hs : a.Live s) (hok : script.Ok a) :
    GoodX w a (emitX script fuel s arg w) := by
  simp only [emitX]
  refine (setIter_good h hs _).bindX ?_
  intro w' es _ _ h'
  exact GoodX.event (.emit s arg) ⟨trivial, trivial⟩ (emitLoopX_good script fuel arg (h'.record _) (live_event (live_events hs es) _) (ScriptX.ok_events hok es))

/-- Every reachable world is related to its meaning. -/
theorem reached_rel {w : World} {a : Abs} (h : Reached w a) : Rel w a := by
  induction h with
  | empty => exact rel_empty
  | @step w a w' o es hw hok hrun hes ih =>
    cases o with
    | create s =>
      simp only [Op.run, pure_ok, Except.ok.injEq] at hrun
      subst hrun
      exact ih.newSignal hok
    | destroy s =>
      obtain ⟨w1, h1, h2, _⟩ := ih.destroy hok
      simp only [Op.run, h1, Except.ok.injEq] at hrun
      subst hrun; exact h2
    | connect s cb =>
      obtain ⟨w1, h1, h2, _⟩ := ih.connect hok cb
      simp only [Op.run, h1, ok_bind, pure_ok, Except.ok.injEq] at hrun
      subst hrun; exact h2
    | disconnect id =>
      obtain ⟨w1, h1, h2, _⟩ := ih.disconnect id
      simp only [Op.run, h1, Except.ok.injEq] at hrun
      subst hrun; exact h2
    | clear s =>
      obtain ⟨w1, h1, h2, _⟩ := ih.clear hok
      simp only [Op.run, h1, Except.ok.injEq] at hrun
      subst hrun; exact h2
    | emit script fuel s arg =>
      rcases emit_good script fuel arg ih hok.1 hok.2 with e | ⟨w1, es1, h1, h2, _, h3⟩
      · simp only [Op.run, e] at hrun; cases hrun
      · simp only [Op.run, h1, Except.ok.injEq] at hrun
        subst hrun
        rw [h2, List.append_cancel_left_eq] at hes
        subst hes
        exact h3
    | emitX script fuel s arg =>
      rcases emitX_good script fuel arg ih hok.1 hok.2 with e | ⟨w1, b, es1, h1, h2, _, h3⟩
      · simp only [Op.run, e] at hrun; cases hrun
      · simp only [Op.run, h1, ok_bind, pure_ok, Except.ok.injEq] at hrun
        subst hrun
        rw [h2, List.append_cancel_left_eq] at hes
        subst hes
        exact h3
    | moveConstruct s t =>
      obtain ⟨w1, h1, h2, _⟩ := ih.moveConstruct hok.1 hok.2
      simp only [Op.run, h1, Except.ok.injEq] at hrun
      subst hrun; exact h2
    | moveAssign s t =>
      obtain ⟨w1, h1, h2, _⟩ := ih.moveAssign hok.1 hok.2.1 hok.2.2.1 hok.2.2.2.1 hok.2.2.2.2
      simp only [Op.run, h1, Except.ok.injEq] at hrun
      subst hrun; exact h2

end Verif.Signal
