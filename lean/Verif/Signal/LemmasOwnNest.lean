import Verif.Signal.LemmasOwnClear
import Mathlib.Tactic.ByContra

/-! # Signals: emissions whose callbacks own guards and emit signals -/

namespace Verif.Signal
open Verif.Cpp

theorem Cascades.append {owns : Nat → List Nat} {a : Abs} {es es' : List Event} (h : Cascades owns a es) (h' : Cascades owns (a.events es) es') : Cascades owns a (es ++ es') := by
  intro l1 x l2 e i hc j hj
  rcases List.append_eq_append_iff.mp e with ⟨m, e1, e2⟩ | ⟨m, e1, e2⟩
  · subst e1
    rw [events_append] at hc
    exact h' m x l2 e2 i hc j hj
  · cases m with
    | nil =>
      simp only [List.append_nil, List.nil_append] at e1 e2
      subst e1
      exact h' [] x l2 e2.symm i hc j hj
    | cons y m =>
      simp only [List.cons_append, List.cons.injEq] at e2
      obtain ⟨rfl, rfl⟩ := e2
      obtain ⟨ds, rest, k1, k2⟩ := h l1 x m e1 i hc j hj
      exact ⟨ds, rest ++ es', by rw [k1, List.append_assoc], k2⟩

theorem Cascades.other {owns : Nat → List Nat} {a : Abs} {e : Event} (he : ∀ i, ¬ e.ends a i) : Cascades owns a [e] := by
  intro l1 x l2 h i hi
  cases l1 with
  | nil =>
    simp only [List.nil_append, List.cons.injEq] at h
    obtain ⟨rfl, _⟩ := h
    exact absurd hi (he i)
  | cons y l1 => simp at h

theorem ClosedL.cascades {owns : Nat → List Nat} {a : Abs} {ids : List Nat} (h : ClosedL owns a ids) : Cascades owns a (ids.map Event.disconnect) := by
  intro l1 x l2 e i hc j hj
  obtain ⟨l, r, e1, e2, e3⟩ := List.map_eq_append_iff.mp e
  obtain ⟨y, r', e4, e5, e6⟩ := List.map_eq_cons_iff.mp e3
  subst e1 e4 e5
  obtain ⟨rfl, hc⟩ := hc
  rw [← e2, events_disconnects] at hc
  exact ⟨r', [], by rw [List.append_nil, e6], h l i r' rfl hc j hj⟩

/-- The events of `Clear`. -/
theorem Cascades.clear {owns : Nat → List Nat} {a : Abs} {s : Nat} {ids : List Nat} (h1 : ∀ i ∈ a.slots s, ∀ j ∈ owns i, j ∈ ids) (h2 : ClosedL owns (a.clear s) ids) :
    Cascades owns a (.clear s :: ids.map Event.disconnect) := by
  intro l1 x l2 e i hc j hj
  cases l1 with
  | nil =>
    simp only [List.nil_append, List.cons.injEq] at e
    obtain ⟨rfl, rfl⟩ := e
    exact ⟨ids, [], by simp, h1 i hc j hj⟩
  | cons y l1 =>
    simp only [List.cons_append, List.cons.injEq] at e
    obtain ⟨rfl, e⟩ := e
    exact h2.cascades l1 x l2 e i hc j hj

/-- As `Asked`, if a callback is doing `xs`. -/
def AskedX (owns : Nat → List Nat) (script : ScriptG) (xs : List ActionG) (a : Abs) (tr es : List Event) : Prop :=
  (∀ j, Event.disconnect j ∈ es → ActionG.disconnect j ∈ xs ∨ (∃ es1, es1 <+: es ∧ ActionG.disconnect j ∈ script (tr ++ es1)) ∨ (∃ id, Event.disconnect id ∈ es ∧ j ∈ owns id) ∨
    ∃ es1 s es2 i, es = es1 ++ .clear s :: es2 ∧ i ∈ (a.events es1).slots s ∧ j ∈ owns i) ∧
  ∀ s, Event.clear s ∈ es → ActionG.clear s ∈ xs ∨ ∃ es1, es1 <+: es ∧ ActionG.clear s ∈ script (tr ++ es1)

theorem AskedX.append {owns : Nat → List Nat} {script : ScriptG} {xs ys : List ActionG} {a : Abs} {tr es es' : List Event} (h : AskedX owns script xs a tr es)
    (h' : AskedX owns script ys (a.events es) (tr ++ es) es') : AskedX owns script (xs ++ ys) a tr (es ++ es') := by
  refine ⟨fun j hj => ?_, fun s hs => ?_⟩
  · rcases List.mem_append.mp hj with hj | hj
    · rcases h.1 j hj with k | ⟨es1, k1, k2⟩ | ⟨id, k1, k2⟩ | ⟨es1, s, es2, i, k1, k2, k3⟩
      · exact Or.inl (List.mem_append_left _ k)
      · exact Or.inr (Or.inl ⟨es1, k1.trans (List.prefix_append _ _), k2⟩)
      · exact Or.inr (Or.inr (Or.inl ⟨id, List.mem_append_left _ k1, k2⟩))
      · exact Or.inr (Or.inr (Or.inr ⟨es1, s, es2 ++ es', i, by rw [k1]; simp, k2, k3⟩))
    · rcases h'.1 j hj with k | ⟨es1, k1, k2⟩ | ⟨id, k1, k2⟩ | ⟨es1, s, es2, i, k1, k2, k3⟩
      · exact Or.inl (List.mem_append_right _ k)
      · exact Or.inr (Or.inl ⟨es ++ es1, (List.prefix_append_right_inj _).mpr k1, by rw [← List.append_assoc]; exact k2⟩)
      · exact Or.inr (Or.inr (Or.inl ⟨id, List.mem_append_right _ k1, k2⟩))
      · exact Or.inr (Or.inr (Or.inr ⟨es ++ es1, s, es2, i, by rw [k1]; simp, by rw [events_append]; exact k2, k3⟩))
  · rcases List.mem_append.mp hs with hs | hs
    · rcases h.2 s hs with k | ⟨es1, k1, k2⟩
      · exact Or.inl (List.mem_append_left _ k)
      · exact Or.inr ⟨es1, k1.trans (List.prefix_append _ _), k2⟩
    · rcases h'.2 s hs with k | ⟨es1, k1, k2⟩
      · exact Or.inl (List.mem_append_right _ k)
      · exact Or.inr ⟨es ++ es1, (List.prefix_append_right_inj _).mpr k1, by rw [← List.append_assoc]; exact k2⟩

theorem AskedX.other {owns : Nat → List Nat} {script : ScriptG} {xs : List ActionG} {a : Abs} {tr : List Event} {e : Event} (he : ∀ id, e ≠ .disconnect id) (hc : ∀ s, e ≠ .clear s) :
    AskedX owns script xs a tr [e] :=
  ⟨fun j hj => absurd (List.mem_singleton.mp hj).symm (he j), fun s hs => absurd (List.mem_singleton.mp hs).symm (hc s)⟩

/-- The actions that the events show, down to the end of the callback; `n` emissions are going on within it. -/
def level : Nat → List Event → List Action
  | _, [] => []
  | 0, .connect s _ cb :: es => .connect s cb :: level 0 es
  | 0, .disconnect id :: es => .disconnect id :: level 0 es
  | 0, .clear s :: es => .clear s :: level 0 es
  | 0, .emit s arg :: es => .emit s arg :: level 1 es
  | 0, .call _ _ _ _ :: _ => []
  | 0, .done _ :: _ => []
  | n + 1, .emit _ _ :: es => level (n + 2) es
  | n + 1, .done _ :: es => level n es
  | n + 1, .connect _ _ _ :: es => level (n + 1) es
  | n + 1, .disconnect _ :: es => level (n + 1) es
  | n + 1, .clear _ :: es => level (n + 1) es
  | n + 1, .call _ _ _ _ :: es => level (n + 1) es

/-- Callbacks that do what the events show, those after the first `m`. -/
def replay (m : Nat) (T : List Event) : Script := fun tr =>
  match tr.getLast? with
  | some (.call _ _ _ _) => if m ≤ tr.length ∧ tr <+: T then level 0 (T.drop tr.length) else []
  | _ => []

/-- What happened is in order. -/
structure Ran (owns : Nat → List Nat) (script : ScriptG) (xs : List ActionG) (w : World) (a : Abs) (w' : World) (es : List Event) : Prop where
  trace : w'.trace = w.trace ++ es
  valid : Valid a es
  rel : Rel w' (a.events es)
  cascades : Cascades owns a es
  asked : AskedX owns script xs a w.trace es
  emits : ∀ s x, Event.emit s x ∈ es → a.Live s
  connects : ∀ s i c, Event.connect s i c ∈ es → a.Live s
  clears : ∀ s, Event.clear s ∈ es → a.Live s

/-- Signals do not come back. -/
theorem live_back {a : Abs} {es : List Event} (h1 : ∀ s i c, Event.connect s i c ∈ es → a.Live s) (h2 : ∀ s, Event.clear s ∈ es → a.Live s) {s : Nat} (h : (a.events es).Live s) : a.Live s := by
  by_contra hn
  have key : ∀ (es : List Event) (b : Abs), (∀ t i c, Event.connect t i c ∈ es → t ≠ s) → (∀ t, Event.clear t ∈ es → t ≠ s) → (b.events es).Live s → b.Live s := by
    intro es
    induction es with
    | nil => intro b _ _ hb; exact hb
    | cons e es ih =>
      intro b hb1 hb2 hb
      have := ih (b.event e) (fun t i c hm => hb1 t i c (List.mem_cons_of_mem _ hm)) (fun t hm => hb2 t (List.mem_cons_of_mem _ hm)) hb
      cases e with
      | connect t id cb =>
        have ht : s ≠ t := (hb1 t id cb (List.mem_cons_self ..)).symm
        obtain ⟨l, hl⟩ := this; exact ⟨l, by simpa [Abs.event, Abs.connect, update_ne _ _ ht] using hl⟩
      | disconnect id =>
        obtain ⟨l, hl⟩ := this
        simp only [Abs.event, Abs.disconnect] at hl
        cases hc : b.conn s with
        | absent => rw [hc] at hl; simp [Status.map] at hl
        | hollow => rw [hc] at hl; simp [Status.map] at hl
        | live l' => exact ⟨l', hc⟩
      | clear t =>
        have ht : s ≠ t := (hb2 t (List.mem_cons_self ..)).symm
        obtain ⟨l, hl⟩ := this; exact ⟨l, by simpa [Abs.event, Abs.clear, update_ne _ _ ht] using hl⟩
      | emit => exact this
      | call => exact this
      | done => exact this
  exact hn (key es a (fun t i c hm e => hn (e ▸ h1 t i c hm)) (fun t hm e => hn (e ▸ h2 t hm)) h)

theorem Ran.append {owns : Nat → List Nat} {script : ScriptG} {xs ys : List ActionG} {w w1 w2 : World} {a : Abs} {es es' : List Event} (h : Ran owns script xs w a w1 es)
    (h' : Ran owns script ys w1 (a.events es) w2 es') : Ran owns script (xs ++ ys) w a w2 (es ++ es') := by
  refine ⟨by rw [h'.trace, h.trace, List.append_assoc], valid_append.mpr ⟨h.valid, h'.valid⟩, by rw [events_append]; exact h'.rel, h.cascades.append h'.cascades,
    h.asked.append (by rw [← h.trace]; exact h'.asked), ?_, ?_, ?_⟩
  · intro s x hm
    rcases List.mem_append.mp hm with hm | hm
    · exact h.emits s x hm
    · exact live_back h.connects h.clears (h'.emits s x hm)
  · intro s i c hm
    rcases List.mem_append.mp hm with hm | hm
    · exact h.connects s i c hm
    · exact live_back h.connects h.clears (h'.connects s i c hm)
  · intro s hm
    rcases List.mem_append.mp hm with hm | hm
    · exact h.clears s hm
    · exact live_back h.connects h.clears (h'.clears s hm)

theorem Ran.nil {owns : Nat → List Nat} {script : ScriptG} {xs : List ActionG} {w w' : World} {a : Abs} (ht : w'.trace = w.trace) (h : Rel w' a) : Ran owns script xs w a w' [] :=
  ⟨by simp [ht], trivial, h, fun l1 i l2 e => by simp at e, ⟨fun j hj => by simp at hj, fun s hs => by simp at hs⟩, by simp, by simp, by simp⟩

theorem Ran.one {owns : Nat → List Nat} {script : ScriptG} {xs : List ActionG} {w w' : World} {a : Abs} {e : Event} (ht : w'.trace = w.trace ++ [e]) (hv : Valid a [e])
    (h : Rel w' (a.event e)) (h1 : ∀ id, e ≠ .disconnect id) (h2 : ∀ s x, e = .emit s x → a.Live s) (h3 : ∀ s i c, e = .connect s i c → a.Live s) (h4 : ∀ s, e ≠ .clear s) :
    Ran owns script xs w a w' [e] :=
  ⟨ht, hv, h, .other (fun i hi => by
      cases e with
      | disconnect id => exact h1 id rfl
      | clear s => exact h4 s rfl
      | _ => exact hi), .other h1 h4, fun s x hm => h2 s x (List.mem_singleton.mp hm).symm, fun s i c hm => h3 s i c (List.mem_singleton.mp hm).symm,
    fun s hm => absurd (List.mem_singleton.mp hm).symm (h4 s)⟩

theorem level_disconnects (n : Nat) (ids : List Nat) (rest : List Event) : level (n + 1) (ids.map Event.disconnect ++ rest) = level (n + 1) rest := by
  induction ids with
  | nil => rfl
  | cons i ids ih => simp only [List.map_cons, List.cons_append, level]; exact ih

theorem level_disconnects_zero (ids : List Nat) (rest : List Event) : level 0 (ids.map Event.disconnect ++ rest) = ids.map Action.disconnect ++ level 0 rest := by
  induction ids with
  | nil => rfl
  | cons i ids ih => simp only [List.map_cons, List.cons_append, level]; rw [ih]

theorem level_ok {a : Abs} {es : List Event} : ∀ n, (∀ s x, Event.emit s x ∈ es → a.Live s) → (∀ s i c, Event.connect s i c ∈ es → a.Live s) → (∀ s, Event.clear s ∈ es → a.Live s) →
    ∀ x ∈ level n es, x.ok a := by
  induction es with
  | nil => intro n _ _ _ x hx; cases n <;> cases hx
  | cons e es ih =>
    intro n h1 h2 h3 x hx
    have ih' := fun n => ih n (fun s x hm => h1 s x (List.mem_cons_of_mem _ hm)) (fun s i c hm => h2 s i c (List.mem_cons_of_mem _ hm)) (fun s hm => h3 s (List.mem_cons_of_mem _ hm)) x
    cases n with
    | zero =>
      cases e with
      | connect s i c =>
        rcases List.mem_cons.mp hx with e | hx
        · rw [e]; exact h2 s i c (List.mem_cons_self ..)
        · exact ih' 0 hx
      | disconnect i =>
        rcases List.mem_cons.mp hx with e | hx
        · rw [e]; trivial
        · exact ih' 0 hx
      | clear s =>
        rcases List.mem_cons.mp hx with e | hx
        · rw [e]; exact h3 s (List.mem_cons_self ..)
        · exact ih' 0 hx
      | emit s y =>
        rcases List.mem_cons.mp hx with e | hx
        · rw [e]; exact h1 s y (List.mem_cons_self ..)
        · exact ih' 1 hx
      | call => cases hx
      | done => cases hx
    | succ n =>
      cases e with
      | emit => exact ih' (n + 2) hx
      | done => exact ih' n hx
      | connect => exact ih' (n + 1) hx
      | disconnect => exact ih' (n + 1) hx
      | clear => exact ih' (n + 1) hx
      | call => exact ih' (n + 1) hx

/-- Actions of callbacks, if emissions are as they should be. -/
theorem actions_ran {m : Nat} {owns : Nat → List Nat} {script : ScriptG} {em : Nat → Nat → World → M World} {em' : List Event → Nat → Nat → World → M World}
    (hem : ∀ s arg w a, m ≤ w.trace.length → Rel w a → script.Ok owns a → a.Live s → em s arg w = .error .diverge ∨ ∃ w' es, em s arg w = .ok w' ∧ Ran owns script [] w a w' (.emit s arg :: es) ∧
      (∀ n rest, level (n + 1) (es ++ rest) = level n rest) ∧ ∀ T, w'.trace <+: T → em' T s arg w = .ok w') (xs : List ActionG) :
    ∀ {w : World} {a : Abs}, m ≤ w.trace.length → Rel w a → script.Ok owns a → (∀ x ∈ xs, x.ok owns a) → runActionsG owns em xs w = .error .diverge ∨
      ∃ w' es ys, runActionsG owns em xs w = .ok w' ∧ Ran owns script xs w a w' es ∧ (∀ n rest, level (n + 1) (es ++ rest) = level (n + 1) rest) ∧
        (∀ rest, level 0 (es ++ rest) = ys ++ level 0 rest) ∧ ∀ T, w'.trace <+: T → runActions (em' T) ys w = .ok w' := by
  induction xs with
  | nil => intro w a _ h _ _; exact Or.inr ⟨w, [], [], rfl, .nil rfl h, fun _ _ => rfl, fun _ => rfl, fun _ _ => rfl⟩
  | cons x xs ih =>
    intro w a hm h hok hx
    have step : x.run owns em w = .error .diverge ∨ ∃ w' es ys, x.run owns em w = .ok w' ∧ Ran owns script [x] w a w' es ∧ (∀ n rest, level (n + 1) (es ++ rest) = level (n + 1) rest) ∧
        (∀ rest, level 0 (es ++ rest) = ys ++ level 0 rest) ∧ ∀ T, w'.trace <+: T → runActions (em' T) ys w = .ok w' := by
      have hxo := hx x (List.mem_cons_self ..)
      cases x with
      | connect s cb =>
        obtain ⟨w', h1, h2, h3, _⟩ := h.connect hxo cb
        refine Or.inr ⟨w'.record (.connect s a.next cb), [.connect s a.next cb], [.connect s cb], by simp [ActionG.run, h1], ?_, fun _ _ => rfl, fun _ => rfl, fun T _ => by
          simp [runActions, Action.run, h1]⟩
        refine .one (by simp [World.record, h3]) ⟨⟨hxo, rfl⟩, trivial⟩ (h2.record _) (by simp) (by simp) ?_ (by simp)
        intro s' i c e
        cases e; exact hxo
      | disconnect id =>
        obtain ⟨ids, k1, k2, k3, k4⟩ := disconnectT_same owns h.bounded id
        obtain ⟨w', p1, p2, p3, p4⟩ := k1 w em h
        refine Or.inr ⟨w', ids.map Event.disconnect, ids.map Action.disconnect, p1, ?_, fun n rest => level_disconnects n ids rest, level_disconnects_zero ids, fun T _ => ?_⟩
        · refine ⟨p3, valid_disconnects a ids, by rw [events_disconnects]; exact p4, k3.cascades, ?_, by simp, by simp, by simp⟩
          refine ⟨fun j hj => ?_, fun s hs => by simp at hs⟩
          obtain ⟨j', hj', e⟩ := List.mem_map.mp hj
          cases e
          rcases k4 j hj' with e | ⟨i, hi, ho⟩
          · left; rw [e]; exact List.mem_singleton.mpr rfl
          · right; right; left; exact ⟨i, List.mem_map_of_mem hi, ho⟩
        · obtain ⟨w'', q1, q2, _⟩ := k1 w (em' T) h
          rw [p1] at q1; cases q1; exact q2
      | clear s =>
        obtain ⟨ids, w', p1, p2, p3, p4, p5, p6, p7⟩ := clearT_same h hxo.1 (hxo.2 [] trivial)
        refine Or.inr ⟨w', .clear s :: ids.map Event.disconnect, .clear s :: ids.map Action.disconnect, p1, ?_, fun n rest => ?_, fun rest => ?_, fun T _ => p2 _⟩
        · refine ⟨p3, ⟨trivial, valid_disconnects _ ids⟩, ?_, .clear p5 p6, ⟨fun j hj => ?_, fun t ht => ?_⟩, by simp, by simp, fun t ht => ?_⟩
          · show Rel w' ((a.clear s).events (ids.map Event.disconnect))
            rw [events_disconnects]; exact p4
          · have hj' : j ∈ ids := by simpa using hj
            rcases p7 j hj' with ⟨i, hi, ho⟩ | ⟨i, hi, ho⟩
            · right; right; right; exact ⟨[], s, _, i, rfl, hi, ho⟩
            · right; right; left; exact ⟨i, List.mem_cons_of_mem _ (List.mem_map_of_mem hi), ho⟩
          · have : t = s := by simpa using ht
            left; rw [this]; exact List.mem_singleton.mpr rfl
          · have : t = s := by simpa using ht
            rw [this]; exact hxo.1
        · simp only [List.cons_append, level]; exact level_disconnects n ids rest
        · simp only [List.cons_append, level]; rw [level_disconnects_zero]
      | emit s arg =>
        rcases hem s arg w a hm h hok hxo with e | ⟨w', es, h1, h2, h3, h4⟩
        · exact Or.inl e
        · refine Or.inr ⟨w', .emit s arg :: es, [.emit s arg], h1, ⟨h2.trace, h2.valid, h2.rel, h2.cascades, ?_, h2.emits, h2.connects, h2.clears⟩, ?_, ?_, ?_⟩
          · refine ⟨fun j hj => ?_, fun t ht => ?_⟩
            · rcases h2.asked.1 j hj with k | k
              · cases k
              · exact Or.inr k
            · rcases h2.asked.2 t ht with k | k
              · cases k
              · exact Or.inr k
          · intro n rest; simp only [List.cons_append, level]; exact h3 (n + 1) rest
          · intro rest; simp only [List.cons_append, level, List.nil_append]; rw [h3 0 rest]
          · intro T hT; simp only [runActions, Action.run, h4 T hT, ok_bind]; rfl
    rcases step with e | ⟨w1, es1, ys1, p1, p2, p3, p4, p5⟩
    · left; simp only [runActionsG, e]; rfl
    · rcases ih (w := w1) (a := a.events es1) (by rw [p2.trace, List.length_append]; omega) p2.rel (ScriptG.ok_events hok p2.valid) (fun y hy => ActionG.ok_events (hx y (List.mem_cons_of_mem _ hy)) p2.valid) with
        e | ⟨w2, es2, ys2, q1, q2, q3, q4, q5⟩
      · left; simp only [runActionsG, p1, ok_bind, e]
      · refine Or.inr ⟨w2, es1 ++ es2, ys1 ++ ys2, by simp only [runActionsG, p1, ok_bind, q1], p2.append q2, ?_, ?_, ?_⟩
        · intro n rest; rw [List.append_assoc, p3, q3]
        · intro rest; rw [List.append_assoc, p4, q4, List.append_assoc]
        · intro T hT
          rw [runActions_append, p5 T ((by rw [q2.trace]; exact List.prefix_append _ _ : w1.trace <+: w2.trace).trans hT)]
          exact q5 T hT

/-- The loop: an emission of callbacks that own guards is one of callbacks that own none, with the same events. -/
theorem loop_ran (m : Nat) (owns : Nat → List Nat) (script : ScriptG) : ∀ (fuel s arg : Nat) (w : World) (a : Abs), m ≤ w.trace.length → Rel w a → script.Ok owns a → a.Live s →
    emitLoopG owns script fuel s arg w = .error .diverge ∨ ∃ w' es, emitLoopG owns script fuel s arg w = .ok w' ∧ Ran owns script [] w a w' es ∧
      (∀ n rest, level (n + 1) (es ++ rest) = level n rest) ∧ (∀ rest, level 0 (es ++ rest) = []) ∧ ∀ T, w'.trace <+: T → emitLoop (replay m T) fuel s arg w = .ok w' := by
  intro fuel
  induction fuel with
  | zero => intro s arg w a _ _ _ _; exact Or.inl rfl
  | succ fuel ih =>
    intro s arg w a hm h hok hs
    have hs' := hs
    obtain ⟨l, hl⟩ := hs'
    obtain ⟨ids, it, hg, hp, _⟩ := h.live hl
    have hdone : ∀ it', it' = it → (∀ i, it' = some i → ids[i]? = none) →
        emitLoopG owns script (fuel + 1) s arg w = .ok (w.record (.done s)) ∧ ∀ T, emitLoop (replay m T) (fuel + 1) s arg w = .ok (w.record (.done s)) := by
      intro it' e hn
      subst e
      refine ⟨?_, fun T => ?_⟩
      all_goals
        simp only [emitLoopG, emitLoop, currentSlot_ok h hg, ok_bind]
        cases it' with
        | none => rfl
        | some i => simp only [hn i rfl, Option.map_none]; rfl
    have hd : Ran owns script [] w a (w.record (.done s)) [.done s] := .one rfl ⟨trivial, trivial⟩ (h.record _) (by simp) (by simp) (by simp) (by simp)
    by_cases hend : ∀ i, it = some i → ids[i]? = none
    · obtain ⟨d1, d2⟩ := hdone it rfl hend
      exact Or.inr ⟨_, [.done s], d1, hd, fun _ _ => rfl, fun _ => rfl, fun T _ => d2 T⟩
    · obtain ⟨i, hi0⟩ := Classical.not_forall.mp hend
      obtain ⟨e, hi1⟩ := Classical.not_imp.mp hi0
      obtain ⟨id, hi⟩ := Option.ne_none_iff_exists'.mp hi1
      subst e
      have hmem : id ∈ l := hp.mem_iff.mp (List.mem_of_getElem? hi)
      obtain ⟨w1, hw1⟩ : ∃ w1, w1 = w.record (.call s id (a.cb id) arg) := ⟨_, rfl⟩
      have hc : Ran owns script [] w a w1 [.call s id (a.cb id) arg] :=
        .one (by rw [hw1]; rfl) ⟨⟨by simpa [Abs.slots, hl] using hmem, rfl⟩, trivial⟩ (by rw [hw1]; exact h.record _) (by simp) (by simp) (by simp) (by simp)
      have hr1 : Rel w1 a := by rw [hw1]; exact h.record _
      have hm1 : m ≤ w1.trace.length := by rw [hc.trace, List.length_append]; omega
      have hact := actions_ran (m := m) (owns := owns) (script := script) (em := fun s a w => do
          let w ← setIter s (fun _ => some 0) w
          emitLoopG owns script fuel s a (w.record (.emit s a))) (em' := fun T s a w => do
          let w ← setIter s (fun _ => some 0) w
          emitLoop (replay m T) fuel s a (w.record (.emit s a))) (by
        intro s' arg' w' a' hm' h' hok' hs'
        rcases setIter_good h' hs' (fun _ => some 0) with e | ⟨w2, es2, e, _⟩
        · left; simp only [e]; rfl
        · obtain ⟨l', hl'⟩ := hs'
          obtain ⟨ids', it', hg', _⟩ := h'.live hl'
          obtain ⟨g1, g2⟩ := h'.setIter (fun _ => some 0) hg'
          rw [g1] at e
          have e := Except.ok.inj e
          rcases ih s' arg' (w2.record (.emit s' arg')) a' (by rw [← e]; simp only [World.record, World.setSig, List.length_append]; omega) (by rw [← e]; exact g2.record _) hok' ⟨l', hl'⟩ with e3 | ⟨w3, es3, q1, q2, q3, _, q5⟩
          · left; simp only [g1, ok_bind, e, e3]
          · refine Or.inr ⟨w3, es3, by simp only [g1, ok_bind, e, q1], ?_, q3, fun T hT => by simp only [g1, ok_bind, e, q5 T hT]⟩
            have h1 : Ran owns script [] w' a' (w2.record (.emit s' arg')) [.emit s' arg'] :=
              .one (by rw [← e]; rfl) ⟨trivial, trivial⟩ (by rw [← e]; exact g2.record _) (by simp) (by
                intro s2 x e2; cases e2; exact ⟨l', hl'⟩) (by simp) (by simp)
            exact h1.append q2) (script w1.trace) hm1 hr1 hok (hok _)
      have hunf : emitLoopG owns script (fuel + 1) s arg w = (runActionsG owns (fun s a w => do
          let w ← setIter s (fun _ => some 0) w
          emitLoopG owns script fuel s a (w.record (.emit s a))) (script w1.trace) w1 >>= fun w => setIter s iterInc w >>= emitLoopG owns script fuel s arg) := by
        rw [hw1]
        simp only [emitLoopG, currentSlot_ok h hg, ok_bind, hi, Option.map_some]
      have hunf' : ∀ T, emitLoop (replay m T) (fuel + 1) s arg w = (runActions (fun s a w => do
          let w ← setIter s (fun _ => some 0) w
          emitLoop (replay m T) fuel s a (w.record (.emit s a))) (replay m T w1.trace) w1 >>= fun w => setIter s iterInc w >>= emitLoop (replay m T) fuel s arg) := by
        intro T
        rw [hw1]
        simp only [emitLoop, currentSlot_ok h hg, ok_bind, hi, Option.map_some]
      rw [hunf]
      rcases hact with e | ⟨w2, es2, ys, p1, p2, p3, p4, p5⟩
      · left; rw [e]; rfl
      · rw [p1]
        simp only [ok_bind]
        obtain ⟨l2, hl2⟩ := live_events hs es2
        obtain ⟨ids2, it2, hg2, _⟩ := p2.rel.live hl2
        obtain ⟨g1, g2⟩ := p2.rel.setIter iterInc hg2
        obtain ⟨w3, hw3⟩ : ∃ w3, setIter s iterInc w2 = .ok w3 ∧ w3.trace = w2.trace ∧ Rel w3 (a.events es2) := ⟨_, g1, rfl, g2⟩
        obtain ⟨i1, i2, i3⟩ := hw3
        rw [i1]
        simp only [ok_bind]
        rcases ih s arg w3 (a.events es2) (by rw [i2, p2.trace, List.length_append]; omega) i3 (ScriptG.ok_events hok p2.valid) ⟨l2, hl2⟩ with e | ⟨w4, es4, q1, q2, q3, q4, q5⟩
        · exact Or.inl e
        · have hall : Ran owns script (script w1.trace) w1 a w4 (es2 ++ es4) := by
            have h0 : Ran owns script [] w2 (a.events es2) w4 es4 := ⟨by rw [q2.trace, i2], q2.valid, q2.rel, q2.cascades, by rw [← i2]; exact q2.asked, q2.emits, q2.connects, q2.clears⟩
            have := p2.append h0
            rwa [List.append_nil] at this
          refine Or.inr ⟨w4, .call s id (a.cb id) arg :: (es2 ++ es4), q1, ?_, ?_, fun _ => rfl, ?_⟩
          · have := hc.append hall
            refine ⟨this.trace, this.valid, this.rel, this.cascades, ?_, this.emits, this.connects, this.clears⟩
            refine ⟨fun j hj => ?_, fun t ht => ?_⟩
            · rcases this.asked.1 j hj with k | k
              · right; left
                refine ⟨[.call s id (a.cb id) arg], ⟨es2 ++ es4, rfl⟩, ?_⟩
                rw [← hc.trace]; simpa using k
              · exact Or.inr k
            · rcases this.asked.2 t ht with k | k
              · right
                refine ⟨[.call s id (a.cb id) arg], ⟨es2 ++ es4, rfl⟩, ?_⟩
                rw [← hc.trace]; simpa using k
              · exact Or.inr k
          · intro n rest
            simp only [List.cons_append, level]
            rw [List.append_assoc, p3, q3]
          · intro T hT
            have hpre : w2.trace <+: T := (by rw [q2.trace, i2]; exact List.prefix_append _ _ : w2.trace <+: w4.trace).trans hT
            have hpre1 : w1.trace <+: T := (by rw [p2.trace]; exact List.prefix_append _ _ : w1.trace <+: w2.trace).trans hpre
            have hrep : replay m T w1.trace = ys := by
              obtain ⟨rest, hrest⟩ := hT
              have hlast : w1.trace.getLast? = some (.call s id (a.cb id) arg) := by rw [hc.trace]; simp
              simp only [replay, hlast, if_pos (And.intro hm1 hpre1)]
              rw [← hrest, hall.trace, List.append_assoc, List.drop_left, List.append_assoc, p4, q4, List.append_nil]
            rw [hunf' T, hrep, p5 T hpre]
            simp only [ok_bind, i1]
            exact q5 T hT

end Verif.Signal
