import Verif.Signal.ModelCapture
import Verif.Signal.PropsThrow

/-!
# C110, C111: what a running callback uses
-/

namespace Verif.Signal
open Verif.Cpp

/-! ## C110: captures -/

/-- The actions on signals among some actions. -/
def actsOf (xs : List ActionC) : List Action :=
  xs.filterMap (fun x => match x with
    | .act y => some y
    | _ => none)

/-- Callbacks that use nothing they captured. -/
theorem runActionsC_noUse (em : Nat → Nat → World → M World) (id : Nat) (ys : List ActionC) (hy : ActionC.use ∉ ys) (arg : Nat) (w : World) :
    (runActionsC em id ys arg w >>= fun r => pure r.1) = runActions em (actsOf ys) w := by
  induction ys generalizing arg w with
  | nil => rfl
  | cons y ys ih =>
    have hy' : ActionC.use ∉ ys := fun h => hy (by simp [h])
    cases y with
    | act x =>
      simp only [runActionsC, bind_assoc, actsOf, List.filterMap_cons, runActions]
      congr 1
      funext w
      exact ih hy' arg w
    | use => exact absurd (by simp) hy
    | assign v => exact ih hy' v w

theorem connect_keeps {em : Nat → Nat → World → M World} {w w' : World} {s cb id : Nat} (h : (w.heap id).isSome = true) (e : (Action.connect s cb).run em w = .ok w') :
    (w'.heap id).isSome = true := by
  simp only [Action.run, Signal.connect, World.sig] at e
  cases hs : w.sigs s with
  | none => rw [hs] at e; cases e
  | some g =>
    rw [hs] at e
    simp only [ok_bind, pure_ok] at e
    cases e
    simp only [World.record, World.setSig, World.setSlot, update]
    split
    · rfl
    · exact h

/-- Callbacks that use what they captured first. -/
theorem runActionsC_usesFirst (em : Nat → Nat → World → M World) (id : Nat) (xs ys : List ActionC)
    (hx : ∀ x ∈ xs, ∀ y, x = .act y → ∃ s cb, y = .connect s cb) (hy : ActionC.use ∉ ys) (arg : Nat) (w : World) (hw : (w.heap id).isSome = true) :
    (runActionsC em id (xs ++ ys) arg w >>= fun r => pure r.1) = runActions em (actsOf (xs ++ ys)) w := by
  induction xs generalizing arg w with
  | nil => exact runActionsC_noUse em id ys hy arg w
  | cons x xs ih =>
    have hx' : ∀ x ∈ xs, ∀ y, x = .act y → ∃ s cb, y = .connect s cb := fun z hz => hx z (by simp [hz])
    cases x with
    | act y =>
      obtain ⟨s, cb, rfl⟩ := hx (.act y) (by simp) y rfl
      simp only [List.cons_append, runActionsC, bind_assoc, actsOf, List.filterMap_cons, runActions]
      cases hr : (Action.connect s cb).run em w with
      | error e => rfl
      | ok w' =>
        simp only [ok_bind]
        exact ih hx' arg w' (connect_keeps hw hr)
    | use =>
      simp only [List.cons_append, runActionsC, guardUB, hw, if_true, actsOf, List.filterMap_cons]
      exact ih hx' arg w hw
    | assign v => exact ih hx' v w hw

theorem currentSlot_alive {s : Nat} {w : World} {id : Nat} {slot : Slot} (h : currentSlot s w = .ok (some (id, slot))) : w.heap id = some slot := by
  simp only [currentSlot, World.sig] at h
  cases hs : w.sigs s with
  | none => rw [hs] at h; cases h
  | some g =>
    rw [hs] at h
    simp only [ok_bind] at h
    cases hi : g.iter with
    | none => rw [hi] at h; cases h
    | some i =>
      rw [hi] at h
      simp only at h
      cases hg : g.slots[i]? with
      | none => rw [hg] at h; cases h
      | some p =>
        rw [hg] at h
        cases p with
        | none => cases h
        | some j =>
          simp only at h
          cases hj : w.heap j with
          | none => rw [hj] at h; cases h
          | some x =>
            rw [hj] at h
            simp only [pure_ok, Except.ok.injEq, Option.some.injEq, Prod.mk.injEq] at h
            obtain ⟨rfl, rfl⟩ := h
            exact hj

theorem emitLoopC_usesFirst {script : ScriptC} (hu : script.UsesFirst) (fuel s a : Nat) (w : World) :
    (emitLoopC false script fuel s a w >>= fun r => pure r.1) = emitLoop (onSignals script) fuel s a w := by
  induction fuel generalizing s a w with
  | zero => rfl
  | succ fuel ih =>
    simp only [emitLoopC, emitLoop, bind_assoc]
    cases hc : currentSlot s w with
    | error e => rfl
    | ok c =>
      cases c with
      | none => rfl
      | some c =>
        obtain ⟨id, slot⟩ := c
        simp only [ok_bind, Bool.false_eq_true, if_false]
        obtain ⟨xs, ys, hxy, hx, hy⟩ := hu (w.record (.call s id slot.callback a)).trace
        have key := runActionsC_usesFirst (fun s a w => do
          let w ← setIter s (fun _ => some 0) w
          let r ← emitLoopC false script fuel s a (w.record (.emit s a))
          pure r.1) id xs ys hx hy a (w.record (.call s id slot.callback a)) (by rw [show (w.record _).heap = w.heap from rfl, currentSlot_alive hc]; rfl)
        rw [← hxy] at key
        have hem : (fun s a w => do
          let w ← setIter s (fun _ => some 0) w
          let r ← emitLoopC false script fuel s a (w.record (.emit s a))
          pure r.1) = (fun s a w => do
          let w ← setIter s (fun _ => some 0) w
          emitLoop (onSignals script) fuel s a (w.record (.emit s a))) := by
          funext s a w
          congr 1
          funext w
          exact ih s a _
        rw [hem] at key ⊢
        have : actsOf (script (w.record (.call s id slot.callback a)).trace) = onSignals script (w.record (.call s id slot.callback a)).trace := rfl
        rw [this] at key
        rw [← key]
        have ih' := ih
        simp only [pure_ok] at ih'
        simp only [bind_assoc, pure_ok, ok_bind, ih']

/-- C110: callbacks that use what they captured only before they disconnect a slot, clear a signal or emit one run as callbacks that capture nothing: so what is proved of emissions
(C38, C39, C42) holds for them, and no use is undefined. -/
theorem C110_uses_first_partial {script : ScriptC} (hu : script.UsesFirst) (fuel s arg : Nat) (w : World) :
    (emitC false script fuel s arg w >>= fun r => pure r.1) = emit (onSignals script) fuel s arg w := by
  simp only [emitC, emit, bind_assoc]
  congr 1
  funext w
  exact emitLoopC_usesFirst hu fuel s arg _

/-- C110: in particular, after any history, such an emission runs forever or ends in an ordinary way. -/
theorem C110_safe_partial {w : World} {a : Abs} (h : Reached w a) {script : ScriptC} (hu : script.UsesFirst) (hok : (onSignals script).Ok a) {s : Nat} (hs : a.Live s)
    (arg fuel : Nat) :
    emitC false script fuel s arg w = .error .diverge ∨
    ∃ w' x es, emitC false script fuel s arg w = .ok (w', x) ∧ w'.trace = w.trace ++ es ∧ Valid a es ∧ Reached w' (a.events es) := by
  have key := C110_uses_first_partial hu fuel s arg w
  rcases C39_safe h hok hs arg fuel with e | ⟨w', es, e, h2, h3, h4, _⟩
  · rw [e] at key
    cases hr : emitC false script fuel s arg w with
    | error x => rw [hr] at key; cases key; exact Or.inl rfl
    | ok r => rw [hr] at key; cases key
  · rw [e] at key
    cases hr : emitC false script fuel s arg w with
    | error x => rw [hr] at key; cases key
    | ok r =>
      rw [hr] at key
      simp only [ok_bind, pure_ok, Except.ok.injEq] at key
      exact Or.inr ⟨w', r.2, es, by rw [← key], h2, h3, h4⟩

theorem Rel.headC {w : World} {a : Abs} (h : Rel w a) {s : Nat} (hs : a.Live s) (arg : Nat) :
    ∃ w0 ids, (∀ r script fuel, emitC r script fuel s arg w = emitLoopC r script fuel s arg w0) ∧ w0.trace = w.trace ++ [.emit s arg] ∧ Head s [] w0 a ids 0 ∧
      ids.Perm (a.slots s) := by
  obtain ⟨l, hl⟩ := hs
  obtain ⟨ids, it, hg, hp, _⟩ := h.live hl
  obtain ⟨h1, h2⟩ := h.setIter (fun _ => some 0) hg
  refine ⟨(w.setSig s (some ⟨ids.map some, a.grown s, some 0⟩)).record (.emit s arg), ids, ?_, rfl, ?_, by simpa [Abs.slots, hl] using hp⟩
  · intro r script fuel; simp only [emitC, h1, ok_bind]
  · exact ⟨h2.record _, ⟨l, hl⟩, ⟨a.grown s, by simp [World.record, World.setSig]⟩, by simp, by simp, by simp, by simp⟩

theorem selfDisconnect_call (tr : List Event) (s id cb x : Nat) : selfDisconnect (tr ++ [.call s id cb x]) = [.act (.disconnect id), .use] := by
  simp [selfDisconnect]

theorem selfClear_call (tr : List Event) (s id cb x : Nat) : selfClear (tr ++ [.call s id cb x]) = [.act (.clear s), .use] := by
  simp [selfClear]

/-- C110, violated: nothing keeps the callback alive while it runs.  A callback that disconnects its own connection and then uses what it captured uses memory that has been freed; for every
signal with a slot, after any history. -/
theorem C110_self_disconnect_violated {w : World} {a : Abs} (h : Reached w a) {s : Nat} {l : List Nat} (hs : a.conn s = .live l) (hl : l ≠ []) (byRef : Bool) (arg : Nat)
    {fuel : Nat} (hf : 0 < fuel) : emitC byRef selfDisconnect fuel s arg w = .error .ub := by
  obtain ⟨w0, ids, h1, h2, h3, h4⟩ := (reached_rel h).headC ⟨l, hs⟩ arg
  have hsl : a.slots s = l := by simp [Abs.slots, hs]
  rw [hsl] at h4
  obtain ⟨fuel, rfl⟩ : ∃ f, fuel = f + 1 := ⟨fuel - 1, by omega⟩
  obtain ⟨fb, hg⟩ := h3.sig
  obtain ⟨id, hid⟩ : ∃ id, ids[0]? = some id := by
    cases ids with
    | nil => exact absurd h4.symm.eq_nil hl
    | cons i _ => exact ⟨i, rfl⟩
  obtain ⟨w1, d1, d2, _⟩ := (h3.rel.record (.call s id (a.cb id) arg)).disconnect id
  have hdead : ∀ e, ((w1.record e).heap id).isSome = false := by
    intro e
    show (w1.heap id).isSome = false
    have := (d2.connected id).not.mp (disconnect_gone a id)
    simpa [isConnected] using this
  have hsc : selfDisconnect (w0.record (.call s id (a.cb id) arg)).trace = [.act (.disconnect id), .use] := selfDisconnect_call _ _ _ _ _
  rw [h1]
  simp only [emitLoopC, currentSlot_ok h3.rel hg, ok_bind, hid, Option.map_some, hsc, runActionsC, Action.run, d1, pure_ok, hdead, guardUB,
    Bool.false_eq_true, if_false]
  rfl

/-- C110, violated: the same for a callback that clears the signal that calls it. -/
theorem C110_self_clear_violated {w : World} {a : Abs} (h : Reached w a) {s : Nat} {l : List Nat} (hs : a.conn s = .live l) (hl : l ≠ []) (byRef : Bool) (arg : Nat)
    {fuel : Nat} (hf : 0 < fuel) : emitC byRef selfClear fuel s arg w = .error .ub := by
  obtain ⟨w0, ids, h1, h2, h3, h4⟩ := (reached_rel h).headC ⟨l, hs⟩ arg
  have hsl : a.slots s = l := by simp [Abs.slots, hs]
  rw [hsl] at h4
  obtain ⟨fuel, rfl⟩ : ∃ f, fuel = f + 1 := ⟨fuel - 1, by omega⟩
  obtain ⟨fb, hg⟩ := h3.sig
  obtain ⟨id, hid⟩ : ∃ id, ids[0]? = some id := by
    cases ids with
    | nil => exact absurd h4.symm.eq_nil hl
    | cons i _ => exact ⟨i, rfl⟩
  have hin : id ∈ a.slots s := by
    rw [hsl, ← h4.mem_iff]
    exact List.mem_of_getElem? hid
  obtain ⟨w1, d1, d2, _⟩ := (h3.rel.record (.call s id (a.cb id) arg)).clear (s := s) (by rw [hs]; simp)
  have hdead : ∀ e, ((w1.record e).heap id).isSome = false := by
    intro e
    show (w1.heap id).isSome = false
    have hn : ¬ (a.clear s).Connected id := by
      rintro ⟨t, ht⟩
      simp only [Abs.clear, Abs.slots] at ht
      by_cases hts : t = s
      · subst hts; rw [update_same] at ht; simp at ht
      · rw [update_ne _ _ hts] at ht
        exact hts (C40_one_signal h (s := t) (t := s) ht hin)
    have := (d2.connected id).not.mp hn
    simpa [isConnected] using this
  have hsc : selfClear (w0.record (.call s id (a.cb id) arg)).trace = [.act (.clear s), .use] := selfClear_call _ _ _ _ _
  rw [h1]
  simp only [emitLoopC, currentSlot_ok h3.rel hg, ok_bind, hid, Option.map_some, hsc, runActionsC, Action.run, d1, pure_ok, hdead, guardUB,
    Bool.false_eq_true, if_false]
  rfl

/-- Callbacks that use what they captured, connect a slot, and disconnect themselves last. -/
def useThenDisconnect : ScriptC := fun tr =>
  match tr.getLast? with
  | some (.call _ id _ _) => [.use, .act (.connect 8 3), .use, .act (.disconnect id)]
  | _ => []

/-- They meet the hypothesis of `C110_uses_first_partial`. -/
example : useThenDisconnect.UsesFirst := by
  intro tr
  unfold useThenDisconnect
  split
  · next id _ _ _ =>
    refine ⟨[.use, .act (.connect 8 3), .use], [.act (.disconnect id)], rfl, ?_, by simp⟩
    intro x hx y hy
    subst hy
    simp only [List.mem_cons, List.not_mem_nil, or_false, reduceCtorEq, ActionC.act.injEq, false_or] at hx
    exact ⟨8, 3, hx⟩
  · exact ⟨[], [], rfl, by simp, by simp⟩

/-- And the hypotheses of the violations are met. -/
example : ∃ w a, Reached w a ∧ emitC false selfDisconnect 4 7 5 w = .error .ub ∧ emitC true selfClear 1 7 5 w = .error .ub := by
  obtain ⟨w, a, h, h1, _⟩ := example_reached
  exact ⟨w, a, h, C110_self_disconnect_violated h h1 (by simp) false 5 (by decide), C110_self_clear_violated h h1 (by simp) true 5 (by decide)⟩

/-! ## C111: arguments -/

theorem assigning_call (f : Nat → Nat → Nat) (tr : List Event) (s id cb x : Nat) : assigning f (tr ++ [.call s id cb x]) = [.assign (f cb x)] := by
  simp [assigning]

/-- The arguments of successive calls of callbacks that assign to a shared argument: callback `cb`, given `x`, leaves `f cb x` to the next one. -/
def handedOn (f : Nat → Nat → Nat) : Nat → List Nat → List Nat
  | _, [] => []
  | x, cb :: cbs => x :: handedOn f (f cb x) cbs

theorem Head.assigning_loop {s : Nat} (byRef : Bool) (f : Nat → Nat → Nat) (fuel : Nat) (arg : Nat) {V : List Nat} {w : World} {a : Abs} {ids : List Nat} {c : Nat}
    (h : Head s V w a ids c) (hf : (ids.drop c).length < fuel) :
    ∃ w' : World, emitLoopC byRef (assigning f) fuel s arg w = .ok (w', if byRef then ((ids.drop c).map a.cb).foldl (fun x cb => f cb x) arg else arg) ∧
      w'.trace = w.trace ++ (List.zipWith (fun id x => Event.call s id (a.cb id) x) (ids.drop c)
        (if byRef then handedOn f arg ((ids.drop c).map a.cb) else (ids.drop c).map (fun _ => arg))) ++ [.done s] := by
  induction fuel generalizing V w c arg with
  | zero => omega
  | succ fuel ih =>
    obtain ⟨fb, hg⟩ := h.sig
    by_cases hc : ids.length ≤ c
    · refine ⟨w.record (.done s), ?_, ?_⟩
      · simp only [emitLoopC, currentSlot_ok h.rel hg, ok_bind]
        rw [List.getElem?_eq_none hc, List.drop_of_length_le hc]
        cases byRef <;> rfl
      · cases byRef <;> simp [List.drop_of_length_le hc, World.record]
    · obtain ⟨id, hid⟩ : ∃ id, ids[c]? = some id := ⟨_, List.getElem?_eq_getElem (by omega)⟩
      have hcl : c < ids.length := by omega
      have hidc : ids[c] = id := by rw [List.getElem?_eq_getElem hcl] at hid; exact Option.some.inj hid
      have hdrop : ids.drop c = id :: ids.drop (c + 1) := by rw [List.drop_eq_getElem_cons hcl, hidc]
      have hsc : assigning f (w.record (.call s id (a.cb id) arg)).trace = [.assign (f (a.cb id) arg)] := assigning_call f w.trace s id (a.cb id) arg
      obtain ⟨w1, i1, k2, k3⟩ := h.advance arg hid
      rw [hdrop] at hf
      obtain ⟨w', m1, m2⟩ := ih (if byRef then f (a.cb id) arg else arg) k3 (by simp at hf ⊢; omega)
      refine ⟨w', ?_, ?_⟩
      · simp only [emitLoopC, currentSlot_ok h.rel hg, ok_bind, hid, Option.map_some, hsc, runActionsC, pure_ok, i1, m1]
        rw [hdrop]
        cases byRef <;> simp
      · rw [m2, k2, hdrop]
        cases byRef <;> simp [handedOn]

/-- C111: a parameter passed by value: whatever the callbacks assign to their parameter, every slot is called once with the emitted argument, and the emitter's argument is
unchanged. -/
theorem C111_by_value {w : World} {a : Abs} (h : Reached w a) {s : Nat} {l : List Nat} (hs : a.conn s = .live l) (f : Nat → Nat → Nat) (arg : Nat) {fuel : Nat}
    (hf : l.length < fuel) :
    ∃ (w' : World) (ids : List Nat), ids.Perm l ∧ emitC false (assigning f) fuel s arg w = .ok (w', arg) ∧
      w'.trace = w.trace ++ ([.emit s arg] ++ ids.map (fun id => .call s id (a.cb id) arg) ++ [.done s]) := by
  obtain ⟨w0, ids, h1, h2, h3, h4⟩ := (reached_rel h).headC ⟨l, hs⟩ arg
  have hsl : a.slots s = l := by simp [Abs.slots, hs]
  rw [hsl] at h4
  obtain ⟨w', k1, k2⟩ := h3.assigning_loop false f fuel arg (by simpa [h4.length_eq] using hf)
  refine ⟨w', ids, h4, by rw [h1]; exact k1, ?_⟩
  rw [k2, h2]
  have : ∀ xs : List Nat, List.zipWith (fun id x => Event.call s id (a.cb id) x) xs (xs.map (fun _ => arg)) = xs.map (fun id => .call s id (a.cb id) arg) := by
    intro xs
    induction xs with
    | nil => rfl
    | cons x xs ih => rw [List.map_cons, List.zipWith_cons_cons, ih, List.map_cons]
  rw [if_neg (by decide), List.drop_zero, this]
  simp

/-- C111: a parameter passed by reference: all callbacks work on the emitter's object; each is given what the one before it left there, and at the end the object has the value left by the last
one. -/
theorem C111_by_reference {w : World} {a : Abs} (h : Reached w a) {s : Nat} {l : List Nat} (hs : a.conn s = .live l) (f : Nat → Nat → Nat) (arg : Nat) {fuel : Nat}
    (hf : l.length < fuel) :
    ∃ (w' : World) (ids : List Nat), ids.Perm l ∧ emitC true (assigning f) fuel s arg w = .ok (w', (ids.map a.cb).foldl (fun x cb => f cb x) arg) ∧
      w'.trace = w.trace ++ ([.emit s arg] ++ List.zipWith (fun id x => .call s id (a.cb id) x) ids (handedOn f arg (ids.map a.cb)) ++ [.done s]) := by
  obtain ⟨w0, ids, h1, h2, h3, h4⟩ := (reached_rel h).headC ⟨l, hs⟩ arg
  have hsl : a.slots s = l := by simp [Abs.slots, hs]
  rw [hsl] at h4
  obtain ⟨w', k1, k2⟩ := h3.assigning_loop true f fuel arg (by simpa [h4.length_eq] using hf)
  refine ⟨w', ids, h4, by rw [h1]; exact k1, ?_⟩
  rw [k2, h2]
  simp

example : ∃ w a, Reached w a ∧ ∃ w' x, emitC true (assigning (fun cb x => cb + x)) 4 7 5 w = .ok (w', x) ∧ x = 38 := by
  obtain ⟨w, a, h, h1, _, _, c0, c1, c2, _⟩ := example_reached
  obtain ⟨w', ids, k1, k2, _⟩ := C111_by_reference h h1 (fun cb x => cb + x) 5 (fuel := 4) (by decide)
  refine ⟨w, a, h, w', _, k2, ?_⟩
  have hc : ∀ l : List Nat, ∀ x, l.foldl (fun x cb => cb + x) x = x + l.sum := by
    intro l
    induction l with
    | nil => simp
    | cons y l ih => intro x; simp [ih]; omega
  rw [hc, (k1.map a.cb).sum_nat]
  simp [c0, c1, c2]

end Verif.Signal
