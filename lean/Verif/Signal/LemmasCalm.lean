import Verif.Signal.LemmasEmit

/-! # Signals: which slots an emission calls -/

namespace Verif.Signal
open Verif.Cpp

/-- All calls among the events are for signal `s` with argument `arg`. -/
def CallsFor (s arg : Nat) (es : List Event) : Prop := ∀ e ∈ es, ∀ t id cb b, e = .call t id cb b → t = s ∧ b = arg

/-- Events of an emission in which callbacks only disconnect slots. -/
def DiscEvents (es : List Event) : Prop := ∀ e ∈ es, (∃ i, e = .disconnect i) ∨ (∃ t x, e = .emit t x) ∨ (∃ t i c x, e = .call t i c x) ∨ ∃ t, e = .done t

def NoCalls (es : List Event) : Prop := ∀ e ∈ es, ∀ t id cb b, e ≠ .call t id cb b

theorem NoCalls.append {es es' : List Event} (h : NoCalls es) (h' : NoCalls es') : NoCalls (es ++ es') := by
  intro e he
  rcases List.mem_append.mp he with he | he
  · exact h e he
  · exact h' e he

theorem NoCalls.calls {es : List Event} (h : NoCalls es) (s : Nat) : calls s es = [] := by
  simp only [Signal.calls, List.filterMap_eq_nil_iff]
  intro e he
  cases e with
  | call t id cb b => exact absurd rfl (h _ he t id cb b)
  | _ => rfl

theorem calls_append (s : Nat) (es es' : List Event) : calls s (es ++ es') = calls s es ++ calls s es' := by simp [calls]

/-- In the middle of a callback of an emission of `s`, the slots `V` having been called: those at or before the iterator have been called, those after it not. -/
structure Mid (s : Nat) (V : List Nat) (w : World) (a : Abs) (ids : List Nat) (it : Option Nat) : Prop where
  rel : Rel w a
  live : a.Live s
  sig : ∃ fb, w.sigs s = some ⟨ids.map some, fb, it⟩
  before : ∀ j ∈ ids.take (cursor it), j ∈ V
  after : ∀ j ∈ ids.drop (cursor it), j ∉ V
  old : ∀ j ∈ V, j < w.next

theorem Mid.connect {s : Nat} {V : List Nat} {w : World} {a : Abs} {ids : List Nat} {c : Nat} (h : Mid s V w a ids (some c)) (hc : c < ids.length)
    (em : Nat → Nat → World → M World) {t : Nat} (ht : a.Live t) (cb : Nat) :
    ∃ w' ids', (Action.connect t cb).run em w = .ok w' ∧ w'.trace = w.trace ++ [.connect t a.next cb] ∧ Mid s V w' (a.event (.connect t a.next cb)) ids' (some c) ∧
      c < ids'.length := by
  obtain ⟨w', h1, h2, h3, h4, h5, h6⟩ := h.rel.connect ht cb
  obtain ⟨fb, hg⟩ := h.sig
  have hrun : (Action.connect t cb).run em w = .ok (w'.record (.connect t a.next cb)) := by simp [Action.run, h1]
  by_cases hts : t = s
  · subst hts
    refine ⟨_, ids ++ [w.next], hrun, by simp [World.record, h3], ⟨h2.record _, live_event h.live _, ?_, ?_, ?_, ?_⟩, by simp; omega⟩
    · refine ⟨fb || decide (1 ≤ ids.length), ?_⟩
      simp only [World.record]
      rw [h5 _ hg]
      have : ¬ ids.length ≤ c := by omega
      simp [Sig.connected, iterGe, this]
    · intro j hj
      simp only [cursor] at hj
      rw [List.take_append_of_le_length (by omega)] at hj
      exact h.before j hj
    · intro j hj
      simp only [cursor] at hj
      rw [List.drop_append_of_le_length (by omega)] at hj
      rcases List.mem_append.mp hj with hj | hj
      · exact h.after j hj
      · intro hV
        have := h.old j hV
        rw [List.mem_singleton] at hj
        omega
    · intro j hj
      simp only [World.record]
      have := h.old j hj
      omega
  · refine ⟨_, ids, hrun, by simp [World.record, h3], ⟨h2.record _, live_event h.live _, ⟨fb, ?_⟩, h.before, h.after, ?_⟩, hc⟩
    · simp only [World.record]; rw [h6 s (Ne.symm hts)]; exact hg
    · intro j hj
      simp only [World.record]
      have := h.old j hj
      omega

theorem Mid.disconnect {s : Nat} {V : List Nat} {w : World} {a : Abs} {ids : List Nat} {it : Option Nat} (h : Mid s V w a ids it)
    (em : Nat → Nat → World → M World) (id : Nat) :
    ∃ w' ids' it', (Action.disconnect id).run em w = .ok w' ∧ w'.trace = w.trace ++ [.disconnect id] ∧ Mid s V w' (a.event (.disconnect id)) ids' it' ∧
      (ids'.drop (cursor it')).length ≤ (ids.drop (cursor it)).length := by
  obtain ⟨w', h1, h2, h3, h4, h5⟩ := h.rel.disconnect id
  obtain ⟨fb, hg⟩ := h.sig
  obtain ⟨ids', it', hg', hr⟩ := h5 s ids fb it hg
  have hrun : (Action.disconnect id).run em w = .ok (w'.record (.disconnect id)) := by simp [Action.run, h1]
  refine ⟨_, ids', it', hrun, by simp [World.record, h3], ⟨h2.record _, live_event h.live _, ⟨fb, hg'⟩, ?_, ?_, ?_⟩, ?_⟩
  · intro j hj
    rw [hr.before.mem_iff, List.mem_filter] at hj
    exact h.before j hj.1
  · intro j hj
    rw [hr.after.mem_iff, List.mem_filter] at hj
    exact h.after j hj.1
  · intro j hj
    simp only [World.record]; rw [h4]; exact h.old j hj
  · rw [hr.after.length_eq]; exact List.length_filter_le _ _

theorem runActions_append (em : Nat → Nat → World → M World) (xs ys : List Action) (w : World) :
    runActions em (xs ++ ys) w = (runActions em xs w >>= runActions em ys) := by
  induction xs generalizing w with
  | nil => rfl
  | cons x xs ih =>
    simp only [List.cons_append, runActions]
    cases h : x.run em w with
    | error e => rfl
    | ok w' => simp only [ok_bind]; exact ih w'

theorem Mid.connects {s : Nat} {V : List Nat} (em : Nat → Nat → World → M World) (xs : List Action) (hxs : ∀ x ∈ xs, ∃ t cb, x = .connect t cb) {w : World} {a : Abs}
    {ids : List Nat} {c : Nat} (h : Mid s V w a ids (some c)) (hc : c < ids.length) (hok : ∀ x ∈ xs, x.ok a) :
    ∃ w' es ids', runActions em xs w = .ok w' ∧ w'.trace = w.trace ++ es ∧ NoCalls es ∧ Mid s V w' (a.events es) ids' (some c) ∧ (xs = [] → ids' = ids ∧ es = []) := by
  induction xs generalizing w a ids with
  | nil => exact ⟨w, [], ids, rfl, by simp, by intro e he; simp at he, h, fun _ => ⟨rfl, rfl⟩⟩
  | cons x xs ih =>
    obtain ⟨t, cb, rfl⟩ := hxs x (by simp)
    obtain ⟨w1, ids1, k1, k2, k3, k4⟩ := h.connect hc em (hok (.connect t cb) (by simp)) cb
    obtain ⟨w2, es, ids2, m1, m2, m3, m4, _⟩ := ih (fun y hy => hxs y (by simp [hy])) k3 k4 (fun y hy => Action.ok_events (hok y (by simp [hy])) [.connect t a.next cb])
    refine ⟨w2, .connect t a.next cb :: es, ids2, ?_, ?_, ?_, m4, by simp⟩
    · simp only [runActions, k1, ok_bind]; exact m1
    · rw [m2, k2]; simp
    · intro e he
      rcases List.mem_cons.mp he with rfl | he
      · intro t id cb b; simp
      · exact m3 e he

theorem Mid.disconnects {s : Nat} {V : List Nat} (em : Nat → Nat → World → M World) (xs : List Action) (hxs : ∀ x ∈ xs, ∃ id, x = .disconnect id) {w : World} {a : Abs}
    {ids : List Nat} {it : Option Nat} (h : Mid s V w a ids it) :
    ∃ w' es ids' it', runActions em xs w = .ok w' ∧ w'.trace = w.trace ++ es ∧ NoCalls es ∧ Mid s V w' (a.events es) ids' it' ∧
      (ids'.drop (cursor it')).length ≤ (ids.drop (cursor it)).length ∧ ∀ e ∈ es, ∃ i, e = .disconnect i := by
  induction xs generalizing w a ids it with
  | nil => exact ⟨w, [], ids, it, rfl, by simp, by intro e he; simp at he, h, Nat.le_refl _, by simp⟩
  | cons x xs ih =>
    obtain ⟨id, rfl⟩ := hxs x (by simp)
    obtain ⟨w1, ids1, it1, k1, k2, k3, k4⟩ := h.disconnect em id
    obtain ⟨w2, es, ids2, it2, m1, m2, m3, m4, m5, m6⟩ := ih (fun y hy => hxs y (by simp [hy])) k3
    refine ⟨w2, .disconnect id :: es, ids2, it2, ?_, ?_, ?_, m4, Nat.le_trans m5 k4, ?_⟩
    · simp only [runActions, k1, ok_bind]; exact m1
    · rw [m2, k2]; simp
    · intro e he
      rcases List.mem_cons.mp he with rfl | he
      · intro t id cb b; simp
      · exact m3 e he
    · intro e he
      rcases List.mem_cons.mp he with rfl | he
      · exact ⟨id, rfl⟩
      · exact m6 e he

/-- The head of the loop, the slots `V` having been called. -/
structure Head (s : Nat) (V : List Nat) (w : World) (a : Abs) (ids : List Nat) (c : Nat) : Prop where
  rel : Rel w a
  live : a.Live s
  sig : ∃ fb, w.sigs s = some ⟨ids.map some, fb, some c⟩
  before : ∀ j ∈ ids.take c, j ∈ V
  after : ∀ j ∈ ids.drop c, j ∉ V
  old : ∀ j ∈ V, j < w.next
  nodup : V.Nodup

theorem iterInc_cursor (it : Option Nat) : iterInc it = some (cursor it) := by cases it <;> rfl

theorem Head.done {s : Nat} {V : List Nat} {w : World} {a : Abs} {ids : List Nat} {c : Nat} (h : Head s V w a ids c) (script : Script) (fuel arg : Nat)
    (hc : ids.length ≤ c) : emitLoop script (fuel + 1) s arg w = .ok (w.record (.done s)) := by
  obtain ⟨fb, hg⟩ := h.sig
  simp only [emitLoop, currentSlot_ok h.rel hg, ok_bind, List.getElem?_eq_none hc]
  rfl

/-- One iteration. -/
theorem Head.step {s : Nat} {V : List Nat} {w : World} {a : Abs} {ids : List Nat} {c id : Nat} (h : Head s V w a ids c) {script : Script} (hcalm : script.ConnectsFirst)
    (hok : script.Ok a) (arg : Nat) (hid : ids[c]? = some id) :
    ∃ (w' : World) (es : List Event) (ids' : List Nat) (c' : Nat), (∀ fuel, emitLoop script (fuel + 1) s arg w = emitLoop script fuel s arg w') ∧
      w'.trace = w.trace ++ .call s id (a.cb id) arg :: es ∧ NoCalls es ∧ Head s (V ++ [id]) w' (a.events es) ids' c' ∧
      (script.OnlyDisconnects → (ids'.drop c').length < (ids.drop c).length ∧ ∀ e ∈ es, ∃ i, e = .disconnect i) := by
  obtain ⟨fb, hg⟩ := h.sig
  have hcl : c < ids.length := by by_contra hc; rw [List.getElem?_eq_none (by omega)] at hid; cases hid
  have hidc : ids[c] = id := by rw [List.getElem?_eq_getElem hcl] at hid; exact Option.some.inj hid
  have hdrop : ids.drop c = id :: ids.drop (c + 1) := by rw [List.drop_eq_getElem_cons hcl, hidc]
  have htake : ids.take (c + 1) = ids.take c ++ [id] := by rw [List.take_succ_eq_append_getElem hcl, hidc]
  have hn := h.rel.ids_nodup hg
  have hidV : id ∉ V := h.after id (by rw [hdrop]; simp)
  have hmid : Mid s (V ++ [id]) (w.record (.call s id (a.cb id) arg)) a ids (some c) := by
    refine ⟨h.rel.record _, h.live, ⟨fb, hg⟩, ?_, ?_, ?_⟩
    · intro j hj
      simp only [cursor] at hj
      rw [htake] at hj
      rcases List.mem_append.mp hj with hj | hj
      · simp [h.before j hj]
      · simp_all
    · intro j hj
      simp only [cursor] at hj
      rw [List.mem_append, not_or]
      refine ⟨h.after j (by rw [hdrop]; simp [hj]), ?_⟩
      rw [List.mem_singleton]
      rintro rfl
      have : (ids.drop c).Nodup := hn.drop
      rw [hdrop, List.nodup_cons] at this
      exact this.1 hj
    · intro j hj
      rcases List.mem_append.mp hj with hj | hj
      · exact h.old j hj
      · rw [List.mem_singleton] at hj
        subst hj
        obtain ⟨x, hx, _⟩ := (h.rel.heap_iff hg j).mp (List.mem_of_getElem? hid)
        exact h.rel.fresh j x hx
  obtain ⟨xs, ys, hxy, hxs, hys⟩ := hcalm (w.record (.call s id (a.cb id) arg)).trace
  have hokx := hok (w.record (.call s id (a.cb id) arg)).trace
  have hres : ∀ em, ∃ (w1 : World) (es : List Event) (ids' : List Nat) (it' : Option Nat),
      runActions em (script (w.record (.call s id (a.cb id) arg)).trace) (w.record (.call s id (a.cb id) arg)) = .ok w1 ∧
      w1.trace = w.trace ++ .call s id (a.cb id) arg :: es ∧ NoCalls es ∧ Mid s (V ++ [id]) w1 (a.events es) ids' it' ∧
      (xs = [] → (ids'.drop (cursor it')).length ≤ (ids.drop (c + 1)).length ∧ ∀ e ∈ es, ∃ i, e = .disconnect i) := by
    intro em
    obtain ⟨w1, es1, ids1, a1, a2, a3, a4, a5⟩ := hmid.connects em xs hxs hcl (fun x hx => hokx x (by rw [hxy]; simp [hx]))
    obtain ⟨w2, es2, ids2, it2, b1, b2, b3, b4, b5, b6⟩ := a4.disconnects em ys hys
    refine ⟨w2, es1 ++ es2, ids2, it2, ?_, ?_, a3.append b3, ?_, ?_⟩
    · rw [hxy, runActions_append, a1]; exact b1
    · rw [b2, a2]; simp [World.record]
    · rw [events_append]; exact b4
    · intro e
      obtain ⟨e1, e2⟩ := a5 e
      subst e1 e2
      exact ⟨b5, by simpa using b6⟩
  -- the result does not depend on nested emissions
  obtain ⟨w1, es, ids', it', r1, r2, r3, r4, r5⟩ := hres (fun _ _ _ => .error .diverge)
  have hsame : ∀ em, runActions em (script (w.record (.call s id (a.cb id) arg)).trace) (w.record (.call s id (a.cb id) arg)) = .ok w1 := by
    intro em
    rw [← r1, hxy]
    have : ∀ (zs : List Action) (v : World), (∀ z ∈ zs, (∃ t cb, z = .connect t cb) ∨ ∃ i, z = .disconnect i) →
        runActions em zs v = runActions (fun _ _ _ => .error .diverge) zs v := by
      intro zs
      induction zs with
      | nil => intro v _; rfl
      | cons z zs ih =>
        intro v hz
        have e : z.run em v = z.run (fun _ _ _ => .error .diverge) v := by
          rcases hz z (by simp) with ⟨t, cb, rfl⟩ | ⟨i, rfl⟩ <;> rfl
        simp only [runActions, e]
        cases z.run (fun _ _ _ => .error .diverge) v with
        | error e => rfl
        | ok v' => simp only [ok_bind]; exact ih v' (fun y hy => hz y (by simp [hy]))
    refine this _ _ ?_
    intro z hz
    rcases List.mem_append.mp hz with hz | hz
    · exact Or.inl (hxs z hz)
    · exact Or.inr (hys z hz)
  obtain ⟨fb', hg'⟩ := r4.sig
  obtain ⟨i1, i2⟩ := r4.rel.setIter iterInc hg'
  refine ⟨w1.setSig s (some ⟨ids'.map some, fb', iterInc it'⟩), es, ids', cursor it', ?_, r2, r3, ⟨i2, r4.live, ⟨fb', ?_⟩, r4.before, r4.after, r4.old, ?_⟩, ?_⟩
  · intro fuel
    simp only [emitLoop, currentSlot_ok h.rel hg, ok_bind, hid, Option.map_some]
    rw [hsame]
    simp only [ok_bind, i1]
  · simp [World.setSig, iterInc_cursor]
  · rw [List.nodup_append]
    exact ⟨h.nodup, by simp, by intro x hx y hy; rw [List.mem_singleton] at hy; subst hy; rintro rfl; exact hidV hx⟩
  · intro hod
    have hx0 : xs = [] := by
      cases xs with
      | nil => rfl
      | cons x xs =>
        obtain ⟨t, cb, rfl⟩ := hxs x (by simp)
        obtain ⟨i, hi⟩ := hod (w.record (.call s id (a.cb id) arg)).trace (.connect t cb) (by rw [hxy]; simp)
        cases hi
    obtain ⟨q1, q2⟩ := r5 hx0
    refine ⟨?_, q2⟩
    rw [hdrop]
    simp; simp at q1; omega

/-- The slots that the loop calls. -/
theorem Head.loop {s : Nat} {script : Script} (hcalm : script.ConnectsFirst) (arg fuel : Nat) {V : List Nat} {w w' : World} {a : Abs} {ids : List Nat} {c : Nat}
    (h : Head s V w a ids c) (hok : script.Ok a) (hrun : emitLoop script fuel s arg w = .ok w') :
    ∃ es, w'.trace = w.trace ++ es ∧ CallsFor s arg es ∧ (V ++ calls s es).Nodup ∧ (∀ j ∈ (a.events es).slots s, j ∈ V ++ calls s es) ∧
      (script.OnlyDisconnects → DiscEvents es) := by
  induction fuel generalizing V w a ids c with
  | zero => cases hrun
  | succ fuel ih =>
    by_cases hc : ids.length ≤ c
    · rw [h.done script fuel arg hc] at hrun
      cases hrun
      refine ⟨[.done s], by simp [World.record], ?_, by simpa [calls] using h.nodup, ?_, ?_⟩
      · intro e he t id cb b heq; simp at he; subst he; cases heq
      · intro j hj
        obtain ⟨fb, hg⟩ := h.sig
        have : j ∈ ids := (h.rel.heap_iff hg j).mpr ((h.rel.mem_slots s j).mp hj)
        have hb := h.before j (by rw [List.take_of_length_le hc]; exact this)
        simp [hb]
      · intro _ e he; rw [List.mem_singleton] at he; exact Or.inr (Or.inr (Or.inr ⟨s, he⟩))
    · obtain ⟨id, hid⟩ : ∃ id, ids[c]? = some id := ⟨_, List.getElem?_eq_getElem (by omega)⟩
      obtain ⟨w1, es1, ids1, c1, k1, k2, k3, k4, k5⟩ := h.step hcalm hok arg hid
      rw [k1 fuel] at hrun
      obtain ⟨es2, m1, m2, m3, m4, m5⟩ := ih k4 (Script.ok_events hok es1) hrun
      have hcalls : calls s (Event.call s id (a.cb id) arg :: es1 ++ es2) = id :: calls s es2 := by
        rw [calls_append]
        have : calls s (Event.call s id (a.cb id) arg :: es1) = id :: calls s es1 := by simp [calls]
        rw [this, k3.calls s]; rfl
      refine ⟨Event.call s id (a.cb id) arg :: es1 ++ es2, by rw [m1, k2]; simp, ?_, ?_, ?_, ?_⟩
      · intro e he t i cb b heq
        rcases List.mem_append.mp he with he | he
        · rcases List.mem_cons.mp he with rfl | he
          · cases heq; exact ⟨rfl, rfl⟩
          · exact absurd heq (k3 e he t i cb b)
        · exact m2 e he t i cb b heq
      · rw [hcalls]; simpa using m3
      · intro j hj
        rw [hcalls]
        have := m4 j (by
          have e : (a.events (Event.call s id (a.cb id) arg :: es1 ++ es2)) = (a.events es1).events es2 := by
            rw [events_append]; rfl
          rw [e] at hj; exact hj)
        simpa using this
      · intro hod e he
        rcases List.mem_append.mp he with he | he
        · rcases List.mem_cons.mp he with rfl | he
          · exact Or.inr (Or.inr (Or.inl ⟨_, _, _, _, rfl⟩))
          · exact Or.inl ((k5 hod).2 e he)
        · exact m5 hod e he

/-- The loop ends if callbacks only disconnect slots. -/
theorem Head.ends {s : Nat} {script : Script} (hcalm : script.ConnectsFirst) (hod : script.OnlyDisconnects) (arg fuel : Nat) {V : List Nat} {w : World} {a : Abs}
    {ids : List Nat} {c : Nat} (h : Head s V w a ids c) (hok : script.Ok a) (hfuel : (ids.drop c).length < fuel) : ∃ w', emitLoop script fuel s arg w = .ok w' := by
  induction fuel generalizing V w a ids c with
  | zero => omega
  | succ fuel ih =>
    by_cases hc : ids.length ≤ c
    · exact ⟨_, h.done script fuel arg hc⟩
    · obtain ⟨id, hid⟩ : ∃ id, ids[c]? = some id := ⟨_, List.getElem?_eq_getElem (by omega)⟩
      obtain ⟨w1, es1, ids1, c1, k1, k2, k3, k4, k5⟩ := h.step hcalm hok arg hid
      rw [k1 fuel]
      exact ih k4 (Script.ok_events hok es1) (by have := (k5 hod).1; omega)

theorem OnlyDisconnects.calm {script : Script} (h : script.OnlyDisconnects) : script.ConnectsFirst :=
  fun tr => ⟨[], script tr, rfl, by simp, h tr⟩

theorem OnlyDisconnects.ok {script : Script} (h : script.OnlyDisconnects) (a : Abs) : script.Ok a := by
  intro tr x hx
  obtain ⟨id, rfl⟩ := h tr x hx
  trivial

/-- The start of the loop. -/
theorem Rel.head {w : World} {a : Abs} (h : Rel w a) {s : Nat} (hs : a.Live s) (arg : Nat) :
    ∃ w0 ids, (∀ script fuel, emit script fuel s arg w = emitLoop script fuel s arg w0) ∧ w0.trace = w.trace ++ [.emit s arg] ∧ Head s [] w0 a ids 0 ∧
      ids.Perm (a.slots s) := by
  obtain ⟨l, hl⟩ := hs
  obtain ⟨ids, it, hg, hp, _⟩ := h.live hl
  obtain ⟨h1, h2⟩ := h.setIter (fun _ => some 0) hg
  refine ⟨(w.setSig s (some ⟨ids.map some, a.grown s, some 0⟩)).record (.emit s arg), ids, ?_, rfl, ?_, by simpa [Abs.slots, hl] using hp⟩
  · intro script fuel; simp only [emit, h1, ok_bind]
  · exact ⟨h2.record _, ⟨l, hl⟩, ⟨a.grown s, by simp [World.record, World.setSig]⟩, by simp, by simp, by simp, by simp⟩

end Verif.Signal
