import Verif.Signal.ModelObj
import Verif.Signal.LemmasEmit

/-! # Signals: objects that hold the guards of their connections -/

namespace Verif.Signal
open Verif.Cpp

/-- The slots are held by guards of the objects they call. -/
def Held (objs : Nat → Option (List (Option Nat))) (a : Abs) : Prop :=
  ∀ id, a.Connected id → ∃ (gs : List (Option Nat)) (k : Nat), objs (a.cb id) = some gs ∧ gs[k]? = some (some id)

structure Inv (p : Prog) (a : Abs) : Prop where
  rel : Rel p.world a
  whole : ∀ s, a.conn s ≠ .hollow
  held : Held p.objs a
  acc : ∀ o, (p.objs o).isSome = exists_ o p.log
  calls : CallsExisting p.log

theorem connected_disconnect {a : Abs} {id j : Nat} : (a.disconnect id).Connected j ↔ a.Connected j ∧ j ≠ id := by
  simp only [Abs.Connected, Abs.slots, Abs.disconnect]
  constructor
  · rintro ⟨s, hs⟩
    cases hc : a.conn s with
    | absent => simp [hc, Status.map] at hs
    | hollow => simp [hc, Status.map] at hs
    | live l =>
      simp only [hc, Status.map, List.mem_filter, decide_eq_true_eq] at hs
      exact ⟨⟨s, by simpa [hc] using hs.1⟩, hs.2⟩
  · rintro ⟨⟨s, hs⟩, hne⟩
    refine ⟨s, ?_⟩
    cases hc : a.conn s with
    | absent => simp [hc] at hs
    | hollow => simp [hc] at hs
    | live l =>
      simp only [hc] at hs
      simp only [Status.map, List.mem_filter, decide_eq_true_eq]
      exact ⟨hs, hne⟩

theorem whole_disconnect {a : Abs} (h : ∀ s, a.conn s ≠ .hollow) (id s : Nat) : (a.disconnect id).conn s ≠ .hollow := by
  have := h s
  simp only [Abs.disconnect]
  cases hc : a.conn s <;> simp_all [Status.map]

/-- The effect of `guardDisconnect`. -/
def Abs.unguard (a : Abs) : Option Nat → Abs
  | none => a
  | some id => a.disconnect id

theorem connected_unguard {a : Abs} {c : Option Nat} {j : Nat} : (a.unguard c).Connected j ↔ a.Connected j ∧ c ≠ some j := by
  cases c with
  | none => simp [Abs.unguard]
  | some id => simp only [Abs.unguard, connected_disconnect]; constructor <;> rintro ⟨h1, h2⟩ <;> exact ⟨h1, by simpa [eq_comm] using h2⟩

theorem whole_unguard {a : Abs} (h : ∀ s, a.conn s ≠ .hollow) (c : Option Nat) (s : Nat) : (a.unguard c).conn s ≠ .hollow := by
  cases c with
  | none => exact h s
  | some id => exact whole_disconnect h id s

theorem live_unguard {a : Abs} {s : Nat} (h : a.Live s) (c : Option Nat) : (a.unguard c).Live s := by
  cases c with
  | none => exact h
  | some id => exact live_event h (.disconnect id)

theorem cb_unguard (a : Abs) (c : Option Nat) : (a.unguard c).cb = a.cb := by cases c <;> rfl
theorem next_unguard (a : Abs) (c : Option Nat) : (a.unguard c).next = a.next := by cases c <;> rfl

theorem Rel.unguard {w : World} {a : Abs} (h : Rel w a) (c : Option Nat) : ∃ w', guardDisconnect c w = .ok w' ∧ Rel w' (a.unguard c) := by
  cases c with
  | none => exact ⟨w, rfl, h⟩
  | some id =>
    obtain ⟨w', e, r, _⟩ := h.disconnect id
    exact ⟨w', e, r⟩

/-- The effect of the destruction of guards. -/
def Abs.unguardAll (a : Abs) : List (Option Nat) → Abs
  | [] => a
  | c :: cs => (a.unguardAll cs).unguard c

theorem unguardAll_facts {w : World} {a : Abs} (h : Rel w a) (hw : ∀ s, a.conn s ≠ .hollow) (gs : List (Option Nat)) :
    (∃ w', destroyGuards gs w = .ok w' ∧ Rel w' (a.unguardAll gs)) ∧ (∀ s, (a.unguardAll gs).conn s ≠ .hollow) ∧
      (∀ s, a.Live s → (a.unguardAll gs).Live s) ∧ (a.unguardAll gs).cb = a.cb ∧
      ∀ j, (a.unguardAll gs).Connected j ↔ a.Connected j ∧ some j ∉ gs := by
  induction gs with
  | nil => exact ⟨⟨w, rfl, h⟩, hw, fun _ hs => hs, rfl, by simp [Abs.unguardAll]⟩
  | cons c cs ih =>
    obtain ⟨⟨w1, e1, r1⟩, hw1, hl1, hc1, hj1⟩ := ih
    obtain ⟨w2, e2, r2⟩ := r1.unguard c
    refine ⟨⟨w2, ?_, r2⟩, whole_unguard hw1 c, fun s hs => live_unguard (hl1 s hs) c, ?_, ?_⟩
    · simp only [destroyGuards, e1, ok_bind, e2]
    · simp only [Abs.unguardAll, cb_unguard, hc1]
    · intro j
      simp only [Abs.unguardAll, connected_unguard, hj1, List.mem_cons, not_or]
      constructor
      · rintro ⟨⟨h1, h2⟩, h3⟩; exact ⟨h1, fun e => h3 e.symm, h2⟩
      · rintro ⟨h1, h2, h3⟩; exact ⟨⟨h1, h3⟩, fun e => h2 e.symm⟩

theorem isSome_live {w : World} {a : Abs} (h : Rel w a) (hw : ∀ s, a.conn s ≠ .hollow) (s : Nat) : (w.sigs s).isSome = true ↔ a.Live s := by
  have hr := h.sig s
  cases hc : a.conn s with
  | absent =>
    rw [hc] at hr
    simp only [SigRel] at hr
    simp [hr, Abs.Live, hc]
  | hollow => exact absurd hc (hw s)
  | live l =>
    obtain ⟨ids, it, e, _⟩ := h.live hc
    simp [e, Abs.Live, hc]

theorem isSome_absent {w : World} {a : Abs} (h : Rel w a) (hw : ∀ s, a.conn s ≠ .hollow) {s : Nat} (hs : (w.sigs s).isSome = false) : a.conn s = .absent := by
  cases hc : a.conn s with
  | absent => rfl
  | hollow => exact absurd hc (hw s)
  | live l =>
    have := (isSome_live h hw s).mpr ⟨l, hc⟩
    rw [hs] at this; cases this

/-- An outcome that keeps the invariant and the signals. -/
def GoodO (a : Abs) (r : M Prog) : Prop := r = .error .diverge ∨ ∃ p' a', r = .ok p' ∧ Inv p' a' ∧ ∀ s, a.Live s → a'.Live s

theorem GoodO.bind {a : Abs} {r : M Prog} {f : Prog → M Prog} (h : GoodO a r)
    (hf : ∀ p' a', Inv p' a' → (∀ s, a.Live s → a'.Live s) → GoodO a' (f p')) : GoodO a (r >>= f) := by
  rcases h with rfl | ⟨p', a', rfl, hi, hl⟩
  · exact .inl rfl
  · rcases hf p' a' hi hl with e | ⟨p'', a'', e, hi', hl'⟩
    · exact .inl (by rw [ok_bind, e])
    · exact .inr ⟨p'', a'', by rw [ok_bind, e], hi', fun s hs => hl' s (hl s hs)⟩

theorem exists_append (o : Nat) (log : List Happening) (e : Happening) : exists_ o (log ++ [e]) = (match e with
    | .act (.create i _) => if i = o then true else exists_ o log
    | .act (.destroy i) => if i = o then false else exists_ o log
    | _ => exists_ o log) := by
  simp only [exists_, List.foldl_append, List.foldl_cons, List.foldl_nil]
  rfl

theorem CallsExisting.act {log : List Happening} (h : CallsExisting log) (x : Act) : CallsExisting (log ++ [.act x]) := by
  intro before s o arg after e
  rcases List.eq_nil_or_concat after with rfl | ⟨l, y, rfl⟩
  · have := congrArg List.getLast? e
    simp at this
  · have e' : log ++ [.act x] = (before ++ .call s o arg :: l) ++ [y] := by rw [e]; simp
    exact h before s o arg l (List.append_inj_left' e' rfl)

theorem CallsExisting.call {log : List Happening} (h : CallsExisting log) (s o arg : Nat) (ho : exists_ o log = true) : CallsExisting (log ++ [.call s o arg]) := by
  intro before s' o' arg' after e
  rcases List.eq_nil_or_concat after with rfl | ⟨l, y, rfl⟩
  · obtain ⟨e1, e2⟩ := List.append_inj' e rfl
    simp only [List.cons.injEq, Happening.call.injEq, and_true] at e2
    rw [← e1, ← e2.2.1]; exact ho
  · have e' : log ++ [.call s o arg] = (before ++ .call s' o' arg' :: l) ++ [y] := by rw [e]; simp
    exact h before s' o' arg' l (List.append_inj_left' e' rfl)

/-- An act that does not create or destroy objects leaves the log right. -/
theorem Inv.note {p : Prog} {a : Abs} (h : Inv p a) {x : Act} (h1 : ∀ o n, x ≠ .create o n) (h2 : ∀ o, x ≠ .destroy o) : Inv (p.record (.act x)) a := by
  refine ⟨h.rel, h.whole, h.held, ?_, h.calls.act x⟩
  intro o
  show (p.objs o).isSome = exists_ o (p.log ++ [.act x])
  rw [exists_append, h.acc o]
  cases x <;> simp_all

/-- The part of the invariant that does not speak of the log. -/
theorem destroyObj_ok {p : Prog} {a : Abs} (hr : Rel p.world a) (hw : ∀ s, a.conn s ≠ .hollow) (hh : Held p.objs a) (o : Nat) :
    ∃ w' a', destroyObj o p = .ok ⟨w', update p.objs o none, p.log⟩ ∧ Rel w' a' ∧ (∀ s, a'.conn s ≠ .hollow) ∧ (∀ s, a.Live s → a'.Live s) ∧
      Held (update p.objs o none) a' ∧ ∀ id, a'.Connected id → a'.cb id ≠ o := by
  cases ho : p.objs o with
  | none =>
    have hu : update p.objs o none = p.objs := by funext j; unfold update; split <;> simp_all
    refine ⟨p.world, a, ?_, hr, hw, fun _ hs => hs, by rw [hu]; exact hh, ?_⟩
    · simp only [destroyObj, ho, hu]; rfl
    · intro id hid e
      obtain ⟨gs, k, e1, _⟩ := hh id hid
      rw [e, ho] at e1; cases e1
  | some gs =>
    obtain ⟨⟨w', e, r⟩, hw', hl', hc', hj'⟩ := unguardAll_facts hr hw gs
    have hne : ∀ id, (a.unguardAll gs).Connected id → a.cb id ≠ o := by
      intro id hid e
      obtain ⟨h1, h2⟩ := (hj' id).mp hid
      obtain ⟨gs', k, e1, e2⟩ := hh id h1
      rw [e, ho] at e1; cases e1
      exact h2 (List.mem_of_getElem? e2)
    refine ⟨w', _, ?_, r, hw', hl', ?_, ?_⟩
    · simp only [destroyObj, ho, e, ok_bind]; rfl
    · intro id hid
      obtain ⟨gs', k, e1, e2⟩ := hh id ((hj' id).mp hid).1
      exact ⟨gs', k, by rw [hc', update_ne _ _ (hne id hid)]; exact e1, e2⟩
    · intro id hid
      rw [hc']; exact hne id hid

theorem connected_connect {a : Abs} {s cb j : Nat} (hs : a.Live s) : (a.connect s cb).Connected j ↔ a.Connected j ∨ j = a.next := by
  obtain ⟨l, hl⟩ := hs
  have hslots : ∀ t, (a.connect s cb).slots t = if t = s then a.slots s ++ [a.next] else a.slots t := by
    intro t
    by_cases ht : t = s
    · subst ht; simp [Abs.slots, Abs.connect]
    · simp [Abs.slots, Abs.connect, update_ne _ _ ht, ht]
  simp only [Abs.Connected, hslots]
  constructor
  · rintro ⟨t, ht⟩
    split at ht
    · rcases List.mem_append.mp ht with h | h
      · exact .inl ⟨s, h⟩
      · exact .inr (by simpa using h)
    · exact .inl ⟨t, ht⟩
  · rintro (⟨t, ht⟩ | rfl)
    · refine ⟨t, ?_⟩
      split
      · next e => subst e; simp [ht]
      · exact ht
    · exact ⟨s, by simp⟩

theorem Rel.connected_lt {w : World} {a : Abs} (h : Rel w a) {id : Nat} (hc : a.Connected id) : id < a.next := by
  have := (h.connected id).mp hc
  simp only [isConnected] at this
  cases hx : w.heap id with
  | none => rw [hx] at this; cases this
  | some x => rw [h.next]; exact h.fresh id x hx

theorem connectObj_good {p : Prog} {a : Abs} (h : Inv p a) (o k : Nat) {s : Nat} (hs : a.Live s) : GoodO a (connectObj o k s p) := by
  unfold connectObj
  cases ho : p.objs o with
  | none => exact .inr ⟨p, a, rfl, h, fun _ hs => hs⟩
  | some gs =>
    dsimp only
    cases hk : gs[k]? with
    | none => exact .inr ⟨p, a, rfl, h, fun _ hs => hs⟩
    | some c =>
      dsimp only
      obtain ⟨w1, e1, r1⟩ := h.rel.unguard c
      have hs1 := live_unguard hs c
      obtain ⟨w2, e2, r2, _⟩ := r1.connect hs1 o
      simp only [guardDisconnect] at e1
      have hg : guardConnect c s o p.world = .ok (w2, some a.next) := by
        rw [guardConnect, e1, ok_bind, e2, ok_bind, next_unguard]; rfl
      refine .inr ⟨⟨w2, update p.objs o (some (gs.set k (some a.next))), p.log⟩, (a.unguard c).connect s o, by rw [hg, ok_bind]; rfl, ⟨r2, ?_, ?_, ?_, h.calls⟩, ?_⟩
      · intro t
        by_cases ht : t = s
        · subst ht; simp [Abs.connect]
        · simp only [Abs.connect, update_ne _ _ ht]; exact whole_unguard h.whole c t
      · intro id hid
        have hklt : k < gs.length := (List.getElem?_eq_some_iff.mp hk).1
        rcases (connected_connect hs1).mp hid with hid | rfl
        · obtain ⟨h1, h2⟩ := connected_unguard.mp hid
          obtain ⟨gs', j, e1, e2⟩ := h.held id h1
          have hlt := r1.connected_lt hid
          have hcb : ((a.unguard c).connect s o).cb id = a.cb id := by
            simp only [Abs.connect, cb_unguard]
            exact update_ne _ _ (by omega)
          rw [hcb]
          by_cases hoo : a.cb id = o
          · rw [hoo, ho] at e1; cases e1
            refine ⟨gs.set k (some a.next), j, by rw [hoo]; simp, ?_⟩
            have hjk : k ≠ j := by rintro rfl; rw [hk] at e2; exact h2 (by simpa using e2)
            rw [List.getElem?_set_ne hjk]; exact e2
          · exact ⟨gs', j, by dsimp only; rw [update_ne _ _ hoo]; exact e1, e2⟩
        · refine ⟨gs.set k (some a.next), k, ?_, ?_⟩
          · simp [Abs.connect]
          · rw [next_unguard, List.getElem?_set_self hklt]
      · intro j
        show (update p.objs o _ j).isSome = _
        rw [← h.acc j]
        by_cases hj : j = o
        · subst hj; simp [ho]
        · rw [update_ne _ _ hj]
      · intro t ht
        by_cases hts : t = s
        · subst hts; exact ⟨(a.unguard c).slots t ++ [(a.unguard c).next], by simp [Abs.connect]⟩
        · obtain ⟨l, hl⟩ := live_unguard ht c
          exact ⟨l, by simp only [Abs.connect, update_ne _ _ hts]; exact hl⟩

theorem disconnectObj_good {p : Prog} {a : Abs} (h : Inv p a) (o k : Nat) : GoodO a (disconnectObj o k p) := by
  unfold disconnectObj
  cases ho : p.objs o with
  | none => exact .inr ⟨p, a, rfl, h, fun _ hs => hs⟩
  | some gs =>
    dsimp only
    cases hk : gs[k]? with
    | none => exact .inr ⟨p, a, rfl, h, fun _ hs => hs⟩
    | some c =>
      dsimp only
      obtain ⟨w1, e1, r1⟩ := h.rel.unguard c
      refine .inr ⟨⟨w1, p.objs, p.log⟩, a.unguard c, by rw [e1, ok_bind]; rfl, ⟨r1, whole_unguard h.whole c, ?_, h.acc, h.calls⟩, fun s hs => live_unguard hs c⟩
      intro id hid
      obtain ⟨h1, _⟩ := connected_unguard.mp hid
      rw [cb_unguard]
      exact h.held id h1

theorem connected_clear {a : Abs} {s j : Nat} (h : (a.clear s).Connected j) : a.Connected j := by
  obtain ⟨t, ht⟩ := h
  by_cases hts : t = s
  · subst hts; simp [Abs.slots, Abs.clear] at ht
  · exact ⟨t, by simpa [Abs.slots, Abs.clear, update_ne _ _ hts] using ht⟩

theorem Act.good {em : Nat → Nat → Prog → M Prog} (hem : ∀ s arg p a, Inv p a → a.Live s → GoodO a (em s arg p)) (x : Act) {p : Prog} {a : Abs} (h : Inv p a) :
    GoodO a (x.run em (p.record (.act x))) := by
  have here : (∀ o n, x ≠ .create o n) → (∀ o, x ≠ .destroy o) → GoodO a (pure (p.record (.act x))) :=
    fun h1 h2 => .inr ⟨_, a, rfl, h.note h1 h2, fun _ hs => hs⟩
  cases x with
  | create o n =>
    obtain ⟨w', a', e, r, hw, hl, hh, hne⟩ := destroyObj_ok (p := p.record (.act (.create o n))) h.rel h.whole h.held o
    refine .inr ⟨_, a', by simp only [Act.run, e, ok_bind]; rfl, ⟨r, hw, ?_, ?_, h.calls.act _⟩, hl⟩
    · intro id hid
      obtain ⟨gs, k, e1, e2⟩ := hh id hid
      exact ⟨gs, k, by dsimp only; rw [update_ne _ _ (hne id hid)]; exact e1, e2⟩
    · intro j
      show _ = exists_ j (p.log ++ [.act (.create o n)])
      rw [exists_append]
      by_cases hj : j = o
      · subst hj; simp
      · simp only [update_ne _ _ hj, show ¬ o = j from fun e => hj e.symm, if_false]
        exact h.acc j
  | destroy o =>
    obtain ⟨w', a', e, r, hw, hl, hh, hne⟩ := destroyObj_ok (p := p.record (.act (.destroy o))) h.rel h.whole h.held o
    refine .inr ⟨_, a', by simp only [Act.run, e]; rfl, ⟨r, hw, hh, ?_, h.calls.act _⟩, hl⟩
    intro j
    show _ = exists_ j (p.log ++ [.act (.destroy o)])
    rw [exists_append]
    by_cases hj : j = o
    · subst hj; simp
    · simp only [update_ne _ _ hj, show ¬ o = j from fun e => hj e.symm, if_false]
      exact h.acc j
  | connect o k s =>
    have h' := h.note (x := .connect o k s) (by simp) (by simp)
    simp only [Act.run]
    split
    · next hs => exact connectObj_good h' o k ((isSome_live h.rel h.whole s).mp hs)
    · exact here (by simp) (by simp)
  | disconnect o k => exact disconnectObj_good (h.note (by simp) (by simp)) o k
  | newSignal s =>
    have h' := h.note (x := .newSignal s) (by simp) (by simp)
    simp only [Act.run]
    split
    · exact here (by simp) (by simp)
    · next hs =>
      have habs : a.conn s = .absent := isSome_absent h.rel h.whole (by simpa [Prog.record] using hs)
      have hconn : ∀ id, (a.create s).Connected id → a.Connected id := by
        rintro id ⟨t, ht⟩
        by_cases hts : t = s
        · subst hts; simp [Abs.slots, Abs.create] at ht
        · exact ⟨t, by simpa [Abs.slots, Abs.create, update_ne _ _ hts] using ht⟩
      refine .inr ⟨_, a.create s, rfl, ⟨h.rel.newSignal habs, ?_, fun id hid => h.held id (hconn id hid), h'.acc, h'.calls⟩, ?_⟩
      · intro t
        by_cases hts : t = s
        · subst hts; simp [Abs.create]
        · simp only [Abs.create, update_ne _ _ hts]; exact h.whole t
      · rintro t ⟨l, hl⟩
        by_cases hts : t = s
        · subst hts; exact ⟨[], by simp [Abs.create]⟩
        · exact ⟨l, by simp only [Abs.create, update_ne _ _ hts]; exact hl⟩
  | clear s =>
    have h' := h.note (x := .clear s) (by simp) (by simp)
    simp only [Act.run]
    split
    · next hs =>
      obtain ⟨l, hl⟩ := (isSome_live h.rel h.whole s).mp hs
      obtain ⟨w', e, r, _⟩ := h.rel.clear (s := s) (by rw [hl]; simp)
      refine .inr ⟨⟨w', p.objs, p.log ++ [Happening.act (Act.clear s)]⟩, a.clear s, by rw [show (p.record (.act (.clear s))).world = p.world from rfl, e, ok_bind]; rfl,
        ⟨r, ?_, fun id hid => h.held id (connected_clear hid), h'.acc, h'.calls⟩, fun t ht => live_event ht (.clear s)⟩
      intro t
      by_cases hts : t = s
      · subst hts; simp [Abs.clear]
      · simp only [Abs.clear, update_ne _ _ hts]; exact h.whole t
    · exact here (by simp) (by simp)
  | emit s arg =>
    have h' := h.note (x := .emit s arg) (by simp) (by simp)
    simp only [Act.run]
    split
    · next hs => exact hem s arg _ a h' ((isSome_live h.rel h.whole s).mp hs)
    · exact here (by simp) (by simp)

theorem runActs_good {em : Nat → Nat → Prog → M Prog} (hem : ∀ s arg p a, Inv p a → a.Live s → GoodO a (em s arg p)) (xs : List Act) {p : Prog} {a : Abs}
    (h : Inv p a) : GoodO a (runActs em xs p) := by
  induction xs generalizing p a with
  | nil => exact .inr ⟨p, a, rfl, h, fun _ hs => hs⟩
  | cons x xs ih => exact (x.good hem h).bind (fun p' a' h' _ => ih h')

theorem setIter_goodO {p : Prog} {a : Abs} (h : Inv p a) {s : Nat} (hs : a.Live s) (f : Option Nat → Option Nat) :
    ∃ w', setIter s f p.world = .ok w' ∧ Inv ⟨w', p.objs, p.log⟩ a := by
  obtain ⟨l, hl⟩ := hs
  obtain ⟨ids, it, hg, _⟩ := h.rel.live hl
  obtain ⟨h1, h2⟩ := h.rel.setIter f hg
  exact ⟨_, h1, h2, h.whole, h.held, h.acc, h.calls⟩

theorem emitLoopObj_good (methods : Methods) (fuel : Nat) {s : Nat} (arg : Nat) {p : Prog} {a : Abs} (h : Inv p a) (hs : a.Live s) :
    GoodO a (emitLoopObj methods fuel s arg p) := by
  induction fuel generalizing s arg p a with
  | zero => exact .inl rfl
  | succ fuel ih =>
    obtain ⟨l, hl⟩ := hs
    obtain ⟨ids, it, hg, hp, _⟩ := h.rel.live hl
    simp only [emitLoopObj, currentSlot_ok h.rel hg, ok_bind]
    have hdone : GoodO a (pure p) := .inr ⟨p, a, rfl, h, fun _ hs => hs⟩
    cases it with
    | none => exact hdone
    | some i =>
      cases hi : ids[i]? with
      | none => simp only [hi, Option.map_none]; exact hdone
      | some id =>
        simp only [hi, Option.map_some]
        have hmem : id ∈ l := hp.mem_iff.mp (List.mem_of_getElem? hi)
        obtain ⟨gs, k, ho, _⟩ := h.held id ⟨s, by simpa [Abs.slots, hl] using hmem⟩
        simp only [ho, Option.isSome_some, guardUB_true, ok_bind]
        have hcall : Inv (p.record (.call s (a.cb id) arg)) a := by
          refine ⟨h.rel, h.whole, h.held, ?_, ?_⟩
          · intro o
            show _ = exists_ o (p.log ++ [.call s (a.cb id) arg])
            rw [exists_append]; exact h.acc o
          · exact h.calls.call s _ arg (by rw [← h.acc, ho]; rfl)
        refine (runActs_good ?_ _ hcall).bind ?_
        · intro s' arg' p' a' h' hs'
          obtain ⟨w1, e1, i1⟩ := setIter_goodO h' hs' (fun _ => some 0)
          rw [e1, ok_bind]
          exact ih arg' i1 hs'
        · intro p' a' h' hl'
          obtain ⟨w1, e1, i1⟩ := setIter_goodO h' (hl' s ⟨l, hl⟩) iterInc
          rw [e1, ok_bind]
          exact ih arg i1 (hl' s ⟨l, hl⟩)

theorem emitObj_good (methods : Methods) (fuel : Nat) {s : Nat} (arg : Nat) {p : Prog} {a : Abs} (h : Inv p a) (hs : a.Live s) :
    GoodO a (emitObj methods fuel s arg p) := by
  obtain ⟨w1, e1, i1⟩ := setIter_goodO h hs (fun _ => some 0)
  rw [emitObj, e1, ok_bind]
  exact emitLoopObj_good methods fuel arg i1 hs

/-- The invariant after a step of the program. -/
def GoodS (r : M Prog) : Prop := r = .error .diverge ∨ ∃ p' a', r = .ok p' ∧ Inv p' a'

theorem Step.good (methods : Methods) (fuel : Nat) (x : Step) {p : Prog} {a : Abs} (h : Inv p a) : GoodS (x.run methods fuel p) := by
  cases x with
  | act x =>
    rcases x.good (em := emitObj methods fuel) (fun s arg p a h hs => emitObj_good methods fuel arg h hs) h with e | ⟨p', a', e, i, _⟩
    · exact .inl e
    · exact .inr ⟨p', a', e, i⟩
  | destroySignal s =>
    simp only [Step.run]
    split
    · next hs =>
      obtain ⟨l, hl⟩ := (isSome_live h.rel h.whole s).mp hs
      obtain ⟨w', e, r, _⟩ := h.rel.destroy (s := s) (by rw [hl]; simp)
      refine .inr ⟨⟨w', p.objs, p.log⟩, a.destroy s, by rw [e, ok_bind]; rfl, r, ?_, ?_, h.acc, h.calls⟩
      · intro t
        by_cases hts : t = s
        · subst hts; simp [Abs.destroy]
        · simp only [Abs.destroy, update_ne _ _ hts]; exact h.whole t
      · rintro id ⟨t, ht⟩
        refine h.held id ⟨t, ?_⟩
        by_cases hts : t = s
        · subst hts; simp [Abs.slots, Abs.destroy] at ht
        · simpa [Abs.slots, Abs.destroy, update_ne _ _ hts] using ht
    · exact .inr ⟨p, a, rfl, h⟩

theorem runSteps_good (methods : Methods) (fuel : Nat) (xs : List Step) {p : Prog} {a : Abs} (h : Inv p a) : GoodS (runSteps methods fuel xs p) := by
  induction xs generalizing p a with
  | nil => exact .inr ⟨p, a, rfl, h⟩
  | cons x xs ih =>
    rcases x.good methods fuel h with e | ⟨p', a', e, i⟩
    · exact .inl (by simp only [runSteps, e]; rfl)
    · simp only [runSteps, e, ok_bind]; exact ih i

theorem inv_empty : Inv .empty .empty := by
  refine ⟨rel_empty, by simp [Abs.empty], ?_, fun _ => rfl, ?_⟩
  · rintro id ⟨s, hs⟩; simp [Abs.slots, Abs.empty] at hs
  · intro before s o arg after e
    have := congrArg List.length e
    simp [Prog.empty] at this

end Verif.Signal
