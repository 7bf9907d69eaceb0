import Verif.Signal.Props

/-! # Signals: the properties C42, C43 and C67 -/

namespace Verif.Signal
open Verif.Cpp

/-! ## C42: callbacks that connect slots -/

/-- Callbacks that connect slots and then disconnect slots: if the emission ends, no slot has been called twice and every slot of this signal that is connected at the end has been
called; in particular every slot connected at the start and never disconnected. -/
theorem C42_connecting_partial {w w' : World} {a : Abs} (h : Reached w a) {script : Script} (hcalm : script.ConnectsFirst) (hok : script.Ok a) {s : Nat} {l : List Nat}
    (hs : a.conn s = .live l) (arg fuel : Nat) (hrun : emit script fuel s arg w = .ok w') :
    ∃ es, w'.trace = w.trace ++ es ∧ Valid a es ∧ Reached w' (a.events es) ∧ (calls s es).Nodup ∧ (∀ id ∈ (a.events es).slots s, id ∈ calls s es) ∧
      (∀ id ∈ l, Event.disconnect id ∉ es → (∀ t, Event.clear t ∉ es) → id ∈ calls s es) ∧ ∀ e ∈ es, ∀ t id cb b, e = .call t id cb b → t = s ∧ b = arg := by
  obtain ⟨es, k1, k2, k3, k4, _⟩ := calm_emit (reached_rel h) hcalm hok ⟨l, hs⟩ arg fuel hrun
  rcases C39_safe h hok ⟨l, hs⟩ arg fuel with e | ⟨w1, es1, m1, m2, m3, m4, _⟩
  · rw [e] at hrun; cases hrun
  · rw [m1] at hrun; cases hrun
    rw [m2, List.append_cancel_left_eq] at k1
    subst k1
    refine ⟨es1, m2, m3, m4, k3, k4, ?_, k2⟩
    intro id hid hd hc
    exact k4 id (conn_of_disconnects (by simpa [Abs.slots, hs] using hid) hd hc)

theorem Rel.perm_slots {w : World} {a : Abs} (h : Rel w a) {s : Nat} (hs : a.Live s) {ids : List Nat} {fb : Bool} {it : Option Nat}
    (hg : w.sigs s = some ⟨ids.map some, fb, it⟩) : ids.Perm (a.slots s) := by
  obtain ⟨l, hl⟩ := hs
  obtain ⟨ids', it', hg', hp, _⟩ := h.live hl
  rw [hg] at hg'
  simp only [Option.some.injEq, Sig.mk.injEq] at hg'
  have : ids = ids' := (List.map_injective_iff.mpr (fun _ _ => Option.some.inj)) hg'.1
  subst this
  simpa [Abs.slots, hl] using hp

/-- The call of the slot at the iterator. -/
theorem Head.call {s : Nat} {V : List Nat} {w : World} {a : Abs} {ids : List Nat} {c id : Nat} (h : Head s V w a ids c) (arg : Nat) (hid : ids[c]? = some id) :
    Mid s (V ++ [id]) (w.record (.call s id (a.cb id) arg)) a ids (some c) ∧ (V ++ [id]).Nodup := by
  obtain ⟨fb, hg⟩ := h.sig
  have hcl : c < ids.length := by by_contra hc; rw [List.getElem?_eq_none (by omega)] at hid; cases hid
  have hidc : ids[c] = id := by rw [List.getElem?_eq_getElem hcl] at hid; exact Option.some.inj hid
  have hdrop : ids.drop c = id :: ids.drop (c + 1) := by rw [List.drop_eq_getElem_cons hcl, hidc]
  have htake : ids.take (c + 1) = ids.take c ++ [id] := by rw [List.take_succ_eq_append_getElem hcl, hidc]
  have hn := h.rel.ids_nodup hg
  have hidV : id ∉ V := h.after id (by rw [hdrop]; simp)
  refine ⟨⟨h.rel.record _, h.live, ⟨fb, hg⟩, ?_, ?_, ?_⟩, ?_⟩
  · intro j hj
    simp only [cursor] at hj
    rw [htake] at hj
    rcases List.mem_append.mp hj with hj | hj
    · simp [h.before j hj]
    · simp_all
  · intro j hj
    simp only [cursor] at hj
    rw [List.mem_append, not_or]
    refine ⟨h.after j (by rw [hdrop]; simp [hj]), ?_⟩
    rw [List.mem_singleton]
    rintro rfl
    have : (ids.drop c).Nodup := hn.drop
    rw [hdrop, List.nodup_cons] at this
    exact this.1 hj
  · intro j hj
    rcases List.mem_append.mp hj with hj | hj
    · exact h.old j hj
    · rw [List.mem_singleton] at hj
      subst hj
      obtain ⟨x, hx, _⟩ := (h.rel.heap_iff hg j).mp (List.mem_of_getElem? hid)
      exact h.rel.fresh j x hx
  · rw [List.nodup_append]
    exact ⟨h.nodup, by simp, by intro x hx y hy; rw [List.mem_singleton] at hy; subst hy; rintro rfl; exact hidV hx⟩

/-- The end of a callback. -/
theorem Mid.next {s : Nat} {V : List Nat} {w : World} {a : Abs} {ids : List Nat} {it : Option Nat} (h : Mid s V w a ids it) (hV : V.Nodup) :
    ∃ w', setIter s iterInc w = .ok w' ∧ w'.trace = w.trace ∧ Head s V w' a ids (cursor it) := by
  obtain ⟨fb, hg⟩ := h.sig
  obtain ⟨i1, i2⟩ := h.rel.setIter iterInc hg
  exact ⟨_, i1, rfl, i2, h.live, ⟨fb, by simp [World.setSig, iterInc_cursor]⟩, h.before, h.after, h.old, hV⟩

/-- One iteration, in terms of the actions of the callback. -/
theorem Head.iterate {s : Nat} {V : List Nat} {w w1 w2 : World} {a : Abs} {ids : List Nat} {c id : Nat} (h : Head s V w a ids c) {script : Script} (arg fuel : Nat)
    (hid : ids[c]? = some id)
    (hrun : runActions (fun s a w => do
        let w ← setIter s (fun _ => some 0) w
        emitLoop script fuel s a (w.record (.emit s a))) (script (w.trace ++ [.call s id (a.cb id) arg])) (w.record (.call s id (a.cb id) arg)) = .ok w1)
    (hset : setIter s iterInc w1 = .ok w2) : emitLoop script (fuel + 1) s arg w = emitLoop script fuel s arg w2 := by
  obtain ⟨fb, hg⟩ := h.sig
  have hrun' := hrun
  simp only [emitLoop, currentSlot_ok h.rel hg, ok_bind, hid, Option.map_some]
  have e : (w.record (.call s id (a.cb id) arg)).trace = w.trace ++ [.call s id (a.cb id) arg] := rfl
  rw [e, hrun]
  simp only [ok_bind, hset]

/-- The first callback of an emission renews its connection: it disconnects its slot and connects a callback. -/
def renewFirst (cb : Nat) : Script := fun tr =>
  match tr.reverse with
  | .call s id _ _ :: .emit _ _ :: _ => [.disconnect id, .connect s cb]
  | _ => []

/-- If the first callback that is called disconnects itself and connects a slot, no other slot is called, although they all remain connected. -/
theorem C42_skips_violated {w : World} {a : Abs} (h : Reached w a) {s : Nat} {l : List Nat} (hs : a.conn s = .live l) (hl : 2 ≤ l.length) (arg cb : Nat) {fuel : Nat}
    (hf : 2 ≤ fuel) :
    ∃ w' id, id ∈ l ∧ emit (renewFirst cb) fuel s arg w = .ok w' ∧
      w'.trace = w.trace ++ [.emit s arg, .call s id (a.cb id) arg, .disconnect id, .connect s a.next cb, .done s] ∧ ∀ j ∈ l, j ≠ id → isConnected (some j) w' = true := by
  have hsl : a.slots s = l := by simp [Abs.slots, hs]
  obtain ⟨w0, ids, h1, h2, h3, h4⟩ := (reached_rel h).head ⟨l, hs⟩ arg
  rw [hsl] at h4
  have hlen := h4.length_eq
  obtain ⟨id, hid⟩ : ∃ id, ids[0]? = some id := ⟨_, List.getElem?_eq_getElem (by omega)⟩
  obtain ⟨hm, _⟩ := h3.call arg hid
  obtain ⟨fb, hg⟩ := hm.sig
  obtain ⟨w1, d1, d2, d3, d4, d5⟩ := hm.rel.disconnect id
  obtain ⟨ids', it', hg', hr⟩ := d5 s ids fb _ hg
  have hnod := hm.rel.ids_nodup hg
  have hids : ids.take 1 = [id] := by
    cases ids with
    | nil => simp at hid
    | cons x xs => simp at hid; simp [hid]
  have hlen' : ids'.length = ids.length - 1 := by
    have hp := hr.perm
    obtain ⟨A, B, hAB, _⟩ := split_at hid
    rw [hAB] at hp hnod ⊢
    rw [filter_mid hnod] at hp
    rw [hp.length_eq]; simp
  have hit : it' = none := by
    have hb := hr.before
    simp only [cursor] at hb
    rw [hids] at hb
    simp only [ne_eq, not_true_eq_false, decide_false, Bool.false_eq_true, not_false_eq_true, List.filter_cons_of_neg, List.filter_nil] at hb
    have := hb.length_eq
    rw [List.length_take] at this
    simp only [List.length_nil] at this
    cases it' with
    | none => rfl
    | some i => simp only at this; omega
  subst hit
  obtain ⟨l1, hl1⟩ := live_event (e := .disconnect id) hm.live
  have hlive1 : (a.disconnect id).Live s := ⟨l1, hl1⟩
  obtain ⟨w2, c1, c2, c3, c4, c5, c6⟩ := (d2.record (.disconnect id)).connect hlive1 cb
  have hg2 := c5 _ hg'
  have hsig2 : w2.sigs s = some ⟨(ids' ++ [w1.next]).map some, fb || decide (1 ≤ ids'.length), some (ids'.length + 1)⟩ := by
    rw [hg2]; simp [Sig.connected, iterGe, World.record]
  have hnext : (a.disconnect id).next = a.next := rfl
  obtain ⟨i1, i2⟩ := (c2.record (.connect s a.next cb)).setIter (s := s) iterInc hsig2
  obtain ⟨fuel, rfl⟩ : ∃ f, fuel = f + 2 := ⟨fuel - 2, by omega⟩
  have hscript : renewFirst cb (w0.trace ++ [.call s id (a.cb id) arg]) = [.disconnect id, .connect s cb] := by
    rw [h2]; simp [renewFirst]
  have hit := h3.iterate (script := renewFirst cb) (w1 := w2.record (.connect s a.next cb)) arg (fuel + 1) hid (by
    rw [hscript]
    simp [runActions, Action.run, d1, c1, hnext]) i1
  refine ⟨((w2.record (.connect s a.next cb)).setSig s (some ⟨(ids' ++ [w1.next]).map some, fb || decide (1 ≤ ids'.length), some (ids'.length + 2)⟩)).record (.done s), id,
    h4.mem_iff.mp (List.mem_of_getElem? hid), ?_, ?_, ?_⟩
  · rw [h1, hit]
    simp only [emitLoop]
    rw [currentSlot_ok i2 (ids := ids' ++ [w1.next]) (fb := fb || decide (1 ≤ ids'.length)) (it := some (ids'.length + 2)) (by simp [World.setSig, iterInc])]
    simp only [ok_bind]
    rw [List.getElem?_eq_none (by simp)]
    rfl
  · simp [World.record, World.setSig, c3, d3, h2]
  · intro j hj hne
    have hr' := (i2.record (.done s)).connected j
    refine hr'.mp ⟨s, ?_⟩
    simp only [Abs.connect, Abs.slots, Abs.disconnect, hs, Status.map, update_same]
    simp [hj, hne]

/-- The first callback of an emission connects a callback. -/
def connectFirst (cb : Nat) : Script := fun tr =>
  match tr.reverse with
  | .call s _ _ _ :: .emit _ _ :: _ => [.connect s cb]
  | _ => []

/-- A slot that the first callback connects is called in the same emission. -/
theorem C42_called_now_violated {w : World} {a : Abs} (h : Reached w a) {s : Nat} {l : List Nat} (hs : a.conn s = .live l) (hl : l ≠ []) (arg cb : Nat) {fuel : Nat}
    (hf : l.length + 1 < fuel) :
    ∃ w' es, emit (connectFirst cb) fuel s arg w = .ok w' ∧ w'.trace = w.trace ++ es ∧ Event.call s a.next cb arg ∈ es := by
  have hsl : a.slots s = l := by simp [Abs.slots, hs]
  obtain ⟨w0, ids, h1, h2, h3, h4⟩ := (reached_rel h).head ⟨l, hs⟩ arg
  rw [hsl] at h4
  have hlen := h4.length_eq
  have hl0 : 0 < l.length := List.length_pos_iff.mpr hl
  obtain ⟨id, hid⟩ : ∃ id, ids[0]? = some id := ⟨_, List.getElem?_eq_getElem (by omega)⟩
  obtain ⟨hm, hV⟩ := h3.call arg hid
  obtain ⟨fuel, rfl⟩ : ∃ f, fuel = f + 1 := ⟨fuel - 1, by omega⟩
  obtain ⟨w1, ids1, c1, c2, c3, c4⟩ := hm.connect (by omega) (fun s a w => do
        let w ← setIter s (fun _ => some 0) w
        emitLoop (connectFirst cb) fuel s a (w.record (.emit s a))) ⟨l, hs⟩ cb
  obtain ⟨w2, n1, n2, n3⟩ := c3.next hV
  have hscript : connectFirst cb (w0.trace ++ [.call s id (a.cb id) arg]) = [.connect s cb] := by
    rw [h2]; simp [connectFirst]
  have hit := h3.iterate (script := connectFirst cb) arg fuel hid (by rw [hscript]; simp only [runActions, c1, ok_bind]; rfl) n1
  have hslots : (a.event (.connect s a.next cb)).slots s = l ++ [a.next] := by simp [Abs.event, Abs.connect, Abs.slots, hs]
  obtain ⟨fb, hg1⟩ := c3.sig
  have hperm := c3.rel.perm_slots c3.live hg1
  rw [hslots] at hperm
  have hlen1 := hperm.length_eq
  obtain ⟨w3, c', V', q1, q2, _⟩ := n3.quiet_loop (script := connectFirst cb) (P := fun tr => ∃ tr' e, tr = tr' ++ [e] ∧ ∀ t x, e ≠ .emit t x) arg
    (by
      rintro tr i cb' ⟨tr', e, rfl, he⟩
      simp only [connectFirst, List.reverse_append, List.reverse_cons, List.reverse_nil, List.nil_append, List.cons_append]
      cases e with
      | emit t x => exact absurd rfl (he t x)
      | _ => rfl)
    (by rintro tr i cb' _; exact ⟨_, _, rfl, by simp⟩) fuel ⟨_, _, by rw [n2, c2], by simp⟩ (by
      simp only [cursor]; rw [List.length_drop]; simp at hlen1; omega)
  refine ⟨w3.record (.done s), [.emit s arg, .call s id (a.cb id) arg, .connect s a.next cb] ++
    (ids1.drop 1).map (fun i => .call s i ((a.event (.connect s a.next cb)).cb i) arg) ++ [.done s], by rw [h1, hit]; exact q1, ?_, ?_⟩
  · simp only [World.record]
    rw [q2, n2, c2]
    simp only [World.record]
    rw [h2]
    simp [cursor]
  · simp only [List.mem_append, List.mem_map]
    refine Or.inl (Or.inr ⟨a.next, ?_, ?_⟩)
    · have hmem : a.next ∈ ids1 := hperm.mem_iff.mpr (by simp)
      rw [← List.take_append_drop 1 ids1, List.mem_append] at hmem
      rcases hmem with hm1 | hm1
      · have := c3.before _ hm1
        have := hm.old _ this
        simp only [World.record] at this
        rw [h3.rel.next] at this
        omega
      · exact hm1
    · simp [Abs.event, Abs.connect]

/-- Every callback connects a callback to signal `s`. -/
def connectAlways (s cb : Nat) : Script := fun _ => [.connect s cb]

/-- If each callback connects a slot, the emission runs forever. -/
theorem C42_diverges_violated {w : World} {a : Abs} (h : Reached w a) {s : Nat} {l : List Nat} (hs : a.conn s = .live l) (hl : l ≠ []) (arg cb : Nat) (fuel : Nat) :
    emit (connectAlways s cb) fuel s arg w = .error .diverge := by
  have hsl : a.slots s = l := by simp [Abs.slots, hs]
  obtain ⟨w0, ids, h1, _, h3, h4⟩ := (reached_rel h).head ⟨l, hs⟩ arg
  rw [h1]
  have hl0 : 0 < (a.slots s).length := by rw [hsl]; exact List.length_pos_iff.mpr hl
  clear h1 h4 h hs hsl hl
  suffices key : ∀ (fuel : Nat) (V : List Nat) (w : World) (a : Abs) (ids : List Nat) (c : Nat), Head s V w a ids c → c < (a.slots s).length →
      emitLoop (connectAlways s cb) fuel s arg w = .error .diverge from key fuel _ _ _ _ _ h3 hl0
  intro fuel
  induction fuel with
  | zero => intros; rfl
  | succ fuel ih =>
    intro V w a ids c hh hc
    obtain ⟨fb, hg⟩ := hh.sig
    have hp := hh.rel.perm_slots hh.live hg
    have hcl : c < ids.length := by rw [hp.length_eq]; exact hc
    obtain ⟨id, hid⟩ : ∃ id, ids[c]? = some id := ⟨_, List.getElem?_eq_getElem hcl⟩
    obtain ⟨hm, hV⟩ := hh.call arg hid
    obtain ⟨w1, ids1, c1, c2, c3, c4⟩ := hm.connect hcl (fun s a w => do
        let w ← setIter s (fun _ => some 0) w
        emitLoop (connectAlways s cb) fuel s a (w.record (.emit s a))) hh.live cb
    obtain ⟨w2, n1, n2, n3⟩ := c3.next hV
    rw [hh.iterate (script := connectAlways s cb) arg fuel hid (by
      show runActions _ [.connect s cb] _ = _
      simp only [runActions]
      exact (congrArg (· >>= fun w => pure w) c1).trans rfl) n1]
    refine ih _ _ _ _ _ n3 ?_
    obtain ⟨l, hl⟩ := hh.live
    simp only [Abs.slots, hl] at hc
    simp [Abs.event, Abs.connect, Abs.slots, hl, cursor]
    exact hc

/-! ## C67: emission of a signal by its own callbacks -/

/-- Callbacks that emit their signal again with a smaller argument, down to 0. -/
def emitSmaller : Script := fun tr =>
  match tr.getLast? with
  | some (.call s _ _ (x + 1)) => [.emit s x]
  | _ => []

/-- When the first callback emits the signal again, the inner emission calls every slot, and the outer emission calls no more slots after it. -/
theorem C67_recursive_violated {w : World} {a : Abs} (h : Reached w a) {s : Nat} {l : List Nat} (hs : a.conn s = .live l) (hl : l ≠ []) {fuel : Nat}
    (hf : l.length + 1 < fuel) :
    ∃ w' id cs, id ∈ l ∧ emit emitSmaller fuel s 1 w = .ok w' ∧ cs.Perm (l.map (fun i => Event.call s i (a.cb i) 0)) ∧
      w'.trace = w.trace ++ ([.emit s 1, .call s id (a.cb id) 1, .emit s 0] ++ cs ++ [.done s, .done s]) := by
  have hsl : a.slots s = l := by simp [Abs.slots, hs]
  obtain ⟨w0, ids, h1, h2, h3, h4⟩ := (reached_rel h).head ⟨l, hs⟩ 1
  rw [hsl] at h4
  have hlen := h4.length_eq
  have hl0 : 0 < l.length := List.length_pos_iff.mpr hl
  obtain ⟨id, hid⟩ : ∃ id, ids[0]? = some id := ⟨_, List.getElem?_eq_getElem (by omega)⟩
  obtain ⟨hm, hV⟩ := h3.call 1 hid
  obtain ⟨fuel, rfl⟩ : ∃ f, fuel = f + 1 := ⟨fuel - 1, by omega⟩
  obtain ⟨fb, hg⟩ := hm.sig
  obtain ⟨i1, i2⟩ := hm.rel.setIter (fun _ => some 0) hg
  have hin : Head s [] ((World.setSig (w0.record (.call s id (a.cb id) 1)) s (some ⟨ids.map some, fb, some 0⟩)).record (.emit s 0)) a ids 0 :=
    ⟨i2.record _, hm.live, ⟨fb, by simp [World.record, World.setSig]⟩, by simp, by simp, by simp, by simp⟩
  obtain ⟨w1, c', V', q1, q2, q3, q4⟩ := hin.quiet_loop (script := emitSmaller) (P := fun _ => True) 0 (by intros; simp [emitSmaller]) (fun _ _ _ _ => trivial) fuel trivial
    (by simp; omega)
  obtain ⟨fb', hg'⟩ := q3.sig
  obtain ⟨j1, j2⟩ := (q3.rel.record (.done s)).setIter (s := s) iterInc hg'
  have hit := h3.iterate (script := emitSmaller) 1 fuel hid (w1 := w1.record (.done s)) (by
    have : emitSmaller (w0.trace ++ [.call s id (a.cb id) 1]) = [.emit s 0] := by simp [emitSmaller]
    rw [this]
    simp only [runActions, Action.run, i1, ok_bind, q1]
    rfl) j1
  obtain ⟨fuel, rfl⟩ : ∃ f, fuel = f + 1 := ⟨fuel - 1, by omega⟩
  refine ⟨((w1.record (.done s)).setSig s (some ⟨ids.map some, fb', iterInc (some c')⟩)).record (.done s), id, ids.map (fun i => Event.call s i (a.cb i) 0),
    h4.mem_iff.mp (List.mem_of_getElem? hid), ?_, h4.map _, ?_⟩
  · rw [h1, hit]
    simp only [emitLoop]
    rw [currentSlot_ok j2 (ids := ids) (fb := fb') (it := some (c' + 1)) (by simp [World.setSig, iterInc])]
    simp only [ok_bind]
    rw [List.getElem?_eq_none (by omega)]
    rfl
  · simp only [World.record, World.setSig]
    rw [q2]
    simp only [World.record, World.setSig]
    rw [h2]
    simp

example : ∃ w a, Reached w a ∧ ∃ w' id cs, emit emitSmaller 5 7 1 w = .ok w' ∧ cs.Perm [Event.call 7 0 10 0, .call 7 1 11 0, .call 7 2 12 0] ∧
    w'.trace = w.trace ++ ([.emit 7 1, .call 7 id (a.cb id) 1, .emit 7 0] ++ cs ++ [.done 7, .done 7]) := by
  obtain ⟨w, a, h, h1, _, _, c0, c1, c2, _⟩ := example_reached
  obtain ⟨w', id, cs, _, k1, k2, k3⟩ := C67_recursive_violated h h1 (by simp) (fuel := 5) (by decide)
  exact ⟨w, a, h, w', id, cs, k1, by simpa [c0, c1, c2] using k2, k3⟩

/-! ## Examples for C42 -/

example : ∃ w a, Reached w a ∧ (∀ fuel, emit (connectAlways 7 9) fuel 7 5 w = .error .diverge) ∧
    (∃ w' es, emit (connectFirst 9) 5 7 5 w = .ok w' ∧ w'.trace = w.trace ++ es ∧ Event.call 7 3 9 5 ∈ es) ∧
    ∃ w' id, emit (renewFirst 9) 2 7 5 w = .ok w' ∧ w'.trace = w.trace ++ [.emit 7 5, .call 7 id (a.cb id) 5, .disconnect id, .connect 7 3 9, .done 7] := by
  obtain ⟨w, a, h, h1, _, _, _, _, _, hn⟩ := example_reached
  obtain ⟨w1, es, k1, k2, k3⟩ := C42_called_now_violated h h1 (by simp) 5 9 (fuel := 5) (by decide)
  obtain ⟨w2, id, _, m1, m2, _⟩ := C42_skips_violated h h1 (by decide) 5 9 (fuel := 2) (by decide)
  rw [hn] at k3 m2
  exact ⟨w, a, h, C42_diverges_violated h h1 (by simp) 5 9, ⟨w1, es, k1, k2, k3⟩, w2, id, m1, m2⟩

theorem connectFirst_calm (cb : Nat) : (connectFirst cb).ConnectsFirst := by
  intro tr
  refine ⟨connectFirst cb tr, [], by simp, ?_, by simp⟩
  intro x hx
  simp only [connectFirst] at hx
  split at hx
  · simp at hx; exact ⟨_, _, hx⟩
  · simp at hx

/-- The theorem C42_connecting_partial for callbacks the first of which connects a slot to signal 7. -/
def connectFirst7 : Script := fun tr => if (connectFirst 9 tr).isEmpty then [] else [.connect 7 9]

example : ∃ w a, Reached w a ∧ ∀ fuel w', emit connectFirst7 fuel 7 5 w = .ok w' → ∃ es, w'.trace = w.trace ++ es ∧ (calls 7 es).Nodup := by
  obtain ⟨w, a, h, h1, _⟩ := example_reached
  refine ⟨w, a, h, fun fuel w' hrun => ?_⟩
  obtain ⟨es, k1, _, _, k2, _⟩ := C42_connecting_partial h (script := connectFirst7) (by
    intro tr
    refine ⟨connectFirst7 tr, [], by simp, ?_, by simp⟩
    intro x hx
    simp only [connectFirst7] at hx
    split at hx
    · simp at hx
    · simp at hx; exact ⟨_, _, hx⟩) (by
    intro tr x hx
    simp only [connectFirst7] at hx
    split at hx
    · simp at hx
    · simp at hx; subst hx; exact ⟨_, h1⟩) h1 5 fuel hrun
  exact ⟨es, k1, k2⟩

/-! ## C43: moves -/

/-- An emission of signal `s` (with callbacks that leave signals alone) calls exactly the slots `l`, each once. -/
def EmissionCalls (w : World) (s : Nat) (l : List Nat) (cb : Nat → Nat) : Prop :=
  ∀ arg fuel, l.length < fuel → ∃ w' cs, emit passive fuel s arg w = .ok w' ∧ w'.trace = w.trace ++ ([.emit s arg] ++ cs ++ [.done s]) ∧
    cs.Perm (l.map (fun id => .call s id (cb id) arg))

theorem emissionCalls {w : World} {a : Abs} (h : Reached w a) {s : Nat} {l : List Nat} (hs : a.conn s = .live l) : EmissionCalls w s l a.cb := by
  intro arg fuel hf
  obtain ⟨w', cs, k1, k2, k3, _⟩ := C38_emit h hs arg hf
  exact ⟨w', cs, k1, k2, k3⟩

/-- After move construction the new signal has exactly the slots of the source, each connection is connected as before, and each `Disconnect` acts on the new signal; the source emits
nothing, if it has had two slots at once or had no slot. -/
theorem C43_moveConstruct_partial {w : World} {a : Abs} (h : Reached w a) {s t : Nat} {l : List Nat} (hs : a.conn s = .absent) (ht : a.conn t = .live l) :
    ∃ w' a', moveConstruct s t w = .ok w' ∧ Reached w' a' ∧ a'.conn s = .live l ∧ a'.cb = a.cb ∧ (∀ u, u ≠ s → u ≠ t → a'.conn u = a.conn u) ∧
      EmissionCalls w' s l a.cb ∧ (∀ j, isConnected (some j) w' = isConnected (some j) w) ∧
      (∀ i ∈ l, ∃ w'', disconnect (some i) w' = .ok w'' ∧ EmissionCalls w'' s (l.filter (· ≠ i)) a.cb) ∧
      (a.grown t = true ∨ l = [] → EmissionCalls w' t [] a.cb) := by
  have hst : s ≠ t := by rintro rfl; rw [hs] at ht; cases ht
  have htl : a.slots t = l := by simp [Abs.slots, ht]
  obtain ⟨w', h1, h2⟩ := reached_op h (o := .moveConstruct s t) ⟨hs, ⟨l, ht⟩⟩ (by intros; simp)
  have hc : (Op.spec [] (.moveConstruct s t) a).conn s = .live l := by
    simp [Op.spec, Abs.move, Abs.create, Abs.slots, update_ne _ _ hst, update_ne _ _ (Ne.symm hst), ht]
  refine ⟨w', _, h1, h2, hc, rfl, ?_, emissionCalls h2 hc, ?_, ?_, ?_⟩
  · intro u hus hut
    simp [Op.spec, Abs.move, Abs.create, update_ne _ _ hus, update_ne _ _ hut]
  · intro j
    refine isConnected_abs (reached_rel h2) (reached_rel h) ?_
    constructor
    · rintro ⟨u, hm⟩
      by_cases hut : u = t
      · subst hut
        exfalso
        simp only [Op.spec, Abs.move] at hm
        by_cases hg : (a.create s).grown u = false ∧ (a.create s).slots u ≠ []
        · rw [if_pos hg] at hm; simp [Abs.slots] at hm
        · rw [if_neg hg] at hm; simp [Abs.slots] at hm
      · by_cases hus : u = s
        · subst hus
          simp only [Abs.slots, hc] at hm
          exact ⟨t, by rw [htl]; exact hm⟩
        · refine ⟨u, ?_⟩
          simpa [Op.spec, Abs.move, Abs.create, Abs.slots, update_ne _ _ hus, update_ne _ _ hut] using hm
    · rintro ⟨u, hm⟩
      by_cases hut : u = t
      · subst hut
        refine ⟨s, ?_⟩
        simp only [Abs.slots, hc]
        rw [htl] at hm; exact hm
      · have hus : u ≠ s := by rintro rfl; simp [Abs.slots, hs] at hm
        refine ⟨u, ?_⟩
        simpa [Op.spec, Abs.move, Abs.create, Abs.slots, update_ne _ _ hus, update_ne _ _ hut] using hm
  · intro i _
    obtain ⟨w'', d1, d2⟩ := reached_op h2 (o := .disconnect i) trivial (by intros; simp)
    have hc2 : (Op.spec [] (.disconnect i) (Op.spec [] (.moveConstruct s t) a)).conn s = .live (l.filter (· ≠ i)) := by
      simp only [Op.spec, Abs.disconnect] at hc ⊢
      rw [hc]; rfl
    exact ⟨w'', d1, emissionCalls d2 hc2⟩
  · intro hg
    refine emissionCalls (a := Op.spec [] (.moveConstruct s t) a) h2 ?_
    have hts := Ne.symm hst
    rcases hg with hg | hg
    · simp [Op.spec, Abs.move, Abs.create, update_ne _ _ hts, hg]
    · have : (a.create s).slots t = [] := by simp [Abs.slots, Abs.create, update_ne _ _ hts, ht, hg]
      simp [Op.spec, Abs.move, this]

/-- The same for move assignment to another signal, provided that both have had two slots at once, or neither has, or the one that has not has no slot; the former slots of the
target are disconnected. -/
theorem C43_moveAssign_partial {w : World} {a : Abs} (h : Reached w a) {s t : Nat} {l l0 : List Nat} (hst : s ≠ t) (hs : a.conn s = .live l0) (ht : a.conn t = .live l)
    (hg : a.grown t = true → a.grown s = true ∨ l0 = []) (hg' : a.grown s = true → a.grown t = true ∨ l = []) :
    ∃ w' a', moveAssign s t w = .ok w' ∧ Reached w' a' ∧ a'.conn s = .live l ∧ a'.cb = a.cb ∧ (∀ u, u ≠ s → u ≠ t → a'.conn u = a.conn u) ∧
      EmissionCalls w' s l a.cb ∧ (∀ j ∈ l0, isConnected (some j) w' = false) ∧ (∀ j, j ∉ l0 → isConnected (some j) w' = isConnected (some j) w) ∧
      (∀ i ∈ l, ∃ w'', disconnect (some i) w' = .ok w'' ∧ EmissionCalls w'' s (l.filter (· ≠ i)) a.cb) ∧
      (a.grown t = true ∨ l = [] → EmissionCalls w' t [] a.cb) := by
  have hsl : a.slots s = l0 := by simp [Abs.slots, hs]
  have htl : a.slots t = l := by simp [Abs.slots, ht]
  have hts := Ne.symm hst
  obtain ⟨w', h1, h2⟩ := reached_op h (o := .moveAssign s t) ⟨hst, by simp [hs], ⟨l, ht⟩, by rw [hsl]; exact hg, by rw [htl]; exact hg'⟩ (by intros; simp)
  have hc : (Op.spec [] (.moveAssign s t) a).conn s = .live l := by
    simp [Op.spec, Abs.move, update_ne _ _ hst, htl]
  have hct : (Op.spec [] (.moveAssign s t) a).slots t = [] := by
    simp only [Op.spec, Abs.move]
    by_cases hg : a.grown t = false ∧ a.slots t ≠ []
    · rw [if_pos hg]; simp [Abs.slots]
    · rw [if_neg hg]; simp [Abs.slots]
  have hcu : ∀ u, u ≠ s → u ≠ t → (Op.spec [] (.moveAssign s t) a).conn u = a.conn u := by
    intro u hus hut
    simp [Op.spec, Abs.move, update_ne _ _ hus, update_ne _ _ hut]
  have hconn : ∀ j, (Op.spec [] (.moveAssign s t) a).Connected j ↔ a.Connected j ∧ j ∉ l0 := by
    intro j
    constructor
    · rintro ⟨u, hm⟩
      by_cases hut : u = t
      · subst hut; rw [hct] at hm; simp at hm
      · by_cases hus : u = s
        · subst hus
          simp only [Abs.slots, hc] at hm
          refine ⟨⟨t, by rw [htl]; exact hm⟩, fun hj => ?_⟩
          exact hst (C40_one_signal h (by rw [hsl]; exact hj) (by rw [htl]; exact hm))
        · have hm' : j ∈ a.slots u := by simpa only [Abs.slots, hcu u hus hut] using hm
          exact ⟨⟨u, hm'⟩, fun hj => hus (C40_one_signal h hm' (by rw [hsl]; exact hj))⟩
    · rintro ⟨⟨u, hm⟩, hj⟩
      by_cases hut : u = t
      · subst hut
        refine ⟨s, ?_⟩
        simp only [Abs.slots, hc]
        rw [htl] at hm; exact hm
      · have hus : u ≠ s := by rintro rfl; rw [hsl] at hm; exact hj hm
        exact ⟨u, by simpa only [Abs.slots, hcu u hus hut] using hm⟩
  refine ⟨w', _, h1, h2, hc, rfl, hcu, emissionCalls h2 hc, ?_, ?_, ?_, ?_⟩
  · intro j hj
    rw [← Bool.not_eq_true, ← (reached_rel h2).connected, hconn]
    exact fun hk => hk.2 hj
  · intro j hj
    refine isConnected_abs (reached_rel h2) (reached_rel h) ?_
    rw [hconn]
    exact ⟨fun hk => hk.1, fun hk => ⟨hk, hj⟩⟩
  · intro i _
    obtain ⟨w'', d1, d2⟩ := reached_op h2 (o := .disconnect i) trivial (by intros; simp)
    have hc2 : (Op.spec [] (.disconnect i) (Op.spec [] (.moveAssign s t) a)).conn s = .live (l.filter (· ≠ i)) := by
      simp only [Op.spec, Abs.disconnect] at hc ⊢
      rw [hc]; rfl
    exact ⟨w'', d1, emissionCalls d2 hc2⟩
  · intro hg
    refine emissionCalls (a := Op.spec [] (.moveAssign s t) a) h2 ?_
    rcases hg with hg | hg
    · simp [Op.spec, Abs.move, hg]
    · simp [Op.spec, Abs.move, htl, hg]

/-- A signal with one slot, that never had two at once: after the move from it, its emission is undefined behaviour. -/
theorem C43_source_violated {w : World} {a : Abs} (h : Reached w a) {s t i : Nat} (hs : a.conn s = .absent) (ht : a.conn t = .live [i]) (hg : a.grown t = false)
    (script : Script) (arg fuel : Nat) : ∃ w', moveConstruct s t w = .ok w' ∧ emit script (fuel + 1) t arg w' = .error .ub := by
  have hst : s ≠ t := by rintro rfl; rw [hs] at ht; cases ht
  obtain ⟨w', h1, h2⟩ := reached_op h (o := .moveConstruct s t) ⟨hs, ⟨_, ht⟩⟩ (by intros; simp)
  refine ⟨w', h1, ?_⟩
  have hc : (Op.spec [] (.moveConstruct s t) a).conn t = .hollow := by
    simp [Op.spec, Abs.move, Abs.create, Abs.slots, update_ne _ _ (Ne.symm hst), ht, hg]
  have hr := (reached_rel h2).sig t
  rw [hc] at hr
  obtain ⟨_, it, hsig⟩ := hr
  simp [emit, setIter, World.sig, hsig, emitLoop, currentSlot, World.setSig, World.record]

/-- Moving a signal to itself, for a signal that never had two slots at once: its slot is disconnected. -/
theorem C43_self_violated {w : World} {a : Abs} (h : Reached w a) {s : Nat} {l : List Nat} (hs : a.conn s = .live l) (hg : a.grown s = false) :
    ∃ w', moveAssignSelf s w = .ok w' ∧ (∀ i ∈ l, isConnected (some i) w' = false) ∧
      ∀ arg fuel script, ∃ w'', emit script (fuel + 1) s arg w' = .ok w'' ∧ w''.trace = w.trace ++ [.emit s arg, .done s] := by
  have hr := reached_rel h
  obtain ⟨ids, it, hsig, hp, _⟩ := hr.live hs
  rw [hg] at hsig
  refine ⟨((w.releaseAll (ids.map some)).setSig s (some ⟨[], false, it⟩)), by simp [moveAssignSelf, sig_some hsig, guardUB], ?_, ?_⟩
  · intro i hi
    rw [releaseAll_ids hr.leak]
    simp [isConnected, World.setSig, hp.mem_iff, hi]
  · intro arg fuel script
    rw [releaseAll_ids hr.leak]
    refine ⟨_, by simp [emit, setIter, World.sig, emitLoop, currentSlot, World.setSig, World.record]; rfl, by simp⟩

/-- A target with a slot that never had two, and a source that has had two at once: after the move assignment the former slot of the target still counts as connected, and its `Disconnect`
disconnects a slot of the source instead. -/
theorem C43_target_violated {w : World} {a : Abs} (h : Reached w a) {s t j : Nat} {l : List Nat} (hst : s ≠ t) (hs : a.conn s = .live [j]) (hgs : a.grown s = false)
    (ht : a.conn t = .live l) (hl : l ≠ []) (hgt : a.grown t = true) :
    ∃ w' w'' i, moveAssign s t w = .ok w' ∧ isConnected (some j) w' = true ∧ disconnect (some j) w' = .ok w'' ∧ isConnected (some j) w'' = true ∧
      i ∈ l ∧ isConnected (some i) w' = true ∧ isConnected (some i) w'' = false := by
  have hr := reached_rel h
  have hsl : a.slots s = [j] := by simp [Abs.slots, hs]
  have htl : a.slots t = l := by simp [Abs.slots, ht]
  obtain ⟨ids0, it0, hsig0, hp0, _⟩ := hr.live hs
  obtain ⟨ids, it, hsig, hp, _⟩ := hr.live ht
  have e0 : ids0 = [j] := List.perm_singleton.mp hp0
  subst e0
  rw [hgs] at hsig0
  rw [hgt] at hsig
  have hmt := hr.heap_iff hsig
  have hnod := hr.ids_nodup hsig
  have hjs := hr.fwd s _ 0 j hsig0 rfl
  have hj : j ∉ ids := by
    intro hm
    exact hst (C40_one_signal h (id := j) (by rw [hsl]; simp) (by rw [htl]; exact hp.mem_iff.mp hm))
  have hlen := hp.length_eq
  have hl0 : 0 < l.length := List.length_pos_iff.mpr hl
  obtain ⟨w', hw'⟩ : ∃ w' : World, w' = ⟨fun k => if k ∈ ids then (w.heap k).map (fun x => ⟨x.callback, s, x.index⟩) else w.heap k,
      w.next, update (update w.sigs s (some ⟨ids.map some, true, it⟩)) t (some ⟨[], true, it⟩), [], w.trace⟩ := ⟨_, rfl⟩
  have hrun : moveAssign s t w = .ok w' := by
    simp only [moveAssign, sig_some hsig0, sig_some hsig, ok_bind, moveSlots, if_true, Bool.false_eq_true, if_false]
    rw [retarget_ok]
    · simp [World.setSig, hw', hr.leak]
    · intro k hk
      obtain ⟨x, hx, _⟩ := (hmt k).mp hk
      exact ⟨x, by simp [World.setSig, hx]⟩
  have hheap : ∀ p k, ids[p]? = some k → ∃ x, w'.heap k = some ⟨x, s, p⟩ := by
    intro p k hk
    have := hr.fwd t _ p k hsig (getElem?_map_some.mpr hk)
    exact ⟨_, by simp [hw', List.mem_of_getElem? hk, this]; rfl⟩
  have hjw : w'.heap j = some ⟨a.cb j, s, 0⟩ := by simp [hw', hj, hjs]
  have hsw : w'.sigs s = some ⟨ids.map some, true, it⟩ := by simp [hw', update_ne _ _ hst]
  have hlw : w'.shared = [] := by rw [hw']
  obtain ⟨i, hi⟩ : ∃ i, ids[0]? = some i := ⟨_, List.getElem?_eq_getElem (by omega)⟩
  obtain ⟨b, hb⟩ : ∃ b, ids[ids.length - 1]? = some b := ⟨_, List.getElem?_eq_getElem (by omega)⟩
  obtain ⟨xi, hxi⟩ := hheap 0 i hi
  obtain ⟨xb, hxb⟩ := hheap _ b hb
  have hij : i ≠ j := by rintro rfl; exact hj (List.mem_of_getElem? hi)
  have hbj : b ≠ j := by rintro rfl; exact hj (List.mem_of_getElem? hb)
  have hil : i ∈ l := hp.mem_iff.mp (List.mem_of_getElem? hi)
  have hdis : ∃ w'', disconnectSlot ⟨a.cb j, s, 0⟩ w' = .ok w'' ∧ w''.heap j = some ⟨a.cb j, s, 0⟩ ∧ w''.heap i = none := by
    simp only [disconnectSlot, sig_some hsw, ok_bind, List.length_map]
    rw [show decide (0 < ids.length) = true by simp; omega]
    simp only [assert_true, ok_bind]
    split
    · simp only [disconnectSimple, List.length_map, rd_map_some hi, rd_map_some hb, ok_bind, setIndex_ok hxb]
      refine ⟨_, rfl, ?_, ?_⟩
      · simp [World.release, World.setSig, World.setSlot, hlw, update_ne _ _ (Ne.symm hij), update_ne _ _ (Ne.symm hbj), hjw]
      · simp [World.release, World.setSig, World.setSlot, hlw]
    · rename_i hc
      simp only [Bool.or_eq_true, not_or, Bool.not_eq_true] at hc
      cases it with
      | none => simp [iterGe] at hc
      | some p =>
        have hp1 : p < ids.length - 1 := by have := hc.1; simp [iterGe] at this; omega
        obtain ⟨c, hcs⟩ : ∃ c, ids[p]? = some c := ⟨_, List.getElem?_eq_getElem (by omega)⟩
        obtain ⟨xc, hxc⟩ := hheap p c hcs
        have hcj : c ≠ j := by rintro rfl; exact hj (List.mem_of_getElem? hcs)
        have hbc : b ≠ c := by
          rintro rfl
          have := nodup_idx hnod hb hcs
          omega
        have hxb' : (w'.setSlot c (some ⟨xc, s, 0⟩)).heap b = some ⟨xb, s, ids.length - 1⟩ := by
          simp [World.setSlot, update_ne _ _ hbc, hxb]
        simp only [disconnectTricky, List.length_map, rd_map_some hi, rd_map_some hb, rd_map_some hcs, ok_bind, setIndex_ok hxc, setIndex_ok hxb']
        refine ⟨_, rfl, ?_, ?_⟩
        · simp [World.release, World.setSig, World.setSlot, hlw, update_ne _ _ (Ne.symm hij), update_ne _ _ (Ne.symm hbj), update_ne _ _ (Ne.symm hcj), hjw]
        · simp [World.release, World.setSig, World.setSlot, hlw]
  obtain ⟨w'', d1, d2, d3⟩ := hdis
  exact ⟨w', w'', i, hrun, by simp [isConnected, hjw], by simp [disconnect, hjw, d1], by simp [isConnected, d2], hil, by simp [isConnected, hxi], by simp [isConnected, d3]⟩

/-- Emission of a signal with one slot, in any world. -/
theorem emissionCalls_one {w : World} {s i cb k t : Nat} {f : Bool} {it : Option Nat} {cbs : Nat → Nat} (hs : w.sigs s = some ⟨[some i], f, it⟩)
    (hi : w.heap i = some ⟨cb, t, k⟩) (hcb : cbs i = cb) : EmissionCalls w s [i] cbs := by
  intro arg fuel hf
  obtain ⟨n, rfl⟩ : ∃ n, fuel = n + 2 := ⟨fuel - 2, by simp at hf; omega⟩
  refine ⟨_, [.call s i cb arg], by
    simp [emit, setIter, World.sig, hs, emitLoop, currentSlot, World.setSig, World.record, hi, passive, runActions, iterInc]; rfl, by simp, by simp [hcb]⟩

/-- A target that has had two slots at once, and a source with one slot, that has not: after the move assignment both signals call the slot; its `Disconnect` acts on the target only, the
slot still counts as connected and is called by the source, and a second `Disconnect` fails an assertion. -/
theorem C43_copied_violated {w : World} {a : Abs} (h : Reached w a) {s t i : Nat} {l0 : List Nat} (hst : s ≠ t) (hs : a.conn s = .live l0) (hgs : a.grown s = true)
    (ht : a.conn t = .live [i]) (hgt : a.grown t = false) :
    ∃ w' w'', moveAssign s t w = .ok w' ∧ EmissionCalls w' s [i] a.cb ∧ EmissionCalls w' t [i] a.cb ∧
      disconnect (some i) w' = .ok w'' ∧ isConnected (some i) w'' = true ∧ EmissionCalls w'' s [] a.cb ∧ EmissionCalls w'' t [i] a.cb ∧
      disconnect (some i) w'' = .error .assert := by
  have hr := reached_rel h
  have hsl : a.slots s = l0 := by simp [Abs.slots, hs]
  have htl : a.slots t = [i] := by simp [Abs.slots, ht]
  obtain ⟨ids0, it0, hsig0, hp0, _⟩ := hr.live hs
  obtain ⟨ids, it, hsig, hp, _⟩ := hr.live ht
  have e0 : ids = [i] := List.perm_singleton.mp hp
  subst e0
  rw [hgs] at hsig0
  rw [hgt] at hsig
  have hi := hr.fwd t _ 0 i hsig rfl
  have hi0 : i ∉ ids0 := by
    intro hm
    exact hst (C40_one_signal h (id := i) (by rw [hsl]; exact hp0.mem_iff.mp hm) (by rw [htl]; simp))
  obtain ⟨w', hw'⟩ : ∃ w' : World, w' = ⟨update (fun k => if k ∈ ids0 then none else w.heap k) i (some ⟨a.cb i, s, 0⟩),
      w.next, update (update w.sigs s (some ⟨[some i], true, it⟩)) t (some ⟨[some i], false, it⟩), [i], w.trace⟩ := ⟨_, rfl⟩
  have hrun : moveAssign s t w = .ok w' := by
    simp only [moveAssign, sig_some hsig0, sig_some hsig, ok_bind, moveSlots, if_true, Bool.false_eq_true, if_false, releaseAll_ids hr.leak, hr.leak]
    simp [retarget, World.setSig, World.setSlot, hi0, hi, hw']
  have hiw : w'.heap i = some ⟨a.cb i, s, 0⟩ := by simp [hw']
  have hsw : w'.sigs s = some ⟨[some i], true, it⟩ := by simp [hw', update_ne _ _ hst]
  have htw : w'.sigs t = some ⟨[some i], false, it⟩ := by simp [hw']
  obtain ⟨w'', hw''⟩ : ∃ w'' : World, w'' = ⟨update w'.heap i (some ⟨a.cb i, s, 0⟩), w'.next, update w'.sigs s (some ⟨[], true, it⟩), [], w'.trace⟩ := ⟨_, rfl⟩
  have hdis : disconnect (some i) w' = .ok w'' := by
    simp only [disconnect, hiw, disconnectSlot, sig_some hsw, ok_bind]
    have hge : iterGe it 0 = true := by cases it <;> simp [iterGe]
    simp [assert_true, hge, disconnectSimple, rd, World.setIndex, hiw, World.release, World.setSig, World.setSlot, hw'']
    simp [hw']
  have hiw2 : w''.heap i = some ⟨a.cb i, s, 0⟩ := by simp [hw'']
  have hsw2 : w''.sigs s = some ⟨[], true, it⟩ := by simp [hw'']
  have htw2 : w''.sigs t = some ⟨[some i], false, it⟩ := by simp [hw'', update_ne _ _ (Ne.symm hst), htw]
  refine ⟨w', w'', hrun, emissionCalls_one hsw hiw rfl, emissionCalls_one htw hiw rfl, hdis, by simp [isConnected, hiw2], ?_, emissionCalls_one htw2 hiw2 rfl, ?_⟩
  · intro arg fuel hf
    obtain ⟨n, rfl⟩ : ∃ n, fuel = n + 1 := ⟨fuel - 1, by simp at hf; omega⟩
    refine ⟨_, [], by simp [emit, setIter, World.sig, hsw2, emitLoop, currentSlot, World.setSig, World.record]; rfl, by simp, by simp⟩
  · simp [disconnect, hiw2, disconnectSlot, sig_some hsw2, ok_bind, Cpp.assert]

/-! ## Examples for C43 -/

/-- Signal 7 as in the other examples, signal 8 with slot 3, signal 9 with slots 4 and 5, signal 10 not there. -/
theorem example_reached3 : ∃ w a, Reached w a ∧ a.conn 7 = .live [0, 1, 2] ∧ a.grown 7 = true ∧ a.conn 8 = .live [3] ∧ a.grown 8 = false ∧ a.conn 9 = .live [4, 5] ∧
    a.grown 9 = true ∧ a.conn 10 = .absent := by
  obtain ⟨w1, _, h1⟩ := reached_op .empty (o := .create 7) rfl (by intros; simp)
  obtain ⟨w2, _, h2⟩ := reached_op h1 (o := .connect 7 10) ⟨_, rfl⟩ (by intros; simp)
  obtain ⟨w3, _, h3⟩ := reached_op h2 (o := .connect 7 11) ⟨_, rfl⟩ (by intros; simp)
  obtain ⟨w4, _, h4⟩ := reached_op h3 (o := .connect 7 12) ⟨_, rfl⟩ (by intros; simp)
  obtain ⟨w5, _, h5⟩ := reached_op h4 (o := .create 8) rfl (by intros; simp)
  obtain ⟨w6, _, h6⟩ := reached_op h5 (o := .connect 8 13) ⟨_, rfl⟩ (by intros; simp)
  obtain ⟨w7, _, h7⟩ := reached_op h6 (o := .create 9) rfl (by intros; simp)
  obtain ⟨w8, _, h8⟩ := reached_op h7 (o := .connect 9 14) ⟨_, rfl⟩ (by intros; simp)
  obtain ⟨w9, _, h9⟩ := reached_op h8 (o := .connect 9 15) ⟨_, rfl⟩ (by intros; simp)
  exact ⟨w9, _, h9, rfl, rfl, rfl, rfl, rfl, rfl, rfl⟩

example : ∃ w a, Reached w a ∧
    (∃ w', moveConstruct 10 7 w = .ok w' ∧ EmissionCalls w' 10 [0, 1, 2] a.cb ∧ EmissionCalls w' 7 [] a.cb) ∧
    (∃ w', moveAssign 9 7 w = .ok w' ∧ EmissionCalls w' 9 [0, 1, 2] a.cb ∧ isConnected (some 4) w' = false) ∧
    (∃ w', moveConstruct 10 8 w = .ok w' ∧ emit passive 10 8 5 w' = .error .ub) ∧
    (∃ w', moveAssignSelf 8 w = .ok w' ∧ isConnected (some 3) w' = false) ∧
    (∃ w', moveAssign 8 7 w = .ok w' ∧ isConnected (some 3) w' = true) ∧
    ∃ w', moveAssign 9 8 w = .ok w' ∧ EmissionCalls w' 9 [3] a.cb ∧ EmissionCalls w' 8 [3] a.cb := by
  obtain ⟨w, a, h, h7, g7, h8, g8, h9, g9, h10⟩ := example_reached3
  refine ⟨w, a, h, ?_, ?_, ?_, ?_, ?_, ?_⟩
  · obtain ⟨w', _, k1, _, _, _, _, k2, _, _, k3⟩ := C43_moveConstruct_partial h h10 h7
    exact ⟨w', k1, k2, k3 (Or.inl g7)⟩
  · obtain ⟨w', _, k1, _, _, _, _, k2, k3, _⟩ := C43_moveAssign_partial h (by decide) h9 h7 (fun _ => Or.inl g9) (fun _ => Or.inl g7)
    exact ⟨w', k1, k2, k3 4 (by simp)⟩
  · exact C43_source_violated h h10 h8 g8 passive 5 9
  · obtain ⟨w', k1, k2, _⟩ := C43_self_violated h h8 g8
    exact ⟨w', k1, k2 3 (by simp)⟩
  · obtain ⟨w', _, _, k1, k2, _⟩ := C43_target_violated h (by decide) h8 g8 h7 (by simp) g7
    exact ⟨w', k1, k2⟩
  · obtain ⟨w', _, k1, k2, k3, _⟩ := C43_copied_violated h (by decide) h9 g9 h8 g8
    exact ⟨w', k1, k2, k3⟩

end Verif.Signal
