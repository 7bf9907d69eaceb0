import Verif.Signal.ModelOwnEmit
import Verif.Signal.PropsOwn
import Verif.Signal.PropsMore

/-! # Signals: emissions whose callbacks own guards -/

namespace Verif.Signal
open Verif.Cpp

theorem events_disconnects (a : Abs) (ids : List Nat) : a.events (ids.map Event.disconnect) = a.drop ids := by
  induction ids generalizing a with
  | nil => rfl
  | cons x xs ih => exact ih (a.disconnect x)

theorem valid_disconnects (a : Abs) (ids : List Nat) : Valid a (ids.map Event.disconnect) := by
  induction ids generalizing a with
  | nil => trivial
  | cons x xs ih => exact ⟨trivial, ih (a.disconnect x)⟩

/-- What disconnecting does in all worlds with the same connections: the slots `ids` are disconnected. -/
def Same (a : Abs) (f : World → M World) (ids : List Nat) : Prop :=
  ∀ w em, Rel w a → ∃ w', f w = .ok w' ∧ runActions em (ids.map Action.disconnect) w = .ok w' ∧ w'.trace = w.trace ++ ids.map Event.disconnect ∧ Rel w' (a.drop ids)

/-- The guards of a slot that is disconnected are destroyed. -/
def ClosedL (owns : Nat → List Nat) (a : Abs) (ids : List Nat) : Prop :=
  ∀ l1 i l2, ids = l1 ++ i :: l2 → (a.drop l1).Connected i → ∀ j ∈ owns i, j ∈ l2

theorem ClosedL.append {owns : Nat → List Nat} {a : Abs} {ids ids' : List Nat} (h : ClosedL owns a ids) (h' : ClosedL owns (a.drop ids) ids') : ClosedL owns a (ids ++ ids') := by
  intro l1 i l2 e hc j hj
  rcases List.append_eq_append_iff.mp e with ⟨m, e1, e2⟩ | ⟨m, e1, e2⟩
  · subst e1
    rw [drop_append] at hc
    exact h' m i l2 e2 hc j hj
  · cases m with
    | nil =>
      simp only [List.append_nil, List.nil_append] at e1 e2
      subst e1
      exact h' [] i l2 e2.symm hc j hj
    | cons y m =>
      simp only [List.cons_append, List.cons.injEq] at e2
      obtain ⟨rfl, rfl⟩ := e2
      exact List.mem_append_left _ (h l1 i m e1 hc j hj)

/-- The connected slots have been created. -/
def Bounded (a : Abs) : Prop := ∀ i, a.Connected i → i < a.next

theorem Bounded.drop {a : Abs} (h : Bounded a) (ids : List Nat) : Bounded (a.drop ids) := by
  intro i hi
  rw [next_drop]
  exact h i ((connected_drop a ids i).mp hi).1

theorem Rel.bounded {w : World} {a : Abs} (h : Rel w a) : Bounded a := by
  intro i hi
  rw [h.connected] at hi
  simp only [isConnected, Option.isSome_iff_exists] at hi
  obtain ⟨x, hx⟩ := hi
  rw [h.next]; exact h.fresh i x hx

theorem foldT_ids {owns : Nat → List Nat} {fuel : Nat}
    (ih : ∀ a id, Abs.count a < fuel → Bounded a → ∃ ids, Same a (disconnectT owns fuel id) ids ∧ id ∈ ids ∧ ClosedL owns a ids ∧ ∀ j ∈ ids, j = id ∨ ∃ i ∈ ids, j ∈ owns i) :
    ∀ (gs : List Nat) (a : Abs), a.count < fuel → Bounded a →
      ∃ ids, Same a (fun w => gs.foldlM (fun w g => disconnectT owns fuel g w) w) ids ∧ (∀ g ∈ gs, g ∈ ids) ∧ ClosedL owns a ids ∧ ∀ j ∈ ids, j ∈ gs ∨ ∃ i ∈ ids, j ∈ owns i := by
  intro gs
  induction gs with
  | nil => intro a _ _; exact ⟨[], fun w em h => ⟨w, rfl, rfl, by simp, h⟩, by simp, fun l1 i l2 e => by simp at e, by simp⟩
  | cons g gs ihg =>
    intro a hc hb
    obtain ⟨ids1, s1, m1, c1, k1⟩ := ih a g hc hb
    obtain ⟨ids2, s2, m2, c2, k2⟩ := ihg (a.drop ids1) (Nat.lt_of_le_of_lt (count_drop_le a ids1) hc) (hb.drop ids1)
    refine ⟨ids1 ++ ids2, ?_, ?_, c1.append c2, ?_⟩
    · intro w em h
      obtain ⟨w1, p1, p2, p3, p4⟩ := s1 w em h
      obtain ⟨w2, q1, q2, q3, q4⟩ := s2 w1 em p4
      refine ⟨w2, ?_, ?_, by rw [q3, p3]; simp, by rw [drop_append]; exact q4⟩
      · simp only [List.foldlM_cons, p1, ok_bind]; exact q1
      · rw [List.map_append, runActions_append, p2]; exact q2
    · intro x hx
      rcases List.mem_cons.mp hx with e | hx
      · rw [e]; exact List.mem_append_left _ m1
      · exact List.mem_append_right _ (m2 x hx)
    · intro j hj
      rcases List.mem_append.mp hj with hj | hj
      · rcases k1 j hj with e | ⟨i, hi, ho⟩
        · left; rw [e]; exact List.mem_cons_self ..
        · right; exact ⟨i, List.mem_append_left _ hi, ho⟩
      · rcases k2 j hj with e | ⟨i, hi, ho⟩
        · left; exact List.mem_cons_of_mem _ e
        · right; exact ⟨i, List.mem_append_right _ hi, ho⟩

theorem disconnectT_ids (owns : Nat → List Nat) :
    ∀ (fuel : Nat) (a : Abs) (id : Nat), a.count < fuel → Bounded a →
      ∃ ids, Same a (disconnectT owns fuel id) ids ∧ id ∈ ids ∧ ClosedL owns a ids ∧ ∀ j ∈ ids, j = id ∨ ∃ i ∈ ids, j ∈ owns i := by
  intro fuel
  induction fuel with
  | zero => intro a id h; omega
  | succ fuel ih =>
    intro a id hc hb
    by_cases hconn : a.Connected id
    · have hlt := count_disconnect_lt hconn (hb id hconn)
      obtain ⟨ids, s1, m1, c1, k1⟩ := foldT_ids ih (owns id) (a.disconnect id) (by omega) (hb.drop [id])
      refine ⟨id :: ids, ?_, List.mem_cons_self .., ?_, ?_⟩
      · intro w em h
        obtain ⟨w1, p1, p2, p3, _⟩ := h.disconnect id
        have hx := hconn
        rw [h.connected] at hx
        simp only [isConnected, Option.isSome_iff_exists] at hx
        obtain ⟨x, hx⟩ := hx
        have hdead : (w1.record (.disconnect id)).heap id = none := by
          have : ¬ (a.disconnect id).Connected id := by
            rw [show a.disconnect id = a.drop [id] from rfl, connected_drop]; simp
          rw [p2.connected] at this
          simpa [isConnected, World.record] using this
        obtain ⟨w2, q1, q2, q3, q4⟩ := s1 (w1.record (.disconnect id)) em (p2.record _)
        refine ⟨w2, ?_, ?_, ?_, q4⟩
        · have p1' := p1
          simp only [Signal.disconnect, hx] at p1'
          simp only [disconnectT, hx, p1', ok_bind, hdead]
          exact q1
        · simp only [List.map_cons, runActions, Action.run, p1, ok_bind]
          exact q2
        · rw [q3]; simp [World.record, p3]
      · intro l1 i l2 e hci j hj
        cases l1 with
        | nil =>
          simp only [List.nil_append, List.cons.injEq] at e
          obtain ⟨rfl, rfl⟩ := e
          exact m1 j hj
        | cons y l1 =>
          simp only [List.cons_append, List.cons.injEq] at e
          obtain ⟨rfl, e⟩ := e
          exact c1 l1 i l2 e hci j hj
      · intro j hj
        rcases List.mem_cons.mp hj with e | hj
        · exact Or.inl e
        · right
          rcases k1 j hj with e | ⟨i, hi, ho⟩
          · exact ⟨id, List.mem_cons_self .., e⟩
          · exact ⟨i, List.mem_cons_of_mem _ hi, ho⟩
    · refine ⟨[id], ?_, List.mem_singleton.mpr rfl, ?_, fun j hj => Or.inl (List.mem_singleton.mp hj)⟩
      · intro w em h
        have hx := hconn
        rw [h.connected] at hx
        have hx : w.heap id = none := by simpa [isConnected] using hx
        refine ⟨w.record (.disconnect id), by simp only [disconnectT, hx]; rfl, ?_, rfl, ?_⟩
        · simp [runActions, Action.run, Signal.disconnect, hx]
        · rw [show a.drop [id] = a.disconnect id from rfl, h.disconnect_none hx]; exact h.record _
      · intro l1 i l2 e hci
        cases l1 with
        | nil =>
          simp only [List.nil_append, List.cons.injEq] at e
          obtain ⟨rfl, rfl⟩ := e
          exact absurd hci hconn
        | cons y l1 => simp at e

theorem disconnectT_same (owns : Nat → List Nat) {a : Abs} (hb : Bounded a) (id : Nat) :
    ∃ ids, Same a (fun w => disconnectT owns (w.next + 1) id w) ids ∧ id ∈ ids ∧ ClosedL owns a ids ∧ ∀ j ∈ ids, j = id ∨ ∃ i ∈ ids, j ∈ owns i := by
  obtain ⟨ids, h1, h2⟩ := disconnectT_ids owns (a.next + 1) a id (by have := count_le a; omega) hb
  refine ⟨ids, fun w em h => ?_, h2⟩
  have := h1 w em h
  rw [h.next] at this
  exact this

/-! ## Callbacks that connect slots and then disconnect slots: an emission without guards -/

/-- Callbacks that connect slots and then disconnect slots. -/
def ScriptG.ConnectsFirst (script : ScriptG) : Prop :=
  ∀ tr, ∃ xs ys, script tr = xs ++ ys ∧ (∀ x ∈ xs, ∃ s cb, x = .connect s cb) ∧ ∀ y ∈ ys, ∃ id, y = .disconnect id

theorem runActionsG_append (owns : Nat → List Nat) (em : Nat → Nat → World → M World) (xs ys : List ActionG) (w : World) :
    runActionsG owns em (xs ++ ys) w = (runActionsG owns em xs w >>= runActionsG owns em ys) := by
  induction xs generalizing w with
  | nil => rfl
  | cons x xs ih =>
    simp only [List.cons_append, runActionsG]
    cases x.run owns em w with
    | error e => rfl
    | ok w1 => exact ih w1

theorem disconnects_same (owns : Nat → List Nat) : ∀ (ys : List ActionG) (a : Abs), Bounded a → (∀ y ∈ ys, ∃ id, y = ActionG.disconnect id) →
    ∃ zs : List Action, (∀ z ∈ zs, ∃ id, z = .disconnect id) ∧ ∀ w em, Rel w a → runActionsG owns em ys w = runActions em zs w := by
  intro ys
  induction ys with
  | nil => intro a _ _; exact ⟨[], by simp, fun w em _ => rfl⟩
  | cons y ys ih =>
    intro a hb hy
    obtain ⟨id, rfl⟩ := hy y (List.mem_cons_self ..)
    obtain ⟨ids, h1, _⟩ := disconnectT_same owns hb id
    obtain ⟨zs, k1, k2⟩ := ih (a.drop ids) (hb.drop ids) (fun y hy' => hy y (List.mem_cons_of_mem _ hy'))
    refine ⟨ids.map .disconnect ++ zs, ?_, ?_⟩
    · intro z hz
      rcases List.mem_append.mp hz with hz | hz
      · obtain ⟨i, _, rfl⟩ := List.mem_map.mp hz; exact ⟨i, rfl⟩
      · exact k1 z hz
    · intro w em h
      obtain ⟨w', p1, p2, _, p4⟩ := h1 w em h
      rw [runActions_append, p2]
      simp only [runActionsG, ActionG.run, p1, ok_bind]
      exact k2 w' em p4

theorem connects_same (owns : Nat → List Nat) : ∀ (xs : List ActionG) (a : Abs), (∀ x ∈ xs, ∃ s cb, x = ActionG.connect s cb) → (∀ x ∈ xs, x.ok owns a) →
    ∃ (zs : List Action) (es : List Event), (∀ z ∈ zs, ∃ s cb, z = .connect s cb ∧ ActionG.connect s cb ∈ xs) ∧
      ∀ w em, Rel w a → ∃ w', runActionsG owns em xs w = .ok w' ∧ runActions em zs w = .ok w' ∧ Rel w' (a.events es) := by
  intro xs
  induction xs with
  | nil => intro a _ _; exact ⟨[], [], by simp, fun w em h => ⟨w, rfl, rfl, h⟩⟩
  | cons x xs ih =>
    intro a hx hok
    obtain ⟨s, cb, rfl⟩ := hx x (List.mem_cons_self ..)
    have hl : a.Live s := hok (.connect s cb) (List.mem_cons_self ..)
    obtain ⟨zs, es, k1, k3⟩ := ih (a.connect s cb) (fun y hy' => hx y (List.mem_cons_of_mem _ hy')) (by
      intro y hy
      obtain ⟨s', cb', rfl⟩ := hx y (List.mem_cons_of_mem _ hy)
      have : a.Live s' := hok _ (List.mem_cons_of_mem _ hy)
      exact live_event this (.connect s a.next cb))
    refine ⟨.connect s cb :: zs, .connect s a.next cb :: es, ?_, ?_⟩
    · intro z hz
      rcases List.mem_cons.mp hz with e | hz
      · exact ⟨s, cb, e, List.mem_cons_self ..⟩
      · obtain ⟨s', cb', e, hm⟩ := k1 z hz
        exact ⟨s', cb', e, List.mem_cons_of_mem _ hm⟩
    · intro w em h
      obtain ⟨w1, p1, p2, _⟩ := h.connect hl cb
      obtain ⟨w', q1, q2, q3⟩ := k3 (w1.record (.connect s a.next cb)) em (p2.record _)
      refine ⟨w', ?_, ?_, q3⟩
      · simp only [runActionsG, ActionG.run, p1, ok_bind]; exact q1
      · simp only [runActions, Action.run, p1, ok_bind]; exact q2

/-- The actions of one callback, without guards. -/
theorem calm_same (owns : Nat → List Nat) (xs ys : List ActionG) (a : Abs) (hb : Bounded a) (hx : ∀ x ∈ xs, ∃ s cb, x = ActionG.connect s cb)
    (hy : ∀ y ∈ ys, ∃ id, y = ActionG.disconnect id) (hok : ∀ x ∈ xs, x.ok owns a) :
    ∃ xs' ys' : List Action, (∀ x ∈ xs', ∃ s cb, x = .connect s cb ∧ ActionG.connect s cb ∈ xs) ∧ (∀ y ∈ ys', ∃ id, y = .disconnect id) ∧
      ∀ w em, Rel w a → runActionsG owns em (xs ++ ys) w = runActions em (xs' ++ ys') w := by
  by_cases he : xs = []
  · subst he
    obtain ⟨zs, k1, k2⟩ := disconnects_same owns ys a hb hy
    exact ⟨[], zs, by simp, k1, k2⟩
  · by_cases hw : ∃ w, Rel w a
    · obtain ⟨w0, hw0⟩ := hw
      obtain ⟨zs, es, k1, k3⟩ := connects_same owns xs a hx hok
      obtain ⟨w1, _, _, hr⟩ := k3 w0 (fun _ _ _ => .error .diverge) hw0
      obtain ⟨zs', m1, m2⟩ := disconnects_same owns ys (a.events es) hr.bounded hy
      refine ⟨zs, zs', k1, m1, fun w em h => ?_⟩
      obtain ⟨w', q1, q2, q3⟩ := k3 w em h
      rw [runActionsG_append, runActions_append, q1, q2]
      exact m2 w' em q3
    · exact ⟨[], [], by simp, by simp, fun w em h => absurd ⟨w, h⟩ hw⟩

theorem ActionG.ok_events {owns : Nat → List Nat} {a : Abs} {x : ActionG} (h : x.ok owns a) {es : List Event} (hv : Valid a es) : x.ok owns (a.events es) := by
  cases x with
  | connect s cb => exact live_events h es
  | disconnect id => trivial
  | clear s => exact ⟨live_events h.1 es, fun es' hv' => by rw [← events_append]; exact h.2 _ (valid_append.mpr ⟨hv, hv'⟩)⟩
  | emit s arg => exact live_events h es

theorem ScriptG.ok_events {owns : Nat → List Nat} {a : Abs} {script : ScriptG} (h : script.Ok owns a) {es : List Event} (hv : Valid a es) : script.Ok owns (a.events es) :=
  fun tr x hx => ActionG.ok_events (h tr x hx) hv

/-- For callbacks that connect slots and then disconnect slots, there are callbacks that own no guards with the same effect. -/
theorem calm_script (owns : Nat → List Nat) {script : ScriptG} (hcf : script.ConnectsFirst) (a : Abs) (hok : script.Ok owns a) (tr0 : List Event) :
    ∃ script' : Script, script'.ConnectsFirst ∧ (script.OnlyDisconnects → script'.OnlyDisconnects) ∧ script'.Ok a ∧
      ∀ es w em, Rel w (a.events es) → w.trace = tr0 ++ es → runActionsG owns em (script w.trace) w = runActions em (script' w.trace) w := by
  have key : ∀ tr, ∃ xs' ys' : List Action, (∀ x ∈ xs', ∃ s cb, x = .connect s cb ∧ ActionG.connect s cb ∈ script tr) ∧ (∀ y ∈ ys', ∃ id, y = .disconnect id) ∧
      ∀ es w em, Rel w (a.events es) → w.trace = tr0 ++ es → tr = tr0 ++ es → runActionsG owns em (script tr) w = runActions em (xs' ++ ys') w := by
    intro tr
    by_cases hx : ∃ es w, Rel w (a.events es) ∧ w.trace = tr0 ++ es ∧ tr = tr0 ++ es
    · obtain ⟨es, w, h1, h2, h3⟩ := hx
      obtain ⟨xs, ys, e, p1, p2⟩ := hcf tr
      obtain ⟨xs', ys', q1, q2, q5⟩ := calm_same owns xs ys (a.events es) h1.bounded p1 p2
        (fun x hx => by
          have hxo := hok tr x (by rw [e]; exact List.mem_append_left _ hx)
          obtain ⟨s, cb, rfl⟩ := p1 x hx
          exact live_events hxo es)
      refine ⟨xs', ys', ?_, q2, ?_⟩
      · intro x hx
        obtain ⟨s, cb, e1, e2⟩ := q1 x hx
        exact ⟨s, cb, e1, by rw [e]; exact List.mem_append_left _ e2⟩
      · intro es' w' em k1 k2 k3
        rw [h3, List.append_cancel_left_eq] at k3
        rw [e]
        exact q5 w' em (by rw [k3]; exact k1)
    · exact ⟨[], [], by simp, by simp, fun es w em h1 h2 h3 => absurd ⟨es, w, h1, h2, h3⟩ hx⟩
  refine ⟨fun tr => (key tr).choose ++ (key tr).choose_spec.choose, ?_, ?_, ?_, ?_⟩
  · intro tr
    obtain ⟨k1, k2, _⟩ := (key tr).choose_spec.choose_spec
    exact ⟨_, _, rfl, fun x hx => by obtain ⟨s, cb, e, _⟩ := k1 x hx; exact ⟨s, cb, e⟩, k2⟩
  · intro hod tr x hx
    obtain ⟨k1, k2, _⟩ := (key tr).choose_spec.choose_spec
    rcases List.mem_append.mp hx with hx | hx
    · obtain ⟨s, cb, _, hm⟩ := k1 x hx
      obtain ⟨id, e⟩ := hod tr _ hm
      cases e
    · exact k2 x hx
  · intro tr x hx
    obtain ⟨k1, k2, _⟩ := (key tr).choose_spec.choose_spec
    rcases List.mem_append.mp hx with hx | hx
    · obtain ⟨s, cb, e, hm⟩ := k1 x hx
      rw [e]; exact hok tr _ hm
    · obtain ⟨id, e⟩ := k2 x hx
      rw [e]; trivial
  · intro es w em h1 h2
    obtain ⟨_, _, k3⟩ := (key w.trace).choose_spec.choose_spec
    exact k3 es w em h1 h2 h2

/-- The emission of callbacks that connect slots and then disconnect slots is one of callbacks that own no guards. -/
theorem calm_loop (owns : Nat → List Nat) {script : ScriptG} {script' : Script} {a : Abs} (hok : script'.Ok a) {tr0 : List Event}
    (heq : ∀ es w em, Rel w (a.events es) → w.trace = tr0 ++ es → runActionsG owns em (script w.trace) w = runActions em (script' w.trace) w)
    (hne : ∀ tr, ∀ x ∈ script' tr, ∀ s arg, x ≠ .emit s arg) {s : Nat} (hs : a.Live s) (arg : Nat) :
    ∀ (fuel : Nat) (es : List Event) (w : World), Rel w (a.events es) → w.trace = tr0 ++ es → emitLoopG owns script fuel s arg w = emitLoop script' fuel s arg w := by
  intro fuel
  induction fuel with
  | zero => intro es w _ _; rfl
  | succ fuel ih =>
    intro es w h ht
    obtain ⟨l, hl⟩ := live_events hs es
    obtain ⟨ids, it, hg, hp, _⟩ := h.live hl
    simp only [emitLoopG, emitLoop, currentSlot_ok h hg, ok_bind]
    cases it with
    | none => rfl
    | some i =>
      cases hi : ids[i]? with
      | none => simp only [hi, Option.map_none]
      | some id =>
        simp only [hi, Option.map_some]
        have hr : Rel (w.record (.call s id ((a.events es).cb id) arg)) (a.events (es ++ [.call s id ((a.events es).cb id) arg])) := by
          rw [events_append]; exact h.record _
        have htr : (w.record (.call s id ((a.events es).cb id) arg)).trace = tr0 ++ (es ++ [.call s id ((a.events es).cb id) arg]) := by simp [World.record, ht]
        rw [heq _ _ _ hr htr]
        have hswap : ∀ em em' (xs : List Action) (w : World), (∀ x ∈ xs, ∀ s arg, x ≠ .emit s arg) → runActions em xs w = runActions em' xs w := by
          intro em em' xs
          induction xs with
          | nil => intro w _; rfl
          | cons x xs ihx =>
            intro w hx
            have : x.run em w = x.run em' w := by
              cases x with
              | emit s arg => exact absurd rfl (hx _ (List.mem_cons_self ..) s arg)
              | connect => rfl
              | disconnect => rfl
              | clear => rfl
            simp only [runActions, this]
            cases x.run em' w with
            | error e => rfl
            | ok w1 => exact ihx w1 (fun y hy => hx y (List.mem_cons_of_mem _ hy))
        rw [hswap _ (fun s a w => do
          let w ← setIter s (fun _ => some 0) w
          emitLoop script' fuel s a (w.record (.emit s a))) _ _ (hne _)]
        have hgood := runActions_good (em := fun s a w => do
          let w ← setIter s (fun _ => some 0) w
          emitLoop script' fuel s a (w.record (.emit s a))) (P := fun a => script'.Ok a) (fun a es ha => Script.ok_events ha es) (by
            intro s' arg' w' a' h' hok' hs'
            refine (setIter_good h' hs' _).bind ?_
            intro w'' es' _ _ h''
            exact Good.event (.emit s' arg') ⟨trivial, trivial⟩ (emitLoop_good script' fuel arg' (h''.record _) (live_event (live_events hs' es') _) (Script.ok_events hok' es')))
          (script' (w.record (.call s id ((a.events es).cb id) arg)).trace) hr (Script.ok_events hok _) (Script.ok_events hok _ _)
        rcases hgood with e | ⟨w1, es1, e, t1, _, r1⟩
        · rw [e]; rfl
        · rw [e]
          simp only [ok_bind]
          rw [← events_append] at r1
          rcases setIter_good r1 (live_events hs _) iterInc with e2 | ⟨w2, es2, e2, t2, _, r2⟩
          · rw [e2]; rfl
          · rw [e2]
            simp only [ok_bind]
            rw [← events_append] at r2
            exact ih _ w2 r2 (by rw [t2, t1, htr]; simp)

theorem calm_emitG (owns : Nat → List Nat) {script : ScriptG} (hcf : script.ConnectsFirst) {w : World} {a : Abs} (h : Rel w a) (hok : script.Ok owns a) {s : Nat} (hs : a.Live s) (arg : Nat) :
    ∃ script' : Script, script'.ConnectsFirst ∧ (script.OnlyDisconnects → script'.OnlyDisconnects) ∧ script'.Ok a ∧
      ∀ fuel, emitG owns script fuel s arg w = emit script' fuel s arg w := by
  obtain ⟨script', k1, k2, k3, k4⟩ := calm_script owns hcf a hok w.trace
  refine ⟨script', k1, k2, k3, fun fuel => ?_⟩
  have hne : ∀ tr, ∀ x ∈ script' tr, ∀ s arg, x ≠ .emit s arg := by
    intro tr x hx s arg e
    obtain ⟨xs, ys, e1, m1, m2⟩ := k1 tr
    rw [e1] at hx
    rcases List.mem_append.mp hx with hx | hx
    · obtain ⟨_, _, e2⟩ := m1 x hx; rw [e] at e2; cases e2
    · obtain ⟨_, e2⟩ := m2 x hx; rw [e] at e2; cases e2
  simp only [emitG, emit]
  rcases setIter_good h hs (fun _ => some 0) with e2 | ⟨w2, es2, e2, t2, _, r2⟩
  · rw [e2]; rfl
  · rw [e2]
    simp only [ok_bind]
    exact calm_loop owns k3 k4 hne hs arg fuel (es2 ++ [.emit s arg]) _ (by rw [events_append]; exact r2.record _) (by simp [World.record, t2])

end Verif.Signal
