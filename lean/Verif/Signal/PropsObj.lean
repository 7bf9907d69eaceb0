import Verif.Signal.LemmasObj

/-!
# Properties of objects that connect their member functions: C124
-/

namespace Verif.Signal
open Verif.Cpp

/-! ### Emissions whose member functions do nothing -/

theorem quiet_loop (fuel : Nat) {s : Nat} (arg : Nat) {p : Prog} {a : Abs} (h : Rel p.world a) {ids : List Nat} {fb : Bool} {i : Nat}
    (hg : p.world.sigs s = some ⟨ids.map some, fb, some i⟩) (hfuel : ids.length - i < fuel) :
    ((∀ id ∈ ids.drop i, (p.objs (a.cb id)).isSome = true) → ∃ p', emitLoopObj (fun _ => []) fuel s arg p = .ok p' ∧
      p'.log = p.log ++ (ids.drop i).map (fun id => .call s (a.cb id) arg) ∧ p'.objs = p.objs) ∧
    ((∃ id ∈ ids.drop i, p.objs (a.cb id) = none) → emitLoopObj (fun _ => []) fuel s arg p = .error .ub) := by
  induction fuel generalizing p i with
  | zero => omega
  | succ fuel ih =>
    simp only [emitLoopObj, currentSlot_ok h hg, ok_bind]
    cases hi : ids[i]? with
    | none =>
      have hd : ids.drop i = [] := List.drop_eq_nil_of_le (List.getElem?_eq_none_iff.mp hi)
      simp only [Option.map_none, hd]
      refine ⟨fun _ => ⟨p, rfl, by simp, rfl⟩, ?_⟩
      rintro ⟨id, hid, _⟩
      cases hid
    | some id =>
      obtain ⟨hlt, hid⟩ := List.getElem?_eq_some_iff.mp hi
      have hd : ids.drop i = id :: ids.drop (i + 1) := by rw [List.drop_eq_getElem_cons hlt, hid]
      simp only [Option.map_some, hd]
      cases ho : p.objs (a.cb id) with
      | none =>
        simp only [Option.isSome_none]
        refine ⟨fun hall => ?_, fun _ => rfl⟩
        have := hall id List.mem_cons_self
        rw [ho] at this; cases this
      | some gs =>
        simp only [Option.isSome_some, guardUB_true, ok_bind, runActs, pure_ok]
        obtain ⟨e1, r1⟩ := h.setIter iterInc hg
        have e1' : setIter s iterInc (p.record (.call s (a.cb id) arg)).world = .ok (p.world.setSig s (some ⟨ids.map some, fb, some (i + 1)⟩)) := e1
        rw [e1', ok_bind]
        obtain ⟨k1, k2⟩ := ih (p := ⟨p.world.setSig s (some ⟨ids.map some, fb, some (i + 1)⟩), p.objs, p.log ++ [.call s (a.cb id) arg]⟩) (i := i + 1) r1
          (by simp [World.setSig]) (by omega)
        constructor
        · intro hall
          obtain ⟨p', e', l', o'⟩ := k1 (fun j hj => hall j (List.mem_cons_of_mem _ hj))
          exact ⟨p', e', by rw [l']; simp, o'⟩
        · rintro ⟨j, hj, hn⟩
          rcases List.mem_cons.mp hj with rfl | hj
          · rw [ho] at hn; cases hn
          · exact k2 ⟨j, hj, hn⟩

theorem quiet_emit (fuel : Nat) {s : Nat} (arg : Nat) {p : Prog} {a : Abs} (h : Rel p.world a) (hs : a.Live s) (hfuel : (a.slots s).length < fuel) :
    ((∀ id ∈ a.slots s, (p.objs (a.cb id)).isSome = true) → ∃ (p' : Prog) (ids : List Nat), emitObj (fun _ => []) fuel s arg p = .ok p' ∧ ids.Perm (a.slots s) ∧
      p'.log = p.log ++ ids.map (fun id => .call s (a.cb id) arg) ∧ p'.objs = p.objs) ∧
    ((∃ id ∈ a.slots s, p.objs (a.cb id) = none) → emitObj (fun _ => []) fuel s arg p = .error .ub) := by
  obtain ⟨l, hl⟩ := hs
  obtain ⟨ids, it, hg, hp, _⟩ := h.live hl
  have hsl : a.slots s = l := by simp [Abs.slots, hl]
  rw [hsl] at hfuel ⊢
  obtain ⟨e1, r1⟩ := h.setIter (fun _ => some 0) hg
  have hlen := hp.length_eq
  obtain ⟨k1, k2⟩ := quiet_loop fuel (s := s) arg (p := ⟨p.world.setSig s (some ⟨ids.map some, a.grown s, some 0⟩), p.objs, p.log⟩) r1 (ids := ids) (fb := a.grown s) (i := 0)
    (by simp [World.setSig]) (by omega)
  simp only [emitObj, e1, ok_bind]
  constructor
  · intro hall
    obtain ⟨p', e', l', o'⟩ := k1 (fun j hj => hall j (hp.mem_iff.mp (by simpa using hj)))
    exact ⟨p', ids, e', hp, by simpa using l', o'⟩
  · rintro ⟨j, hj, hn⟩
    exact k2 ⟨j, by simpa using hp.mem_iff.mpr hj, hn⟩

/-! ## C124 -/

/-- A program whose objects hold the guards of the connections of their member functions never calls an object that does not exist, whatever the program and
the member functions do: create and destroy objects (also the one that is called), connect and disconnect, clear, emit (also recursively), and outside of
emissions destroy signals.  No assertion fails and nothing is undefined. -/
theorem C124_safe (methods : Methods) (fuel : Nat) (steps : List Step) :
    runSteps methods fuel steps .empty = .error .diverge ∨ ∃ p, runSteps methods fuel steps .empty = .ok p ∧ CallsExisting p.log ∧
      (∀ o, (p.objs o).isSome = exists_ o p.log) ∧ ∀ id x, p.world.heap id = some x → exists_ x.callback p.log = true := by
  rcases runSteps_good methods fuel steps inv_empty with e | ⟨p, a, e, i⟩
  · exact .inl e
  · refine .inr ⟨p, e, i.calls, i.acc, ?_⟩
    intro id x hx
    obtain ⟨g, hg, hk⟩ := i.rel.bwd id x hx
    have := i.rel.fwd _ _ _ _ hg hk
    rw [hx] at this
    have hcb : x.callback = a.cb id := congrArg Slot.callback (Option.some.inj this)
    obtain ⟨gs, k, ho, _⟩ := i.held id ⟨x.signal, (i.rel.mem_slots _ _).mpr ⟨x, hx, rfl⟩⟩
    rw [hcb, ← i.acc, ho]; rfl

/-- In such a program, an emission during which the member functions change nothing calls the member functions of all slots of the signal, each once, with the
argument of the emission. -/
theorem C124_called {methods : Methods} {fuel : Nat} {steps : List Step} {p : Prog} (e : runSteps methods fuel steps .empty = .ok p) {s : Nat}
    (hs : (p.world.sigs s).isSome = true) (arg n : Nat) (hn : p.world.next < n) :
    ∃ (p' : Prog) (ids : List Nat) (cb : Nat → Nat), emitObj (fun _ => []) n s arg p = .ok p' ∧ ids.Nodup ∧ (∀ id, id ∈ ids ↔ ∃ k, p.world.heap id = some ⟨cb id, s, k⟩) ∧
      p'.log = p.log ++ ids.map (fun id => .call s (cb id) arg) := by
  rcases runSteps_good methods fuel steps inv_empty with e' | ⟨p0, a, e', i⟩
  · rw [e] at e'; cases e'
  · rw [e] at e'; cases e'
    have hl := (isSome_live i.rel i.whole s).mp hs
    obtain ⟨l, hl'⟩ := hl
    obtain ⟨ids0, it, hg, hp, _⟩ := i.rel.live hl'
    have hsl : a.slots s = l := by simp [Abs.slots, hl']
    have hnd : l.Nodup := hp.nodup_iff.mp (i.rel.ids_nodup hg)
    have hlen : l.length ≤ p.world.next := by
      have := List.Nodup.length_le_of_subset hnd (l₂ := List.range p.world.next) (fun j hj => by
        obtain ⟨x, hx, _⟩ := (i.rel.mem_slots s j).mp (hsl ▸ hj)
        exact List.mem_range.mpr (i.rel.fresh j x hx))
      simpa using this
    obtain ⟨k1, _⟩ := quiet_emit n arg i.rel ⟨l, hl'⟩ (by rw [hsl]; omega)
    obtain ⟨p', ids, e1, e2, e3, _⟩ := k1 (fun id hid => by
      obtain ⟨gs, k, ho, _⟩ := i.held id ⟨s, hid⟩
      rw [ho]; rfl)
    refine ⟨p', ids, a.cb, e1, e2.nodup_iff.mpr (hsl ▸ hnd), ?_, e3⟩
    intro id
    rw [e2.mem_iff, i.rel.mem_slots]
    constructor
    · rintro ⟨x, hx, rfl⟩
      obtain ⟨g, hg, hk⟩ := i.rel.bwd id x hx
      have := i.rel.fwd _ _ _ _ hg hk
      exact ⟨x.index, this⟩
    · rintro ⟨k, hk⟩
      exact ⟨_, hk, rfl⟩

/-- Without a guard there is no such protection: an object that connects its member function, keeps no guard and is destroyed is called by the next emission. -/
theorem C124_plain_violated {methods : Methods} {fuel : Nat} {steps : List Step} {p : Prog} (e : runSteps methods fuel steps .empty = .ok p) {s : Nat}
    (hs : (p.world.sigs s).isSome = true) (o : Nat) (ho : p.objs o = some []) (arg n : Nat) (hn : p.world.next + 1 < n) :
    ∃ p1 p2, connectPlain o s p = .ok p1 ∧ destroyObj o p1 = .ok p2 ∧ emitObj (fun _ => []) n s arg p2 = .error .ub := by
  rcases runSteps_good methods fuel steps inv_empty with e' | ⟨p0, a, e', i⟩
  · rw [e] at e'; cases e'
  · rw [e] at e'; cases e'
    obtain ⟨l, hl⟩ := (isSome_live i.rel i.whole s).mp hs
    obtain ⟨w', e1, r1, _, hnx, _⟩ := i.rel.connect ⟨l, hl⟩ o
    have hl' : (a.connect s o).conn s = .live (a.slots s ++ [a.next]) := by simp [Abs.connect]
    have hsl : (a.connect s o).slots s = a.slots s ++ [a.next] := by simp [Abs.slots, hl']
    refine ⟨⟨w', p.objs, p.log⟩, ⟨w', update p.objs o none, p.log⟩, by simp only [connectPlain, e1, ok_bind]; rfl, by simp only [destroyObj, ho, destroyGuards]; rfl, ?_⟩
    obtain ⟨ids0, it, hg, hp, _⟩ := r1.live hl'
    have hnd := r1.ids_nodup hg
    have hlen : ids0.length ≤ w'.next := by
      have := List.Nodup.length_le_of_subset hnd (l₂ := List.range w'.next) (fun j hj => by
        obtain ⟨x, hx, _⟩ := (r1.heap_iff hg j).mp hj
        exact List.mem_range.mpr (r1.fresh j x hx))
      simpa using this
    refine (quiet_emit n arg (p := ⟨w', update p.objs o none, p.log⟩) r1 ⟨_, hl'⟩ (by rw [hsl, ← hp.length_eq]; omega)).2 ⟨a.next, by rw [hsl]; simp, ?_⟩
    show update p.objs o none (update a.cb a.next o a.next) = none
    simp

/-- Nor does the guard protect an object that is moved: the guards of the new object hold connections that refer to the old one. -/
theorem C124_moved_violated {methods : Methods} {fuel : Nat} {steps : List Step} {p : Prog} (e : runSteps methods fuel steps .empty = .ok p) {id : Nat} {x : Slot}
    (hx : p.world.heap id = some x) (o' : Nat) (_ho' : o' ≠ x.callback) (arg n : Nat) (hn : p.world.next < n) :
    ∃ p1 p2, moveObj x.callback o' p = .ok p1 ∧ destroyObj x.callback p1 = .ok p2 ∧ emitObj (fun _ => []) n x.signal arg p2 = .error .ub := by
  rcases runSteps_good methods fuel steps inv_empty with e' | ⟨p0, a, e', i⟩
  · rw [e] at e'; cases e'
  · rw [e] at e'; cases e'
    have hmem : id ∈ a.slots x.signal := (i.rel.mem_slots _ _).mpr ⟨x, hx, rfl⟩
    obtain ⟨g, hg, hk⟩ := i.rel.bwd id x hx
    have hcb : a.cb id = x.callback := by
      have := i.rel.fwd _ _ _ _ hg hk
      rw [hx] at this
      exact (congrArg Slot.callback (Option.some.inj this)).symm
    have hl : a.Live x.signal := (isSome_live i.rel i.whole x.signal).mp (by simp [hg])
    obtain ⟨gs, k, ho, _⟩ := i.held id ⟨_, hmem⟩
    rw [hcb] at ho
    have hnone : ∀ (gs : List (Option Nat)) (w : World), destroyGuards (gs.map (fun c => (guardMoveConstruct c).2)) w = .ok w := by
      intro gs w
      induction gs with
      | nil => rfl
      | cons c cs ih => simp only [List.map_cons, destroyGuards, ih, ok_bind]; rfl
    refine ⟨_, ⟨p.world, update (update (update p.objs o' (some (gs.map (fun c => (guardMoveConstruct c).1)))) x.callback
      (some (gs.map (fun c => (guardMoveConstruct c).2)))) x.callback none, p.log⟩, by simp only [moveObj, ho]; rfl, ?_, ?_⟩
    · simp only [destroyObj, update_same, hnone, ok_bind]; rfl
    · obtain ⟨l, hl'⟩ := hl
      obtain ⟨ids0, it, hg', hp, _⟩ := i.rel.live hl'
      have hsl : a.slots x.signal = l := by simp [Abs.slots, hl']
      have hlen : ids0.length ≤ p.world.next := by
        have := List.Nodup.length_le_of_subset (i.rel.ids_nodup hg') (l₂ := List.range p.world.next) (fun j hj => by
          obtain ⟨y, hy, _⟩ := (i.rel.heap_iff hg' j).mp hj
          exact List.mem_range.mpr (i.rel.fresh j y hy))
        simpa using this
      refine (quiet_emit n arg (p := ⟨p.world, update (update (update p.objs o' (some (gs.map (fun c => (guardMoveConstruct c).1)))) x.callback
        (some (gs.map (fun c => (guardMoveConstruct c).2)))) x.callback none, p.log⟩) i.rel ⟨l, hl'⟩ (by rw [hsl, ← hp.length_eq]; omega)).2 ⟨id, hmem, ?_⟩
      rw [hcb]; simp

/-! ### Examples -/

/-- Objects 1, 2 and 3 listen to signal 7.  The member function of object 2 destroys object 3 and object 2 itself when it is called first, and creates object 3
again. -/
def killer : Methods
  | [.act _, .act _, .act _, .act _, .act _, .act _, .act _, .act _, .call _ _ _, .call _ 2 _] => [.destroy 3, .destroy 2, .create 3 1]
  | _ => []

def killing : List Step := [.act (.newSignal 7), .act (.create 1 1), .act (.create 2 2), .act (.create 3 1), .act (.connect 1 0 7), .act (.connect 2 1 7),
  .act (.connect 3 0 7), .act (.emit 7 5)]

/-- Object 3 is not called: it has been destroyed, and the new object there is not connected. -/
example : ∃ p, runSteps killer 9 killing .empty = .ok p ∧ p.log.filter (fun e => match e with | .call _ _ _ => true | _ => false) = [.call 7 1 5, .call 7 2 5] ∧
    exists_ 3 p.log = true ∧ exists_ 2 p.log = false ∧ p.objs 1 = some [some 0] := by
  refine ⟨_, rfl, ?_, ?_, ?_, ?_⟩ <;> decide

/-- The hypotheses of `C124_called`, `C124_plain_violated` and `C124_moved_violated`. -/
example : ∃ p x, runSteps killer 9 (killing ++ [.act (.create 4 0)]) .empty = .ok p ∧ (p.world.sigs 7).isSome = true ∧ p.objs 4 = some [] ∧ p.world.next < 4 ∧
    p.world.heap 0 = some x ∧ 5 ≠ x.callback := by
  refine ⟨_, ⟨1, 7, 0⟩, rfl, ?_, ?_, ?_, ?_, ?_⟩ <;> decide

end Verif.Signal
