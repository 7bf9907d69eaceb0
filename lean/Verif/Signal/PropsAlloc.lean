import Verif.Signal.ModelAlloc
import Verif.Signal.Props

/-! # Signals: memory that runs out (C119) -/

namespace Verif.Signal
open Verif.Cpp

/-- With enough memory, `Connect` and its relatives are those of the other theorems. -/
theorem C119_enough_memory (c : Option Nat) (s cb : Nat) (w : World) :
    connectA none s cb w = (do let r ← connect s cb w; pure (r.1, some r.2)) ∧
    guardConnectA none c s cb w = (do let r ← guardConnect c s cb w; pure (r.1, r.2, false)) ∧ ∀ t, moveAssignA false s t w = moveAssign s t w := by
  have h1 : ∀ w, connectA none s cb w = (do let r ← connect s cb w; pure (r.1, some r.2)) := by
    intro w
    simp only [connectA, connect, reduceCtorEq, if_false]
    cases w.sig s <;> rfl
  refine ⟨h1 w, ?_, ?_⟩
  · simp only [guardConnectA, guardConnect]
    cases disconnect c w with
    | error e => rfl
    | ok w1 =>
      simp only [ok_bind, connectionConnectA, h1]
      cases connect s cb w1 <;> rfl
  · intro t
    simp only [moveAssignA, moveAssign, Bool.false_and, Bool.false_eq_true, if_false]
    cases hs : w.sig s <;> cases ht : w.sig t <;> rfl

/-- If an allocation fails in `Connect`, an exception leaves the call and nothing has changed: the signal, its slots, all connections. -/
theorem C119_connect {w : World} {a : Abs} (h : Reached w a) {s : Nat} (hs : a.Live s) (fail : Alloc) (cb : Nat) : connectA (some fail) s cb w = .ok (w, none) := by
  obtain ⟨l, hl⟩ := hs
  have hr := reached_rel h
  obtain ⟨ids, it, hg, _⟩ := hr.live hl
  cases fail with
  | callable => rfl
  | slot => simp only [connectA, sig_some hg, ok_bind]; rfl
  | room =>
    have hfresh : w.heap w.next = none := by
      cases hx : w.heap w.next with
      | none => rfl
      | some x => have := hr.fresh _ x hx; omega
    have : (w.setSlot w.next (some ⟨cb, s, ids.length⟩)).release (some w.next) = w := by
      simp only [World.release, World.setSlot, hr.leak, List.not_mem_nil, if_false]
      cases w with
      | mk heap next sigs shared trace =>
        simp only [World.mk.injEq, and_true, true_and]
        refine ⟨?_, hr.leak.symm⟩
        funext j
        by_cases hj : j = next
        · subst hj; simpa [update] using hfresh.symm
        · simp [update, hj]
    simp only [connectA, sig_some hg, ok_bind, List.length_map, this, reduceCtorEq, if_false, if_true, Option.some.injEq]
    rfl

/-- The same of `Connection::Connect`: the connection is still the one it was. -/
theorem C119_connection {w : World} {a : Abs} (h : Reached w a) {s : Nat} (hs : a.Live s) (fail : Alloc) (c : Option Nat) (cb : Nat) :
    connectionConnectA (some fail) c s cb w = .ok (w, c, true) := by
  simp only [connectionConnectA, C119_connect h hs fail cb, ok_bind]; rfl

/-- `ConnectionGuard::Connect` of a guard whose slot is not connected. -/
theorem C119_guard_partial {w : World} {a : Abs} (h : Reached w a) {s : Nat} (hs : a.Live s) (fail : Alloc) {c : Option Nat} (hc : ∀ id, c = some id → ¬ a.Connected id) (cb : Nat) :
    guardConnectA (some fail) c s cb w = .ok (w, c, true) := by
  have hd : disconnect c w = .ok w := by
    cases c with
    | none => rfl
    | some id =>
      have := hc id rfl
      rw [(reached_rel h).connected] at this
      cases hx : w.heap id with
      | none => simp [Signal.disconnect, hx]
      | some x => simp [isConnected, hx] at this
  simp only [guardConnectA, hd, ok_bind, C119_connection h hs fail c cb]

/-- C119 is false of `ConnectionGuard::Connect` in all other cases: the slot of the guard is disconnected although the new one is not connected. -/
theorem C119_guard_violated {w : World} {a : Abs} (h : Reached w a) {s : Nat} (hs : a.Live s) (fail : Alloc) {id : Nat} (hc : a.Connected id) (cb : Nat) :
    isConnected (some id) w = true ∧
    ∃ w', guardConnectA (some fail) (some id) s cb w = .ok (w', some id, true) ∧ Reached w' (a.disconnect id) ∧ isConnected (some id) w' = false := by
  obtain ⟨w', k1, k2⟩ := reached_op h (o := .disconnect id) trivial (by intros; simp)
  have k1' : disconnect (some id) w = .ok w' := k1
  refine ⟨((reached_rel h).connected id).mp hc, w', ?_, k2, ?_⟩
  · simp only [guardConnectA, k1', ok_bind]
    refine C119_connection k2 ?_ fail _ cb
    obtain ⟨l, hl⟩ := hs
    exact ⟨_, by simp only [Op.spec, Abs.disconnect, hl]; rfl⟩
  · have : ¬ (a.disconnect id).Connected id := by
      rintro ⟨t, ht⟩
      simp only [Abs.slots, Abs.disconnect] at ht
      cases hct : a.conn t <;> rw [hct] at ht <;> simp [Status.map] at ht
    have hh := ((reached_rel k2).connected id).not.mp this
    simpa using hh

/-- Move assignment does not depend on memory, unless the target has had two slots at once and the source has a slot and never had two. -/
theorem C119_move_partial {w : World} {a : Abs} (h : Reached w a) {s t : Nat} (hs : a.conn s ≠ .absent) (ht : a.Live t)
    (hok : a.grown s = true → a.grown t = true ∨ a.slots t = []) (fail : Bool) : moveAssignA fail s t w = moveAssign s t w := by
  have hr := reached_rel h
  obtain ⟨g, hg, hgf⟩ := hr.present_sig hs
  obtain ⟨l, hl⟩ := ht
  obtain ⟨ids, it, hg', hp, _⟩ := hr.live hl
  have : (g.fallback && (!a.grown t && !(ids.map some).isEmpty)) = false := by
    rw [hgf]
    cases hgs : a.grown s with
    | false => rfl
    | true =>
      rcases hok hgs with e | e
      · simp [e]
      · have : l = [] := by simpa [Abs.slots, hl] using e
        subst this
        rw [List.perm_nil.mp hp]; simp
  simp only [moveAssignA, sig_some hg, sig_some hg', ok_bind, this, Bool.and_false, Bool.false_eq_true, if_false]

/-- C119 is false of it: the program ends. -/
theorem C119_move_violated {w : World} {a : Abs} (h : Reached w a) {s t : Nat} (hs : a.conn s ≠ .absent) (hgs : a.grown s = true) {l : List Nat} (ht : a.conn t = .live l)
    (hgt : a.grown t = false) (hl : l ≠ []) : moveAssignA true s t w = .error .terminate := by
  have hr := reached_rel h
  obtain ⟨g, hg, hgf⟩ := hr.present_sig hs
  obtain ⟨ids, it, hg', hp, _⟩ := hr.live ht
  have hne : ids ≠ [] := by
    rintro rfl
    exact hl (List.nil_perm.mp hp)
  rw [hgs] at hgf
  simp [moveAssignA, sig_some hg, sig_some hg', hgf, hgt, hne]

/-! ## Examples: signal 7 with the slots 0, 1, 2, and signal 8 with the slot 3 -/

example : ∃ w a, Reached w a ∧ connectA (some .room) 7 13 w = .ok (w, none) ∧
    ∃ w', guardConnectA (some .slot) (some 1) 7 13 w = .ok (w', some 1, true) ∧ isConnected (some 1) w = true ∧ isConnected (some 1) w' = false := by
  obtain ⟨w, a, h, h1, _⟩ := example_reached
  obtain ⟨k1, w', k2, _, k3⟩ := C119_guard_violated h (s := 7) ⟨_, h1⟩ .slot (id := 1) ⟨7, by simp [Abs.slots, h1]⟩ 13
  exact ⟨w, a, h, C119_connect h ⟨_, h1⟩ .room 13, w', k2, k1, k3⟩

example : ∃ w a, Reached w a ∧ moveAssignA true 7 8 w = .error .terminate ∧ ∀ fail, moveAssignA fail 8 7 w = moveAssign 8 7 w := by
  obtain ⟨w, a, h, h1, hg, h2, _⟩ := example_reached
  obtain ⟨w1, _, k1⟩ := reached_op h (o := .create 8) h2 (by intros; simp)
  obtain ⟨w2, _, k2⟩ := reached_op k1 (o := .connect 8 13) ⟨[], by simp [Op.spec, Abs.create]⟩ (by intros; simp)
  refine ⟨w2, _, k2, C119_move_violated k2 (l := [a.next]) ?_ ?_ ?_ ?_ (by simp), fun fail => C119_move_partial k2 ?_ ⟨[0, 1, 2], ?_⟩ ?_ fail⟩ <;>
    simp [Op.spec, Abs.connect, Abs.create, Abs.slots, update, h1, hg]

end Verif.Signal
