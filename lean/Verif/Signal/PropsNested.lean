import Verif.Signal.LemmasNested

/-! # Signals: emissions inside callbacks (C67, C117) -/

namespace Verif.Signal
open Verif.Cpp

/-- Callbacks that emit signals: each emission, at any depth, calls every slot of its signal exactly once, if a signal that may be emitted again while it is being
emitted has at most one slot.  (With two slots or more, see `C67_recursive_violated`.) -/
theorem C67_single_partial {w : World} {a : Abs} (h : Reached w a) {script : Script} {size : Nat → Nat → Nat} (he : script.Emits a size) {level : Nat → Nat}
    (hl : script.Levelled a level) {s : Nat} (hs : a.Live s) (arg : Nat) {fuel : Nat} (hf : (size s arg + 1) * (a.next + 1) ≤ fuel) :
    ∃ w', emit script fuel s arg w = .ok w' ∧ Complete a script w.trace (.emissions [(s, arg)]) w'.trace ∧ ∀ id, isConnected (some id) w' = true ↔ a.Connected id := by
  obtain ⟨w0, ids, h1, h2, h3, h4⟩ := (reached_rel h).head hs arg
  obtain ⟨fb, hg⟩ := h3.sig
  have hlen := h3.rel.length_le hg
  rw [Nat.add_mul] at hf
  obtain ⟨w', tr, k1, k2, k3, k4, _⟩ := nested_loop he hl fuel w0 s arg ids fb 0 h3.rel hs hg (by omega)
  refine ⟨w', by rw [h1, k1], ?_, fun id => (k4.connected id).symm⟩
  rw [h2] at k3
  refine .emission h4 k3 ?_
  rw [← k2]; exact .nothing _

/-- Callbacks that emit other signals, of a lower level: each emission, at any depth, ends, and calls every slot of its signal exactly once. -/
theorem C117_nested {w : World} {a : Abs} (h : Reached w a) {script : Script} {level : Nat → Nat} (he : script.Emits a (fun t _ => level t)) {s : Nat} (hs : a.Live s)
    (arg : Nat) {fuel : Nat} (hf : (level s + 1) * (a.next + 1) ≤ fuel) :
    ∃ w', emit script fuel s arg w = .ok w' ∧ Complete a script w.trace (.emissions [(s, arg)]) w'.trace ∧ ∀ id, isConnected (some id) w' = true ↔ a.Connected id := by
  refine C67_single_partial h he (level := level) ?_ hs arg hf
  intro tr t id cb x act hact t' y e
  obtain ⟨t1, y1, e1, _, e3⟩ := he tr t id cb x act hact
  rw [e1] at e; cases e
  dsimp only at e3
  exact ⟨by omega, fun _ => by omega⟩

/-! ## Examples: signal 7 with the slots 0, 1, 2 and signal 8 with the slot 3 -/

theorem example_two : ∃ w a, Reached w a ∧ a.conn 7 = .live [0, 1, 2] ∧ a.conn 8 = .live [3] ∧ a.cb 3 = 13 ∧ a.next = 4 := by
  obtain ⟨w, a, h, h1, _, h2, _, _, _, h3⟩ := example_reached
  obtain ⟨w1, _, k1⟩ := reached_op h (o := .create 8) h2 (by intros; simp)
  obtain ⟨w2, _, k2⟩ := reached_op k1 (o := .connect 8 13) ⟨[], by simp [Op.spec, Abs.create]⟩ (by intros; simp)
  refine ⟨w2, _, k2, ?_, ?_, ?_, ?_⟩ <;> simp [Op.spec, Abs.connect, Abs.create, Abs.slots, update, h1, h3]

/-- The callbacks of signal 7 emit signal 8. -/
def relay : Script := fun tr =>
  match tr.getLast? with
  | some (.call 7 _ _ x) => [.emit 8 (x + 1)]
  | _ => []

theorem relay_emits {a : Abs} (h8 : a.Live 8) : relay.Emits a (fun t _ => if t = 7 then 1 else 0) := by
  intro tr s id cb x act hact
  by_cases hs : s = 7
  · subst hs
    simp only [relay, List.getLast?_append, List.getLast?_singleton, Option.some_or, List.mem_singleton] at hact
    exact ⟨8, x + 1, hact, h8, by simp⟩
  · simp [relay, hs] at hact

/-- Each of the three callbacks of signal 7 emits signal 8, whose slot is called each time. -/
example : ∃ w a, Reached w a ∧ ∃ w', emit relay 10 7 5 w = .ok w' ∧ Complete a relay w.trace (.emissions [(7, 5)]) w'.trace := by
  obtain ⟨w, a, h, h7, h8, _, hn⟩ := example_two
  obtain ⟨w', k1, k2, _⟩ := C117_nested h (relay_emits ⟨_, h8⟩) (s := 7) ⟨_, h7⟩ 5 (fuel := 10) (by simp [hn])
  exact ⟨w, a, h, w', k1, k2⟩

/-- The callback of signal 8 emits signal 8 again, down to the argument 0. -/
def emitDown : Script := fun tr =>
  match tr.getLast? with
  | some (.call 8 _ _ (x + 1)) => [.emit 8 x, .emit 8 x]
  | _ => []

example : ∃ w a, Reached w a ∧ ∃ w', emit emitDown 20 8 3 w = .ok w' ∧ Complete a emitDown w.trace (.emissions [(8, 3)]) w'.trace := by
  obtain ⟨w, a, h, h7, h8, _, hn⟩ := example_two
  have key : ∀ tr s id cb x, ∀ act ∈ emitDown (tr ++ [.call s id cb x]), s = 8 ∧ ∃ y, act = .emit 8 y ∧ y < x := by
    intro tr s id cb x act hact
    by_cases hs : s = 8
    · subst hs
      cases x with
      | zero => simp [emitDown] at hact
      | succ x =>
        simp [emitDown] at hact
        exact ⟨rfl, x, hact, by omega⟩
    · simp [emitDown, hs] at hact
  obtain ⟨w', k1, k2, _⟩ := C67_single_partial h (script := emitDown) (size := fun _ x => x) (level := fun _ => 0)
    (by
      intro tr s id cb x act hact
      obtain ⟨e, y, e1, e2⟩ := key tr s id cb x act hact
      exact ⟨8, y, e1, ⟨_, h8⟩, e2⟩)
    (by
      intro tr s id cb x act hact t y e
      obtain ⟨e, y, e1, e2⟩ := key tr s id cb x act hact
      subst e
      exact ⟨Nat.le_refl _, fun _ => by simp [Abs.slots, h8]⟩)
    (s := 8) ⟨_, h8⟩ 3 (fuel := 20) (by simp [hn])
  exact ⟨w, a, h, w', k1, k2⟩

end Verif.Signal
