import Verif.Signal.SpecLife
import Verif.Signal.LemmasCalm

/-! # Signals: whole programs -/

namespace Verif.Signal
open Verif.Cpp

/-! ## Logs -/

theorem after_snoc (log : List EventL) (e : EventL) : after (log ++ [e]) = (after log).eventL e := by simp [after]

theorem snoc_split {log : List EventL} {e : EventL} {l1 : List EventL} {f : EventL} {l2 : List EventL} (h : log ++ [e] = l1 ++ f :: l2) :
    (l1 = log ∧ f = e ∧ l2 = []) ∨ ∃ l2', l2 = l2' ++ [e] ∧ log = l1 ++ f :: l2' := by
  rcases List.eq_nil_or_concat l2 with rfl | ⟨l, y, rfl⟩
  · left
    have := List.append_inj' h (by simp)
    exact ⟨this.1.symm, by simpa using this.2.symm, rfl⟩
  · right
    have h' : log ++ [e] = (l1 ++ f :: l) ++ [y] := by simpa using h
    have := List.append_inj' h' (by simp)
    have e' : e = y := by simpa using this.2
    subst e'
    exact ⟨l, by simp, this.1⟩

theorem Sensible.snoc {log : List EventL} {e : EventL} (h : Sensible log) (he : e.fits (after log) (active log)) : Sensible (log ++ [e]) := by
  intro l1 f l2 hl
  rcases snoc_split hl with ⟨rfl, rfl, _⟩ | ⟨l2', _, h'⟩
  · exact he
  · exact h l1 f l2' h'

theorem Follows.snoc {p : Program} {log : List EventL} {e : EventL} (h : Follows p log) (he : e.by p log) : Follows p (log ++ [e]) := by
  intro l1 f l2 hl
  rcases snoc_split hl with ⟨rfl, rfl, _⟩ | ⟨l2', _, h'⟩
  · exact he
  · exact h l1 f l2' h'

theorem Orderly.init {before : List EventL} {s : Nat} {l : List EventL} {e : EventL} (h : Orderly before s (l ++ [e])) : Orderly before s l := by
  intro m1 id m2 k cb m3 hl
  exact h m1 id m2 k cb (m3 ++ [e]) (by rw [hl]; simp)

theorem callsL_snoc (s : Nat) (l : List EventL) (e : EventL) (h : ∀ id cb b, e ≠ .ev (.call s id cb b)) : callsL s (l ++ [e]) = callsL s l := by
  simp only [callsL, List.filterMap_append]
  have : e.slot s = none := by
    cases e with
    | ev e =>
      cases e with
      | call t id cb b =>
        have : t ≠ s := by rintro rfl; exact h _ _ _ rfl
        simp [EventL.slot, this]
      | _ => rfl
    | _ => rfl
  simp [this]

theorem callsL_call (s : Nat) (l : List EventL) (id cb b : Nat) : callsL s (l ++ [.ev (.call s id cb b)]) = callsL s l ++ [id] := by
  simp [callsL, List.filterMap_append, EventL.slot]

/-! ## Other signals are left alone -/

theorem release_sigs (w : World) (p : Option Nat) : (w.release p).sigs = w.sigs ∧ (w.release p).next = w.next := by
  cases p with
  | none => exact ⟨rfl, rfl⟩
  | some id => simp only [World.release]; split <;> exact ⟨rfl, rfl⟩

theorem releaseAll_sigs (w : World) (l : List (Option Nat)) : (w.releaseAll l).sigs = w.sigs ∧ (w.releaseAll l).next = w.next := by
  induction l generalizing w with
  | nil => exact ⟨rfl, rfl⟩
  | cons p ps ih =>
    obtain ⟨h1, h2⟩ := ih (w.release p)
    obtain ⟨h3, h4⟩ := release_sigs w p
    exact ⟨h1.trans h3, h2.trans h4⟩

theorem clear_sigs {s : Nat} {w w' : World} (h : Signal.clear s w = .ok w') : (∀ u, u ≠ s → w'.sigs u = w.sigs u) ∧ w'.next = w.next := by
  simp only [Signal.clear, World.sig] at h
  cases hg : w.sigs s with
  | none => simp [hg] at h
  | some g =>
    simp only [hg, ok_bind] at h
    cases h
    obtain ⟨h1, h2⟩ := releaseAll_sigs w g.slots
    exact ⟨fun u hu => by simp [World.setSig, update_ne _ _ hu, h1], h2⟩

theorem destroy_sigs {s : Nat} {w w' : World} (h : destroySignal s w = .ok w') : (∀ u, u ≠ s → w'.sigs u = w.sigs u) ∧ w'.next = w.next := by
  simp only [destroySignal, World.sig] at h
  cases hg : w.sigs s with
  | none => simp [hg] at h
  | some g =>
    simp only [hg, ok_bind] at h
    cases h
    obtain ⟨h1, h2⟩ := releaseAll_sigs w g.slots
    exact ⟨fun u hu => by simp [World.setSig, update_ne _ _ hu, h1], h2⟩

theorem retarget_same {s : Nat} {l : List (Option Nat)} {w w' : World} (h : retarget s l w = .ok w') : w'.sigs = w.sigs ∧ w'.next = w.next := by
  induction l generalizing w with
  | nil => cases h; exact ⟨rfl, rfl⟩
  | cons p ps ih =>
    cases p with
    | none => cases h
    | some id =>
      simp only [retarget] at h
      cases hx : w.heap id with
      | none => simp [hx] at h
      | some x =>
        simp only [hx] at h
        have := ih h
        exact this

theorem moveSlots_sigs (g h : Sig) (w : World) : (moveSlots g h w).1.sigs = w.sigs ∧ (moveSlots g h w).1.next = w.next := by
  simp only [moveSlots]
  split
  · split
    · exact releaseAll_sigs _ _
    · exact ⟨rfl, rfl⟩
  · split
    · exact releaseAll_sigs _ _
    · exact releaseAll_sigs _ _

theorem moveAssign_sigs {s t : Nat} {w w' : World} (h : Signal.moveAssign s t w = .ok w') : (∀ u, u ≠ s → u ≠ t → w'.sigs u = w.sigs u) ∧ w'.next = w.next := by
  simp only [Signal.moveAssign, World.sig] at h
  cases hg : w.sigs s with
  | none => simp [hg] at h
  | some g =>
    cases hh : w.sigs t with
    | none => simp [hg, hh] at h
    | some k =>
      simp only [hg, hh, ok_bind] at h
      obtain ⟨h1, h2⟩ := retarget_same h
      obtain ⟨h3, h4⟩ := moveSlots_sigs g k w
      refine ⟨fun u hu hu' => ?_, ?_⟩
      · rw [h1]; simp [World.setSig, update_ne _ _ hu, update_ne _ _ hu', h3]
      · rw [h2]; exact h4

theorem setIndex_sigs {w w' : World} {p : Option Nat} {k : Nat} (h : w.setIndex p k = .ok w') : w'.sigs = w.sigs ∧ w'.next = w.next := by
  cases p with
  | none => cases h
  | some id =>
    simp only [World.setIndex] at h
    cases hx : w.heap id with
    | none => simp [hx] at h
    | some x => simp only [hx] at h; cases h; exact ⟨rfl, rfl⟩

theorem bind_ok {α β : Type} {x : M α} {f : α → M β} {y : β} (h : (x >>= f) = .ok y) : ∃ a, x = .ok a ∧ f a = .ok y := by
  cases x with
  | error e => cases h
  | ok a => exact ⟨a, rfl, h⟩

theorem disconnect_sigs {id : Nat} {w w' : World} (h : Signal.disconnect (some id) w = .ok w') :
    ∀ u, (∀ x, w.heap id = some x → x.signal ≠ u) → w'.sigs u = w.sigs u := by
  intro u hu
  simp only [Signal.disconnect] at h
  cases hx : w.heap id with
  | none => simp only [hx] at h; cases h; rfl
  | some x =>
    have hu' := (hu x hx).symm
    simp only [hx, disconnectSlot] at h
    obtain ⟨g, hg, h⟩ := bind_ok h
    obtain ⟨_, _, h⟩ := bind_ok h
    split at h
    · simp only [disconnectSimple] at h
      obtain ⟨v, _, h⟩ := bind_ok h
      obtain ⟨b, _, h⟩ := bind_ok h
      obtain ⟨w1, h1, h⟩ := bind_ok h
      cases h
      rw [(release_sigs _ _).1]
      simp [World.setSig, update_ne _ _ hu', (setIndex_sigs h1).1]
    · split at h
      · cases h
      · simp only [disconnectTricky] at h
        obtain ⟨v, _, h⟩ := bind_ok h
        obtain ⟨b, _, h⟩ := bind_ok h
        obtain ⟨w1, h1, h⟩ := bind_ok h
        obtain ⟨c, _, h⟩ := bind_ok h
        obtain ⟨w2, h2, h⟩ := bind_ok h
        cases h
        rw [(release_sigs _ _).1]
        simp [World.setSig, update_ne _ _ hu', (setIndex_sigs h1).1, (setIndex_sigs h2).1]

/-! ## Emissions that go on -/

/-- The state of an emission of signal `s` that began after the events `l1`, the events `l2` having happened since.  `h = some s`: the condition of the loop is about to be tested. -/
def Pend (h : Option Nat) (w : World) (l1 : List EventL) (s arg : Nat) (l2 : List EventL) : Prop :=
  ∃ (ids : List Nat) (fb : Bool) (it : Option Nat) (c : Nat), w.sigs s = some ⟨ids.map some, fb, it⟩ ∧ (if h = some s then it = some c else c = cursor it) ∧
    (callsL s l2).Nodup ∧ (∀ id ∈ callsL s l2, id < w.next) ∧ (∀ id ∈ ids.drop c, id ∉ callsL s l2) ∧
    (∀ id ∈ ids, id ∈ (after l1).slots s → id ∈ callsL s l2 ∨ id ∈ ids.drop c) ∧
    (it = none → ∃ m1 id m2, l2 = m1 ++ .ev (.disconnect id) :: m2 ∧ id ∈ (after (l1 ++ .ev (.emit s arg) :: m1)).slots s ∧
      ∀ k cb b, .ev (.call s k cb b) ∉ m2)

theorem Pend.same {h h' : Option Nat} {w w' : World} {l1 : List EventL} {s arg : Nat} {l2 : List EventL} (p : Pend h w l1 s arg l2) {e : EventL} (hs : w'.sigs s = w.sigs s)
    (hn : w.next ≤ w'.next) (hh : h = some s ↔ h' = some s) (he : ∀ id cb b, e ≠ .ev (.call s id cb b)) : Pend h' w' l1 s arg (l2 ++ [e]) := by
  obtain ⟨ids, fb, it, c, h1, h2, h3, h4, h5, h6, h7⟩ := p
  refine ⟨ids, fb, it, c, hs.trans h1, ?_, ?_, ?_, ?_, ?_, ?_⟩
  · by_cases hc : h = some s
    · rw [if_pos (hh.mp hc)]; rwa [if_pos hc] at h2
    · rw [if_neg (fun x => hc (hh.mpr x))]; rwa [if_neg hc] at h2
  · rw [callsL_snoc _ _ _ he]; exact h3
  · rw [callsL_snoc _ _ _ he]; exact fun id hid => Nat.lt_of_lt_of_le (h4 id hid) hn
  · rw [callsL_snoc _ _ _ he]; exact h5
  · rw [callsL_snoc _ _ _ he]; exact h6
  · intro hi
    obtain ⟨m1, id, m2, k1, k2, k3⟩ := h7 hi
    refine ⟨m1, id, m2 ++ [e], by rw [k1]; simp, k2, ?_⟩
    intro k cb b hm
    rcases List.mem_append.mp hm with hm | hm
    · exact k3 k cb b hm
    · exact he k cb b (List.mem_singleton.mp hm).symm

/-- What the emission of signal `s` has done, at its end. -/
def Exact (l1 : List EventL) (s arg : Nat) (l2 : List EventL) : Prop :=
  (callsL s l2).Nodup ∧ ∀ id, id ∈ (after l1).slots s → id ∈ (after (l1 ++ .ev (.emit s arg) :: l2)).slots s → id ∈ callsL s l2

/-- Invariant of programs. -/
structure Lives (p : Program) (h : Option Nat) (x : State) : Prop where
  sensible : Sensible x.2
  follows : Follows p x.2
  rel : Rel x.1 (after x.2)
  live : ∀ e ∈ active x.2, (after x.2).Live e.1
  finished : ∀ l1 s arg l2 l3, x.2 = l1 ++ .ev (.emit s arg) :: (l2 ++ .ev (.done s) :: l3) → (∀ e ∈ l2, e.disturbs s = false) →
    Orderly (l1 ++ [.ev (.emit s arg)]) s l2 → Exact l1 s arg l2
  pend : ∀ l1 s arg l2, x.2 = l1 ++ .ev (.emit s arg) :: l2 → (∀ e ∈ l2, e.disturbs s = false) → Orderly (l1 ++ [.ev (.emit s arg)]) s l2 →
    Pend h x.1 l1 s arg l2

/-- One event more. -/
theorem Lives.step {p : Program} {h h' : Option Nat} {w w' : World} {log : List EventL} (i : Lives p h (w, log)) (e : EventL) (fits : e.fits (after log) (active log)) (hby : e.by p log)
    (rel : Rel w' ((after log).eventL e)) (live : ∀ k ∈ active (log ++ [e]), ((after log).eventL e).Live k.1)
    (hdone : ∀ l1 s arg l2, e = .ev (.done s) → log = l1 ++ .ev (.emit s arg) :: l2 → Pend h w l1 s arg l2 → Exact l1 s arg l2)
    (hemit : ∀ s arg, e = .ev (.emit s arg) → Pend h' w' log s arg [])
    (hpend : ∀ l1 s arg l2, log = l1 ++ .ev (.emit s arg) :: l2 → e.disturbs s = false → Orderly (l1 ++ [.ev (.emit s arg)]) s (l2 ++ [e]) → Pend h w l1 s arg l2 →
      Pend h' w' l1 s arg (l2 ++ [e])) : Lives p h' (w', log ++ [e]) := by
  refine ⟨i.sensible.snoc fits, i.follows.snoc hby, ?_, ?_, ?_, ?_⟩
  · show Rel w' (after (log ++ [e])); rw [after_snoc]; exact rel
  · show ∀ k ∈ active (log ++ [e]), (after (log ++ [e])).Live k.1; rw [after_snoc]; exact live
  · intro l1 s arg l2 l3 hl hd ho
    have hl' : log ++ [e] = (l1 ++ .ev (.emit s arg) :: l2) ++ .ev (.done s) :: l3 := by simpa using hl
    rcases snoc_split hl' with ⟨k1, k2, _⟩ | ⟨l3', _, k2⟩
    · exact hdone l1 s arg l2 k2.symm k1.symm (i.pend l1 s arg l2 k1.symm hd ho)
    · exact i.finished l1 s arg l2 l3' (by simpa using k2) hd ho
  · intro l1 s arg l2 hl hd ho
    rcases snoc_split hl with ⟨rfl, k2, rfl⟩ | ⟨l2', rfl, k2⟩
    · exact hemit s arg k2.symm
    · exact hpend l1 s arg l2' k2 (hd e (by simp)) ho (i.pend l1 s arg l2' k2 (fun f hf => hd f (by simp [hf])) ho.init)

theorem active_snoc (log : List EventL) (e : EventL) : active (log ++ [e]) = activeStep (active log) e := by simp [active]

/-! ## The calls -/

/-- Divergence, or an end, by an exception or not, with the same emissions going on. -/
def GoodL (p : Program) (st : List (Nat × Nat)) (r : M (State × Bool)) : Prop := r = .error .diverge ∨ ∃ x' b, r = .ok (x', b) ∧ Lives p none x' ∧ active x'.2 = st

theorem live_create {a : Abs} {k : Nat} (h : a.Live k) (s : Nat) : (a.create s).Live k := by
  by_cases hk : k = s
  · subst hk; exact ⟨[], by simp [Abs.create, update]⟩
  · obtain ⟨l, hl⟩ := h
    exact ⟨l, by simp [Abs.create, update_ne _ _ hk, hl]⟩

theorem live_destroy {a : Abs} {k : Nat} (h : a.Live k) {s : Nat} (hk : k ≠ s) : (a.destroy s).Live k := by
  obtain ⟨l, hl⟩ := h
  exact ⟨l, by simp [Abs.destroy, update_ne _ _ hk, hl]⟩

theorem live_move {a : Abs} {k : Nat} (h : a.Live k) {s t : Nat} (hk : k ≠ t) : (a.move s t).Live k := by
  by_cases hs : k = s
  · subst hs; exact ⟨a.slots t, by simp [Abs.move, update, hk]⟩
  · obtain ⟨l, hl⟩ := h
    exact ⟨l, by simp [Abs.move, update_ne _ _ hk, update_ne _ _ hs, hl]⟩

/-- An event that leaves alone the signals that it does not disturb, and is neither the beginning nor the end of an emission, nor a call. -/
theorem Lives.plain {p : Program} {w w' : World} {log : List EventL} (i : Lives p none (w, log)) (e : EventL) (fits : e.fits (after log) (active log)) (hby : e.by p log)
    (rel : Rel w' ((after log).eventL e)) (live : ∀ k ∈ active log, ((after log).eventL e).Live k.1) (hn : w.next ≤ w'.next)
    (hsame : ∀ u, e.disturbs u = false → w'.sigs u = w.sigs u) (h1 : ∀ s arg, e ≠ .ev (.emit s arg)) (h2 : ∀ s, e ≠ .ev (.done s))
    (h3 : ∀ s id cb arg, e ≠ .ev (.call s id cb arg)) : Lives p none (w', log ++ [e]) := by
  refine i.step e fits hby rel ?_ (fun l1 s arg l2 he => absurd he (h2 s)) (fun s arg he => absurd he (h1 s arg)) ?_
  · intro k hk
    rw [active_snoc] at hk
    refine live k ?_
    cases e with
    | ev e =>
      cases e with
      | emit s arg => exact absurd rfl (h1 s arg)
      | done s => exact absurd rfl (h2 s)
      | _ => exact hk
    | threw s => exact List.mem_of_mem_tail hk
    | _ => exact hk
  · intro l1 s arg l2 _ hd _ hp
    exact hp.same (hsame s hd) hn Iff.rfl (fun id cb b => h3 s id cb b)

theorem next_eventL (a : Abs) (e : EventL) : a.next ≤ (a.eventL e).next := by
  cases e with
  | ev e => cases e <;> simp [Abs.eventL, Abs.event, Abs.connect, Abs.disconnect, Abs.clear]
  | _ => simp [Abs.eventL, Abs.create, Abs.destroy, Abs.move]

theorem next_after (l1 l2 : List EventL) : (after l1).next ≤ (after (l1 ++ l2)).next := by
  simp only [after, List.foldl_append]
  generalize List.foldl Abs.eventL Abs.empty l1 = a
  induction l2 generalizing a with
  | nil => exact Nat.le_refl _
  | cons e es ih => exact Nat.le_trans (next_eventL a e) (ih _)

theorem fresh_eventL {a : Abs} (h : ∀ s id, id ∈ a.slots s → id < a.next) (e : EventL) : ∀ s id, id ∈ (a.eventL e).slots s → id < (a.eventL e).next := by
  have hcreate : ∀ s u id, id ∈ (a.create s).slots u → id < a.next := by
    intro s u id hm
    by_cases hu : u = s
    · subst hu; simp [Abs.slots, Abs.create, update] at hm
    · exact h u id (by simpa [Abs.slots, Abs.create, update_ne _ _ hu] using hm)
  have hmove : ∀ (b : Abs) (n : Nat), (∀ s id, id ∈ b.slots s → id < n) → ∀ s t u id, id ∈ (b.move s t).slots u → id < n := by
    intro b n hb s t u id hm
    by_cases hu : u = t
    · subst hu
      have hcu : (b.move s u).conn u = if b.grown u = false ∧ b.slots u ≠ [] then .hollow else .live [] := by simp [Abs.move, update]
      by_cases hc : b.grown u = false ∧ b.slots u ≠ []
      · rw [if_pos hc] at hcu; simp [Abs.slots, hcu] at hm
      · rw [if_neg hc] at hcu; simp [Abs.slots, hcu] at hm
    · by_cases hu' : u = s
      · subst hu'
        exact hb t id (by simpa [Abs.slots, Abs.move, update, hu] using hm)
      · exact hb u id (by simpa [Abs.slots, Abs.move, update_ne _ _ hu, update_ne _ _ hu'] using hm)
  intro u id hm
  cases e with
  | ev e =>
    cases e with
    | connect s k cb =>
      simp only [Abs.eventL, Abs.event] at hm ⊢
      show id < a.next + 1
      by_cases hu : u = s
      · subst hu
        have hm' : id ∈ a.slots u ++ [a.next] := by simpa [Abs.slots, Abs.connect, update] using hm
        rcases List.mem_append.mp hm' with hm' | hm'
        · have := h u id hm'; omega
        · rw [List.mem_singleton.mp hm']; omega
      · have := h u id (by simpa [Abs.slots, Abs.connect, update_ne _ _ hu] using hm)
        omega
    | disconnect k =>
      refine h u id ?_
      simp only [Abs.eventL, Abs.event, Abs.disconnect, Abs.slots] at hm ⊢
      cases hc : a.conn u with
      | live l => rw [hc] at hm; exact (List.mem_filter.mp hm).1
      | absent => rw [hc] at hm; cases hm
      | hollow => rw [hc] at hm; cases hm
    | clear s =>
      by_cases hu : u = s
      · subst hu; simp [Abs.eventL, Abs.event, Abs.slots, Abs.clear, update] at hm
      · exact h u id (by simpa [Abs.eventL, Abs.event, Abs.slots, Abs.clear, update_ne _ _ hu] using hm)
    | emit => exact h u id hm
    | call => exact h u id hm
    | done => exact h u id hm
  | create s => exact hcreate s u id hm
  | destroy s =>
    by_cases hu : u = s
    · subst hu; simp [Abs.eventL, Abs.slots, Abs.destroy, update] at hm
    · exact h u id (by simpa [Abs.eventL, Abs.slots, Abs.destroy, update_ne _ _ hu] using hm)
  | moveConstruct s t => exact hmove (a.create s) a.next (hcreate s) s t u id hm
  | moveAssign s t => exact hmove a a.next h s t u id hm
  | threw s => exact h u id hm

theorem fresh_after (log : List EventL) : ∀ s id, id ∈ (after log).slots s → id < (after log).next := by
  have : ∀ (a : Abs), (∀ s id, id ∈ a.slots s → id < a.next) → ∀ s id, id ∈ (log.foldl Abs.eventL a).slots s → id < (log.foldl Abs.eventL a).next := by
    induction log with
    | nil => exact fun a h => h
    | cons e es ih => exact fun a h => ih _ (fresh_eventL h e)
  exact this .empty (fun s id hm => by simp [Abs.slots, Abs.empty] at hm)

theorem Lives.connect {p : Program} {w : World} {log : List EventL} (i : Lives p none (w, log)) {s : Nat} (hs : (after log).Live s) (cb : Nat) (hby : p log = some (.act (.connect s cb))) :
    ∃ w' id, Signal.connect s cb w = .ok (w', id) ∧ Lives p none (w', log ++ [.ev (.connect s id cb)]) := by
  obtain ⟨w', h1, h2, h3, h4, h5, h6⟩ := i.rel.connect hs cb
  simp only at h1 h2 h3 h4 h5 h6
  refine ⟨w', _, h1, i.step (.ev (.connect s (after log).next cb)) ⟨hs, rfl⟩ hby h2 ?_ (fun l1 s arg l2 he => by cases he) (fun s arg he => by cases he) ?_⟩
  · intro k hk
    rw [active_snoc] at hk
    exact live_event (i.live k hk) (.connect s (after log).next cb)
  · intro l1 u arg l2 hl _ ho hp
    by_cases hu : u = s
    · subst hu
      obtain ⟨ids, fb, it, c, k1, k2, k3, k4, k5, k6, k7⟩ := hp
      have hit : it ≠ none := by
        intro hi
        obtain ⟨m1, id, m2, q1, q2, q3⟩ := k7 hi
        obtain ⟨k', cb', b, hm⟩ := ho m1 id m2 (after log).next cb [] (by rw [q1]; simp) (by simpa using q2)
        exact q3 _ _ _ hm
      have hnone : (none : Option Nat) ≠ some u := by simp
      rw [if_neg hnone] at k2
      have hsig := h5 _ k1
      have hnc : ∀ id cb' b, (EventL.ev (.connect u (after log).next cb)) ≠ .ev (.call u id cb' b) := by intro _ _ _ h; cases h
      have hnext : w.next ∉ callsL u l2 := fun hm => Nat.lt_irrefl _ (k4 _ hm)
      have hnew : w.next ∉ ids := by
        intro hm
        obtain ⟨x, hx, _⟩ := (i.rel.heap_iff k1 w.next).mp hm
        exact Nat.lt_irrefl _ (i.rel.fresh _ _ hx)
      obtain ⟨i0, rfl⟩ : ∃ i0, it = some i0 := by cases it with
        | none => exact absurd rfl hit
        | some i0 => exact ⟨i0, rfl⟩
      have hold : w.next ∉ (after l1).slots u := by
        intro hm
        have h7 := fresh_after l1 u _ hm
        have h8 : (after l1).next ≤ (after log).next := by rw [hl]; exact next_after l1 _
        have h9 : (after log).next = w.next := i.rel.next
        omega
      by_cases hge : ids.length ≤ i0
      · refine ⟨ids ++ [w.next], fb || decide (1 ≤ ids.length), some (ids.length + 1), ids.length + 2, ?_, ?_, ?_, ?_, ?_, ?_, ?_⟩
        · rw [hsig]; simp [Sig.connected, iterGe, hge]
        · rw [if_neg hnone]; rfl
        · rw [callsL_snoc _ _ _ hnc]; exact k3
        · rw [callsL_snoc _ _ _ hnc]; exact fun id hid => (by have := k4 id hid; omega)
        · simp
        · intro id hid hsl
          rw [callsL_snoc _ _ _ hnc]
          left
          rcases List.mem_append.mp hid with hid | hid
          · rcases k6 id hid hsl with h | h
            · exact h
            · rw [k2, cursor, List.drop_eq_nil_of_le (by omega)] at h; cases h
          · rw [List.mem_singleton.mp hid] at hsl; exact absurd hsl hold
        · intro h; cases h
      · refine ⟨ids ++ [w.next], fb || decide (1 ≤ ids.length), some i0, i0 + 1, ?_, ?_, ?_, ?_, ?_, ?_, ?_⟩
        · rw [hsig]; simp [Sig.connected, iterGe, hge]
        · rw [if_neg hnone]; rfl
        · rw [callsL_snoc _ _ _ hnc]; exact k3
        · rw [callsL_snoc _ _ _ hnc]; exact fun id hid => (by have := k4 id hid; omega)
        · rw [callsL_snoc _ _ _ hnc, List.drop_append_of_le_length (by omega)]
          intro id hid
          rcases List.mem_append.mp hid with hid | hid
          · exact k5 id (by rw [k2]; exact hid)
          · rw [List.mem_singleton.mp hid]; exact hnext
        · intro id hid hsl
          rw [callsL_snoc _ _ _ hnc, List.drop_append_of_le_length (by omega)]
          rcases List.mem_append.mp hid with hid | hid
          · rcases k6 id hid hsl with h | h
            · exact Or.inl h
            · right; rw [k2] at h; exact List.mem_append.mpr (Or.inl h)
          · rw [List.mem_singleton.mp hid] at hsl; exact absurd hsl hold
        · intro h; cases h
    · exact hp.same (h6 u hu) (by omega) Iff.rfl (fun _ _ _ h => by cases h)

theorem Lives.disconnect {p : Program} {w : World} {log : List EventL} (i : Lives p none (w, log)) (id : Nat) (hby : p log = some (.act (.disconnect id))) :
    ∃ w', Signal.disconnect (some id) w = .ok w' ∧ Lives p none (w', log ++ [.ev (.disconnect id)]) := by
  obtain ⟨w', h1, h2, h3, h4, h5⟩ := i.rel.disconnect id
  simp only at h1 h2 h3 h4 h5
  refine ⟨w', h1, i.step (.ev (.disconnect id)) trivial hby h2 ?_ (fun l1 s arg l2 he => by cases he) (fun s arg he => by cases he) ?_⟩
  · intro k hk
    rw [active_snoc] at hk
    exact live_event (i.live k hk) (.disconnect id)
  · intro l1 u arg l2 hl _ ho hp
    have hnc : ∀ id' cb' b, (EventL.ev (.disconnect id)) ≠ .ev (.call u id' cb' b) := by intro _ _ _ h; cases h
    by_cases hu : id ∈ (after log).slots u
    · obtain ⟨ids, fb, it, c, k1, k2, k3, k4, k5, k6, k7⟩ := hp
      have hnone : (none : Option Nat) ≠ some u := by simp
      rw [if_neg hnone] at k2
      obtain ⟨ids', it', q1, q2⟩ := h5 u ids fb it k1
      subst k2
      refine ⟨ids', fb, it', cursor it', q1, by rw [if_neg hnone], ?_, ?_, ?_, ?_, ?_⟩
      · rw [callsL_snoc _ _ _ hnc]; exact k3
      · rw [callsL_snoc _ _ _ hnc, h4]; exact k4
      · rw [callsL_snoc _ _ _ hnc]
        intro j hj
        exact k5 j (List.mem_filter.mp (q2.after.mem_iff.mp hj)).1
      · rw [callsL_snoc _ _ _ hnc]
        intro j hj hsl
        obtain ⟨hj1, hj2⟩ := List.mem_filter.mp (q2.perm.mem_iff.mp hj)
        rcases k6 j hj1 hsl with h | h
        · exact Or.inl h
        · exact Or.inr (q2.after.mem_iff.mpr (List.mem_filter.mpr ⟨h, hj2⟩))
      · intro _
        exact ⟨l2, id, [], rfl, by rw [← hl]; exact hu, by simp⟩
    · refine hp.same (disconnect_sigs h1 u ?_) (by omega) Iff.rfl hnc
      rintro x hx rfl
      exact hu ((i.rel.mem_slots x.signal id).mpr ⟨x, hx, rfl⟩)

theorem Lives.setIter {p : Program} {w : World} {log : List EventL} (i : Lives p none (w, log)) {s : Nat} (hs : (after log).Live s) :
    ∃ w', Signal.setIter s iterInc w = .ok w' ∧ Lives p (some s) (w', log) := by
  obtain ⟨l, hl⟩ := hs
  obtain ⟨ids, it, hg, hperm, _⟩ := i.rel.live hl
  obtain ⟨h1, h2⟩ := i.rel.setIter iterInc hg
  refine ⟨_, h1, i.sensible, i.follows, h2, i.live, i.finished, ?_⟩
  intro l1 u arg l2 hlog hd ho
  obtain ⟨ids', fb, it', c, k1, k2, k3, k4, k5, k6, k7⟩ := i.pend l1 u arg l2 hlog hd ho
  have hnone : (none : Option Nat) ≠ some u := by simp
  rw [if_neg hnone] at k2
  by_cases hu : u = s
  · subst hu
    simp only at k1 hg
    rw [hg, Option.some.injEq, Sig.mk.injEq] at k1
    obtain ⟨e1, e2, e3⟩ := k1
    have e1' : ids = ids' := by have := congrArg (List.filterMap fun y => y) e1; simpa [List.filterMap_map] using this
    subst e1' e3
    refine ⟨ids, (after log).grown u, some (cursor it), c, ?_, ?_, k3, k4, k5, k6, by intro h; cases h⟩
    · simp [World.setSig, update, iterInc_cursor]
    · rw [if_pos rfl, k2]
  · refine ⟨ids', fb, it', c, ?_, ?_, k3, k4, k5, k6, k7⟩
    · simpa [World.setSig, update_ne _ _ hu] using k1
    · rw [if_neg (by simp; exact fun e => hu e.symm)]; exact k2

theorem Lives.emit {p : Program} {w : World} {log : List EventL} (i : Lives p none (w, log)) {s : Nat} (hs : (after log).Live s) (arg : Nat)
    (hby : p log = some (.act (.emit s arg)) ∨ p log = some (.tryEmit s arg)) :
    ∃ w', Signal.setIter s (fun _ => some 0) w = .ok w' ∧ Lives p (some s) (w', log ++ [.ev (.emit s arg)]) := by
  obtain ⟨l, hl⟩ := hs
  obtain ⟨ids, it, hg, hperm, _⟩ := i.rel.live hl
  obtain ⟨h1, h2⟩ := i.rel.setIter (fun _ => some 0) hg
  refine ⟨_, h1, i.step (.ev (.emit s arg)) trivial hby h2 ?_ (fun l1 s arg l2 he => by cases he) ?_ ?_⟩
  · intro k hk
    rw [active_snoc] at hk
    rcases List.mem_cons.mp hk with rfl | hk
    · exact ⟨l, hl⟩
    · exact i.live k hk
  · intro u b he
    cases he
    refine ⟨ids, (after log).grown s, some 0, 0, by simp [World.setSig, update], by rw [if_pos rfl], List.nodup_nil, ?_, ?_, ?_, ?_⟩
    · intro _ h; cases h
    · intro _ _ h; cases h
    · intro id hid _; exact Or.inr (by simpa using hid)
    · intro h; cases h
  · intro l1 u b l2 _ hd _ hp
    have hu : u ≠ s := by rintro rfl; simp [EventL.disturbs] at hd
    refine hp.same (by simp [World.setSig, update_ne _ _ hu]) (Nat.le_refl _) ?_ (fun _ _ _ h => by cases h)
    simp only [reduceCtorEq, false_iff, Option.some.injEq]
    exact fun e => hu e.symm

theorem Lives.call {p : Program} {w : World} {log : List EventL} {s : Nat} (i : Lives p (some s) (w, log)) {arg : Nat} (hact : (active log).head? = some (s, arg)) {id : Nat} {slot : Slot}
    (hc : currentSlot s w = .ok (some (id, slot))) : Lives p none (w, log ++ [.ev (.call s id slot.callback arg)]) := by
  have hmem : (s, arg) ∈ active log := List.mem_of_mem_head? hact
  obtain ⟨l, hl⟩ := i.live _ hmem
  obtain ⟨ids, it, hg, hperm, _⟩ := i.rel.live hl
  simp only at hg hl
  rw [currentSlot_ok i.rel hg] at hc
  obtain ⟨j, rfl, hj, rfl⟩ : ∃ j, it = some j ∧ ids[j]? = some id ∧ slot = ⟨(after log).cb id, s, j⟩ := by
    cases it with
    | none => simp at hc
    | some j =>
      simp only [Except.ok.injEq, Option.map_eq_some_iff] at hc
      obtain ⟨k, h1, h2⟩ := hc
      cases h2
      exact ⟨j, rfl, h1, rfl⟩
  have hin : id ∈ (after log).slots s := by
    have : id ∈ l := hperm.mem_iff.mp (List.mem_of_getElem? hj)
    simpa [Abs.slots, hl] using this
  refine i.step (.ev (.call s id ((after log).cb id) arg)) ⟨hin, rfl, hact⟩ trivial i.rel ?_ (fun l1 s arg l2 he => by cases he) (fun s arg he => by cases he) ?_
  · intro k hk
    rw [active_snoc] at hk
    exact i.live k hk
  · intro l1 u b l2 _ hd _ hp
    by_cases hu : u = s
    · subst hu
      obtain ⟨ids', fb, it', c, k1, k2, k3, k4, k5, k6, k7⟩ := hp
      rw [if_pos rfl] at k2
      subst k2
      rw [hg, Option.some.injEq, Sig.mk.injEq] at k1
      obtain ⟨e1, e2, e3⟩ := k1
      have e1' : ids = ids' := by have := congrArg (List.filterMap fun y => y) e1; simpa [List.filterMap_map] using this
      subst e1'
      cases e3
      have hlt : j < ids.length := (List.getElem?_eq_some_iff.mp hj).1
      have hdrop : ids.drop j = id :: ids.drop (j + 1) := by
        rw [List.drop_eq_getElem_cons hlt]
        congr 1
        exact (List.getElem?_eq_some_iff.mp hj).2
      have hnd := i.rel.ids_nodup hg
      have hnd' : (id :: ids.drop (j + 1)).Nodup := hdrop ▸ hnd.sublist (List.drop_sublist _ _)
      refine ⟨ids, fb, some j, j + 1, by rw [hg, e2], by rw [if_neg (by simp)]; rfl, ?_, ?_, ?_, ?_, by intro h; cases h⟩
      · rw [callsL_call, List.nodup_append]
        refine ⟨k3, by simp, ?_⟩
        intro x hx y hy
        rw [List.mem_singleton.mp hy]
        rintro rfl
        exact k5 x (by rw [hdrop]; simp) hx
      · rw [callsL_call]
        intro x hx
        rcases List.mem_append.mp hx with hx | hx
        · exact k4 x hx
        · rw [List.mem_singleton.mp hx]
          obtain ⟨y, hy, _⟩ := (i.rel.heap_iff hg id).mp (List.mem_of_getElem? hj)
          exact i.rel.fresh _ _ hy
      · rw [callsL_call]
        intro x hx hm
        rcases List.mem_append.mp hm with hm | hm
        · exact k5 x (by rw [hdrop]; exact List.mem_cons_of_mem _ hx) hm
        · rw [List.mem_singleton.mp hm] at hx; exact (List.nodup_cons.mp hnd').1 hx
      · rw [callsL_call]
        intro x hx hsl
        rcases k6 x hx hsl with h | h
        · exact Or.inl (List.mem_append.mpr (Or.inl h))
        · rw [hdrop] at h
          rcases List.mem_cons.mp h with rfl | h
          · left; simp
          · exact Or.inr h
    · refine hp.same rfl (Nat.le_refl _) ?_ ?_
      · simp only [Option.some.injEq, reduceCtorEq, iff_false]; exact fun e => hu e.symm
      · intro _ _ _ h; cases h; exact hu rfl

theorem Lives.done {p : Program} {w : World} {log : List EventL} {s : Nat} (i : Lives p (some s) (w, log)) {arg : Nat} (hact : (active log).head? = some (s, arg))
    (hc : currentSlot s w = .ok none) : Lives p none (w, log ++ [.ev (.done s)]) := by
  refine i.step (.ev (.done s)) ⟨arg, hact⟩ trivial i.rel ?_ ?_ (fun s arg he => by cases he) ?_
  · intro k hk
    rw [active_snoc] at hk
    exact i.live k (List.mem_of_mem_tail hk)
  · intro l1 u b l2 he hlog hp
    cases he
    obtain ⟨ids, fb, it, c, k1, k2, k3, k4, k5, k6, k7⟩ := hp
    rw [if_pos rfl] at k2
    subst k2
    rw [currentSlot_ok i.rel k1] at hc
    have hnone : ids[c]? = none := by simpa using hc
    refine ⟨k3, ?_⟩
    intro id h1 h2
    rw [← hlog] at h2
    have hid : id ∈ ids := (i.rel.heap_iff k1 id).mpr ((i.rel.mem_slots s id).mp h2)
    rcases k6 id hid h1 with h | h
    · exact h
    · rw [List.drop_eq_nil_of_le (List.getElem?_eq_none_iff.mp hnone)] at h; cases h
  · intro l1 u b l2 _ hd _ hp
    have hu : u ≠ s := by rintro rfl; simp [EventL.disturbs] at hd
    refine hp.same rfl (Nat.le_refl _) ?_ (fun _ _ _ h => by cases h)
    simp only [Option.some.injEq, reduceCtorEq, iff_false]; exact fun e => hu e.symm

/-! ## Programs -/

theorem GoodL.bind {p : Program} {st : List (Nat × Nat)} {r : M (State × Bool)} {f : State × Bool → M (State × Bool)} {st' : List (Nat × Nat)} (h : GoodL p st r)
    (hf : ∀ x b, Lives p none x → active x.2 = st → GoodL p st' (f (x, b))) : GoodL p st' (r >>= f) := by
  rcases h with rfl | ⟨x, b, rfl, h1, h2⟩
  · exact Or.inl rfl
  · exact hf x b h1 h2

theorem ActionL.good {p : Program} {em : Nat → Nat → State → M (State × Bool)} (hem : ∀ s arg x, Lives p none x → (after x.2).Live s → (p x.2 = some (.act (.emit s arg)) ∨ p x.2 = some (.tryEmit s arg)) → GoodL p (active x.2) (em s arg x)) {act : ActionL}
    {x : State} (i : Lives p none x) (hok : act.ok (after x.2) (active x.2)) (hact : p x.2 = some act) : GoodL p (active x.2) (act.run em x) := by
  obtain ⟨w, log⟩ := x
  cases act with
  | act y =>
    cases y with
    | connect s cb =>
      obtain ⟨w', id, h1, h2⟩ := i.connect hok cb hact
      exact Or.inr ⟨_, false, by simp only [ActionL.run, h1, ok_bind]; rfl, h2, by simp [active_snoc, activeStep]⟩
    | disconnect id =>
      obtain ⟨w', h1, h2⟩ := i.disconnect id hact
      exact Or.inr ⟨_, false, by simp only [ActionL.run, h1, ok_bind]; rfl, h2, by simp [active_snoc, activeStep]⟩
    | clear s =>
      have hne : (after log).conn s ≠ .absent := by obtain ⟨l, hl⟩ := hok; simp only at hl; rw [hl]; simp
      obtain ⟨w', h1, h2, _, _⟩ := i.rel.clear hne
      obtain ⟨h3, h4⟩ := clear_sigs h1
      refine Or.inr ⟨(w', log ++ [.ev (.clear s)]), false, by simp only [ActionL.run, h1, ok_bind]; rfl, ?_, by simp [active_snoc, activeStep]⟩
      refine i.plain (.ev (.clear s)) trivial hact h2 (fun k hk => live_event (i.live k hk) (.clear s)) (by simp at h4; omega) ?_ ?_ ?_ ?_
      · intro u hu; exact h3 u (by rintro rfl; simp [EventL.disturbs] at hu)
      all_goals (intros; simp)
    | emit s arg => exact hem s arg _ i hok (Or.inl hact)
  | create s =>
    refine Or.inr ⟨(newSignal s w, log ++ [.create s]), false, rfl, ?_, by simp [active_snoc, activeStep]⟩
    refine i.plain (.create s) trivial hact (i.rel.newSignal hok) (fun k hk => live_create (i.live k hk) s) (Nat.le_refl _) ?_ ?_ ?_ ?_
    · intro u hu
      have : u ≠ s := by rintro rfl; simp [EventL.disturbs] at hu
      simp [newSignal, World.setSig, update_ne _ _ this]
    all_goals (intros; simp)
  | destroy s =>
    obtain ⟨hne, hna⟩ := hok
    obtain ⟨w', h1, h2, _⟩ := i.rel.destroy hne
    obtain ⟨h3, h4⟩ := destroy_sigs h1
    refine Or.inr ⟨(w', log ++ [.destroy s]), false, by simp only [ActionL.run, h1, ok_bind]; rfl, ?_, by simp [active_snoc, activeStep]⟩
    refine i.plain (.destroy s) trivial hact h2 (fun k hk => live_destroy (i.live k hk) ?_) (by simp at h4; omega) ?_ ?_ ?_ ?_
    · rintro rfl; exact hna (List.mem_map.mpr ⟨k, hk, rfl⟩)
    · intro u hu; exact h3 u (by rintro rfl; simp [EventL.disturbs] at hu)
    all_goals (intros; simp)
  | moveConstruct s t =>
    obtain ⟨hs, ht, hna⟩ := hok
    obtain ⟨w', h1, h2, _⟩ := i.rel.moveConstruct hs ht
    obtain ⟨h3, h4⟩ := moveAssign_sigs (w := newSignal s w) h1
    refine Or.inr ⟨(w', log ++ [.moveConstruct s t]), false, by simp only [ActionL.run, h1, ok_bind]; rfl, ?_, by simp [active_snoc, activeStep]⟩
    refine i.plain (.moveConstruct s t) trivial hact h2 (fun k hk => live_move (live_create (i.live k hk) s) ?_) (by simp [newSignal, World.setSig] at h4; omega) ?_ ?_ ?_ ?_
    · rintro rfl; exact hna (List.mem_map.mpr ⟨k, hk, rfl⟩)
    · intro u hu
      have hus : u ≠ s := by rintro rfl; simp [EventL.disturbs] at hu
      have hut : u ≠ t := by rintro rfl; simp [EventL.disturbs] at hu
      rw [h3 u hus hut]
      simp [newSignal, World.setSig, update_ne _ _ hus]
    all_goals (intros; simp)
  | moveAssign s t =>
    obtain ⟨hst, hs, ht, g1, g2, hna⟩ := hok
    obtain ⟨w', h1, h2, _⟩ := i.rel.moveAssign hst hs ht g1 g2
    obtain ⟨h3, h4⟩ := moveAssign_sigs h1
    refine Or.inr ⟨(w', log ++ [.moveAssign s t]), false, by simp only [ActionL.run, h1, ok_bind]; rfl, ?_, by simp [active_snoc, activeStep]⟩
    refine i.plain (.moveAssign s t) trivial hact h2 (fun k hk => live_move (i.live k hk) ?_) (by simp at h4; omega) ?_ ?_ ?_ ?_
    · rintro rfl; exact hna (List.mem_map.mpr ⟨k, hk, rfl⟩)
    · intro u hu
      exact h3 u (by rintro rfl; simp [EventL.disturbs] at hu) (by rintro rfl; simp [EventL.disturbs] at hu)
    all_goals (intros; simp)
  | tryEmit s arg =>
    exact (hem s arg _ i hok (Or.inr hact)).bind (fun x b h1 h2 => Or.inr ⟨x, false, rfl, h1, h2⟩)
  | throw => exact Or.inr ⟨_, true, rfl, i, rfl⟩

theorem runProgram_good {em : Nat → Nat → State → M (State × Bool)} {p : Program} (hp : p.Ok)
    (hem : ∀ s arg x, Lives p none x → (after x.2).Live s → (p x.2 = some (.act (.emit s arg)) ∨ p x.2 = some (.tryEmit s arg)) → GoodL p (active x.2) (em s arg x)) (n : Nat) {x : State} (i : Lives p none x) :
    GoodL p (active x.2) (runProgram em p n x) := by
  induction n generalizing x with
  | zero => exact Or.inl rfl
  | succ n ih =>
    simp only [runProgram]
    cases hx : p x.2 with
    | none => exact Or.inr ⟨x, false, rfl, i, rfl⟩
    | some act =>
      refine (ActionL.good hem i (hp _ _ i.sensible i.follows hx) hx).bind ?_
      intro y b h1 h2
      cases b with
      | true => exact Or.inr ⟨y, true, rfl, h1, h2⟩
      | false => simp only [Bool.false_eq_true, if_false]; rw [← h2]; exact ih h1

theorem emitLoopL_good {p : Program} (hp : p.Ok) (fuel : Nat) {s arg : Nat} {st : List (Nat × Nat)} {x : State} (i : Lives p (some s) x) (hact : active x.2 = (s, arg) :: st) :
    GoodL p st (emitLoopL p fuel s arg x) := by
  induction fuel generalizing s arg st x with
  | zero => exact Or.inl rfl
  | succ fuel ih =>
    obtain ⟨w, log⟩ := x
    simp only at hact
    have hhead : (active log).head? = some (s, arg) := by rw [hact]; rfl
    obtain ⟨l, hl⟩ := i.live (s, arg) (by simp [hact])
    obtain ⟨ids, it, hg, _, _⟩ := i.rel.live hl
    obtain ⟨c, hcur⟩ : ∃ c, currentSlot s w = .ok c := ⟨_, currentSlot_ok i.rel hg⟩
    simp only [emitLoopL, hcur, ok_bind]
    cases c with
    | none => exact Or.inr ⟨_, false, rfl, i.done hhead hcur, by simp [active_snoc, activeStep, hact]⟩
    | some c =>
      obtain ⟨id, slot⟩ := c
      have i1 := i.call hhead hcur
      have hact1 : active (log ++ [.ev (.call s id slot.callback arg)]) = (s, arg) :: st := by simp [active_snoc, activeStep, hact]
      refine (runProgram_good hp ?_ fuel i1).bind ?_
      · intro t b y iy ht hby
        obtain ⟨w', k1, k2⟩ := iy.emit (w := y.1) (log := y.2) ht b hby
        simp only [k1, ok_bind]
        exact ih k2 (by simp [active_snoc, activeStep])
      · intro y b iy hy
        simp only at hy
        rw [hact1] at hy
        cases b with
        | true =>
          refine Or.inr ⟨(y.1, y.2 ++ [.threw s]), true, rfl, ?_, by simp [active_snoc, activeStep, hy]⟩
          refine iy.plain (.threw s) ⟨arg, by rw [hy]; rfl⟩ trivial iy.rel (fun k hk => iy.live k hk) (Nat.le_refl _) (fun _ _ => rfl) ?_ ?_ ?_
          all_goals (intros; simp)
        | false =>
          obtain ⟨w', k1, k2⟩ := iy.setIter (w := y.1) (log := y.2) (iy.live (s, arg) (by simp [hy]))
          simp only [Bool.false_eq_true, if_false, k1, ok_bind]
          exact ih k2 hy

theorem emitL_good {p : Program} (hp : p.Ok) (fuel : Nat) {s : Nat} (arg : Nat) {x : State} (i : Lives p none x) (hs : (after x.2).Live s)
    (hby : p x.2 = some (.act (.emit s arg)) ∨ p x.2 = some (.tryEmit s arg)) : GoodL p (active x.2) (emitL p fuel s arg x) := by
  obtain ⟨w', k1, k2⟩ := i.emit (w := x.1) (log := x.2) hs arg hby
  simp only [emitL, k1, ok_bind]
  exact emitLoopL_good hp fuel k2 (by simp [active_snoc, activeStep])

theorem lives_empty (p : Program) : Lives p none (.empty, []) := by
  refine ⟨?_, ?_, rel_empty, ?_, ?_, ?_⟩
  · intro l1 e l2 h; simp at h
  · intro l1 e l2 h; simp at h
  · intro e he; cases he
  · intro l1 s arg l2 l3 h; simp at h
  · intro l1 s arg l2 h; simp at h

theorem runMain_good {p : Program} (hp : p.Ok) (fuel : Nat) : GoodL p [] (runMain p fuel) :=
  runProgram_good hp (fun _ arg _ i hs hby => emitL_good hp fuel arg i hs hby) fuel (lives_empty p)

end Verif.Signal
