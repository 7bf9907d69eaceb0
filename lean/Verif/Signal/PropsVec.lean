import Verif.Signal.ModelVec
import Verif.FixedVector.LemmasCopy

/-!
# C125: the vector of slots is the sequence of slots

The theorems on signals describe `m_slots` by a list and a flag.  Here: whatever a program does with signals, the calls of member functions of the vector that the code makes
are defined and give the elements that this description says.
-/

namespace Verif.Signal
open Verif.Cpp FixedVector

/-- The vector of a signal represents the description `g`: the elements are in the inline storage, or in the fallback; in that case the inline storage is not used any more, and may
contain an element that has been forgotten (see `moveSlots`). -/
def Holds (v : SigV) (g : Sig) : Prop :=
  v.iter = g.iter ∧
  ((g.fallback = false ∧ g.slots.length ≤ 1 ∧ v.vec = ⟨some g.slots.length, Slots.ofList 1 g.slots, []⟩) ∨
   (g.fallback = true ∧ ∃ d, v.vec = ⟨none, d, g.slots⟩))

/-- The vectors of all signals represent the descriptions. -/
def Agree (V : Nat → Option SigV) (w : World) : Prop :=
  ∀ s, match V s, w.sigs s with
    | none, none => True
    | some v, some g => Holds v g
    | _, _ => False

theorem Agree.get {V : Nat → Option SigV} {w : World} (h : Agree V w) {s : Nat} {g : Sig} (hs : w.sigs s = some g) : ∃ v, V s = some v ∧ Holds v g := by
  have := h s
  rw [hs] at this
  cases hv : V s with
  | none => rw [hv] at this; exact this.elim
  | some v => rw [hv] at this; exact ⟨v, rfl, this⟩

theorem Agree.set {V : Nat → Option SigV} {w w' : World} (h : Agree V w) {s : Nat} {v : SigV} {g : Sig} (e : w'.sigs = update w.sigs s (some g)) (hv : Holds v g) :
    Agree (update V s (some v)) w' := by
  intro t
  rw [e]
  by_cases ht : t = s
  · simp [update, ht, hv]
  · simp only [update, ht, if_false]; exact h t

theorem Agree.unset {V : Nat → Option SigV} {w w' : World} (h : Agree V w) {s : Nat} (e : w'.sigs = update w.sigs s none) : Agree (update V s none) w' := by
  intro t
  rw [e]
  by_cases ht : t = s
  · simp [update, ht]
  · simp only [update, ht, if_false]; exact h t

/-! ## The member functions on a vector that holds a list -/

theorem holds_new : Holds SigV.new ⟨[], false, some 0⟩ := ⟨rfl, .inl ⟨rfl, by simp, rfl⟩⟩

theorem on_size {v : SigV} {g : Sig} (h : Holds v g) : SigV.on v.vec (FixedVector.size slotVector) = .ok (v.vec, g.slots.length) := by
  obtain ⟨_, ⟨_, _, e⟩ | ⟨_, d, e⟩⟩ := h <;> rw [e] <;> rfl

theorem on_at {v : SigV} {g : Sig} (h : Holds v g) {i : Nat} {p : Option Nat} (hi : g.slots[i]? = some p) :
    SigV.on v.vec (FixedVector.at' slotVector i) = .ok (v.vec, p) := by
  have hl : i < g.slots.length := (List.getElem?_eq_some_iff.mp hi).1
  obtain ⟨_, ⟨_, h1, e⟩ | ⟨_, d, e⟩⟩ := h
  · obtain ⟨l, fb, it⟩ := g
    match l, h1 with
    | [x], _ =>
      obtain rfl : i = 0 := by simpa using hl
      simp only [List.getElem?_cons_zero, Option.some.injEq] at hi
      rw [e, ← hi]; rfl
    | [], _ => simp at hl
  · rw [e]
    simp only [SigV.on, FixedVector.at', FixedVector.size, isUsingFallback, slotVector, X.bind_run, getFallback, Option.isNone_none, Bool.and_self, if_true, X.pure_run, hl, decide_true,
      X.assert_true, readAt, hi]

theorem on_back {v : SigV} {g : Sig} (h : Holds v g) {p : Option Nat} (hi : g.slots[g.slots.length - 1]? = some p) :
    SigV.on v.vec (FixedVector.back slotVector) = .ok (v.vec, p) := by
  have hl : g.slots.length - 1 < g.slots.length := (List.getElem?_eq_some_iff.mp hi).1
  obtain ⟨_, ⟨_, h1, e⟩ | ⟨_, d, e⟩⟩ := h
  · obtain ⟨l, fb, it⟩ := g
    match l, h1 with
    | [x], _ =>
      simp only [List.length_singleton, List.getElem?_cons_zero, Option.some.injEq, Nat.sub_self] at hi
      rw [e, ← hi]; rfl
    | [], _ => simp at hl
  · rw [e]
    have : (g.slots.length == 0) = false := by
      rw [beq_eq_false_iff_ne]; omega
    simp only [SigV.on, FixedVector.back, isEmpty, FixedVector.size, isUsingFallback, slotVector, X.bind_run, getFallback, Option.isNone_none, Bool.and_self, if_true, X.pure_run, this,
      X.assert_true, readAt, hi, Bool.not_false]

theorem on_assign {v : SigV} {g : Sig} (h : Holds v g) {i : Nat} (p : Option Nat) (hl : i < g.slots.length) :
    ∃ v', SigV.on v.vec (FixedVector.assignAt slotVector i p) = .ok (v', ()) ∧ Holds ⟨v', v.iter⟩ ⟨g.slots.set i p, g.fallback, g.iter⟩ := by
  obtain ⟨h0, ⟨h2, h1, e⟩ | ⟨h2, d, e⟩⟩ := h
  · obtain ⟨l, fb, it⟩ := g
    match l, h1 with
    | [x], _ =>
      obtain rfl : i = 0 := by simpa using hl
      refine ⟨⟨some 1, Slots.ofList 1 [p], []⟩, ?_, h0, .inl ⟨h2, by simp, rfl⟩⟩
      rw [e]; rfl
    | [], _ => simp at hl
  · refine ⟨⟨none, d, g.slots.set i p⟩, ?_, h0, .inr ⟨h2, d, rfl⟩⟩
    rw [e]
    simp only [SigV.on, FixedVector.assignAt, FixedVector.size, isUsingFallback, slotVector, X.bind_run, getFallback, Option.isNone_none, Bool.and_self, if_true, X.pure_run, hl, decide_true,
      X.assert_true, setFallback, X.modify_run]

theorem on_pop {v : SigV} {g : Sig} (h : Holds v g) (hl : 0 < g.slots.length) :
    ∃ v', SigV.on v.vec (FixedVector.popBack slotVector) = .ok (v', ()) ∧ Holds ⟨v', v.iter⟩ ⟨g.slots.dropLast, g.fallback, g.iter⟩ := by
  obtain ⟨h0, ⟨h2, h1, e⟩ | ⟨h2, d, e⟩⟩ := h
  · obtain ⟨l, fb, it⟩ := g
    match l, h1 with
    | [x], _ =>
      refine ⟨⟨some 0, Slots.ofList 1 [], []⟩, ?_, h0, .inl ⟨h2, by simp, rfl⟩⟩
      rw [e]; rfl
    | [], _ => simp at hl
  · refine ⟨⟨none, d, g.slots.dropLast⟩, ?_, h0, .inr ⟨h2, d, rfl⟩⟩
    rw [e]
    simp only [SigV.on, popBack, isUsingFallback, slotVector, X.bind_run, getFallback, Option.isNone_none, Bool.and_self, if_true, X.pure_run, hl, decide_true,
      X.guardUB_true, setFallback, X.modify_run]

theorem on_emplace {v : SigV} {g : Sig} (h : Holds v g) (p : Option Nat) :
    ∃ v', SigV.on v.vec (FixedVector.emplaceBack slotVector (.value p)) = .ok (v', g.slots.length) ∧
      Holds ⟨v', v.iter⟩ ⟨g.slots ++ [p], g.fallback || decide (1 ≤ g.slots.length), g.iter⟩ := by
  obtain ⟨h0, ⟨h2, h1, e⟩ | ⟨h2, d, e⟩⟩ := h
  · obtain ⟨l, fb, it⟩ := g
    simp only at h2 h1 e h0
    subst h2
    match l, h1 with
    | [x], _ =>
      refine ⟨⟨none, Slots.ofList 1 [], [x, p]⟩, ?_, h0, .inr ⟨rfl, _, rfl⟩⟩
      rw [e]; rfl
    | [], _ =>
      refine ⟨⟨some 1, Slots.ofList 1 [p], []⟩, ?_, h0, .inl ⟨rfl, by simp, rfl⟩⟩
      rw [e]; rfl
  · refine ⟨⟨none, d, g.slots ++ [p]⟩, ?_, h0, .inr ⟨by simp [h2], d, rfl⟩⟩
    rw [e]
    simp only [SigV.on, emplaceBack, checkFallbackOnGrow, emplaceInFallback, isUsingFallback, slotVector, X.bind_run, getFallback, Option.isNone_none, Bool.and_self, if_true, X.pure_run,
      X.guardUB_true, setFallback, X.modify_run, Nat.le_refl, decide_true, Arg.read, tick, List.insertIdx_length_self]

theorem on_clear {v : SigV} {g : Sig} (h : Holds v g) :
    ∃ v', SigV.on v.vec (FixedVector.clear slotVector) = .ok (v', ()) ∧ Holds ⟨v', v.iter⟩ ⟨[], g.fallback, g.iter⟩ := by
  obtain ⟨h0, ⟨h2, h1, e⟩ | ⟨h2, d, e⟩⟩ := h
  · obtain ⟨l, fb, it⟩ := g
    refine ⟨⟨some 0, Slots.ofList 1 [], []⟩, ?_, h0, .inl ⟨h2, by simp, rfl⟩⟩
    match l, h1 with
    | [x], _ => rw [e]; rfl
    | [], _ => rw [e]; rfl
  · refine ⟨⟨none, d, []⟩, ?_, h0, .inr ⟨h2, d, rfl⟩⟩
    rw [e]; rfl

theorem moveElement_holds {v : SigV} {g : Sig} (h : Holds v g) {k i : Nat} {p : Option Nat} (hk : k < g.slots.length) (hi : g.slots[i]? = some p) :
    ∃ v', SigV.moveElement v.vec k i = .ok (v', p) ∧ Holds ⟨v', v.iter⟩ ⟨(g.slots.set i none).set k p, g.fallback, g.iter⟩ := by
  have hl : i < g.slots.length := (List.getElem?_eq_some_iff.mp hi).1
  obtain ⟨v1, e1, h1⟩ := on_assign h none hl
  obtain ⟨v2, e2, h2⟩ := on_assign h1 (i := k) p (by simpa using hk)
  refine ⟨v2, ?_, h2⟩
  simp only at e2
  simp only [SigV.moveElement, on_at h hi, ok_bind, e1, e2]
  rfl

theorem move_holds {v u : SigV} {g h : Sig} (hg : Holds v g) (hh : Holds u h) (w : World) :
    ∃ v' u', v.move u = .ok (v', u') ∧ Holds v' (moveSlots g h w).2.1 ∧ Holds u' (moveSlots g h w).2.2 := by
  obtain ⟨hg0, hg⟩ := hg
  obtain ⟨hh0, hh⟩ := hh
  obtain ⟨vv, vi⟩ := v
  obtain ⟨uv, ui⟩ := u
  obtain ⟨l, f, it⟩ := g
  obtain ⟨m, f', it'⟩ := h
  simp only at hg0 hh0 hg hh
  subst hg0 hh0
  rcases hh with ⟨rfl, hm, rfl⟩ | ⟨rfl, d', rfl⟩
  · rcases hg with ⟨rfl, hl, rfl⟩ | ⟨rfl, d, rfl⟩
    · refine ⟨⟨⟨some m.length, Slots.ofList 1 m, []⟩, ui⟩, ⟨⟨some m.length, Slots.ofList 1 (m.map fun _ => none), []⟩, ui⟩, ?_, ?_, ?_⟩
      · match l, hl, m, hm with
        | [_], _, [_], _ => rfl
        | [_], _, [], _ => rfl
        | [], _, [_], _ => rfl
        | [], _, [], _ => rfl
      · exact ⟨rfl, .inl ⟨rfl, hm, rfl⟩⟩
      · exact ⟨rfl, .inl ⟨rfl, by simpa [moveSlots] using hm, by simp [moveSlots]⟩⟩
    · refine ⟨⟨⟨none, d, m⟩, ui⟩, ⟨⟨some m.length, Slots.ofList 1 m, []⟩, ui⟩, ?_, ⟨rfl, .inr ⟨rfl, d, rfl⟩⟩, ⟨rfl, .inl ⟨rfl, hm, rfl⟩⟩⟩
      match m, hm with
      | [_], _ => rfl
      | [], _ => rfl
  · refine ⟨⟨⟨none, vv.data, m⟩, ui⟩, ⟨⟨none, d', []⟩, ui⟩, rfl, ?_, ?_⟩
    · simp only [moveSlots, if_true]
      exact ⟨rfl, .inr ⟨rfl, _, rfl⟩⟩
    · simp only [moveSlots, if_true]
      exact ⟨rfl, .inr ⟨rfl, _, rfl⟩⟩

theorem World.release_sigs (w : World) (p : Option Nat) : (w.release p).sigs = w.sigs := by
  unfold World.release
  split
  · rfl
  · split <;> rfl

theorem World.release_heap (w : World) (s : Nat) (g : Option Sig) (p : Option Nat) : ((w.setSig s g).release p).heap = (w.release p).heap := by
  cases p with
  | none => rfl
  | some id =>
    by_cases h : id ∈ w.shared
    · simp [World.release, World.setSig, h]
    · simp [World.release, World.setSig, World.setSlot, h]

theorem World.releaseAll_sigs (w : World) (l : List (Option Nat)) : (w.releaseAll l).sigs = w.sigs := by
  induction l generalizing w with
  | nil => rfl
  | cons p ps ih => rw [World.releaseAll, ih, World.release_sigs]

theorem World.setIndex_sigs {w w' : World} {p : Option Nat} {k : Nat} (e : w.setIndex p k = .ok w') : w'.sigs = w.sigs := by
  unfold World.setIndex at e
  split at e
  · exact nomatch e
  · split at e
    · exact nomatch e
    · cases e; rfl

theorem World.sig_some {w : World} {s : Nat} {g : Sig} (e : w.sig s = .ok g) : w.sigs s = some g := by
  unfold World.sig at e
  split at e
  · rename_i h; cases e; exact h
  · exact nomatch e

theorem retarget_sigs {s : Nat} {l : List (Option Nat)} {w w' : World} (e : retarget s l w = .ok w') : w'.sigs = w.sigs := by
  induction l generalizing w with
  | nil => cases e; rfl
  | cons p ps ih =>
    cases p with
    | none => exact nomatch e
    | some id =>
      rw [retarget] at e
      split at e
      · exact nomatch e
      · rw [ih e]; rfl

theorem rd_some {l : List (Option Nat)} {i : Nat} {p : Option Nat} (e : rd l i = .ok p) : l[i]? = some p := by
  unfold rd at e
  split at e
  · rename_i h; cases e; exact h
  · exact nomatch e

theorem rd_ok' {l : List (Option Nat)} {i : Nat} {p : Option Nat} (e : l[i]? = some p) : rd l i = .ok p := by
  simp only [rd, e]

theorem drop_simple (l : List (Option Nat)) (k : Nat) (b : Option Nat) (_ : k < l.length) (_ : l[l.length - 1]? = some b) :
    ((l.set (l.length - 1) none).set k b).dropLast = (l.set k b).dropLast := by
  apply List.ext_getElem? 
  intro j
  simp only [List.getElem?_dropLast, List.length_set, List.getElem?_set]
  by_cases hj : j < l.length - 1
  · have : l.length - 1 ≠ j := by omega
    simp [hj, this]
  · simp [hj]

theorem drop_tricky (l : List (Option Nat)) (i k : Nat) (c b : Option Nat) (_ : i < l.length - 1) :
    (((((l.set i none).set k c)).set (l.length - 1) none).set i b).dropLast = ((l.set k c).set i b).dropLast := by
  apply List.ext_getElem?
  intro j
  simp only [List.getElem?_dropLast, List.length_set, List.getElem?_set]
  by_cases hj : j < l.length - 1
  · have : l.length - 1 ≠ j := by omega
    simp only [hj, if_true, this, if_false]
    by_cases h1 : i = j
    · simp [h1]
    · simp [h1]
  · simp [hj]

/-! ## The theorems -/

/-- `ptr->index = k` for several pointers. -/
def setIndices : List (Option Nat × Nat) → World → M World
  | [], w => .ok w
  | (p, k) :: l, w =>
    match w.setIndex p k with
    | .ok w => setIndices l w
    | .error e => .error e

/-- What a signal reads from its vector: the number of its elements, each of them, the last one, whether the fallback is in use, and the element that an emission calls next. -/
theorem C125_reads {V : Nat → Option SigV} {w : World} (h : Agree V w) {s : Nat} {g : Sig} (hs : w.sigs s = some g) :
    ∃ v, V s = some v ∧ v.iter = g.iter ∧ v.vec.usesFallback slotVector = g.fallback ∧
      SigV.on v.vec (FixedVector.size slotVector) = .ok (v.vec, g.slots.length) ∧
      (∀ i p, g.slots[i]? = some p → SigV.on v.vec (FixedVector.at' slotVector i) = .ok (v.vec, p)) ∧
      (∀ p, g.slots.getLast? = some p → SigV.on v.vec (FixedVector.back slotVector) = .ok (v.vec, p)) ∧
      v.current = .ok (g.iter.bind fun i => g.slots[i]?) := by
  obtain ⟨v, hv, hh⟩ := h.get hs
  refine ⟨v, hv, hh.1, ?_, on_size hh, fun i p hi => on_at hh hi, fun p hp => on_back hh (by rwa [List.getLast?_eq_getElem?] at hp), ?_⟩
  · obtain ⟨_, ⟨h2, _, e⟩ | ⟨h2, d, e⟩⟩ := hh <;> rw [e, h2] <;> rfl
  · simp only [SigV.current, on_size hh, ok_bind, hh.1]
    cases hi : g.iter with
    | none => rfl
    | some i =>
      simp only [Option.bind_some]
      by_cases hl : i < g.slots.length
      · simp only [hl, if_true, on_at hh (List.getElem?_eq_getElem hl), ok_bind, List.getElem?_eq_getElem hl]
        rfl
      · simp only [hl, if_false, List.getElem?_eq_none (Nat.le_of_not_lt hl)]
        rfl

/-- `Connect`: the new slot gets the index and the connection that the vector gives. -/
theorem C125_connect {V : Nat → Option SigV} {w w' : World} (h : Agree V w) {s cb id : Nat} (e : connect s cb w = .ok (w', id)) :
    ∃ v v' k, V s = some v ∧ v.connect id = .ok (v', k, some id) ∧ w'.heap id = some ⟨cb, s, k⟩ ∧ Agree (update V s (some v')) w' := by
  unfold connect at e
  cases hs : w.sig s with
  | error _ => rw [hs] at e; exact nomatch e
  | ok g =>
    rw [hs] at e
    simp only [ok_bind] at e
    cases e
    have hs := World.sig_some hs
    obtain ⟨v, hv, hh⟩ := h.get hs
    obtain ⟨v1, e1, h1⟩ := on_emplace hh (some w.next)
    have hsz := on_size h1
    have hbk := on_back h1 (p := some w.next) (by simp)
    refine ⟨v, ⟨v1, (g.connected w.next).iter⟩, g.slots.length, hv, ?_, by simp [World.setSig, World.setSlot, update], ?_⟩
    · simp only at hsz hbk
      simp only [SigV.connect, on_size hh, ok_bind, e1, hsz, hbk, hh.1, Sig.connected, List.length_append, List.length_singleton]
      rfl
    · exact h.set rfl ⟨rfl, h1.2⟩

/-- `Disconnect`: the slots whose index is changed, and their new indices, are those that the vector gives. -/
theorem C125_disconnect {V : Nat → Option SigV} {w w' : World} (h : Agree V w) {slot : Slot} (e : disconnectSlot slot w = .ok w') :
    ∃ v v' ixs w1 victim, V slot.signal = some v ∧ v.disconnect slot.index = .ok (v', ixs) ∧ setIndices ixs w = .ok w1 ∧
      SigV.on v.vec (FixedVector.at' slotVector slot.index) = .ok (v.vec, victim) ∧ w'.heap = (w1.release victim).heap ∧
      Agree (update V slot.signal (some v')) w' := by
  unfold disconnectSlot at e
  cases hs : w.sig slot.signal with
  | error _ => rw [hs] at e; exact nomatch e
  | ok g =>
    rw [hs] at e
    simp only [ok_bind] at e
    have hs := World.sig_some hs
    obtain ⟨v, hv, hh⟩ := h.get hs
    by_cases hk : slot.index < g.slots.length
    · have hlast : g.slots[g.slots.length - 1]? = some (g.slots[g.slots.length - 1]) := List.getElem?_eq_getElem (by omega)
      have hat := List.getElem?_eq_getElem hk
      simp only [assert, hk, decide_true, if_true, ok_bind] at e
      by_cases hb : (iterGe g.iter (g.slots.length - 1) || iterLt g.iter slot.index) = true
      · simp only [hb, if_true] at e
        obtain ⟨v1, e1, h1⟩ := moveElement_holds hh hk hlast
        obtain ⟨v2, e2, h2⟩ := on_pop h1 (by simp only [List.length_set]; omega)
        simp only at e2
        unfold disconnectSimple at e
        simp only [rd_ok' hat, rd_ok' hlast, ok_bind] at e
        cases hw : w.setIndex g.slots[g.slots.length - 1] slot.index with
        | error _ => rw [hw] at e; exact nomatch e
        | ok w1 =>
          rw [hw] at e
          simp only [ok_bind] at e
          cases e
          refine ⟨v, ⟨v2, v.iter⟩, [(g.slots[g.slots.length - 1], slot.index)], w1, g.slots[slot.index], hv, ?_, by simp only [setIndices, hw], on_at hh hat, ?_, ?_⟩
          · simp only [SigV.disconnect, on_size hh, ok_bind, assert, hk, decide_true, if_true, hh.1, hb, SigV.disconnectSimple, on_back hh hlast, e1, e2]
            rfl
          · exact World.release_heap _ _ _ _
          · refine h.set ?_ (g := ⟨(g.slots.set slot.index g.slots[g.slots.length - 1]).dropLast, g.fallback, g.iter⟩) ⟨hh.1, ?_⟩
            · rw [World.release_sigs]; simp only [World.setSig, World.setIndex_sigs hw]
            · have := h2.2
              simp only [drop_simple _ _ _ hk hlast] at this
              exact this
      · cases hit : g.iter with
        | none => rw [hit] at hb; simp [iterGe] at hb
        | some i =>
          have hi : i < g.slots.length - 1 ∧ slot.index ≤ i := by
            rw [hit] at hb
            simp only [iterGe, iterLt, Bool.or_eq_true, decide_eq_true_eq] at hb
            omega
          rw [hit] at hb
          simp only [hit, hb] at e
          have hcur : g.slots[i]? = some (g.slots[i]'(by omega)) := List.getElem?_eq_getElem (by omega)
          obtain ⟨v1, e1, h1⟩ := moveElement_holds hh hk hcur
          have hlast1 : ((g.slots.set i none).set slot.index (g.slots[i]'(by omega)))[((g.slots.set i none).set slot.index (g.slots[i]'(by omega))).length - 1]? =
              some (g.slots[g.slots.length - 1]) := by
            simp only [List.length_set, List.getElem?_set]
            have a1 : slot.index ≠ g.slots.length - 1 := by omega
            have a2 : i ≠ g.slots.length - 1 := by omega
            simp only [a1, a2, if_false, hlast]
          obtain ⟨v2, e2, h2⟩ := moveElement_holds h1 (k := i) (by simp only [List.length_set]; omega) hlast1
          obtain ⟨v3, e3, h3⟩ := on_pop h2 (by simp only [List.length_set]; omega)
          have hsz := on_size h1
          have hbk := on_back h1 hlast1
          simp only [List.length_set] at e2 e3 hsz hbk
          unfold disconnectTricky at e
          simp only [rd_ok' hat, rd_ok' hlast, rd_ok' hcur, ok_bind] at e
          cases hw : w.setIndex (g.slots[i]'(by omega)) slot.index with
          | error _ => rw [hw] at e; exact nomatch e
          | ok w1 =>
            rw [hw] at e
            simp only [ok_bind] at e
            cases hw2 : w1.setIndex g.slots[g.slots.length - 1] i with
            | error _ => rw [hw2] at e; exact nomatch e
            | ok w2 =>
              rw [hw2] at e
              simp only [ok_bind] at e
              cases e
              refine ⟨v, ⟨v3, iterDec v.iter⟩, [(g.slots[i]'(by omega), slot.index), (g.slots[g.slots.length - 1], i)], w2, g.slots[slot.index], hv, ?_, by simp only [setIndices, hw, hw2],
                on_at hh hat, ?_, ?_⟩
              · have hvi : v.iter = some i := hh.1.trans hit
                simp only [SigV.disconnect, on_size hh, ok_bind, assert, hk, decide_true, if_true, hvi, hb, SigV.disconnectTricky, e1, hsz, hbk, e2, e3]
                rfl
              · exact World.release_heap _ _ _ _
              · refine h.set ?_ (g := ⟨((g.slots.set slot.index (g.slots[i]'(by omega))).set i g.slots[g.slots.length - 1]).dropLast, g.fallback, iterDec g.iter⟩) ⟨by rw [hh.1], ?_⟩
                · rw [World.release_sigs]; simp only [World.setSig, World.setIndex_sigs hw2, World.setIndex_sigs hw, hit]
                · have := h3.2
                  simp only [List.length_set, drop_tricky _ _ _ _ _ hi.1] at this
                  exact this
    · simp only [assert, hk, decide_false] at e
      exact nomatch e

/-- `Clear`. -/
theorem C125_clear {V : Nat → Option SigV} {w w' : World} (h : Agree V w) {s : Nat} (e : clear s w = .ok w') :
    ∃ v v', V s = some v ∧ v.clear = .ok v' ∧ Agree (update V s (some v')) w' := by
  unfold clear at e
  cases hs : w.sig s with
  | error _ => rw [hs] at e; exact nomatch e
  | ok g =>
    rw [hs] at e
    simp only [ok_bind] at e
    cases e
    have hs := World.sig_some hs
    obtain ⟨v, hv, hh⟩ := h.get hs
    obtain ⟨v1, e1, h1⟩ := on_clear hh
    refine ⟨v, ⟨v1, some 0⟩, hv, ?_, h.set ?_ (g := ⟨[], g.fallback, some 0⟩) ⟨rfl, h1.2⟩⟩
    · simp only [SigV.clear, e1, ok_bind]
      rfl
    · simp only [World.setSig, World.releaseAll_sigs]

/-- Constructors. -/
theorem C125_new {V : Nat → Option SigV} {w : World} (h : Agree V w) (s : Nat) : Agree (update V s (some SigV.new)) (newSignal s w) :=
  h.set rfl holds_new

/-- The destructor. -/
theorem C125_destroy {V : Nat → Option SigV} {w w' : World} (h : Agree V w) {s : Nat} (e : destroySignal s w = .ok w') :
    ∃ v, V s = some v ∧ v.destroy = .ok () ∧ Agree (update V s none) w' := by
  unfold destroySignal at e
  cases hs : w.sig s with
  | error _ => rw [hs] at e; exact nomatch e
  | ok g =>
    rw [hs] at e
    simp only [ok_bind] at e
    cases e
    have hs := World.sig_some hs
    obtain ⟨v, hv, hh⟩ := h.get hs
    refine ⟨v, hv, ?_, h.unset (by simp only [World.setSig, World.releaseAll_sigs])⟩
    obtain ⟨h0, ⟨h2, h1, e⟩ | ⟨h2, d, e⟩⟩ := hh
    · obtain ⟨l, fb, it⟩ := g
      match l, h1 with
      | [x], _ => simp only [SigV.destroy, e]; rfl
      | [], _ => simp only [SigV.destroy, e]; rfl
    · simp only [SigV.destroy, e]; rfl

/-- Move assignment from another signal. -/
theorem C125_move {V : Nat → Option SigV} {w w' : World} (h : Agree V w) {s t : Nat} (_hst : s ≠ t) (e : moveAssign s t w = .ok w') :
    ∃ v u v' u', V s = some v ∧ V t = some u ∧ v.move u = .ok (v', u') ∧ Agree (update (update V s (some v')) t (some u')) w' := by
  unfold moveAssign at e
  cases hs : w.sig s with
  | error _ => rw [hs] at e; exact nomatch e
  | ok g =>
    rw [hs] at e
    simp only [ok_bind] at e
    cases ht : w.sig t with
    | error _ => rw [ht] at e; exact nomatch e
    | ok k =>
      rw [ht] at e
      simp only [ok_bind] at e
      obtain ⟨v, hv, hh⟩ := h.get (World.sig_some hs)
      obtain ⟨u, hu, hk⟩ := h.get (World.sig_some ht)
      obtain ⟨v', u', e1, h1, h2⟩ := move_holds hh hk w
      refine ⟨v, u, v', u', hv, hu, e1, ?_⟩
      have hsg : (moveSlots g k w).1.sigs = w.sigs := by
        unfold moveSlots
        split
        · dsimp only; split
          · exact World.releaseAll_sigs _ _
          · rfl
        · split <;> exact World.releaseAll_sigs _ _
      have ha : Agree (update V s (some v')) (w.setSig s (some (moveSlots g k w).2.1)) := h.set rfl h1
      exact ha.set (by rw [retarget_sigs e]; simp only [World.setSig, hsg]) h2

/-- Move construction. -/
theorem C125_moveConstruct {V : Nat → Option SigV} {w w' : World} (h : Agree V w) {s t : Nat} (hst : s ≠ t) (e : moveConstruct s t w = .ok w') :
    ∃ u v' u', V t = some u ∧ SigV.new.move u = .ok (v', u') ∧ Agree (update (update V s (some v')) t (some u')) w' := by
  obtain ⟨v, u, v', u', hv, hu, e1, ha⟩ := C125_move (C125_new h s) hst e
  have : v = SigV.new := by simpa [update] using hv.symm
  subst this
  refine ⟨u, v', u', by simpa [update, Ne.symm hst] using hu, e1, ?_⟩
  intro x
  have := ha x
  by_cases h1 : x = t
  · subst h1; simpa [update] using this
  · by_cases h2 : x = s
    · subst h2; simpa [update, h1] using this
    · simpa [update, h1, h2] using this

/-- Move assignment of a signal with an inline slot to itself. -/
theorem C125_self {V : Nat → Option SigV} {w w' : World} (h : Agree V w) {s : Nat} (e : moveAssignSelf s w = .ok w') :
    ∃ v v', V s = some v ∧ v.moveSelf = .ok v' ∧ Agree (update V s (some v')) w' := by
  unfold moveAssignSelf at e
  cases hs : w.sig s with
  | error _ => rw [hs] at e; exact nomatch e
  | ok g =>
    rw [hs] at e
    simp only [ok_bind] at e
    obtain ⟨v, hv, hh⟩ := h.get (World.sig_some hs)
    obtain ⟨h0, ⟨h2, h1, e2⟩ | ⟨h2, d, e2⟩⟩ := hh
    · rw [h2] at e
      cases e
      refine ⟨v, ⟨⟨some 0, Slots.ofList 1 [], []⟩, v.iter⟩, hv, ?_, h.set (by simp only [World.setSig, World.releaseAll_sigs]) (g := ⟨[], false, g.iter⟩) ⟨h0, .inl ⟨rfl, by simp, rfl⟩⟩⟩
      obtain ⟨l, fb, it⟩ := g
      match l, h1 with
      | [x], _ => simp only [SigV.moveSelf, e2]; rfl
      | [], _ => simp only [SigV.moveSelf, e2]; rfl
    · rw [h2] at e
      exact nomatch e

/-! ## Emissions -/

/-- The steps of a program on the vectors of its signals: the calls that signals make, with the results that the model of the vector gives. -/
inductive Steps : (Nat → Option SigV) → (Nat → Option SigV) → Prop where
  | refl {V} : Steps V V
  /-- `m_slotIterator` is set, by an emission -/
  | iter {V V' s v} (i : Option Nat) (h : Steps V V') (hv : V' s = some v) : Steps V (update V' s (some ⟨v.vec, i⟩))
  | connect {V V' s v v' id k} (h : Steps V V') (hv : V' s = some v) (e : v.connect id = .ok (v', k, some id)) : Steps V (update V' s (some v'))
  | disconnect {V V' s v v' k ixs} (h : Steps V V') (hv : V' s = some v) (e : v.disconnect k = .ok (v', ixs)) : Steps V (update V' s (some v'))
  | clear {V V' s v v'} (h : Steps V V') (hv : V' s = some v) (e : v.clear = .ok v') : Steps V (update V' s (some v'))

theorem Steps.trans {U V W : Nat → Option SigV} (h : Steps U V) (k : Steps V W) : Steps U W := by
  induction k with
  | refl => exact h
  | iter i _ hv ih => exact .iter i ih hv
  | connect _ hv e ih => exact .connect ih hv e
  | disconnect _ hv e ih => exact .disconnect ih hv e
  | clear _ hv e ih => exact .clear ih hv e

theorem Agree.record {V : Nat → Option SigV} {w : World} (h : Agree V w) (x : Event) : Agree V (w.record x) := h

theorem setIter_steps {V : Nat → Option SigV} {w w' : World} (h : Agree V w) {s : Nat} {f : Option Nat → Option Nat} (e : setIter s f w = .ok w') :
    ∃ V', Steps V V' ∧ Agree V' w' := by
  unfold setIter at e
  cases hs : w.sig s with
  | error _ => rw [hs] at e; exact nomatch e
  | ok g =>
    rw [hs] at e
    simp only [ok_bind] at e
    cases e
    obtain ⟨v, hv, hh⟩ := h.get (World.sig_some hs)
    exact ⟨_, .iter (f g.iter) .refl hv, h.set rfl ⟨rfl, hh.2⟩⟩

theorem bind_ok' {α β : Type} {x : M α} {f : α → M β} {b : β} (e : (x >>= f) = .ok b) : ∃ a, x = .ok a ∧ f a = .ok b := by
  cases x with
  | error _ => exact nomatch e
  | ok a => exact ⟨a, rfl, e⟩

theorem actions_steps {em : Nat → Nat → World → M World} (hem : ∀ {V : Nat → Option SigV} {w w' : World} {s a : Nat}, Agree V w → em s a w = .ok w' → ∃ V', Steps V V' ∧ Agree V' w')
    (xs : List Action) : ∀ {V : Nat → Option SigV} {w w' : World}, Agree V w → runActions em xs w = .ok w' → ∃ V', Steps V V' ∧ Agree V' w' := by
  induction xs with
  | nil => intro V w w' h e; cases e; exact ⟨V, .refl, h⟩
  | cons x xs ih =>
    intro V w w' h e
    rw [runActions] at e
    obtain ⟨w1, e1, e2⟩ := bind_ok' e
    have : ∃ V', Steps V V' ∧ Agree V' w1 := by
      cases x with
      | connect s cb =>
        obtain ⟨⟨w2, id⟩, e3, e4⟩ := bind_ok' e1
        cases e4
        obtain ⟨v, v', k, hv, e5, _, ha⟩ := C125_connect h e3
        exact ⟨_, .connect .refl hv e5, ha⟩
      | disconnect id =>
        obtain ⟨w2, e3, e4⟩ := bind_ok' e1
        cases e4
        unfold Signal.disconnect at e3
        simp only at e3
        split at e3
        · cases e3; exact ⟨V, .refl, h⟩
        · obtain ⟨v, v', ixs, _, _, hv, e5, _, _, _, ha⟩ := C125_disconnect h e3
          exact ⟨_, .disconnect .refl hv e5, ha⟩
      | clear s =>
        obtain ⟨w2, e3, e4⟩ := bind_ok' e1
        cases e4
        obtain ⟨v, v', hv, e5, ha⟩ := C125_clear h e3
        exact ⟨_, .clear .refl hv e5, ha⟩
      | emit s a => exact hem h e1
    obtain ⟨V1, s1, a1⟩ := this
    obtain ⟨V2, s2, a2⟩ := ih a1 e2
    exact ⟨V2, s1.trans s2, a2⟩

theorem emitLoop_steps (script : Script) (fuel : Nat) : ∀ {V : Nat → Option SigV} {w w' : World} {s a : Nat}, Agree V w → emitLoop script fuel s a w = .ok w' →
    ∃ V', Steps V V' ∧ Agree V' w' := by
  induction fuel with
  | zero => intro V w w' s a _ e; exact nomatch e
  | succ fuel ih =>
    intro V w w' s a h e
    rw [emitLoop] at e
    obtain ⟨c, _, e⟩ := bind_ok' e
    cases c with
    | none => cases e; exact ⟨V, .refl, h⟩
    | some p =>
      obtain ⟨id, slot⟩ := p
      simp only at e
      obtain ⟨w1, e1, e⟩ := bind_ok' e
      obtain ⟨w2, e2, e⟩ := bind_ok' e
      obtain ⟨V1, s1, a1⟩ := actions_steps (fun {V w w' s a} h e => by
        obtain ⟨w3, e3, e⟩ := bind_ok' e
        obtain ⟨V3, s3, a3⟩ := setIter_steps h e3
        obtain ⟨V4, s4, a4⟩ := ih (a3.record _) e
        exact ⟨V4, s3.trans s4, a4⟩) _ (h.record _) e1
      obtain ⟨V2, s2, a2⟩ := setIter_steps a1 e2
      obtain ⟨V3, s3, a3⟩ := ih a2 e
      exact ⟨V3, (s1.trans s2).trans s3, a3⟩

/-- Emissions, whatever the callbacks do: connect, disconnect, clear, emit again.  (In each round the element that is called is the one the vector gives: `C125_reads`.) -/
theorem C125_emit {V : Nat → Option SigV} {w w' : World} (h : Agree V w) {script : Script} {fuel s a : Nat} (e : emit script fuel s a w = .ok w') :
    ∃ V', Steps V V' ∧ Agree V' w' := by
  unfold emit at e
  obtain ⟨w1, e1, e⟩ := bind_ok' e
  obtain ⟨V1, s1, a1⟩ := setIter_steps h e1
  obtain ⟨V2, s2, a2⟩ := emitLoop_steps script fuel (a1.record _) e
  exact ⟨V2, s1.trans s2, a2⟩

/-! ## The hypotheses can be met -/

theorem agree_empty : Agree (fun _ => none) World.empty := fun _ => trivial

/-- Two signals, one with two slots, one with a slot; an emission of the first one during which its first callback disconnects itself and connects another one; the first signal is moved
to the second one, whose own slot is forgotten: it stays in the inline storage, next to the slots in the fallback. -/
example : ∃ (V : Nat → Option SigV) (w : World) (v u : SigV) (d : Slots (Option Nat)),
    Agree V w ∧ V 8 = some v ∧ V 7 = some u ∧ v.vec = ⟨none, d, [some 1, some 3]⟩ ∧ d = [some (some 2)] ∧ u.vec.fallback = [] ∧ u.vec.usesFallback slotVector = true := by
  obtain ⟨_, _, _, _, _, _, a1⟩ := C125_connect (C125_new (C125_new agree_empty 7) 8) (s := 7) (cb := 40) rfl
  obtain ⟨_, _, _, _, _, _, a2⟩ := C125_connect a1 (s := 7) (cb := 41) rfl
  obtain ⟨_, _, _, _, _, _, a3⟩ := C125_connect a2 (s := 8) (cb := 42) rfl
  obtain ⟨V4, _, a4⟩ := C125_emit a3 (script := fun t => if t.length = 2 then [.disconnect 0, .connect 7 43] else []) (fuel := 5) (s := 7) (a := 1) rfl
  obtain ⟨v, u, v', u', hv, hu, e, a5⟩ := C125_move a4 (s := 8) (t := 7) (by decide) rfl
  refine ⟨_, _, v', u', [some (some 2)], a5, rfl, rfl, ?_⟩
  have h8 := a4 8
  have h7 := a4 7
  rw [hv] at h8
  rw [hu] at h7
  obtain ⟨_, ⟨_, _, h8⟩ | ⟨h8, _⟩⟩ := h8
  · obtain ⟨_, ⟨h7, _⟩ | ⟨_, d, h7⟩⟩ := h7
    · exact nomatch h7
    · obtain ⟨vv, vi⟩ := v
      obtain ⟨uv, ui⟩ := u
      simp only at h8 h7
      subst h8 h7
      cases e
      exact ⟨rfl, rfl, rfl, rfl⟩
  · exact nomatch h8

end Verif.Signal
