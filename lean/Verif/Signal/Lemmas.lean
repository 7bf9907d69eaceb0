import Verif.Signal.Spec
import Mathlib.Data.List.Nodup

/-! # Signals: lists, the relation between worlds and their meaning, and the basic calls -/

namespace Verif.Signal
open Verif.Cpp

@[simp] theorem update_same {β : Type} (f : Nat → β) (i : Nat) (x : β) : update f i x i = x := by simp [update]
theorem update_ne {β : Type} (f : Nat → β) {i j : Nat} (x : β) (h : j ≠ i) : update f i x j = f j := by simp [update, h]

/-! ## Lists -/

/-- Number of slots at or before the iterator. -/
def cursor : Option Nat → Nat
  | none => 0
  | some i => i + 1

theorem filter_mid {A B : List Nat} {x : Nat} (h : (A ++ x :: B).Nodup) : (A ++ x :: B).filter (· ≠ x) = A ++ B := by
  rw [List.nodup_append] at h
  obtain ⟨h1, h2, h3⟩ := h
  rw [List.nodup_cons] at h2
  rw [List.filter_append, List.filter_cons_of_neg (by simp)]
  congr 1
  · rw [List.filter_eq_self]; intro a ha; simpa using fun e => h3 a ha x (by simp) e
  · rw [List.filter_eq_self]; intro a ha; simpa using fun e : a = x => h2.1 (e ▸ ha)

theorem filter_notin {A : List Nat} {x : Nat} (h : x ∉ A) : A.filter (· ≠ x) = A := by
  rw [List.filter_eq_self]; intro a ha; simpa using fun e : a = x => h (e ▸ ha)

theorem swapPop {A B : List Nat} {x b : Nat} (h : (A ++ x :: B)[A.length + B.length]? = some b) :
    ∃ R, ((A ++ x :: B).set A.length b).dropLast = A ++ R ∧ R.Perm B := by
  rcases List.eq_nil_or_concat B with rfl | ⟨B', y, rfl⟩
  · refine ⟨[], ?_, List.Perm.refl _⟩
    simp
  · have : b = y := by
      have e : (A ++ x :: B'.concat y) = (A ++ x :: B') ++ [y] := by simp
      rw [e, List.getElem?_append_right (by simp)] at h
      simp only [List.length_append, List.length_cons, List.length_concat] at h
      rw [show A.length + (B'.length + 1) - (A.length + (B'.length + 1)) = 0 by omega] at h
      simpa using h.symm
    subst this
    refine ⟨b :: B', ?_, ?_⟩
    · rw [List.set_append_right _ _ (Nat.le_refl _)]
      simp only [Nat.sub_self, List.set_cons_zero, List.concat_eq_append]
      rw [show A ++ b :: (B' ++ [b]) = (A ++ b :: B') ++ [b] by simp, List.dropLast_concat]
    · simpa using (List.perm_append_singleton b B').symm

theorem split_at {l : List Nat} {k x : Nat} (h : l[k]? = some x) : ∃ A B, l = A ++ x :: B ∧ A.length = k := by
  have hk : k < l.length := by by_contra hc; rw [List.getElem?_eq_none (by omega)] at h; cases h
  refine ⟨l.take k, l.drop (k + 1), ?_, by simp; omega⟩
  have : l[k] = x := by rw [List.getElem?_eq_getElem hk] at h; exact Option.some.inj h
  rw [← this, ← List.drop_eq_getElem_cons hk, List.take_append_drop]

/-- The list after the first branch of `Disconnect`. -/
theorem simple_list {l : List Nat} {k x b c : Nat} (hn : l.Nodup) (hx : l[k]? = some x) (hb : l[l.length - 1]? = some b) (hc : c ≤ k ∨ l.length ≤ c) :
    (((l.set k b).dropLast).take c).Perm ((l.take c).filter (· ≠ x)) ∧ (((l.set k b).dropLast).drop c).Perm ((l.drop c).filter (· ≠ x)) := by
  obtain ⟨A, B, rfl, rfl⟩ := split_at hx
  have hb' : (A ++ x :: B)[A.length + B.length]? = some b := by
    rw [← hb]; congr 1; simp
  obtain ⟨R, hR, hp⟩ := swapPop hb'
  rw [hR]
  rcases hc with hc | hc
  · rw [List.take_append_of_le_length hc, List.take_append_of_le_length hc, List.drop_append_of_le_length hc, List.drop_append_of_le_length hc]
    constructor
    · rw [filter_notin]
      intro hm
      exact (List.nodup_append.mp hn).2.2 x (List.mem_of_mem_take hm) x (by simp) rfl
    · have : (List.drop c A ++ x :: B).Nodup := by
        rw [← List.drop_append_of_le_length hc]; exact hn.drop
      rw [filter_mid this]
      exact hp.append_left _
  · have e : (A ++ R).length ≤ c := by
      have := hp.length_eq
      simp at hc ⊢; omega
    rw [List.take_of_length_le hc, List.take_of_length_le e, List.drop_of_length_le hc, List.drop_of_length_le e, filter_mid hn]
    exact ⟨hp.append_left _, List.Perm.refl _⟩

/-- The list after the second branch of `Disconnect`. -/
theorem tricky_list {l : List Nat} {k x i y b : Nat} (hn : l.Nodup) (hx : l[k]? = some x) (hy : l[i]? = some y) (hb : l[l.length - 1]? = some b) (hki : k ≤ i)
    (hi : i < l.length - 1) :
    ((((l.set k y).set i b).dropLast).take i).Perm ((l.take (i + 1)).filter (· ≠ x)) ∧
    ((((l.set k y).set i b).dropLast).drop i).Perm ((l.drop (i + 1)).filter (· ≠ x)) := by
  -- the part up to the iterator and the part after it
  have hil : i < l.length := by omega
  have hL : l = l.take (i + 1) ++ l.drop (i + 1) := (List.take_append_drop _ _).symm
  generalize hV : l.take (i + 1) = V at *
  generalize hU : l.drop (i + 1) = U at *
  have hVl : V.length = i + 1 := by rw [← hV]; simp; omega
  have hUl : U.length = l.length - (i + 1) := by rw [← hU]; simp
  have hxU : x ∉ U := by
    intro hm
    have hxV : x ∈ V := by
      rw [← hV]
      rw [List.mem_iff_getElem?]
      exact ⟨k, by rw [List.getElem?_take_of_lt (by omega)]; exact hx⟩
    rw [hL] at hn
    exact (List.nodup_append.mp hn).2.2 x hxV x hm rfl
  have hset : (l.set k y).set i b = (V.set k y).set i b ++ U := by
    conv_lhs => rw [hL]
    rw [List.set_append_left _ _ (by omega), List.set_append_left _ _ (by simp; omega)]
  have hU0 : U ≠ [] := by intro e; rw [e] at hUl; simp at hUl; omega
  have hdrop : ((V.set k y).set i b ++ U).dropLast = (V.set k y).set i b ++ U.dropLast := List.dropLast_append_of_ne_nil hU0
  have hVset : (V.set k y).set i b = (V.set k y).dropLast ++ [b] := by
    have : V.set k y ≠ [] := by intro e; have := congrArg List.length e; simp at this; rw [this] at hVl; simp at hVl
    conv_lhs => rw [← List.dropLast_append_getLast this]
    rw [List.set_append_right _ _ (by simp; omega)]
    have : i - (V.set k y).dropLast.length = 0 := by simp; omega
    rw [this]; simp
  have hlast : U.getLast hU0 = b := by
    have : l[l.length - 1]? = some (U.getLast hU0) := by
      conv_lhs => rw [hL]
      rw [List.getElem?_append_right (by rw [← hL]; omega), ← hL, List.getLast_eq_getElem]
      rw [List.getElem?_eq_getElem (by omega)]
      congr 1
      congr 1
      omega
    rw [this] at hb
    exact Option.some.inj hb
  rw [hset, hdrop, hVset, List.append_assoc]
  have hlen : (V.set k y).dropLast.length = i := by simp; omega
  rw [List.take_append_of_le_length (by omega), List.drop_append_of_le_length (by omega), List.take_of_length_le (by omega), List.drop_of_length_le (by omega)]
  constructor
  · have hVn : V.Nodup := by rw [hL] at hn; exact (List.nodup_append.mp hn).1
    have hxV : V[k]? = some x := by rw [← hx]; conv_rhs => rw [hL]
                                    rw [List.getElem?_append_left (by omega)]
    have hyV : V[V.length - 1]? = some y := by
      rw [← hy]; conv_rhs => rw [hL]
      rw [List.getElem?_append_left (by omega)]
      congr 1; omega
    have := simple_list (c := V.length) hVn hxV hyV (Or.inr (Nat.le_refl _))
    have h1 := this.1
    rw [List.take_of_length_le (by simp), List.take_of_length_le (Nat.le_refl _)] at h1
    exact h1
  · rw [filter_notin hxU]
    have := List.perm_append_singleton b U.dropLast
    rw [← hlast] at this ⊢
    rw [List.dropLast_append_getLast] at this
    simpa using this.symm

theorem split_perm {l l' : List Nat} {c c' x : Nat} (h1 : (l'.take c').Perm ((l.take c).filter (· ≠ x))) (h2 : (l'.drop c').Perm ((l.drop c).filter (· ≠ x))) :
    l'.Perm (l.filter (· ≠ x)) := by
  have := h1.append h2
  rw [List.take_append_drop, ← List.filter_append, List.take_append_drop] at this
  exact this

/-! ## Worlds and their meaning -/

/-- The signal of the model at address `s` has the given status. -/
def SigRel (g : Option Sig) (st : Status) (grown : Bool) : Prop :=
  match st with
  | .absent => g = none
  | .hollow => grown = false ∧ ∃ it, g = some ⟨[none], false, it⟩
  | .live l => ∃ (ids : List Nat) (it : Option Nat), g = some ⟨ids.map some, grown, it⟩ ∧ ids.Perm l ∧ (grown = false → ids.length ≤ 1)

structure Rel (w : World) (a : Abs) : Prop where
  next : a.next = w.next
  leak : w.shared = []
  sig : ∀ s, SigRel (w.sigs s) (a.conn s) (a.grown s)
  fwd : ∀ s g k id, w.sigs s = some g → g.slots[k]? = some (some id) → w.heap id = some ⟨a.cb id, s, k⟩
  bwd : ∀ id x, w.heap id = some x → ∃ g, w.sigs x.signal = some g ∧ g.slots[x.index]? = some (some id)
  fresh : ∀ id x, w.heap id = some x → id < w.next

theorem getElem?_map_some {l : List Nat} {k id : Nat} : (l.map some)[k]? = some (some id) ↔ l[k]? = some id := by
  rw [List.getElem?_map]; cases l[k]? <;> simp

theorem Rel.live {w : World} {a : Abs} (h : Rel w a) {s : Nat} {l : List Nat} (hl : a.conn s = .live l) :
    ∃ (ids : List Nat) (it : Option Nat), w.sigs s = some ⟨ids.map some, a.grown s, it⟩ ∧ ids.Perm l ∧ (a.grown s = false → ids.length ≤ 1) := by
  have := h.sig s; rw [hl] at this; exact this

theorem Rel.ids_nodup {w : World} {a : Abs} (h : Rel w a) {s : Nat} {ids : List Nat} {fb : Bool} {it : Option Nat} (hs : w.sigs s = some ⟨ids.map some, fb, it⟩) :
    ids.Nodup := by
  rw [List.nodup_iff_injective_get]
  intro i j e
  have hi := h.fwd s _ i.1 (ids.get i) hs (getElem?_map_some.mpr (by simp))
  have hj := h.fwd s _ j.1 (ids.get j) hs (getElem?_map_some.mpr (by simp))
  rw [e] at hi
  rw [hi] at hj
  simp at hj
  exact Fin.ext hj

theorem Rel.heap_iff {w : World} {a : Abs} (h : Rel w a) {s : Nat} {ids : List Nat} {fb : Bool} {it : Option Nat} (hs : w.sigs s = some ⟨ids.map some, fb, it⟩) (id : Nat) :
    id ∈ ids ↔ ∃ x, w.heap id = some x ∧ x.signal = s := by
  constructor
  · intro hm
    obtain ⟨k, hk⟩ := List.mem_iff_getElem?.mp hm
    exact ⟨_, h.fwd s _ k id hs (getElem?_map_some.mpr hk), rfl⟩
  · rintro ⟨x, hx, rfl⟩
    obtain ⟨g, hg, hk⟩ := h.bwd id x hx
    rw [hs] at hg; cases hg
    exact List.mem_iff_getElem?.mpr ⟨_, getElem?_map_some.mp hk⟩

/-- The slots of a signal as `Abs.slots` shows them. -/
theorem Rel.mem_slots {w : World} {a : Abs} (h : Rel w a) (s id : Nat) : id ∈ a.slots s ↔ ∃ x, w.heap id = some x ∧ x.signal = s := by
  cases hc : a.conn s with
  | live l =>
    obtain ⟨ids, it, hs, hp, _⟩ := h.live hc
    rw [← h.heap_iff hs id]
    simp [Abs.slots, hc, hp.mem_iff]
  | absent =>
    have := h.sig s; rw [hc] at this
    simp only [Abs.slots, hc, List.not_mem_nil, false_iff]
    rintro ⟨x, hx, rfl⟩
    obtain ⟨g, hg, _⟩ := h.bwd id x hx
    rw [this] at hg; cases hg
  | hollow =>
    have := h.sig s; rw [hc] at this
    obtain ⟨_, it, this⟩ := this
    simp only [Abs.slots, hc, List.not_mem_nil, false_iff]
    rintro ⟨x, hx, rfl⟩
    obtain ⟨g, hg, hk⟩ := h.bwd id x hx
    rw [this] at hg; cases hg
    cases hi : x.index with
    | zero => rw [hi] at hk; simp at hk
    | succ n => rw [hi] at hk; simp at hk

theorem Rel.connected {w : World} {a : Abs} (h : Rel w a) (id : Nat) : a.Connected id ↔ isConnected (some id) w = true := by
  simp only [Abs.Connected, h.mem_slots, isConnected]
  constructor
  · rintro ⟨s, x, hx, _⟩; simp [hx]
  · intro hh
    cases hx : w.heap id with
    | none => rw [hx] at hh; simp at hh
    | some x => exact ⟨x.signal, x, rfl, rfl⟩

/-- One signal changes. -/
theorem Rel.modify {w w' : World} {a a' : Abs} (h : Rel w a) {s : Nat} {ids : List Nat} {it : Option Nat} {l : List Nat}
    (hs : w'.sigs = update w.sigs s (some ⟨ids.map some, a'.grown s, it⟩))
    (hin : ∀ p j, ids[p]? = some j → w'.heap j = some ⟨a'.cb j, s, p⟩)
    (hout : ∀ j, j ∉ ids → ∀ x, w'.heap j = some x → x.signal ≠ s ∧ w.heap j = some x)
    (hkeep : ∀ j x, w.heap j = some x → x.signal ≠ s → w'.heap j = some x ∧ a'.cb j = a.cb j)
    (hconn : ∀ t, t ≠ s → a'.conn t = a.conn t ∧ a'.grown t = a.grown t)
    (hl : a'.conn s = .live l) (hp : ids.Perm l) (hg : a'.grown s = false → ids.length ≤ 1)
    (hnext : a'.next = w'.next) (hleak : w'.shared = []) (hmono : w.next ≤ w'.next) (hlt : ∀ j ∈ ids, j < w'.next) : Rel w' a' := by
  constructor
  · exact hnext
  · exact hleak
  · intro t
    by_cases ht : t = s
    · subst ht
      rw [hs, update_same, hl]
      exact ⟨ids, it, rfl, hp, hg⟩
    · rw [hs, update_ne _ _ ht, (hconn t ht).1, (hconn t ht).2]; exact h.sig t
  · intro t g k id hg' hk
    by_cases ht : t = s
    · subst ht
      rw [hs, update_same] at hg'
      cases hg'
      exact hin k id (getElem?_map_some.mp hk)
    · rw [hs, update_ne _ _ ht] at hg'
      have := h.fwd t g k id hg' hk
      obtain ⟨k1, k2⟩ := hkeep id _ this ht
      rw [k1, k2]
  · intro id x hx
    by_cases hm : id ∈ ids
    · obtain ⟨p, hp'⟩ := List.mem_iff_getElem?.mp hm
      have := hin p id hp'
      rw [this] at hx
      cases hx
      exact ⟨_, by rw [hs, update_same], getElem?_map_some.mpr hp'⟩
    · obtain ⟨e1, e2⟩ := hout id hm x hx
      obtain ⟨g, k1, k2⟩ := h.bwd id x e2
      exact ⟨g, by rw [hs, update_ne _ _ e1]; exact k1, k2⟩
  · intro id x hx
    by_cases hm : id ∈ ids
    · exact hlt id hm
    · exact Nat.lt_of_lt_of_le (h.fresh id x (hout id hm x hx).2) hmono

theorem releaseAll_ids {w : World} (h : w.shared = []) (ids : List Nat) :
    w.releaseAll (ids.map some) = ⟨fun j => if j ∈ ids then none else w.heap j, w.next, w.sigs, w.shared, w.trace⟩ := by
  induction ids generalizing w with
  | nil => simp [World.releaseAll]
  | cons x xs ih =>
    simp only [List.map_cons, World.releaseAll]
    rw [ih (by simp [World.release, h, World.setSlot])]
    simp only [World.release, h, World.setSlot, List.not_mem_nil, if_false, List.mem_cons]
    congr 1
    funext j
    by_cases hj : j ∈ xs
    · simp [hj]
    · by_cases hx : j = x
      · subst hx; simp
      · simp [hj, hx, update]

theorem releaseAll_none (w : World) : w.releaseAll [none] = w := rfl

theorem sig_some {w : World} {s : Nat} {g : Sig} (h : w.sigs s = some g) : w.sig s = .ok g := by simp [World.sig, h]

/-! ## Basic calls -/

theorem rel_empty : Rel .empty .empty := by
  constructor
  · rfl
  · rfl
  · intro s; rfl
  · intro s g k id hg; cases hg
  · intro id x hx; cases hx
  · intro id x hx; cases hx

/-- The iterators do not matter. -/
theorem Rel.setIter {w : World} {a : Abs} (h : Rel w a) {s : Nat} (f : Option Nat → Option Nat) {g : Sig} (hg : w.sigs s = some g) :
    Signal.setIter s f w = .ok (w.setSig s (some ⟨g.slots, g.fallback, f g.iter⟩)) ∧ Rel (w.setSig s (some ⟨g.slots, g.fallback, f g.iter⟩)) a := by
  refine ⟨by simp [Signal.setIter, sig_some hg], ?_⟩
  constructor
  · exact h.next
  · exact h.leak
  · intro t
    by_cases ht : t = s
    · subst ht
      have := h.sig t
      simp only [World.setSig, update_same]
      rw [hg] at this
      revert this
      cases a.conn t with
      | absent => intro this; cases this
      | hollow => rintro ⟨e, it, this⟩; cases this; exact ⟨e, _, rfl⟩
      | live l => rintro ⟨ids, it, this, hp⟩; cases this; exact ⟨ids, _, rfl, hp⟩
    · simp only [World.setSig, update_ne _ _ ht]; exact h.sig t
  · intro t g' k id hg' hk
    by_cases ht : t = s
    · subst ht
      simp only [World.setSig, update_same, Option.some.injEq] at hg'
      subst hg'
      exact h.fwd t g k id hg hk
    · simp only [World.setSig, update_ne _ _ ht] at hg'
      exact h.fwd t g' k id hg' hk
  · intro id x hx
    obtain ⟨g', k1, k2⟩ := h.bwd id x hx
    by_cases ht : x.signal = s
    · subst ht
      rw [hg] at k1; cases k1
      exact ⟨⟨g.slots, g.fallback, f g.iter⟩, by simp only [World.setSig, update_same], k2⟩
    · exact ⟨g', by simp only [World.setSig, update_ne _ _ ht]; exact k1, k2⟩
  · exact h.fresh

theorem Rel.record {w : World} {a : Abs} (h : Rel w a) (e : Event) : Rel (w.record e) a := ⟨h.next, h.leak, h.sig, h.fwd, h.bwd, h.fresh⟩

/-- No slot belongs to an absent signal. -/
theorem Rel.absent {w : World} {a : Abs} (h : Rel w a) {s : Nat} (hs : w.sigs s = none) (j : Nat) (x : Slot) (hx : w.heap j = some x) : x.signal ≠ s := by
  rintro rfl
  obtain ⟨g, hg, _⟩ := h.bwd j x hx
  rw [hs] at hg; cases hg

theorem Rel.newSignal {w : World} {a : Abs} (h : Rel w a) {s : Nat} (hs : a.conn s = .absent) : Rel (newSignal s w) (a.create s) := by
  have hs' : w.sigs s = none := by have := h.sig s; rw [hs] at this; exact this
  refine h.modify (s := s) (ids := []) (it := some 0) (l := []) ?_ ?_ ?_ ?_ ?_ ?_ ?_ ?_ ?_ ?_ ?_ ?_
  · simp [Signal.newSignal, World.setSig, Abs.create]
  · intro p j hp; simp at hp
  · intro j _ x hx; exact ⟨h.absent hs' j x hx, hx⟩
  · intro j x hx _; exact ⟨hx, rfl⟩
  · intro t ht; simp [Abs.create, update_ne _ _ ht]
  · simp [Abs.create]
  · exact List.Perm.refl _
  · simp
  · exact h.next
  · exact h.leak
  · exact Nat.le_refl _
  · simp

/-- The slots of a signal that is there. -/
theorem Rel.present {w : World} {a : Abs} (h : Rel w a) {s : Nat} (hs : a.conn s ≠ .absent) :
    ∃ (ids : List Nat) (it : Option Nat), ((w.sigs s = some ⟨ids.map some, a.grown s, it⟩ ∧ ids.Perm (a.slots s)) ∨ (w.sigs s = some ⟨[none], a.grown s, it⟩ ∧ ids = [] ∧ a.slots s = [])) ∧
      (∀ g, w.sigs s = some g → w.releaseAll g.slots = ⟨fun j => if j ∈ ids then none else w.heap j, w.next, w.sigs, w.shared, w.trace⟩) ∧
      (∀ j, j ∈ ids ↔ ∃ x, w.heap j = some x ∧ x.signal = s) := by
  have hm := h.mem_slots s
  cases hc : a.conn s with
  | absent => exact absurd hc hs
  | live l =>
    obtain ⟨ids, it, hg, hp, _⟩ := h.live hc
    refine ⟨ids, it, Or.inl ⟨hg, by simpa [Abs.slots, hc] using hp⟩, ?_, h.heap_iff hg⟩
    intro g hg'
    rw [hg] at hg'; cases hg'
    exact releaseAll_ids h.leak ids
  | hollow =>
    have := h.sig s; rw [hc] at this
    obtain ⟨hgr, it, hg⟩ := this
    refine ⟨[], it, Or.inr ⟨by rw [hgr]; exact hg, rfl, by simp [Abs.slots, hc]⟩, ?_, ?_⟩
    · intro g hg'
      rw [hg] at hg'; cases hg'
      simp [releaseAll_none]
    · intro j
      rw [← hm j]
      simp [Abs.slots, hc]

theorem Rel.present_sig {w : World} {a : Abs} (h : Rel w a) {s : Nat} (hs : a.conn s ≠ .absent) : ∃ g, w.sigs s = some g ∧ g.fallback = a.grown s := by
  obtain ⟨ids, it, h1 | h1, _⟩ := h.present hs
  · exact ⟨_, h1.1, rfl⟩
  · exact ⟨_, h1.1, rfl⟩

theorem Rel.clear {w : World} {a : Abs} (h : Rel w a) {s : Nat} (hs : a.conn s ≠ .absent) :
    ∃ w', Signal.clear s w = .ok w' ∧ Rel w' (a.clear s) ∧ w'.trace = w.trace ∧ w'.next = w.next := by
  obtain ⟨ids, it, hg, hr, hm⟩ := h.present hs
  obtain ⟨g, hg', hf⟩ := h.present_sig hs
  refine ⟨_, by simp [Signal.clear, sig_some hg']; rfl, ?_, ?_, ?_⟩
  · rw [hr g hg']
    refine h.modify (s := s) (ids := []) (it := some 0) (l := []) ?_ ?_ ?_ ?_ ?_ ?_ ?_ ?_ ?_ ?_ ?_ ?_
    · simp [World.setSig, Abs.clear, hf]
    · intro p j hp; simp at hp
    · intro j _ x hx
      simp only [World.setSig] at hx
      by_cases hj : j ∈ ids
      · simp [hj] at hx
      · simp only [hj, if_false] at hx
        exact ⟨fun e => hj ((hm j).mpr ⟨x, hx, e⟩), hx⟩
    · intro j x hx hne
      have hj : j ∉ ids := fun hj => by obtain ⟨y, hy, e⟩ := (hm j).mp hj; rw [hx] at hy; cases hy; exact hne e
      exact ⟨by simp [World.setSig, hj, hx], rfl⟩
    · intro t ht; simp [Abs.clear, update_ne _ _ ht]
    · simp [Abs.clear]
    · exact List.Perm.refl _
    · simp
    · exact h.next
    · exact h.leak
    · exact Nat.le_refl _
    · simp
  · rw [hr g hg']; rfl
  · rw [hr g hg']; rfl

theorem Rel.destroy {w : World} {a : Abs} (h : Rel w a) {s : Nat} (hs : a.conn s ≠ .absent) :
    ∃ w', destroySignal s w = .ok w' ∧ Rel w' (a.destroy s) ∧ w'.trace = w.trace := by
  obtain ⟨ids, it, hg, hr, hm⟩ := h.present hs
  obtain ⟨g, hg', hf⟩ := h.present_sig hs
  refine ⟨_, by simp [destroySignal, sig_some hg']; rfl, ?_, ?_⟩
  · rw [hr g hg']
    have key : ∀ j x, (if j ∈ ids then none else w.heap j) = some x → w.heap j = some x ∧ x.signal ≠ s := by
      intro j x hx
      by_cases hj : j ∈ ids
      · simp [hj] at hx
      · simp only [hj, if_false] at hx
        exact ⟨hx, fun e => hj ((hm j).mpr ⟨x, hx, e⟩)⟩
    constructor
    · exact h.next
    · exact h.leak
    · intro t
      by_cases ht : t = s
      · subst ht; simp [World.setSig, Abs.destroy, SigRel]
      · simp only [World.setSig, Abs.destroy, update_ne _ _ ht]; exact h.sig t
    · intro t g' k id hg2 hk
      by_cases ht : t = s
      · subst ht; simp [World.setSig] at hg2
      · simp only [World.setSig, update_ne _ _ ht] at hg2
        have hx := h.fwd t g' k id hg2 hk
        have hj : id ∉ ids := fun hj => by obtain ⟨y, hy, e⟩ := (hm id).mp hj; rw [hx] at hy; cases hy; exact ht e
        simp [World.setSig, hj, hx, Abs.destroy]
    · intro id x hx
      obtain ⟨k1, k2⟩ := key id x hx
      obtain ⟨g', m1, m2⟩ := h.bwd id x k1
      exact ⟨g', by simp only [World.setSig, update_ne _ _ k2]; exact m1, m2⟩
    · intro id x hx
      exact h.fresh id x (key id x hx).1
  · rw [hr g hg']; rfl

theorem Rel.connect {w : World} {a : Abs} (h : Rel w a) {s : Nat} (hs : a.Live s) (cb : Nat) :
    ∃ w', Signal.connect s cb w = .ok (w', a.next) ∧ Rel w' (a.connect s cb) ∧ w'.trace = w.trace ∧ w'.next = w.next + 1 ∧
      (∀ g, w.sigs s = some g → w'.sigs s = some (g.connected w.next)) ∧ ∀ t, t ≠ s → w'.sigs t = w.sigs t := by
  obtain ⟨l, hl⟩ := hs
  obtain ⟨ids, it, hg, hp, hlen⟩ := h.live hl
  have hsl : a.slots s = l := by simp [Abs.slots, hl]
  have hnx : ∀ x, w.heap w.next ≠ some x := fun x hx => Nat.lt_irrefl _ (h.fresh _ x hx)
  have hnm : w.next ∉ ids := fun hm => by obtain ⟨x, hx, _⟩ := (h.heap_iff hg _).mp hm; exact hnx x hx
  refine ⟨⟨update w.heap w.next (some ⟨cb, s, ids.length⟩), w.next + 1, update w.sigs s (some ((⟨ids.map some, a.grown s, it⟩ : Sig).connected w.next)), w.shared, w.trace⟩,
    by simp [Signal.connect, sig_some hg, h.next, World.setSig, World.setSlot], ?_, rfl, rfl, ?_, ?_⟩
  · refine h.modify (s := s) (ids := ids ++ [w.next]) (it := ((⟨ids.map some, a.grown s, it⟩ : Sig).connected w.next).iter) (l := l ++ [w.next]) ?_ ?_ ?_ ?_ ?_ ?_ ?_ ?_ ?_ ?_ ?_ ?_
    · simp [Abs.connect, Sig.connected, hsl, hp.length_eq]
    · intro p j hpj
      simp only [Abs.connect]
      by_cases hpl : p < ids.length
      · rw [List.getElem?_append_left hpl] at hpj
        have hjn : j ≠ w.next := by rintro rfl; exact hnm (List.mem_of_getElem? hpj)
        rw [update_ne _ _ hjn, h.next, update_ne _ _ hjn]
        exact h.fwd s _ p j hg (getElem?_map_some.mpr hpj)
      · rw [List.getElem?_append_right (by omega)] at hpj
        have hp0 : p - ids.length = 0 := by
          by_contra hc
          rw [List.getElem?_eq_none (by simp; omega)] at hpj; cases hpj
        rw [hp0] at hpj
        simp only [List.getElem?_cons_zero, Option.some.injEq] at hpj
        subst hpj
        rw [h.next, update_same, update_same]
        have : p = ids.length := by omega
        simp [this]
    · intro j hj x hx
      have hj1 : j ∉ ids := fun hm => hj (by simp [hm])
      have hjn : j ≠ w.next := fun e => hj (by simp [e])
      simp only [update_ne _ _ hjn] at hx
      exact ⟨fun e => hj1 ((h.heap_iff hg j).mpr ⟨x, hx, e⟩), hx⟩
    · intro j x hx _
      have hjn : j ≠ w.next := by rintro rfl; exact hnx x hx
      simp only [Abs.connect, h.next, update_ne _ _ hjn]
      exact ⟨hx, trivial⟩
    · intro t ht; simp [Abs.connect, update_ne _ _ ht]
    · simp [Abs.connect, hsl, h.next]
    · exact hp.append_right _
    · intro hgr
      simp only [Abs.connect, update_same, Bool.or_eq_false_iff, hsl, decide_eq_false_iff_not] at hgr
      have := hp.length_eq
      have h2 := hgr.2
      rw [List.length_append]; simp only [List.length_cons, List.length_nil]; omega
    · simp [Abs.connect, h.next]
    · exact h.leak
    · simp
    · intro j hj
      rcases List.mem_append.mp hj with hj | hj
      · obtain ⟨x, hx, _⟩ := (h.heap_iff hg j).mp hj
        exact Nat.lt_succ_of_lt (h.fresh j x hx)
      · rw [List.mem_singleton] at hj; rw [hj]; exact Nat.lt_succ_self _
  · intro g hg'
    rw [hg] at hg'; cases hg'
    simp
  · intro t ht
    simp [update_ne _ _ ht]

end Verif.Signal
