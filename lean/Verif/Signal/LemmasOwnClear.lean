import Verif.Signal.LemmasOwnEmit

/-! # Signals: callbacks that own guards clear signals -/

namespace Verif.Signal
open Verif.Cpp

/-- What `disconnectT` does, `H` being hidden: the slots `ids` are disconnected, as without guards. -/
structure DidT (owns : Nat → List Nat) (H : List Nat) (o : Option (Nat × Option Sig)) (w : World) (a : Abs) (rs ids : List Nat) (w' : World) : Prop where
  plain : ∀ em, runActions em (ids.map Action.disconnect) (hide H o w) = .ok (hide H o w')
  rel : Rel (hide H o w') (a.drop ids)
  trace : w'.trace = w.trace ++ ids.map Event.disconnect
  roots : ∀ r ∈ rs, r ∈ ids
  closed : ClosedL owns a ids
  asked : ∀ j ∈ ids, j ∈ rs ∨ ∃ i ∈ ids, j ∈ owns i

theorem DidT.nil {owns : Nat → List Nat} {H : List Nat} {o : Option (Nat × Option Sig)} {w : World} {a : Abs} (h : Rel (hide H o w) a) : DidT owns H o w a [] [] w :=
  ⟨fun _ => rfl, h, by simp, by simp, fun l1 i l2 e => by simp at e, by simp⟩

theorem DidT.seq {owns : Nat → List Nat} {H H' : List Nat} {o : Option (Nat × Option Sig)} {w w1 w1' w2 : World} {a : Abs} {r1 r2 ids1 ids2 : List Nat}
    (h1 : DidT owns H o w a r1 ids1 w1) (he : hide H' o w1' = hide H o w1) (h2 : DidT owns H' o w1' (a.drop ids1) r2 ids2 w2) :
    (∀ em, runActions em ((ids1 ++ ids2).map Action.disconnect) (hide H o w) = .ok (hide H' o w2)) ∧ Rel (hide H' o w2) (a.drop (ids1 ++ ids2)) ∧
      w2.trace = w.trace ++ (ids1 ++ ids2).map Event.disconnect ∧ (∀ r ∈ r1 ++ r2, r ∈ ids1 ++ ids2) ∧ ClosedL owns a (ids1 ++ ids2) ∧
      ∀ j ∈ ids1 ++ ids2, j ∈ r1 ++ r2 ∨ ∃ i ∈ ids1 ++ ids2, j ∈ owns i := by
  have ht : w1'.trace = w1.trace := show (hide H' o w1').trace = (hide H o w1).trace by rw [he]
  refine ⟨fun em => ?_, by rw [drop_append]; exact h2.rel, by rw [h2.trace, ht, h1.trace]; simp, ?_, h1.closed.append h2.closed, ?_⟩
  · rw [List.map_append, runActions_append, h1.plain em, ← he]; exact h2.plain em
  · intro r hr
    rcases List.mem_append.mp hr with hr | hr
    · exact List.mem_append_left _ (h1.roots r hr)
    · exact List.mem_append_right _ (h2.roots r hr)
  · intro j hj
    rcases List.mem_append.mp hj with hj | hj
    · rcases h1.asked j hj with e | ⟨i, hi, ho⟩
      · exact Or.inl (List.mem_append_left _ e)
      · exact Or.inr ⟨i, List.mem_append_left _ hi, ho⟩
    · rcases h2.asked j hj with e | ⟨i, hi, ho⟩
      · exact Or.inl (List.mem_append_right _ e)
      · exact Or.inr ⟨i, List.mem_append_right _ hi, ho⟩

theorem foldT_did {owns : Nat → List Nat} {H : List Nat} {o : Option (Nat × Option Sig)} {fuel : Nat}
    (ih : ∀ (w : World) (a : Abs) (id : Nat), Rel (hide H o w) a → (∀ s g, o = some (s, g) → a.slots s = []) → (∀ j, Falls owns a id j → j ∉ H) → a.count < fuel →
      ∃ ids w', disconnectT owns fuel id w = .ok w' ∧ DidT owns H o w a [id] ids w') :
    ∀ (gs : List Nat) (w : World) (a : Abs), Rel (hide H o w) a → (∀ s g, o = some (s, g) → a.slots s = []) → (∀ r ∈ gs, ∀ j, Falls owns a r j → j ∉ H) → a.count < fuel →
      ∃ ids w', gs.foldlM (fun w g => disconnectT owns fuel g w) w = .ok w' ∧ DidT owns H o w a gs ids w' := by
  intro gs
  induction gs with
  | nil => intro w a h _ _ _; exact ⟨[], w, rfl, .nil h⟩
  | cons g gs ihg =>
    intro w a h hs hf hc
    obtain ⟨ids1, w1, k1, k2⟩ := ih w a g h hs (hf g (List.mem_cons_self ..)) hc
    have hsub : ∀ i, (a.drop ids1).Connected i → a.Connected i := fun i hi => ((connected_drop a ids1 i).mp hi).1
    obtain ⟨ids2, w2, k3, k4⟩ := ihg w1 (a.drop ids1) k2.rel
      (fun s g' e => by
        apply List.eq_nil_iff_forall_not_mem.mpr
        intro j hj
        have := ((mem_slots_drop a ids1 s j).mp hj).1
        rw [hs s g' e] at this; cases this)
      (fun r hr j hj => hf r (List.mem_cons_of_mem _ hr) j (hj.mono hsub)) (Nat.lt_of_le_of_lt (count_drop_le a ids1) hc)
    obtain ⟨q1, q2, q3, q4, q5, q6⟩ := k2.seq rfl k4
    refine ⟨ids1 ++ ids2, w2, ?_, ⟨q1, q2, q3, q4, q5, q6⟩⟩
    simp only [List.foldlM_cons, k1, ok_bind]
    exact k3

theorem disconnectT_did (owns : Nat → List Nat) (H : List Nat) (o : Option (Nat × Option Sig)) :
    ∀ (fuel : Nat) (w : World) (a : Abs) (id : Nat), Rel (hide H o w) a → (∀ s g, o = some (s, g) → a.slots s = []) → (∀ j, Falls owns a id j → j ∉ H) → a.count < fuel →
      ∃ ids w', disconnectT owns fuel id w = .ok w' ∧ DidT owns H o w a [id] ids w' := by
  intro fuel
  induction fuel with
  | zero => intro w a id _ _ _ h; omega
  | succ fuel ih =>
    intro w a id h hs hf hc
    have hid : id ∉ H := hf id .self
    have hheap : (hide H o w).heap id = w.heap id := by simp [hide, hid]
    cases hx : w.heap id with
    | none =>
      rw [hx] at hheap
      have hnc : ¬ a.Connected id := by
        rw [h.connected]; simp [isConnected, hheap]
      refine ⟨[id], w.record (.disconnect id), by simp only [disconnectT, hx]; rfl, fun em => ?_, ?_, rfl, by simp, ?_, fun j hj => Or.inl hj⟩
      · simp only [List.map_cons, List.map_nil, runActions, Action.run, Signal.disconnect, hheap]; rfl
      · rw [show a.drop [id] = a.disconnect id from rfl, h.disconnect_none hheap]; exact h.record _
      · intro l1 i l2 e hci
        cases l1 with
        | nil =>
          simp only [List.nil_append, List.cons.injEq] at e
          obtain ⟨rfl, rfl⟩ := e
          exact absurd hci hnc
        | cons y l1 => simp at e
    | some x =>
      rw [hx] at hheap
      obtain ⟨m, p0, p2, p3, _⟩ := h.disconnect id
      have p1 := p0
      simp only [Signal.disconnect, hheap] at p1
      have hconn : a.Connected id := by rw [h.connected]; simp [isConnected, hheap]
      have ht : ∀ s g, o = some (s, g) → x.signal ≠ s := by
        intro s g e es
        have := (h.mem_slots x.signal id).mpr ⟨x, hheap, rfl⟩
        rw [es, hs s g e] at this; cases this
      obtain ⟨w1, q1, q2, q3⟩ := disconnectSlot_hide (w := w) ht (by
        intro g hg k i hk
        have := h.fwd x.signal g k i (by rw [hide_sigs ht]; exact hg) hk
        exact (hide_heap this).1) p1
      subst q2
      have hdead : (w1.record (.disconnect id)).heap id = none := by
        have : ¬ (a.disconnect id).Connected id := by
          rw [show a.disconnect id = a.drop [id] from rfl, connected_drop]; simp
        rw [p2.connected] at this
        simpa [isConnected, hide, hid, World.record] using this
      have hlt : id < a.next := by rw [h.next]; exact h.fresh id x hheap
      have hsub : ∀ i, (a.disconnect id).Connected i → a.Connected i := fun i hi => ((connected_drop a [id] i).mp hi).1
      obtain ⟨ids, w2, k1, k2⟩ := foldT_did ih (owns id) (w1.record (.disconnect id)) (a.disconnect id) (p2.record _)
        (fun s g e => by rw [slots_disconnect, hs s g e]; rfl)
        (fun r hr' j hj => hf j ((Falls.owned .self hconn hr').trans (hj.mono hsub)))
        (by have := count_disconnect_lt hconn hlt; omega)
      have htr : w1.trace = w.trace := p3
      refine ⟨id :: ids, w2, ?_, fun em => ?_, k2.rel, ?_, ?_, ?_, ?_⟩
      · simp only [disconnectT, hx, q1, ok_bind, hdead, k1]
      · simp only [List.map_cons, runActions, Action.run, p0, ok_bind]
        exact k2.plain em
      · rw [k2.trace]; simp [World.record, htr]
      · intro r hr'; rw [List.mem_singleton.mp hr']; exact List.mem_cons_self ..
      · intro l1 i l2 e hci j hj
        cases l1 with
        | nil =>
          simp only [List.nil_append, List.cons.injEq] at e
          obtain ⟨rfl, rfl⟩ := e
          exact k2.roots j hj
        | cons y l1 =>
          simp only [List.cons_append, List.cons.injEq] at e
          obtain ⟨rfl, e⟩ := e
          exact k2.closed l1 i l2 e hci j hj
      · intro j hj
        rcases List.mem_cons.mp hj with e | hj
        · exact Or.inl (List.mem_singleton.mpr e)
        · right
          rcases k2.asked j hj with e | ⟨i, hi, ho⟩
          · exact ⟨id, List.mem_cons_self .., e⟩
          · exact ⟨i, List.mem_cons_of_mem _ hi, ho⟩

/-- Releasing the slots of a signal one after the other, if the guards of none of them disconnect a later one. -/
theorem releaseT_did {owns : Nat → List Nat} {s : Nat} {g : Option Sig} {fuel : Nat} : ∀ (rest : List Nat) (w : World) (a : Abs), Rel (hide rest (some (s, g)) w) a →
    a.slots s = [] → rest.Pairwise (fun p q => ∀ r ∈ owns p, ∀ j, Falls owns a r j → j ≠ q) → a.count < fuel →
    ∃ ids w', releaseT owns fuel (rest.map some) w = .ok w' ∧ (∀ em, runActions em (ids.map Action.disconnect) (hide rest (some (s, g)) w) = .ok (hide [] (some (s, g)) w')) ∧
      Rel (hide [] (some (s, g)) w') (a.drop ids) ∧ w'.trace = w.trace ++ ids.map Event.disconnect ∧ (∀ r ∈ rest.flatMap owns, r ∈ ids) ∧ ClosedL owns a ids ∧
      ∀ j ∈ ids, j ∈ rest.flatMap owns ∨ ∃ i ∈ ids, j ∈ owns i := by
  intro rest
  induction rest with
  | nil => intro w a h _ _ _; exact ⟨[], w, rfl, fun _ => rfl, h, by simp, by simp, fun l1 i l2 e => by simp at e, by simp⟩
  | cons p ps ih =>
    intro w a h hs hp hc
    obtain ⟨hp1, hp2⟩ := List.pairwise_cons.mp hp
    have hsh : w.shared = [] := h.leak
    have hrel : w.release (some p) = w.setSlot p none := by simp [World.release, hsh]
    have hhide : hide ps (some (s, g)) (w.setSlot p none) = hide (p :: ps) (some (s, g)) w := by
      simp only [hide, World.setSlot, World.mk.injEq, and_true]
      funext j
      by_cases hj : j = p
      · subst hj; simp
      · simp [update_ne _ _ hj, hj]
    rw [← hhide] at h
    have hs' : ∀ t (g' : Option Sig), some (s, g) = some (t, g') → a.slots t = [] := by
      intro t g' e
      rw [Option.some.injEq, Prod.mk.injEq] at e
      rw [← e.1]; exact hs
    obtain ⟨ids1, w1, k1, k2⟩ := foldT_did (disconnectT_did owns ps (some (s, g)) fuel) (owns p) (w.setSlot p none) a h hs'
      (fun r hr j hj hm => hp1 j hm r hr j hj rfl) hc
    have hsub : ∀ i, (a.drop ids1).Connected i → a.Connected i := fun i hi => ((connected_drop a ids1 i).mp hi).1
    obtain ⟨ids2, w2, k3, m1, m2, m3, m4, m5, m6⟩ := ih w1 (a.drop ids1) k2.rel
      (by
        apply List.eq_nil_iff_forall_not_mem.mpr
        intro j hj
        have := ((mem_slots_drop a ids1 s j).mp hj).1
        rw [hs] at this; cases this)
      (hp2.imp (fun hq r hr j hj => hq r hr j (hj.mono hsub)))
      (Nat.lt_of_le_of_lt (count_drop_le a ids1) hc)
    have hdead : (w.setSlot p none).heap p = none := by simp [World.setSlot]
    refine ⟨ids1 ++ ids2, w2, ?_, fun em => ?_, by rw [drop_append]; exact m2, ?_, ?_, k2.closed.append m5, ?_⟩
    · simp only [List.map_cons, releaseT, hrel, hdead, k1, ok_bind]
      exact k3
    · rw [← hhide, List.map_append, runActions_append, k2.plain em]; exact m1 em
    · rw [m3, k2.trace]; simp [World.setSlot]
    · intro r hr
      simp only [List.flatMap_cons, List.mem_append] at hr
      rcases hr with hr | hr
      · exact List.mem_append_left _ (k2.roots r hr)
      · exact List.mem_append_right _ (m4 r hr)
    · intro j hj
      simp only [List.flatMap_cons, List.mem_append]
      rcases List.mem_append.mp hj with hj | hj
      · rcases k2.asked j hj with e | ⟨i, hi, ho⟩
        · exact Or.inl (Or.inl e)
        · exact Or.inr ⟨i, Or.inl hi, ho⟩
      · rcases m6 j hj with e | ⟨i, hi, ho⟩
        · exact Or.inl (Or.inr e)
        · exact Or.inr ⟨i, Or.inr hi, ho⟩

/-- `Clear`, if the guards of a callback of the signal disconnect no other slot of this signal: the signal is cleared, and then the slots `ids` are disconnected, as without guards. -/
theorem clearT_same {w : World} {a : Abs} (h : Rel w a) {owns : Nat → List Nat} {s : Nat} (hs : a.Live s) (hself : Apart owns a s) :
    ∃ ids w', clearT owns (w.next + 1) s w = .ok w' ∧ (∀ em, runActions em (.clear s :: ids.map Action.disconnect) w = .ok w') ∧
      w'.trace = w.trace ++ .clear s :: ids.map Event.disconnect ∧ Rel w' ((a.clear s).drop ids) ∧ (∀ i ∈ a.slots s, ∀ j ∈ owns i, j ∈ ids) ∧ ClosedL owns (a.clear s) ids ∧
      ∀ j ∈ ids, (∃ i ∈ a.slots s, j ∈ owns i) ∨ ∃ i ∈ ids, j ∈ owns i := by
  have hs' := hs
  obtain ⟨l, hl⟩ := hs'
  obtain ⟨ids, it, hg, hp, _⟩ := h.live hl
  have hsl : a.slots s = l := by simp [Abs.slots, hl]
  rw [← hsl] at hp
  have hn := h.ids_nodup hg
  obtain ⟨m, p1, p2, p3⟩ := h.clear (s := s) (by rw [hl]; simp)
  have hm : m = hide ids (some (s, some ⟨[], a.grown s, some 0⟩)) (w.setSig s none) := by
    simp only [Signal.clear, sig_some hg, ok_bind] at p1
    rw [releaseAll_ids h.leak] at p1
    rw [← Except.ok.inj p1]
    simp only [hide, World.setSig, World.mk.injEq, and_true, true_and]
    funext j
    by_cases hj : j = s
    · subst hj; simp
    · simp [update_ne _ _ hj]
  have hslots : ∀ t j, j ∈ (a.clear s).slots t ↔ j ∈ a.slots t ∧ t ≠ s := by
    intro t j
    by_cases ht : t = s
    · subst ht; simp [Abs.slots, Abs.clear]
    · simp [Abs.slots, Abs.clear, update_ne _ _ ht, ht]
  have hsub : ∀ i, (a.clear s).Connected i → a.Connected i := fun i ⟨t, ht⟩ => ⟨t, ((hslots t i).mp ht).1⟩
  have hpw : ids.Pairwise (fun p q => ∀ r ∈ owns p, ∀ j, Falls owns (a.clear s) r j → j ≠ q) := by
    refine List.Pairwise.imp_of_mem (fun {p q} hpm hqm hne => ?_) hn
    intro r hrm j hj e
    subst e
    have hps := hp.mem_iff.mp hpm
    exact hne (hself p hps j (hp.mem_iff.mp hqm) ((Falls.owned .self ⟨s, hps⟩ hrm).trans (hj.mono hsub))).symm
  rw [hm] at p2
  obtain ⟨ids', w', k1, k2, k3, k4, k5, k6, k7⟩ := releaseT_did (fuel := w.next + 1) ids ((w.setSig s none).record (.clear s)) (a.clear s) (p2.record (.clear s))
    (by simp [Abs.slots, Abs.clear]) hpw (by have := count_le (a.clear s); have h2 : (a.clear s).next = w.next := h.next; omega)
  have hfin : hide [] (some (s, some ⟨[], a.grown s, some 0⟩)) w' = w'.setSig s (some ⟨[], a.grown s, some 0⟩) := by simp [hide, World.setSig]
  rw [hfin] at k3
  refine ⟨ids', w'.setSig s (some ⟨[], a.grown s, some 0⟩), ?_, fun em => ?_, ?_, k3, ?_, k6, ?_⟩
  · simp only [clearT, sig_some hg, ok_bind, k1]; rfl
  · simp only [runActions, Action.run, p1, ok_bind, hm]
    rw [← hfin]
    exact k2 em
  · show w'.trace = _
    rw [k4]; simp [World.record, World.setSig]
  · intro i hi j hj
    exact k5 j (List.mem_flatMap.mpr ⟨i, hp.mem_iff.mpr hi, hj⟩)
  · intro j hj
    rcases k7 j hj with e | e
    · obtain ⟨i, h1, h2⟩ := List.mem_flatMap.mp e
      exact Or.inl ⟨i, hp.mem_iff.mp h1, h2⟩
    · exact Or.inr e

end Verif.Signal
