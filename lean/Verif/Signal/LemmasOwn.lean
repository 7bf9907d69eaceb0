import Verif.Signal.ModelOwn
import Verif.Signal.Props
import Mathlib.Data.Finset.Card
import Mathlib.Order.Interval.Finset.Nat

/-! # Signals: callbacks that own guards -/

namespace Verif.Signal
open Verif.Cpp

/-! ## Worlds in which some slots, and the contents of a signal, are hidden -/

/-- The world without the slots of `H`, and with other contents of a signal. -/
def hide (H : List Nat) (o : Option (Nat × Option Sig)) (w : World) : World :=
  ⟨fun i => if i ∈ H then none else w.heap i, w.next, (match o with
    | none => w.sigs
    | some (s, g) => update w.sigs s g), w.shared, w.trace⟩

theorem hide_nil (w : World) : hide [] none w = w := by simp [hide]

theorem hide_heap {H : List Nat} {o : Option (Nat × Option Sig)} {w : World} {i : Nat} {x : Slot} (h : (hide H o w).heap i = some x) : i ∉ H ∧ w.heap i = some x := by
  simp only [hide] at h
  by_cases hi : i ∈ H
  · simp [hi] at h
  · simp only [hi, if_false] at h; exact ⟨hi, h⟩

theorem hide_sigs {H : List Nat} {o : Option (Nat × Option Sig)} {w : World} {t : Nat} (h : ∀ s g, o = some (s, g) → t ≠ s) : (hide H o w).sigs t = w.sigs t := by
  cases o with
  | none => rfl
  | some p => simp only [hide, update_ne _ _ (h p.1 p.2 rfl)]

theorem setIndex_hide {H : List Nat} {o : Option (Nat × Option Sig)} {w m : World} {p : Option Nat} {k : Nat} (h : (hide H o w).setIndex p k = .ok m) :
    ∃ w', w.setIndex p k = .ok w' ∧ m = hide H o w' ∧ (∀ i ∈ H, w'.heap i = w.heap i) ∧ w'.sigs = w.sigs := by
  cases p with
  | none => cases h
  | some i =>
    simp only [World.setIndex] at h
    cases hi : (hide H o w).heap i with
    | none => rw [hi] at h; cases h
    | some x =>
      rw [hi] at h
      obtain ⟨h1, h2⟩ := hide_heap hi
      refine ⟨w.setSlot i (some ⟨x.callback, x.signal, k⟩), by simp [World.setIndex, h2], ?_, ?_, rfl⟩
      · rw [← Except.ok.inj h]
        simp only [hide, World.setSlot, World.mk.injEq, and_true]
        funext j
        by_cases hj : j = i
        · subst hj; simp [h1]
        · simp only [update_ne _ _ hj]
      · intro j hj
        have : j ≠ i := fun e => h1 (e ▸ hj)
        simp only [World.setSlot, update_ne _ _ this]

theorem finish_hide {H : List Nat} {o : Option (Nat × Option Sig)} (w : World) {t : Nat} (ht : ∀ s g, o = some (s, g) → t ≠ s) (g : Option Sig) {v : Option Nat}
    (hv : ∀ i, v = some i → i ∉ H) :
    ((hide H o w).setSig t g).release v = hide H o ((w.setSig t g).release v) ∧ ∀ i ∈ H, ((w.setSig t g).release v).heap i = w.heap i := by
  have hs : ∀ w : World, (hide H o w).setSig t g = hide H o (w.setSig t g) := by
    intro w
    cases o with
    | none => rfl
    | some p =>
      simp only [hide, World.setSig, World.mk.injEq, and_true, true_and]
      have := ht p.1 p.2 rfl
      funext j
      by_cases h1 : j = t
      · subst h1; simp [update, this]
      · by_cases h2 : j = p.1
        · subst h2; simp [update, h1]
        · simp [update, h1, h2]
  rw [hs]
  cases v with
  | none => exact ⟨rfl, fun _ _ => rfl⟩
  | some i =>
    have hi := hv i rfl
    constructor
    · simp only [World.release]
      by_cases hsh : i ∈ (w.setSig t g).shared
      · rw [if_pos (show i ∈ (hide H o (w.setSig t g)).shared from hsh), if_pos hsh]; rfl
      · rw [if_neg (show i ∉ (hide H o (w.setSig t g)).shared from hsh), if_neg hsh]
        simp only [hide, World.setSlot, World.mk.injEq, and_true]
        funext j
        by_cases hj : j = i
        · subst hj; simp
        · simp only [update_ne _ _ hj]
    · intro j hj
      have : j ≠ i := fun e => hi (e ▸ hj)
      simp only [World.release]
      split
      · rfl
      · simp only [World.setSlot, update_ne _ _ this]; rfl

/-- Disconnecting a slot that is not hidden does the same with and without what is hidden. -/
theorem disconnectSlot_hide {H : List Nat} {o : Option (Nat × Option Sig)} {w m : World} {slot : Slot} (ht : ∀ s g, o = some (s, g) → slot.signal ≠ s)
    (hH : ∀ g, w.sigs slot.signal = some g → ∀ (k i : Nat), g.slots[k]? = some (some i) → i ∉ H) (h : disconnectSlot slot (hide H o w) = .ok m) :
    ∃ w', disconnectSlot slot w = .ok w' ∧ m = hide H o w' ∧ ∀ i ∈ H, w'.heap i = w.heap i := by
  have hsig : (hide H o w).sig slot.signal = w.sig slot.signal := by simp only [World.sig, hide_sigs ht]
  simp only [disconnectSlot, hsig] at h ⊢
  cases hg : w.sigs slot.signal with
  | none => simp only [World.sig, hg] at h; cases h
  | some g =>
    simp only [sig_some hg, ok_bind] at h ⊢
    have hrd : ∀ k v, rd g.slots k = .ok v → ∀ i, v = some i → i ∉ H := by
      intro k v hk i hi
      subst hi
      simp only [rd] at hk
      cases hq : g.slots[k]? with
      | none => rw [hq] at hk; cases hk
      | some u => rw [hq] at hk; cases hk; exact hH g hg k i hq
    by_cases ha : slot.index < g.slots.length
    swap
    · simp [Cpp.assert, ha] at h
    simp only [Cpp.assert, ha, decide_true, if_true, ok_bind] at h ⊢
    split at h
    · next hc =>
      rw [if_pos hc]
      simp only [disconnectSimple] at h ⊢
      cases h1 : rd g.slots slot.index with
      | error e => rw [h1] at h; cases h
      | ok victim =>
        cases h2 : rd g.slots (g.slots.length - 1) with
        | error e => rw [h1, h2] at h; cases h
        | ok back =>
          simp only [h1, h2, ok_bind] at h ⊢
          cases h3 : (hide H o w).setIndex back slot.index with
          | error e => rw [h3] at h; cases h
          | ok m1 =>
            obtain ⟨w1, k1, k2, k3, k4⟩ := setIndex_hide h3
            rw [h3] at h
            simp only [ok_bind, k1] at h ⊢
            obtain ⟨f1, f2⟩ := finish_hide (H := H) (o := o) w1 ht (some ⟨(g.slots.set slot.index back).dropLast, g.fallback, g.iter⟩) (hrd _ _ h1)
            refine ⟨_, rfl, ?_, fun i hi => by rw [f2 i hi, k3 i hi]⟩
            rw [← f1, ← k2]
            exact (Except.ok.inj h).symm
    · next hc =>
      rw [if_neg hc]
      cases hi : g.iter with
      | none => rw [hi] at h; cases h
      | some i =>
        rw [hi] at h
        simp only [disconnectTricky] at h ⊢
        cases h1 : rd g.slots slot.index with
        | error e => rw [h1] at h; cases h
        | ok victim =>
          cases h2 : rd g.slots i with
          | error e => rw [h1, h2] at h; cases h
          | ok current =>
            simp only [h1, h2, ok_bind] at h ⊢
            cases h3 : (hide H o w).setIndex current slot.index with
            | error e => rw [h3] at h; cases h
            | ok m1 =>
              obtain ⟨w1, k1, k2, k3, k4⟩ := setIndex_hide h3
              rw [h3] at h
              simp only [ok_bind, k1] at h ⊢
              cases h5 : rd g.slots (g.slots.length - 1) with
              | error e => rw [h5] at h; cases h
              | ok back =>
                simp only [h5, ok_bind] at h ⊢
                rw [k2] at h
                cases h6 : (hide H o w1).setIndex back i with
                | error e => rw [h6] at h; cases h
                | ok m2 =>
                  obtain ⟨w2, l1, l2, l3, l4⟩ := setIndex_hide h6
                  rw [h6] at h
                  simp only [ok_bind, l1] at h ⊢
                  obtain ⟨f1, f2⟩ := finish_hide (H := H) (o := o) w2 ht (some ⟨((g.slots.set slot.index current).set i back).dropLast, g.fallback, iterDec g.iter⟩) (hrd _ _ h1)
                  refine ⟨_, rfl, ?_, fun j hj => by rw [f2 j hj, l3 j hj, k3 j hj]⟩
                  rw [← f1, ← l2]
                  exact (Except.ok.inj h).symm

/-! ## What is connected -/

/-- Disconnecting several slots. -/
def Abs.drop (a : Abs) (ids : List Nat) : Abs := ids.foldl Abs.disconnect a

theorem drop_append (a : Abs) (l l' : List Nat) : a.drop (l ++ l') = (a.drop l).drop l' := by simp [Abs.drop]

theorem slots_disconnect (a : Abs) (id s : Nat) : (a.disconnect id).slots s = (a.slots s).filter (· ≠ id) := by
  simp only [Abs.slots, Abs.disconnect]
  cases a.conn s <;> rfl

theorem mem_slots_drop (a : Abs) (ids : List Nat) (s j : Nat) : j ∈ (a.drop ids).slots s ↔ j ∈ a.slots s ∧ j ∉ ids := by
  induction ids generalizing a with
  | nil => simp [Abs.drop]
  | cons x xs ih =>
    rw [show a.drop (x :: xs) = (a.disconnect x).drop xs from rfl, ih, slots_disconnect]
    simp only [List.mem_filter, List.mem_cons, decide_eq_true_eq, not_or, and_assoc]

theorem connected_drop (a : Abs) (ids : List Nat) (j : Nat) : (a.drop ids).Connected j ↔ a.Connected j ∧ j ∉ ids := by
  simp only [Abs.Connected, mem_slots_drop]
  exact ⟨fun ⟨s, h1, h2⟩ => ⟨⟨s, h1⟩, h2⟩, fun ⟨⟨s, h1⟩, h2⟩ => ⟨s, h1, h2⟩⟩

theorem next_drop (a : Abs) (ids : List Nat) : (a.drop ids).next = a.next := by
  induction ids generalizing a with
  | nil => rfl
  | cons x xs ih => rw [show a.drop (x :: xs) = (a.disconnect x).drop xs from rfl, ih]; rfl

open Classical in
/-- The number of connected slots. -/
noncomputable def Abs.count (a : Abs) : Nat := ((Finset.range a.next).filter (fun i => a.Connected i)).card

theorem count_le (a : Abs) : a.count ≤ a.next := by
  classical
  have := Finset.card_filter_le (Finset.range a.next) (fun i => a.Connected i)
  simpa [Abs.count] using this

theorem count_drop_le (a : Abs) (ids : List Nat) : (a.drop ids).count ≤ a.count := by
  classical
  unfold Abs.count
  rw [next_drop]
  refine Finset.card_le_card (fun i hi => ?_)
  simp only [Finset.mem_filter] at hi ⊢
  exact ⟨hi.1, ((connected_drop a ids i).mp hi.2).1⟩

theorem count_disconnect_lt {a : Abs} {id : Nat} (h : a.Connected id) (hn : id < a.next) : (a.disconnect id).count < a.count := by
  classical
  have hd : a.disconnect id = a.drop [id] := rfl
  rw [hd]
  unfold Abs.count
  rw [next_drop]
  refine Finset.card_lt_card ⟨fun i hi => ?_, fun hsub => ?_⟩
  · simp only [Finset.mem_filter] at hi ⊢
    exact ⟨hi.1, ((connected_drop a _ i).mp hi.2).1⟩
  · have : id ∈ (Finset.range a.next).filter (fun i => (a.drop [id]).Connected i) := hsub (by simp [h, hn])
    simp only [Finset.mem_filter, connected_drop] at this
    exact this.2.2 (by simp)

theorem Falls.mono {owns : Nat → List Nat} {a a' : Abs} (h : ∀ i, a'.Connected i → a.Connected i) {id j : Nat} (hf : Falls owns a' id j) : Falls owns a id j := by
  induction hf with
  | self => exact .self
  | owned _ hc hm ih => exact .owned ih (h _ hc) hm

theorem Falls.trans {owns : Nat → List Nat} {a : Abs} {id i j : Nat} (h1 : Falls owns a id i) (h2 : Falls owns a i j) : Falls owns a id j := by
  induction h2 with
  | self => exact h1
  | owned _ hc hm ih => exact .owned ih hc hm

/-- A set of slots that contains `id` and, with each slot that is connected, those of the guards of its callback, contains all that is disconnected along with `id`. -/
theorem Falls.closed {owns : Nat → List Nat} {a : Abs} {ids : List Nat} (hcl : ∀ i ∈ ids, a.Connected i → ∀ j ∈ owns i, j ∈ ids) {id j : Nat} (hid : id ∈ ids)
    (h : Falls owns a id j) : j ∈ ids := by
  induction h with
  | self => exact hid
  | owned _ hc hm ih => exact hcl _ ih hc _ hm

theorem Reached.plain {w : World} {a : Abs} (h : Reached w a) (id : Nat) : ∃ w', disconnect (some id) w = .ok w' ∧ Reached w' (a.disconnect id) := by
  obtain ⟨w', h1, h2⟩ := reached_op h (o := .disconnect id) trivial (by intros; simp)
  exact ⟨w', h1, h2⟩

/-! ## Disconnecting -/

/-- What `disconnectO` does, `H` being hidden: the slots `ids` are disconnected. -/
structure Did (owns : Nat → List Nat) (H : List Nat) (o : Option (Nat × Option Sig)) (w : World) (a : Abs) (roots ids : List Nat) (w' : World) : Prop where
  reached : Reached (hide H o w') (a.drop ids)
  hidden : ∀ i ∈ H, w'.heap i = w.heap i
  falls : ∀ i ∈ ids, ∃ r ∈ roots, Falls owns a r i
  roots : ∀ r ∈ roots, r ∈ ids
  closed : ∀ i ∈ ids, a.Connected i → ∀ j ∈ owns i, j ∈ ids

theorem Did.nil {owns : Nat → List Nat} {H : List Nat} {o : Option (Nat × Option Sig)} {w : World} {a : Abs} (h : Reached (hide H o w) a) : Did owns H o w a [] [] w :=
  ⟨h, fun _ _ => rfl, by simp, by simp, by simp⟩

theorem Did.seq {owns : Nat → List Nat} {H : List Nat} {o : Option (Nat × Option Sig)} {w w1 w2 : World} {a : Abs} {r1 r2 ids1 ids2 : List Nat}
    (h1 : Did owns H o w a r1 ids1 w1) (h2 : Did owns H o w1 (a.drop ids1) r2 ids2 w2) : Did owns H o w a (r1 ++ r2) (ids1 ++ ids2) w2 := by
  refine ⟨by rw [drop_append]; exact h2.reached, fun i hi => by rw [h2.hidden i hi, h1.hidden i hi], ?_, ?_, ?_⟩
  · intro i hi
    rcases List.mem_append.mp hi with hi | hi
    · obtain ⟨r, k1, k2⟩ := h1.falls i hi
      exact ⟨r, List.mem_append_left _ k1, k2⟩
    · obtain ⟨r, k1, k2⟩ := h2.falls i hi
      exact ⟨r, List.mem_append_right _ k1, k2.mono (fun i hc => ((connected_drop a ids1 i).mp hc).1)⟩
  · intro r hr
    rcases List.mem_append.mp hr with hr | hr
    · exact List.mem_append_left _ (h1.roots r hr)
    · exact List.mem_append_right _ (h2.roots r hr)
  · intro i hi hc j hj
    by_cases h : i ∈ ids1
    · exact List.mem_append_left _ (h1.closed i h hc j hj)
    · have hi2 := (List.mem_append.mp hi).resolve_left h
      exact List.mem_append_right _ (h2.closed i hi2 ((connected_drop a ids1 i).mpr ⟨hc, h⟩) j hj)

theorem Did.seq_nil {owns : Nat → List Nat} {H : List Nat} {o : Option (Nat × Option Sig)} {w w1 w2 : World} {a : Abs} {r1 r2 ids1 ids2 : List Nat}
    (h1 : Did owns H o w a r1 ids1 w1) (h2 : Did owns [] o w1 (a.drop ids1) r2 ids2 w2) : Did owns [] o w a (r1 ++ r2) (ids1 ++ ids2) w2 := by
  refine ⟨by rw [drop_append]; exact h2.reached, by simp, ?_, ?_, ?_⟩
  · intro i hi
    rcases List.mem_append.mp hi with hi | hi
    · obtain ⟨r, k1, k2⟩ := h1.falls i hi
      exact ⟨r, List.mem_append_left _ k1, k2⟩
    · obtain ⟨r, k1, k2⟩ := h2.falls i hi
      exact ⟨r, List.mem_append_right _ k1, k2.mono (fun i hc => ((connected_drop a ids1 i).mp hc).1)⟩
  · intro r hr
    rcases List.mem_append.mp hr with hr | hr
    · exact List.mem_append_left _ (h1.roots r hr)
    · exact List.mem_append_right _ (h2.roots r hr)
  · intro i hi hc j hj
    by_cases h : i ∈ ids1
    · exact List.mem_append_left _ (h1.closed i h hc j hj)
    · have hi2 := (List.mem_append.mp hi).resolve_left h
      exact List.mem_append_right _ (h2.closed i hi2 ((connected_drop a ids1 i).mpr ⟨hc, h⟩) j hj)

/-- Destroying guards one after the other. -/
theorem fold_did {owns : Nat → List Nat} {H : List Nat} {o : Option (Nat × Option Sig)} {fuel : Nat}
    (ih : ∀ (w : World) (a : Abs) (id : Nat), Reached (hide H o w) a → (∀ s g, o = some (s, g) → a.slots s = []) → (∀ j, Falls owns a id j → j ∉ H) → a.count < fuel →
      ∃ ids w', disconnectO owns fuel id w = .ok w' ∧ Did owns H o w a [id] ids w') :
    ∀ (gs : List Nat) (w : World) (a : Abs), Reached (hide H o w) a → (∀ s g, o = some (s, g) → a.slots s = []) → (∀ r ∈ gs, ∀ j, Falls owns a r j → j ∉ H) → a.count < fuel →
      ∃ ids w', gs.foldlM (fun w g => disconnectO owns fuel g w) w = .ok w' ∧ Did owns H o w a gs ids w' := by
  intro gs
  induction gs with
  | nil => intro w a h _ _ _; exact ⟨[], w, rfl, .nil h⟩
  | cons g gs ihg =>
    intro w a h hs hf hc
    obtain ⟨ids1, w1, k1, k2⟩ := ih w a g h hs (hf g (List.mem_cons_self ..)) hc
    have hsub : ∀ i, (a.drop ids1).Connected i → a.Connected i := fun i hi => ((connected_drop a ids1 i).mp hi).1
    obtain ⟨ids2, w2, k3, k4⟩ := ihg w1 (a.drop ids1) k2.reached
      (fun s g' e => by
        apply List.eq_nil_iff_forall_not_mem.mpr
        intro j hj
        have := ((mem_slots_drop a ids1 s j).mp hj).1
        rw [hs s g' e] at this; cases this)
      (fun r hr j hj => hf r (List.mem_cons_of_mem _ hr) j (hj.mono hsub)) (Nat.lt_of_le_of_lt (count_drop_le a ids1) hc)
    refine ⟨ids1 ++ ids2, w2, ?_, k2.seq k4⟩
    simp only [List.foldlM_cons, k1, ok_bind]
    exact k3

theorem disconnectO_did (owns : Nat → List Nat) (H : List Nat) (o : Option (Nat × Option Sig)) :
    ∀ (fuel : Nat) (w : World) (a : Abs) (id : Nat), Reached (hide H o w) a → (∀ s g, o = some (s, g) → a.slots s = []) → (∀ j, Falls owns a id j → j ∉ H) → a.count < fuel →
      ∃ ids w', disconnectO owns fuel id w = .ok w' ∧ Did owns H o w a [id] ids w' := by
  intro fuel
  induction fuel with
  | zero => intro w a id _ _ _ h; omega
  | succ fuel ih =>
    intro w a id h hs hf hc
    have hr := reached_rel h
    have hid : id ∉ H := hf id .self
    have hheap : (hide H o w).heap id = w.heap id := by simp [hide, hid]
    cases hx : w.heap id with
    | none =>
      rw [hx] at hheap
      have hnc : ¬ a.Connected id := by
        rw [hr.connected]; simp [isConnected, hheap]
      refine ⟨[id], w, by simp only [disconnectO, hx]; rfl, ?_, fun _ _ => rfl, ?_, by simp, ?_⟩
      · rw [show a.drop [id] = a.disconnect id from rfl, hr.disconnect_none hheap]; exact h
      · intro i hi
        rw [List.mem_singleton.mp hi]
        exact ⟨id, List.mem_singleton.mpr rfl, .self⟩
      · intro i hi hci
        rw [List.mem_singleton.mp hi] at hci
        exact absurd hci hnc
    | some x =>
      rw [hx] at hheap
      obtain ⟨m, p1, p2⟩ := h.plain id
      simp only [Signal.disconnect, hheap] at p1
      have hconn : a.Connected id := by rw [hr.connected]; simp [isConnected, hheap]
      have ht : ∀ s g, o = some (s, g) → x.signal ≠ s := by
        intro s g e es
        have := (hr.mem_slots x.signal id).mpr ⟨x, hheap, rfl⟩
        rw [es, hs s g e] at this; cases this
      obtain ⟨w1, q1, q2, q3⟩ := disconnectSlot_hide (w := w) ht (by
        intro g hg k i hk
        have := hr.fwd x.signal g k i (by rw [hide_sigs ht]; exact hg) hk
        exact (hide_heap this).1) p1
      rw [q2] at p2
      have hr1 := reached_rel p2
      have hdead : w1.heap id = none := by
        have : ¬ (a.disconnect id).Connected id := by
          rw [show a.disconnect id = a.drop [id] from rfl, connected_drop]; simp
        rw [hr1.connected] at this
        simpa [isConnected, hide, hid] using this
      have hlt : id < a.next := by rw [hr.next]; exact hr.fresh id x hheap
      have hsub : ∀ i, (a.disconnect id).Connected i → a.Connected i := fun i hi => ((connected_drop a [id] i).mp hi).1
      obtain ⟨ids, w2, k1, k2⟩ := fold_did ih (owns id) w1 (a.disconnect id) p2
        (fun s g e => by rw [slots_disconnect, hs s g e]; rfl)
        (fun r hr' j hj => hf j ((Falls.owned .self hconn hr').trans (hj.mono hsub)))
        (by have := count_disconnect_lt hconn hlt; omega)
      refine ⟨id :: ids, w2, ?_, ?_, fun i hi => by rw [k2.hidden i hi, q3 i hi], ?_, ?_, ?_⟩
      · simp only [disconnectO, hx, q1, ok_bind, hdead, k1]
      · exact k2.reached
      · intro i hi
        refine ⟨id, List.mem_singleton.mpr rfl, ?_⟩
        rcases List.mem_cons.mp hi with e | hi
        · rw [e]; exact .self
        · obtain ⟨r, m1, m2⟩ := k2.falls i hi
          exact (Falls.owned .self hconn m1).trans (m2.mono hsub)
      · intro r hr'; rw [List.mem_singleton.mp hr']; exact List.mem_cons_self ..
      · intro i hi hci j hj
        by_cases e : i = id
        · subst e; exact List.mem_cons_of_mem _ (k2.roots j hj)
        · have hi' := (List.mem_cons.mp hi).resolve_left e
          exact List.mem_cons_of_mem _ (k2.closed i hi' ((connected_drop a [id] i).mpr ⟨hci, by simpa using e⟩) j hj)

/-- Releasing the slots of a signal one after the other, if the guards of none of them disconnect a later one. -/
theorem releaseO_did {owns : Nat → List Nat} {s : Nat} {g : Option Sig} {fuel : Nat} : ∀ (rest : List Nat) (w : World) (a : Abs), Reached (hide rest (some (s, g)) w) a →
    a.slots s = [] → rest.Pairwise (fun p q => ∀ r ∈ owns p, ∀ j, Falls owns a r j → j ≠ q) → a.count < fuel →
    ∃ ids w', releaseO owns fuel (rest.map some) w = .ok w' ∧ Did owns [] (some (s, g)) w a (rest.flatMap owns) ids w' := by
  intro rest
  induction rest with
  | nil => intro w a h _ _ _; exact ⟨[], w, rfl, .nil h⟩
  | cons p ps ih =>
    intro w a h hs hp hc
    obtain ⟨hp1, hp2⟩ := List.pairwise_cons.mp hp
    have hsh : w.shared = [] := (reached_rel h).leak
    have hrel : w.release (some p) = w.setSlot p none := by simp [World.release, hsh]
    have hhide : hide ps (some (s, g)) (w.setSlot p none) = hide (p :: ps) (some (s, g)) w := by
      simp only [hide, World.setSlot, World.mk.injEq, and_true]
      funext j
      by_cases hj : j = p
      · subst hj; simp
      · simp [update_ne _ _ hj, hj]
    rw [← hhide] at h
    have hs' : ∀ t (g' : Option Sig), some (s, g) = some (t, g') → a.slots t = [] := by
      intro t g' e
      rw [Option.some.injEq, Prod.mk.injEq] at e
      rw [← e.1]; exact hs
    obtain ⟨ids1, w1, k1, k2⟩ := fold_did (disconnectO_did owns ps (some (s, g)) fuel) (owns p) (w.setSlot p none) a h hs'
      (fun r hr j hj hm => hp1 j hm r hr j hj rfl) hc
    have hsub : ∀ i, (a.drop ids1).Connected i → a.Connected i := fun i hi => ((connected_drop a ids1 i).mp hi).1
    obtain ⟨ids2, w2, k3, k4⟩ := ih w1 (a.drop ids1) k2.reached
      (by
        apply List.eq_nil_iff_forall_not_mem.mpr
        intro j hj
        have := ((mem_slots_drop a ids1 s j).mp hj).1
        rw [hs] at this; cases this)
      (hp2.imp (fun hq r hr j hj => hq r hr j (hj.mono hsub)))
      (Nat.lt_of_le_of_lt (count_drop_le a ids1) hc)
    have hseq := k2.seq_nil k4
    refine ⟨ids1 ++ ids2, w2, ?_, ⟨hseq.reached, by simp, hseq.falls, hseq.roots, hseq.closed⟩⟩
    have hdead : (w.setSlot p none).heap p = none := by simp [World.setSlot]
    simp only [List.map_cons, releaseO, hrel, hdead, k1, ok_bind]
    exact k3

end Verif.Signal
