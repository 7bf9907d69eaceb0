import Verif.Signal.LemmasOwn

/-! # Signals: callbacks that own guards (C118) -/

namespace Verif.Signal
open Verif.Cpp

/-- `a'` has the slots of `a` without those with the property `P`, and the same callbacks. -/
structure Without (a a' : Abs) (P : Nat → Prop) : Prop where
  slots : ∀ t j, j ∈ a'.slots t ↔ j ∈ a.slots t ∧ ¬ P j
  cb : a'.cb = a.cb

theorem cb_drop (a : Abs) (ids : List Nat) : (a.drop ids).cb = a.cb := by
  induction ids generalizing a with
  | nil => rfl
  | cons x xs ih => rw [show a.drop (x :: xs) = (a.disconnect x).drop xs from rfl, ih]; rfl

theorem live_drop (a : Abs) (ids : List Nat) {s : Nat} (h : a.Live s) : (a.drop ids).Live s := by
  induction ids generalizing a with
  | nil => exact h
  | cons x xs ih => exact ih (a.disconnect x) (by obtain ⟨l, hl⟩ := h; exact ⟨_, by simp only [Abs.disconnect, hl]; rfl⟩)

theorem absent_drop (a : Abs) (ids : List Nat) {s : Nat} (h : a.conn s = .absent) : (a.drop ids).conn s = .absent := by
  induction ids generalizing a with
  | nil => exact h
  | cons x xs ih => exact ih (a.disconnect x) (by simp only [Abs.disconnect, h]; rfl)

/-- Disconnecting a slot, or destroying its guard, disconnects exactly the slots whose guards die with it, and leaves all signals usable. -/
theorem C118_disconnect {w : World} {a : Abs} (h : Reached w a) (owns : Nat → List Nat) (id : Nat) {fuel : Nat} (hf : a.next < fuel) :
    ∃ w' a', disconnectO owns fuel id w = .ok w' ∧ Reached w' a' ∧ Without a a' (Falls owns a id) ∧ ∀ t, a.Live t → a'.Live t := by
  obtain ⟨ids, w', k1, k2⟩ := disconnectO_did owns [] none fuel w a id (by rw [hide_nil]; exact h) (by simp) (by simp)
    (Nat.lt_of_le_of_lt (count_le a) hf)
  have hr := k2.reached
  rw [hide_nil] at hr
  refine ⟨w', a.drop ids, k1, hr, ⟨fun t j => ?_, cb_drop a ids⟩, fun t ht => live_drop a ids ht⟩
  rw [mem_slots_drop]
  refine and_congr_right (fun _ => not_congr ⟨fun hj => ?_, fun hj => ?_⟩)
  · obtain ⟨r, m1, m2⟩ := k2.falls j hj
    rw [List.mem_singleton.mp m1] at m2; exact m2
  · exact hj.closed k2.closed (k2.roots id (List.mem_singleton.mpr rfl))

/-- The common part of `Clear` and of the destructor. -/
theorem cleared {w : World} {a a0 : Abs} (h : Reached w a) {s : Nat} (hslots : ∀ t j, j ∈ a0.slots t ↔ j ∈ a.slots t ∧ t ≠ s)
    (hs : a.Live s) {owns : Nat → List Nat} {o : Option (Nat × Option Sig)} {w0 w' : World} {ids roots : List Nat} (hroots : ∀ r, r ∈ roots ↔ ∃ i ∈ a.slots s, r ∈ owns i)
    (hcb : a0.cb = a.cb) (hd : Did owns [] o w0 a0 roots ids w') : Without a (a0.drop ids) (fun j => ∃ i ∈ a.slots s, Falls owns a i j) := by
  have hr := reached_rel h
  have hone : ∀ t u j, j ∈ a.slots t → j ∈ a.slots u → t = u := by
    intro t u j h1 h2
    obtain ⟨x, x1, x2⟩ := (hr.mem_slots t j).mp h1
    obtain ⟨y, y1, y2⟩ := (hr.mem_slots u j).mp h2
    rw [x1] at y1; cases y1
    rw [← x2, y2]
  have hsub : ∀ i, a0.Connected i → a.Connected i := fun i ⟨t, ht⟩ => ⟨t, ((hslots t i).mp ht).1⟩
  refine ⟨fun t j => ?_, by rw [cb_drop, hcb]⟩
  rw [mem_slots_drop, hslots, and_assoc]
  refine and_congr_right (fun hj => ⟨fun ⟨h1, h2⟩ => ?_, fun h3 => ⟨?_, ?_⟩⟩)
  · rintro ⟨i, hi, hfall⟩
    have := hfall.closed (ids := ids ++ a.slots s) (by
      intro i' hi' hc' j' hj'
      by_cases hm : i' ∈ a.slots s
      · exact List.mem_append_left _ (hd.roots j' ((hroots j').mpr ⟨i', hm, hj'⟩))
      · have h4 := (List.mem_append.mp hi').resolve_right hm
        refine List.mem_append_left _ (hd.closed i' h4 ?_ j' hj')
        obtain ⟨u, hu⟩ := hc'
        exact ⟨u, (hslots u i').mpr ⟨hu, fun e => hm (e ▸ hu)⟩⟩) (List.mem_append_right _ hi)
    rcases List.mem_append.mp this with h5 | h5
    · exact h2 h5
    · exact h1 (hone t s j hj h5)
  · intro e
    subst e
    exact h3 ⟨j, hj, .self⟩
  · intro hin
    obtain ⟨r, m1, m2⟩ := hd.falls j hin
    obtain ⟨i, n1, n2⟩ := (hroots r).mp m1
    exact h3 ⟨i, n1, (Falls.owned .self ⟨s, n1⟩ n2).trans (m2.mono hsub)⟩

/-- What both start from. -/
theorem start {w : World} {a : Abs} (h : Reached w a) {s : Nat} (hs : a.Live s) {owns : Nat → List Nat}
    (hself : ∀ i ∈ a.slots s, ∀ j ∈ a.slots s, Falls owns a i j → j = i) :
    ∃ (ids : List Nat) (it : Option Nat), w.sigs s = some ⟨ids.map some, a.grown s, it⟩ ∧ ids.Perm (a.slots s) ∧ ids.Nodup ∧ w.shared = [] ∧
      ∀ a0 : Abs, (∀ i, a0.Connected i → a.Connected i) → ids.Pairwise (fun p q => ∀ r ∈ owns p, ∀ j, Falls owns a0 r j → j ≠ q) := by
  obtain ⟨l, hl⟩ := hs
  have hr := reached_rel h
  obtain ⟨ids, it, hg, hp, _⟩ := hr.live hl
  have hsl : a.slots s = l := by simp [Abs.slots, hl]
  rw [← hsl] at hp
  have hn := hr.ids_nodup hg
  refine ⟨ids, it, hg, hp, hn, hr.leak, fun a0 hsub => ?_⟩
  refine List.Pairwise.imp_of_mem (fun {p q} hpm hqm hne => ?_) hn
  intro r hrm j hj e
  subst e
  have hps := hp.mem_iff.mp hpm
  exact hne (hself p hps j (hp.mem_iff.mp hqm) ((Falls.owned .self ⟨s, hps⟩ hrm).trans (hj.mono hsub))).symm

/-- `Clear`, if the guards of a callback of the signal disconnect no other slot of this signal (they may disconnect their own): exactly the slots of the signal, and those whose guards
die with them, are disconnected, and all signals stay usable. -/
theorem C118_clear_partial {w : World} {a : Abs} (h : Reached w a) {owns : Nat → List Nat} {s : Nat} (hs : a.Live s)
    (hself : ∀ i ∈ a.slots s, ∀ j ∈ a.slots s, Falls owns a i j → j = i) {fuel : Nat} (hf : a.next < fuel) :
    ∃ w' a', clearO owns fuel s w = .ok w' ∧ Reached w' a' ∧ Without a a' (fun j => ∃ i ∈ a.slots s, Falls owns a i j) ∧ ∀ t, a.Live t → a'.Live t := by
  obtain ⟨ids, it, hg, hp, hn, hsh, hpw⟩ := start h hs hself
  have hs' := hs
  obtain ⟨l, hl⟩ := hs'
  obtain ⟨m, p1, p2⟩ := reached_op h (o := .clear s) (by show a.conn s ≠ .absent; rw [hl]; simp) (by intros; simp)
  have hm : m = hide ids (some (s, some ⟨[], a.grown s, some 0⟩)) (w.setSig s none) := by
    simp only [Op.run, Signal.clear, sig_some hg, ok_bind] at p1
    rw [releaseAll_ids hsh] at p1
    rw [← Except.ok.inj p1]
    simp only [hide, World.setSig, World.mk.injEq, and_true, true_and]
    funext j
    by_cases hj : j = s
    · subst hj; simp
    · simp [update_ne _ _ hj]
  rw [hm] at p2
  have hslots : ∀ t j, j ∈ (a.clear s).slots t ↔ j ∈ a.slots t ∧ t ≠ s := by
    intro t j
    by_cases ht : t = s
    · subst ht; simp [Abs.slots, Abs.clear]
    · simp [Abs.slots, Abs.clear, update_ne _ _ ht, ht]
  have hsub : ∀ i, (a.clear s).Connected i → a.Connected i := fun i ⟨t, ht⟩ => ⟨t, ((hslots t i).mp ht).1⟩
  obtain ⟨ids', w', k1, k2⟩ := releaseO_did (fuel := fuel) ids (w.setSig s none) (a.clear s) p2 (by simp [Abs.slots, Abs.clear]) (hpw _ hsub)
    (Nat.lt_of_le_of_lt (count_le _) hf)
  refine ⟨w'.setSig s (some ⟨[], a.grown s, some 0⟩), (a.clear s).drop ids', ?_, ?_, ?_, ?_⟩
  · simp only [clearO, sig_some hg, ok_bind, k1]; rfl
  · have := k2.reached
    simpa [hide, World.setSig] using this
  · refine cleared h hslots hs (fun r => ?_) rfl k2
    simp only [List.mem_flatMap]
    exact ⟨fun ⟨i, h1, h2⟩ => ⟨i, hp.mem_iff.mp h1, h2⟩, fun ⟨i, h1, h2⟩ => ⟨i, hp.mem_iff.mpr h1, h2⟩⟩
  · intro t ht
    refine live_drop _ _ ?_
    by_cases e : t = s
    · subst e; exact ⟨[], by simp [Abs.clear]⟩
    · obtain ⟨l', hl'⟩ := ht; exact ⟨l', by simp [Abs.clear, update_ne _ _ e, hl']⟩

/-- The destructor of a signal, under the same condition. -/
theorem C118_destroy_partial {w : World} {a : Abs} (h : Reached w a) {owns : Nat → List Nat} {s : Nat} (hs : a.Live s)
    (hself : ∀ i ∈ a.slots s, ∀ j ∈ a.slots s, Falls owns a i j → j = i) {fuel : Nat} (hf : a.next < fuel) :
    ∃ w' a', destroySignalO owns fuel s w = .ok w' ∧ Reached w' a' ∧ Without a a' (fun j => ∃ i ∈ a.slots s, Falls owns a i j) ∧ a'.conn s = .absent ∧
      ∀ t, t ≠ s → a.Live t → a'.Live t := by
  obtain ⟨ids, it, hg, hp, hn, hsh, hpw⟩ := start h hs hself
  have hs' := hs
  obtain ⟨l, hl⟩ := hs'
  obtain ⟨m, p1, p2⟩ := reached_op h (o := .destroy s) (by show a.conn s ≠ .absent; rw [hl]; simp) (by intros; simp)
  have hm : m = hide ids (some (s, none)) (w.setSig s none) := by
    simp only [Op.run, Signal.destroySignal, sig_some hg, ok_bind] at p1
    rw [releaseAll_ids hsh] at p1
    rw [← Except.ok.inj p1]
    simp only [hide, World.setSig, World.mk.injEq, and_true, true_and]
    funext j
    by_cases hj : j = s
    · subst hj; simp
    · simp [update_ne _ _ hj]
  rw [hm] at p2
  have hslots : ∀ t j, j ∈ (a.destroy s).slots t ↔ j ∈ a.slots t ∧ t ≠ s := by
    intro t j
    by_cases ht : t = s
    · subst ht; simp [Abs.slots, Abs.destroy]
    · simp [Abs.slots, Abs.destroy, update_ne _ _ ht, ht]
  have hsub : ∀ i, (a.destroy s).Connected i → a.Connected i := fun i ⟨t, ht⟩ => ⟨t, ((hslots t i).mp ht).1⟩
  obtain ⟨ids', w', k1, k2⟩ := releaseO_did (fuel := fuel) ids (w.setSig s none) (a.destroy s) p2 (by simp [Abs.slots, Abs.destroy]) (hpw _ hsub)
    (Nat.lt_of_le_of_lt (count_le _) hf)
  refine ⟨w'.setSig s none, (a.destroy s).drop ids', ?_, ?_, ?_, ?_, ?_⟩
  · simp only [destroySignalO, sig_some hg, ok_bind, k1]; rfl
  · have := k2.reached
    simpa [hide, World.setSig] using this
  · refine cleared h hslots hs (fun r => ?_) rfl k2
    simp only [List.mem_flatMap]
    exact ⟨fun ⟨i, h1, h2⟩ => ⟨i, hp.mem_iff.mp h1, h2⟩, fun ⟨i, h1, h2⟩ => ⟨i, hp.mem_iff.mpr h1, h2⟩⟩
  · exact absent_drop _ _ (by simp [Abs.destroy])
  · intro t e ht
    refine live_drop _ _ ?_
    obtain ⟨l', hl'⟩ := ht; exact ⟨l', by simp [Abs.destroy, update_ne _ _ e, hl']⟩

/-- Otherwise: each signal with two slots has two of them such that, if the callback of the one owns a guard of the other, `Clear` and the destructor are undefined. -/
theorem C118_clear_violated {w : World} {a : Abs} (h : Reached w a) {s : Nat} {l : List Nat} (hs : a.conn s = .live l) (hl : 2 ≤ l.length) :
    ∃ p ∈ l, ∃ q ∈ l, p ≠ q ∧ ∀ (owns : Nat → List Nat) (rest : List Nat), owns p = q :: rest → ∀ fuel, clearO owns (fuel + 1) s w = .error .ub ∧
      destroySignalO owns (fuel + 1) s w = .error .ub := by
  have hr := reached_rel h
  obtain ⟨ids, it, hg, hp, _⟩ := hr.live hs
  have hlen := hp.length_eq
  have hn := hr.ids_nodup hg
  match ids, hg, hp, hlen, hn with
  | [], _, _, hlen, _ => simp at hlen; omega
  | [_], _, _, hlen, _ => simp at hlen; omega
  | p :: q :: ids, hg, hp, _, hn =>
    have hpq : p ≠ q := by
      intro e
      subst e
      simp at hn
    have hheap := hr.fwd s _ 1 q hg rfl
    refine ⟨p, hp.mem_iff.mp (by simp), q, hp.mem_iff.mp (by simp), hpq, fun owns rest ho fuel => ?_⟩
    have key : releaseO owns (fuel + 1) ((p :: q :: ids).map some) (w.setSig s none) = .error .ub := by
      simp only [List.map_cons, releaseO]
      have hrel : (w.setSig s none).release (some p) = (w.setSig s none).setSlot p none := by
        simp [World.release, World.setSig, hr.leak]
      have hdead : ((w.setSig s none).setSlot p none).heap p = none := by simp [World.setSlot]
      have hq : ((w.setSig s none).setSlot p none).heap q = some ⟨a.cb q, s, 1⟩ := by
        simp only [World.setSlot, update_ne _ _ (Ne.symm hpq)]; exact hheap
      have hd : disconnectO owns (fuel + 1) q ((w.setSig s none).setSlot p none) = .error .ub := by
        have hsig : ((w.setSig s none).setSlot p none).sig s = .error .ub := by simp [World.sig, World.setSlot, World.setSig]
        simp only [disconnectO, hq, disconnectSlot, hsig]
        rfl
      simp only [hrel, hdead, ho, List.foldlM_cons, hd]
      rfl
    exact ⟨by simp only [clearO, sig_some hg, ok_bind, key]; rfl, by simp only [destroySignalO, sig_some hg, ok_bind, key]; rfl⟩

/-! ## Examples: signal 7 with the slots 0, 1, 2 -/

/-- The callback of slot 0 owns guards of itself and of slot 2, the callback of slot 2 one of slot 0. -/
def ring : Nat → List Nat := fun i => if i = 0 then [0, 2] else if i = 2 then [0] else []

/-- Disconnecting slot 2 disconnects slot 0 as well, and not slot 1. -/
example : ∃ w a w' a', Reached w a ∧ a.Connected 2 ∧ disconnectO ring 4 2 w = .ok w' ∧ Reached w' a' ∧ ¬ a'.Connected 0 ∧ a'.Connected 1 ∧ ¬ a'.Connected 2 := by
  obtain ⟨w, a, h, h1, _, _, _, _, _, hn⟩ := example_reached
  obtain ⟨w', a', k1, k2, k3, _⟩ := C118_disconnect h ring 2 (fuel := 4) (by omega)
  have hc : a.Connected 2 := ⟨7, by simp [Abs.slots, h1]⟩
  refine ⟨w, a, w', a', h, hc, k1, k2, ?_, ⟨7, (k3.slots 7 1).mpr ⟨by simp [Abs.slots, h1], ?_⟩⟩, ?_⟩
  · rintro ⟨t, ht⟩
    exact ((k3.slots t 0).mp ht).2 (.owned .self hc (by simp [ring]))
  · intro hf
    have := hf.closed (ids := [2, 0]) (fun i hi _ => by clear * - hi; revert i; decide) (by simp)
    simp at this
  · rintro ⟨t, ht⟩
    exact ((k3.slots t 2).mp ht).2 .self

/-- A callback that owns its own guard: `Clear` is defined. -/
example : ∃ w a w' a', Reached w a ∧ clearO (fun i => [i]) 4 7 w = .ok w' ∧ Reached w' a' ∧ a'.slots 7 = [] := by
  obtain ⟨w, a, h, h1, _, _, _, _, _, hn⟩ := example_reached
  obtain ⟨w', a', k1, k2, k3, _⟩ := C118_clear_partial h (owns := fun i => [i]) (s := 7) ⟨_, h1⟩
    (fun i _ j _ hf => by simpa using hf.closed (ids := [i]) (by simp) (by simp)) (fuel := 4) (by omega)
  refine ⟨w, a, w', a', h, k1, k2, List.eq_nil_iff_forall_not_mem.mpr (fun j hj => ?_)⟩
  obtain ⟨h2, h3⟩ := (k3.slots 7 j).mp hj
  exact h3 ⟨j, h2, .self⟩

example : ∃ w a p q, Reached w a ∧ p ≠ q ∧ clearO (fun i => if i = p then [q] else []) 4 7 w = .error .ub := by
  obtain ⟨w, a, h, h1, _⟩ := example_reached
  obtain ⟨p, _, q, _, hpq, k⟩ := C118_clear_violated h h1 (by simp)
  exact ⟨w, a, p, q, h, hpq, (k _ [] (by simp) 3).1⟩

end Verif.Signal
