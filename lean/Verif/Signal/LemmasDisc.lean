import Verif.Signal.Lemmas

/-! # Signals: `Disconnect` and moves -/

namespace Verif.Signal
open Verif.Cpp

theorem Rel.owner {w : World} {a : Abs} (h : Rel w a) {id : Nat} {x : Slot} (hx : w.heap id = some x) :
    ∃ (l ids : List Nat) (it : Option Nat), a.conn x.signal = .live l ∧ w.sigs x.signal = some ⟨ids.map some, a.grown x.signal, it⟩ ∧ ids.Perm l ∧
      ids[x.index]? = some id ∧ x.callback = a.cb id := by
  have hm := (h.mem_slots x.signal id).mpr ⟨x, hx, rfl⟩
  cases hc : a.conn x.signal with
  | absent => simp [Abs.slots, hc] at hm
  | hollow => simp [Abs.slots, hc] at hm
  | live l =>
    obtain ⟨ids, it, hg, hp, _⟩ := h.live hc
    obtain ⟨g, hg', hk⟩ := h.bwd id x hx
    rw [hg] at hg'; cases hg'
    have hf := h.fwd _ _ _ _ hg hk
    rw [hx] at hf
    have : x.callback = a.cb id := by cases x; simp at hf; exact hf
    exact ⟨l, ids, it, rfl, hg, hp, getElem?_map_some.mp hk, this⟩

theorem Rel.disconnect_none {w : World} {a : Abs} (h : Rel w a) {id : Nat} (hx : w.heap id = none) : a.disconnect id = a := by
  have : (a.disconnect id).conn = a.conn := by
    funext s
    simp only [Abs.disconnect]
    cases hc : a.conn s with
    | absent => rfl
    | hollow => rfl
    | live l =>
      simp only [Status.map]
      rw [filter_notin]
      intro hm
      obtain ⟨x, hx', _⟩ := (h.mem_slots s id).mp (by simp [Abs.slots, hc, hm])
      rw [hx] at hx'; cases hx'
  cases a
  simp only [Abs.disconnect] at this ⊢
  rw [this]

theorem rd_map_some {l : List Nat} {k x : Nat} (h : l[k]? = some x) : rd (l.map some) k = .ok (some x) := by
  simp [rd, h]

theorem map_set_dropLast (l : List Nat) (k b : Nat) : ((l.map some).set k (some b)).dropLast = ((l.set k b).dropLast).map some := by
  simp [List.map_dropLast, List.map_set]

theorem getElem?_dropLast' {l : List Nat} {p j : Nat} (h : l.dropLast[p]? = some j) : p < l.length - 1 ∧ l[p]? = some j := by
  have hp : p < l.dropLast.length := by by_contra hc; rw [List.getElem?_eq_none (by omega)] at h; cases h
  simp only [List.length_dropLast] at hp
  refine ⟨hp, ?_⟩
  rw [List.getElem?_eq_getElem (by simp; omega), List.getElem_dropLast] at h
  rw [List.getElem?_eq_getElem (by omega)]; exact h

theorem nodup_idx {l : List Nat} (hn : l.Nodup) {p q x : Nat} (hp : l[p]? = some x) (hq : l[q]? = some x) : p = q := by
  have hpl : p < l.length := by by_contra hc; rw [List.getElem?_eq_none (by omega)] at hp; cases hp
  have hql : q < l.length := by by_contra hc; rw [List.getElem?_eq_none (by omega)] at hq; cases hq
  rw [List.getElem?_eq_getElem hpl] at hp
  rw [List.getElem?_eq_getElem hql] at hq
  exact (List.Nodup.getElem_inj_iff hn).mp (by rw [Option.some.inj hp, Option.some.inj hq])

/-- The effect of `Disconnect` on lists: what was before (after) the iterator remains so. -/
structure Removed (id : Nat) (ids : List Nat) (it : Option Nat) (ids' : List Nat) (it' : Option Nat) : Prop where
  before : (ids'.take (cursor it')).Perm ((ids.take (cursor it)).filter (· ≠ id))
  after : (ids'.drop (cursor it')).Perm ((ids.drop (cursor it)).filter (· ≠ id))

theorem Removed.perm {id : Nat} {ids : List Nat} {it : Option Nat} {ids' : List Nat} {it' : Option Nat} (h : Removed id ids it ids' it') :
    ids'.Perm (ids.filter (· ≠ id)) := split_perm h.before h.after

theorem Removed.none {id : Nat} {ids : List Nat} (it : Option Nat) (h : id ∉ ids) : Removed id ids it ids it := by
  constructor
  · rw [filter_notin (fun hm => h (List.mem_of_mem_take hm))]
  · rw [filter_notin (fun hm => h (List.mem_of_mem_drop hm))]

/-- The heap after `Disconnect`. -/
theorem Rel.removed {w w' : World} {a : Abs} (h : Rel w a) {id : Nat} {x : Slot} (hx : w.heap id = some x) {ids ids' : List Nat} {it it' : Option Nat}
    (hg : w.sigs x.signal = some ⟨ids.map some, a.grown x.signal, it⟩) (hr : Removed id ids it ids' it')
    (hs : w'.sigs = update w.sigs x.signal (some ⟨ids'.map some, a.grown x.signal, it'⟩))
    (hin : ∀ p j, ids'[p]? = some j → w'.heap j = some ⟨a.cb j, x.signal, p⟩) (hid : w'.heap id = none)
    (hother : ∀ j, j ∉ ids → w'.heap j = w.heap j) (hnext : w'.next = w.next) (hleak : w'.shared = []) : Rel w' (a.disconnect id) := by
  have hmem := h.heap_iff hg
  have hm' : ∀ j, j ∈ ids' ↔ j ∈ ids ∧ j ≠ id := by intro j; rw [hr.perm.mem_iff]; simp
  cases hc : a.conn x.signal with
  | absent => have := h.sig x.signal; rw [hc, hg] at this; cases this
  | hollow => have := (h.mem_slots x.signal id).mpr ⟨x, hx, rfl⟩; simp [Abs.slots, hc] at this
  | live l =>
    obtain ⟨ids0, it0, hg0, hp0, hlen⟩ := h.live hc
    rw [hg] at hg0
    have e0 : ids0 = ids := by
      simp only [Option.some.injEq, Sig.mk.injEq] at hg0
      exact ((List.map_injective_iff.mpr (fun _ _ => Option.some.inj)) hg0.1).symm
    subst e0
    refine h.modify (s := x.signal) (ids := ids') (it := it') (l := l.filter (· ≠ id)) ?_ ?_ ?_ ?_ ?_ ?_ ?_ ?_ ?_ ?_ ?_ ?_
    · exact hs
    · exact hin
    · intro j hj y hy
      by_cases hjid : j = id
      · subst hjid; rw [hid] at hy; cases hy
      · have hj0 : j ∉ ids0 := fun hm => hj ((hm' j).mpr ⟨hm, hjid⟩)
        rw [hother j hj0] at hy
        exact ⟨fun e => hj0 ((hmem j).mpr ⟨y, hy, e⟩), hy⟩
    · intro j y hy hne
      have hj0 : j ∉ ids0 := fun hm => by obtain ⟨z, hz, e⟩ := (hmem j).mp hm; rw [hy] at hz; cases hz; exact hne e
      rw [hother j hj0]
      exact ⟨hy, rfl⟩
    · intro t ht
      refine ⟨?_, rfl⟩
      simp only [Abs.disconnect]
      cases hct : a.conn t with
      | absent => rfl
      | hollow => rfl
      | live l' =>
        simp only [Status.map]
        rw [filter_notin]
        intro hm
        obtain ⟨y, hy, e⟩ := (h.mem_slots t id).mp (by simp [Abs.slots, hct, hm])
        rw [hx] at hy; cases hy
        exact ht e.symm
    · simp [Abs.disconnect, hc, Status.map]
    · exact hr.perm.trans (hp0.filter _)
    · intro e
      have h1 := hr.perm.length_eq
      have h2 := List.length_filter_le (fun y => decide (y ≠ id)) ids0
      have h3 := hlen e
      omega
    · simp only [Abs.disconnect]; rw [hnext]; exact h.next
    · exact hleak
    · rw [hnext]; exact Nat.le_refl _
    · intro j hj
      obtain ⟨y, hy, _⟩ := (hmem j).mp ((hm' j).mp hj).1
      rw [hnext]
      exact h.fresh j y hy

theorem setIndex_ok {w : World} {id : Nat} {x : Slot} (h : w.heap id = some x) (k : Nat) :
    w.setIndex (some id) k = .ok (w.setSlot id (some ⟨x.callback, x.signal, k⟩)) := by
  simp [World.setIndex, h]

theorem Rel.disconnect {w : World} {a : Abs} (h : Rel w a) (id : Nat) :
    ∃ w', Signal.disconnect (some id) w = .ok w' ∧ Rel w' (a.disconnect id) ∧ w'.trace = w.trace ∧ w'.next = w.next ∧
      ∀ (s : Nat) (ids : List Nat) (fb : Bool) (it : Option Nat), w.sigs s = some ⟨ids.map some, fb, it⟩ →
        ∃ (ids' : List Nat) (it' : Option Nat), w'.sigs s = some ⟨ids'.map some, fb, it'⟩ ∧ Removed id ids it ids' it' := by
  cases hx : w.heap id with
  | none =>
    refine ⟨w, by simp [Signal.disconnect, hx], by rw [h.disconnect_none hx]; exact h, rfl, rfl, ?_⟩
    intro s ids fb it hs
    refine ⟨ids, it, hs, Removed.none it ?_⟩
    intro hm
    obtain ⟨y, hy, _⟩ := (h.heap_iff hs id).mp hm
    rw [hx] at hy; cases hy
  | some x =>
    obtain ⟨l, ids, it, hc, hg, hp, hk, hcb⟩ := h.owner hx
    have hn := h.ids_nodup hg
    have hkl : x.index < ids.length := by by_contra hc'; rw [List.getElem?_eq_none (by omega)] at hk; cases hk
    obtain ⟨b, hb⟩ : ∃ b, ids[ids.length - 1]? = some b := ⟨_, List.getElem?_eq_getElem (by omega)⟩
    have hfw : ∀ (p j : Nat), ids[p]? = some j → w.heap j = some ⟨a.cb j, x.signal, p⟩ := fun p j hpj => h.fwd _ _ _ _ hg (getElem?_map_some.mpr hpj)
    -- other signals
    have hrest : ∀ (w' : World) (ids' : List Nat) (it' : Option Nat), w'.sigs = update w.sigs x.signal (some ⟨ids'.map some, a.grown x.signal, it'⟩) →
        Removed id ids it ids' it' →
        ∀ (s : Nat) (ids : List Nat) (fb : Bool) (it : Option Nat), w.sigs s = some ⟨ids.map some, fb, it⟩ →
        ∃ (ids' : List Nat) (it' : Option Nat), w'.sigs s = some ⟨ids'.map some, fb, it'⟩ ∧ Removed id ids it ids' it' := by
      intro w' ids' it' hs hr s ids1 fb it1 hs1
      by_cases hsx : s = x.signal
      · subst hsx
        rw [hg] at hs1
        simp only [Option.some.injEq, Sig.mk.injEq] at hs1
        obtain ⟨e1, e2, e3⟩ := hs1
        have e0 := (List.map_injective_iff.mpr (fun _ _ => Option.some.inj)) e1
        subst e0 e2 e3
        exact ⟨ids', it', by rw [hs, update_same], hr⟩
      · refine ⟨ids1, it1, by rw [hs, update_ne _ _ hsx]; exact hs1, Removed.none it1 ?_⟩
        intro hm
        obtain ⟨y, hy, e⟩ := (h.heap_iff hs1 id).mp hm
        rw [hx] at hy; cases hy
        exact hsx e.symm
    have hunf : Signal.disconnect (some id) w =
        (if iterGe it (ids.length - 1) || iterLt it x.index then disconnectSimple x ⟨ids.map some, a.grown x.signal, it⟩ w
        else match (generalizing := false) it with
          | none => .error .ub
          | some i => disconnectTricky i x ⟨ids.map some, a.grown x.signal, it⟩ w) := by
      simp only [Signal.disconnect, hx, disconnectSlot, sig_some hg, ok_bind, List.length_map, hkl, decide_true, assert_true]
      rfl
    rw [hunf]
    by_cases hcond : (iterGe it (ids.length - 1) || iterLt it x.index) = true
    · rw [if_pos hcond]
      have hcur : cursor it ≤ x.index ∨ ids.length ≤ cursor it := by
        cases it with
        | none => left; simp [cursor]
        | some i => simp [iterGe, iterLt] at hcond; simp only [cursor]; omega
      have hr : Removed id ids it ((ids.set x.index b).dropLast) it := by
        obtain ⟨r1, r2⟩ := simple_list hn hk hb hcur
        exact ⟨r1, r2⟩
      have hheapb := hfw _ _ hb
      refine ⟨⟨update (update w.heap b (some ⟨a.cb b, x.signal, x.index⟩)) id none, w.next,
        update w.sigs x.signal (some ⟨((ids.set x.index b).dropLast).map some, a.grown x.signal, it⟩), w.shared, w.trace⟩, ?_, ?_, rfl, rfl, hrest _ _ _ rfl hr⟩
      · simp only [disconnectSimple, rd_map_some hk, ok_bind, List.length_map, rd_map_some hb, setIndex_ok hheapb, map_set_dropLast, pure_ok, World.setSig,
          World.setSlot, World.release, h.leak, List.not_mem_nil, if_false]
      · refine h.removed hx hg hr rfl ?_ (by simp) ?_ rfl h.leak
        · intro p j hpj
          replace hpj := getElem?_dropLast' hpj
          obtain ⟨hpl, hpj⟩ := hpj
          simp only [List.length_set] at hpl
          by_cases hpk : p = x.index
          · subst hpk
            rw [List.getElem?_set_self (by omega)] at hpj
            cases hpj
            have hne : b ≠ id := by
              rintro rfl
              have := nodup_idx hn hb hk
              omega
            dsimp only
            rw [update_ne _ _ hne, update_same]
          · rw [List.getElem?_set_ne (fun e => hpk e.symm)] at hpj
            have hne : j ≠ id := by rintro rfl; exact hpk (nodup_idx hn hpj hk)
            have hneb : j ≠ b := by
              rintro rfl
              have := nodup_idx hn hpj hb
              omega
            dsimp only
            rw [update_ne _ _ hne, update_ne _ _ hneb]
            exact hfw p j hpj
        · intro j hj
          have hne : j ≠ id := by rintro rfl; exact hj (List.mem_of_getElem? hk)
          have hneb : j ≠ b := by rintro rfl; exact hj (List.mem_of_getElem? hb)
          dsimp only
          rw [update_ne _ _ hne, update_ne _ _ hneb]
    · rw [if_neg hcond]
      cases it with
      | none => simp [iterGe] at hcond
      | some i =>
        simp only [iterGe, iterLt, Bool.or_eq_true, decide_eq_true_eq, not_or, Nat.not_le, Nat.not_lt] at hcond
        obtain ⟨hil, hki⟩ := hcond
        obtain ⟨y, hy⟩ : ∃ y, ids[i]? = some y := ⟨_, List.getElem?_eq_getElem (by omega)⟩
        have hcur : cursor (iterDec (some i)) = i := by cases i <;> rfl
        have hr : Removed id ids (some i) (((ids.set x.index y).set i b).dropLast) (iterDec (some i)) := by
          obtain ⟨r1, r2⟩ := tricky_list hn hk hy hb hki hil
          constructor
          · rw [hcur]; exact r1
          · rw [hcur]; exact r2
        have hheapy := hfw _ _ hy
        have hheapb := hfw _ _ hb
        have hyb : b ≠ y := by rintro rfl; have := nodup_idx hn hb hy; omega
        have hbid : b ≠ id := by rintro rfl; have := nodup_idx hn hb hk; omega
        have hheapb' : (w.setSlot y (some ⟨a.cb y, x.signal, x.index⟩)).heap b = some ⟨a.cb b, x.signal, ids.length - 1⟩ := by
          simp only [World.setSlot]; rw [update_ne _ _ hyb]; exact hheapb
        refine ⟨⟨update (update (update w.heap y (some ⟨a.cb y, x.signal, x.index⟩)) b (some ⟨a.cb b, x.signal, i⟩)) id none, w.next,
          update w.sigs x.signal (some ⟨(((ids.set x.index y).set i b).dropLast).map some, a.grown x.signal, iterDec (some i)⟩), w.shared, w.trace⟩, ?_, ?_, rfl, rfl,
          hrest _ _ _ rfl hr⟩
        · simp only [disconnectTricky, rd_map_some hk, rd_map_some hy, ok_bind, List.length_map, rd_map_some hb, setIndex_ok hheapy, setIndex_ok hheapb', pure_ok]
          rw [← List.map_set, map_set_dropLast]
          simp only [World.setSig, World.setSlot, World.release, h.leak, List.not_mem_nil, if_false]
        · refine h.removed hx hg hr rfl ?_ (by simp) ?_ rfl h.leak
          · intro p j hpj
            replace hpj := getElem?_dropLast' hpj
            obtain ⟨hpl, hpj⟩ := hpj
            simp only [List.length_set] at hpl
            by_cases hpi : p = i
            · subst hpi
              rw [List.getElem?_set_self (by simp; omega)] at hpj
              cases hpj
              dsimp only
              rw [update_ne _ _ hbid, update_same]
            · rw [List.getElem?_set_ne (fun e => hpi e.symm)] at hpj
              by_cases hpk : p = x.index
              · subst hpk
                rw [List.getElem?_set_self (by omega)] at hpj
                cases hpj
                have hne : y ≠ id := by
                  rintro rfl
                  have := nodup_idx hn hy hk
                  omega
                dsimp only
                rw [update_ne _ _ hne, update_ne _ _ (fun e => hyb e.symm), update_same]
              · rw [List.getElem?_set_ne (fun e => hpk e.symm)] at hpj
                have hne : j ≠ id := by rintro rfl; exact hpk (nodup_idx hn hpj hk)
                have hneb : j ≠ b := by
                  rintro rfl
                  have := nodup_idx hn hpj hb
                  omega
                have hney : j ≠ y := by rintro rfl; exact hpi (nodup_idx hn hpj hy)
                dsimp only
                rw [update_ne _ _ hne, update_ne _ _ hneb, update_ne _ _ hney]
                exact hfw p j hpj
          · intro j hj
            have hne : j ≠ id := by rintro rfl; exact hj (List.mem_of_getElem? hk)
            have hneb : j ≠ b := by rintro rfl; exact hj (List.mem_of_getElem? hb)
            have hney : j ≠ y := by rintro rfl; exact hj (List.mem_of_getElem? hy)
            dsimp only
            rw [update_ne _ _ hne, update_ne _ _ hneb, update_ne _ _ hney]

/-! ## Moves -/

theorem retarget_ok (s : Nat) (ids : List Nat) (w : World) (h : ∀ j ∈ ids, ∃ x, w.heap j = some x) :
    retarget s (ids.map some) w =
      .ok ⟨fun j => if j ∈ ids then (w.heap j).map (fun x => ⟨x.callback, s, x.index⟩) else w.heap j, w.next, w.sigs, w.shared, w.trace⟩ := by
  induction ids generalizing w with
  | nil => simp [retarget]
  | cons i l ih =>
    obtain ⟨x, hx⟩ := h i (by simp)
    simp only [List.map_cons, retarget, hx]
    rw [ih]
    · simp only [World.setSlot, Except.ok.injEq, World.mk.injEq, and_true]
      funext j
      by_cases hji : j = i
      · subst hji
        by_cases hjl : j ∈ l <;> simp [hjl, hx]
      · simp only [update_ne _ _ hji, List.mem_cons, hji, false_or]
    · intro j hj
      by_cases hji : j = i
      · subst hji; exact ⟨_, by simp [World.setSlot]; rfl⟩
      · obtain ⟨y, hy⟩ := h j (by simp [hj])
        exact ⟨y, by simp only [World.setSlot, update_ne _ _ hji]; exact hy⟩

theorem filterMap_id_map (l : List Nat) : (l.map some).filterMap id = l := by
  induction l with
  | nil => rfl
  | cons x xs ih => simp

theorem Rel.moveAssign {w : World} {a : Abs} (h : Rel w a) {s t : Nat} (hst : s ≠ t) (hs : a.conn s ≠ .absent) (ht : a.Live t)
    (hgrow : a.grown t = true → a.grown s = true ∨ a.slots s = []) (hgrow' : a.grown s = true → a.grown t = true ∨ a.slots t = []) :
    ∃ w', Signal.moveAssign s t w = .ok w' ∧ Rel w' (a.move s t) ∧ w'.trace = w.trace := by
  obtain ⟨l, hl⟩ := ht
  have hsl : a.slots t = l := by simp [Abs.slots, hl]
  obtain ⟨ids, it, hg, hp, hlen⟩ := h.live hl
  obtain ⟨ids0, it0, hg0, hr0, hm0⟩ := h.present hs
  obtain ⟨g, hgs, hgf⟩ := h.present_sig hs
  have hmt := h.heap_iff hg
  have hdisj : ∀ j, j ∈ ids → j ∉ ids0 := by
    intro j h1 h2
    obtain ⟨x, hx, e1⟩ := (hmt j).mp h1
    obtain ⟨y, hy, e2⟩ := (hm0 j).mp h2
    rw [hx] at hy; cases hy
    exact hst (e2.symm.trans e1)
  -- the world, target and source after the move of the lists
  have hr1 : (moveSlots g ⟨ids.map some, a.grown t, it⟩ w).1 = ⟨fun j => if j ∈ ids0 then none else w.heap j, w.next, w.sigs, [], w.trace⟩ := by
    simp only [moveSlots, hgf]
    cases hgt : a.grown t
    · simp only [Bool.false_eq_true, if_false]
      cases hgS : a.grown s
      · simp only [Bool.false_eq_true, if_false]
        rw [hr0 g hgs, h.leak]
      · have he : ids = [] := by
          rcases hgrow' hgS with e | e
          · rw [hgt] at e; cases e
          · rw [hsl] at e; rw [e] at hp; exact hp.eq_nil
        simp only [if_true, hr0 g hgs, h.leak, he, List.map_nil, List.filterMap_nil, List.append_nil]
    · simp only [if_true]
      cases hgS : a.grown s
      · simp only [Bool.false_eq_true, if_false]
        have he : a.slots s = [] := by
          rcases hgrow hgt with e | e
          · rw [hgS] at e; cases e
          · exact e
        have h0 : ids0 = [] ∧ g.slots.filterMap id = [] := by
          rcases hg0 with ⟨e1, e2⟩ | ⟨e1, e2, _⟩
          · rw [he] at e2
            have : ids0 = [] := e2.eq_nil
            rw [hgs] at e1; cases e1
            rw [this]; exact ⟨rfl, rfl⟩
          · rw [hgs] at e1; cases e1
            exact ⟨e2, rfl⟩
        rw [h0.1]
        simp only [List.not_mem_nil, if_false]
        rw [← h.leak]
      · simp only [if_true]
        rw [hr0 g hgs, h.leak]
  have hr2 : (moveSlots g ⟨ids.map some, a.grown t, it⟩ w).2.1 = ⟨ids.map some, a.grown s || a.grown t, it⟩ := by
    simp only [moveSlots, hgf]
    cases a.grown t <;> cases a.grown s <;> simp
  have hr3 : (moveSlots g ⟨ids.map some, a.grown t, it⟩ w).2.2 = ⟨if a.grown t = false ∧ l ≠ [] then [none] else [], a.grown t, it⟩ := by
    simp only [moveSlots]
    cases hgt : a.grown t
    · have := hlen hgt
      match ids, hp, this with
      | [], hp, _ => simp only [hp.symm.eq_nil]; cases g.fallback <;> simp
      | [x], hp, _ =>
        have : l ≠ [] := by rintro rfl; have := hp.length_eq; simp at this
        have hgS : g.fallback = false := by
          rw [hgf]
          cases hgS : a.grown s
          · rfl
          · rcases hgrow' hgS with e | e
            · rw [hgt] at e; cases e
            · rw [hsl] at e; exact absurd e this
        simp [this, hgS]
      | _ :: _ :: _, _, this => simp at this
    · simp
  have hrun : Signal.moveAssign s t w = .ok ⟨fun j => if j ∈ ids then (w.heap j).map (fun x => ⟨x.callback, s, x.index⟩) else if j ∈ ids0 then none else w.heap j,
      w.next, update (update w.sigs s (some ⟨ids.map some, a.grown s || a.grown t, it⟩)) t (some ⟨if a.grown t = false ∧ l ≠ [] then [none] else [], a.grown t, it⟩), [],
      w.trace⟩ := by
    simp only [Signal.moveAssign, sig_some hgs, sig_some hg, ok_bind, hr1, hr2, hr3]
    rw [retarget_ok]
    · simp only [World.setSig, Except.ok.injEq, World.mk.injEq, and_true]
      funext j
      by_cases hj : j ∈ ids
      · simp [hj, hdisj j hj]
      · simp [hj]
    · intro j hj
      obtain ⟨x, hx, _⟩ := (hmt j).mp hj
      exact ⟨x, by simp [World.setSig, hdisj j hj, hx]⟩
  refine ⟨_, hrun, ?_, rfl⟩
  -- slots of other signals
  have hkeep : ∀ j x, w.heap j = some x → x.signal ≠ s → x.signal ≠ t → j ∉ ids ∧ j ∉ ids0 := by
    intro j x hx h1 h2
    constructor
    · intro hj; obtain ⟨y, hy, e⟩ := (hmt j).mp hj; rw [hx] at hy; cases hy; exact h2 e
    · intro hj; obtain ⟨y, hy, e⟩ := (hm0 j).mp hj; rw [hx] at hy; cases hy; exact h1 e
  constructor
  · exact h.next
  · rfl
  · intro u
    by_cases hut : u = t
    · subst hut
      simp only [Abs.move, update_same, hsl, update_ne _ _ (Ne.symm hst)]
      by_cases hc : a.grown u = false ∧ l ≠ []
      · simp only [hc, and_self, if_true, ne_eq, not_false_eq_true]
        exact ⟨rfl, it, rfl⟩
      · simp only [hc, if_false]
        exact ⟨[], it, rfl, List.Perm.refl _, by simp⟩
    · by_cases hus : u = s
      · subst hus
        simp only [Abs.move, update_same, hsl, update_ne _ _ hst]
        refine ⟨ids, it, rfl, hp, ?_⟩
        intro e
        simp only [Bool.or_eq_false_iff] at e
        exact hlen e.2
      · simp only [Abs.move, update_ne _ _ hut, update_ne _ _ hus]
        exact h.sig u
  · intro u g' k id hg' hk
    by_cases hut : u = t
    · subst hut
      simp only [update_same, Option.some.injEq] at hg'
      subst hg'
      by_cases hc : a.grown u = false ∧ l ≠ []
      · simp only [hc, and_self, if_true, ne_eq, not_false_eq_true] at hk
        cases k <;> simp at hk
      · simp only [hc, if_false] at hk
        simp at hk
    · by_cases hus : u = s
      · subst hus
        simp only [update_ne _ _ hut, update_same, Option.some.injEq] at hg'
        subst hg'
        have hk' := getElem?_map_some.mp hk
        have := h.fwd t _ k id hg hk
        simp [List.mem_of_getElem? hk', this, Abs.move]
      · simp only [update_ne _ _ hut, update_ne _ _ hus] at hg'
        have := h.fwd u g' k id hg' hk
        obtain ⟨k1, k2⟩ := hkeep id _ this hus hut
        simp [k1, k2, this, Abs.move]
  · intro id x hx
    simp only at hx
    by_cases hi : id ∈ ids
    · simp only [hi, if_true] at hx
      obtain ⟨y, hy, e⟩ := (hmt id).mp hi
      rw [hy] at hx
      simp only [Option.map_some, Option.some.injEq] at hx
      subst hx
      obtain ⟨g', m1, m2⟩ := h.bwd id y hy
      rw [e, hg] at m1
      cases m1
      exact ⟨⟨ids.map some, a.grown s || a.grown t, it⟩, by simp only [update_ne _ _ hst, update_same], m2⟩
    · simp only [hi, if_false] at hx
      by_cases hi0 : id ∈ ids0
      · simp [hi0] at hx
      · simp only [hi0, if_false] at hx
        obtain ⟨g', m1, m2⟩ := h.bwd id x hx
        have h1 : x.signal ≠ s := fun e => hi0 ((hm0 id).mpr ⟨x, hx, e⟩)
        have h2 : x.signal ≠ t := fun e => hi ((hmt id).mpr ⟨x, hx, e⟩)
        exact ⟨g', by simp only [update_ne _ _ h1, update_ne _ _ h2]; exact m1, m2⟩
  · intro id x hx
    simp only at hx
    by_cases hi : id ∈ ids
    · obtain ⟨y, hy, _⟩ := (hmt id).mp hi
      exact h.fresh id y hy
    · simp only [hi, if_false] at hx
      by_cases hi0 : id ∈ ids0
      · simp [hi0] at hx
      · simp only [hi0, if_false] at hx
        exact h.fresh id x hx

theorem Rel.moveConstruct {w : World} {a : Abs} (h : Rel w a) {s t : Nat} (hs : a.conn s = .absent) (ht : a.Live t) :
    ∃ w', Signal.moveConstruct s t w = .ok w' ∧ Rel w' ((a.create s).move s t) ∧ w'.trace = w.trace := by
  have hst : s ≠ t := by rintro rfl; obtain ⟨l, hl⟩ := ht; rw [hs] at hl; cases hl
  have h' := h.newSignal hs
  obtain ⟨l, hl⟩ := ht
  obtain ⟨w', h1, h2, h3⟩ := h'.moveAssign hst (by simp [Abs.create]) ⟨l, by simp [Abs.create, update_ne _ _ (Ne.symm hst), hl]⟩
    (fun _ => Or.inr (by simp [Abs.slots, Abs.create])) (by simp [Abs.create])
  exact ⟨w', h1, h2, h3⟩

end Verif.Signal
