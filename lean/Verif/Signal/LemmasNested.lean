import Verif.Signal.SpecNested
import Verif.Signal.PropsMore
import Mathlib.Data.List.Perm.Subperm

/-! # Signals: emissions inside callbacks -/

namespace Verif.Signal
open Verif.Cpp

/-- Only iterators differ, and only those of signals up to the level. -/
def Frame (level : Nat → Nat) (n : Nat) (w w' : World) : Prop :=
  ∀ u l fb c, w.sigs u = some ⟨l, fb, some c⟩ → ∃ c', w'.sigs u = some ⟨l, fb, some c'⟩ ∧ (n < level u → c' = c)

theorem Frame.refl (level : Nat → Nat) (n : Nat) (w : World) : Frame level n w w := fun _ _ _ c h => ⟨c, h, fun _ => rfl⟩

theorem Frame.trans {level : Nat → Nat} {n : Nat} {w w' w'' : World} (h : Frame level n w w') (h' : Frame level n w' w'') : Frame level n w w'' := by
  intro u l fb c hu
  obtain ⟨c1, h1, h2⟩ := h u l fb c hu
  obtain ⟨c2, h3, h4⟩ := h' u l fb c1 h1
  exact ⟨c2, h3, fun hn => by rw [h4 hn, h2 hn]⟩

theorem Frame.mono {level : Nat → Nat} {m n : Nat} {w w' : World} (h : Frame level m w w') (hmn : m ≤ n) : Frame level n w w' := by
  intro u l fb c hu
  obtain ⟨c1, h1, h2⟩ := h u l fb c hu
  exact ⟨c1, h1, fun hn => h2 (by omega)⟩

theorem Frame.record {level : Nat → Nat} {n : Nat} {w w' : World} (h : Frame level n w w') (e : Event) : Frame level n w (w'.record e) := h

theorem Frame.setSig {level : Nat → Nat} {n : Nat} {w : World} {s : Nat} {g : Sig} (hg : w.sigs s = some g) (c : Nat) (hn : level s ≤ n) :
    Frame level n w (w.setSig s (some ⟨g.slots, g.fallback, some c⟩)) := by
  intro u l fb c0 hu
  by_cases h : u = s
  · subst h
    rw [hg] at hu; cases hu
    exact ⟨c, by simp [World.setSig], fun _ => by omega⟩
  · exact ⟨c0, by simpa only [World.setSig, update_ne _ _ h] using hu, fun _ => rfl⟩

theorem Rel.length_le {w : World} {a : Abs} (h : Rel w a) {s : Nat} {ids : List Nat} {fb : Bool} {it : Option Nat} (hg : w.sigs s = some ⟨ids.map some, fb, it⟩) :
    ids.length ≤ a.next := by
  have hn := h.ids_nodup hg
  have hsub : ids ⊆ List.range a.next := by
    intro id hid
    obtain ⟨k, hk⟩ := List.getElem?_of_mem hid
    rw [List.mem_range, h.next]
    exact h.fresh id _ (h.fwd s _ k id hg (getElem?_map_some.mpr hk))
  simpa using (List.Nodup.subperm hn hsub).length_le

/-- The loop of an emission from the slot at `c` on. -/
theorem nested_loop {script : Script} {a : Abs} {size : Nat → Nat → Nat} (he : script.Emits a size) {level : Nat → Nat} (hl : script.Levelled a level) :
    ∀ (fuel : Nat) (w : World) (s arg : Nat) (ids : List Nat) (fb : Bool) (c : Nat), Rel w a → a.Live s → w.sigs s = some ⟨ids.map some, fb, some c⟩ →
      size s arg * (a.next + 1) + (ids.length - c) + 1 ≤ fuel →
      ∃ w' tr, emitLoop script fuel s arg w = .ok w' ∧ w'.trace = tr ++ [.done s] ∧ Complete a script w.trace (.calls s arg (ids.drop c)) tr ∧ Rel w' a ∧
        Frame level (level s) w w' := by
  intro fuel
  induction fuel with
  | zero => intro w s arg ids fb c _ _ _ hf; omega
  | succ fuel ih =>
    intro w s arg ids fb c hr hs hg hf
    have hcur := currentSlot_ok hr hg
    simp only at hcur
    cases hi : ids[c]? with
    | none =>
      rw [hi] at hcur
      have hd : ids.drop c = [] := List.drop_eq_nil_iff.mpr (List.getElem?_eq_none_iff.mp hi)
      refine ⟨w.record (.done s), w.trace, ?_, rfl, ?_, hr.record _, Frame.refl _ _ _⟩
      · simp only [emitLoop, hcur, ok_bind, Option.map_none]; rfl
      · rw [hd]; exact .noMore _ _ _
    | some id =>
      rw [hi] at hcur
      have hcl : c < ids.length := by
        rcases Nat.lt_or_ge c ids.length with h | h
        · exact h
        · rw [List.getElem?_eq_none h] at hi; cases hi
      have hidc : ids[c] = id := by rw [List.getElem?_eq_getElem hcl] at hi; exact Option.some.inj hi
      have hdrop : ids.drop c = id :: ids.drop (c + 1) := by rw [List.drop_eq_getElem_cons hcl, hidc]
      -- the emissions inside the callback
      have inner : ∀ (acts : List Action) (w1 : World), Rel w1 a →
          (∀ act ∈ acts, ∃ t y, act = .emit t y ∧ a.Live t ∧ size t y < size s arg ∧ level t ≤ level s ∧ (level t = level s → (a.slots s).length ≤ 1)) →
          ∃ (ems : List (Nat × Nat)) (w2 : World), acts = ems.map (fun e => Action.emit e.1 e.2) ∧ runActions (fun s a w => do
            let w ← setIter s (fun _ => some 0) w
            emitLoop script fuel s a (w.record (.emit s a))) acts w1 = .ok w2 ∧ Complete a script w1.trace (.emissions ems) w2.trace ∧ Rel w2 a ∧
            ∃ n, Frame level n w1 w2 ∧ n ≤ level s ∧ (n = level s → (a.slots s).length ≤ 1 ∨ w2 = w1) := by
        intro acts
        induction acts with
        | nil =>
          intro w1 hr1 _
          exact ⟨[], w1, rfl, rfl, .nothing _, hr1, level s, Frame.refl _ _ _, Nat.le_refl _, fun _ => Or.inr rfl⟩
        | cons act acts iha =>
          intro w1 hr1 hacts
          obtain ⟨t, y, e1, e2, e3, e4, e5⟩ := hacts act (List.mem_cons_self ..)
          subst e1
          obtain ⟨lt, hlt⟩ := e2
          obtain ⟨ids', it', hg', hp', _⟩ := hr1.live hlt
          obtain ⟨i1, i2⟩ := hr1.setIter (fun _ => some 0) hg'
          have hg0 : ((w1.setSig t (some ⟨ids'.map some, a.grown t, some 0⟩)).record (.emit t y)).sigs t = some ⟨ids'.map some, a.grown t, some 0⟩ := by
            simp [World.record, World.setSig]
          have hlen := (i2.record (.emit t y)).length_le hg0
          have hmul : (size t y + 1) * (a.next + 1) ≤ size s arg * (a.next + 1) := Nat.mul_le_mul_right _ e3
          rw [Nat.add_mul] at hmul
          obtain ⟨w2, tr2, k1, k2, k3, k4, k5⟩ := ih _ t y ids' _ 0 (i2.record (.emit t y)) ⟨lt, hlt⟩ hg0 (by omega)
          obtain ⟨ems, w3, m1, m2, m3, m4, n, m5, m6, m7⟩ := iha w2 k4 (fun act h => hacts act (List.mem_cons_of_mem _ h))
          have hframe : Frame level (level t) w1 w2 := (Frame.setSig hg' 0 (Nat.le_refl _)).trans k5
          refine ⟨(t, y) :: ems, w3, by rw [m1]; rfl, ?_, ?_, m4, ?_⟩
          · simp only [runActions, Action.run, i1, ok_bind, k1]; exact m2
          · refine .emission (by simpa [Abs.slots, hlt] using hp') k3 ?_
            rw [← k2]; exact m3
          · by_cases hw : (a.slots s).length ≤ 1
            · exact ⟨level s, (hframe.mono e4).trans (m5.mono m6), Nat.le_refl _, fun _ => Or.inl hw⟩
            · have ht : level t < level s := by
                rcases Nat.lt_or_eq_of_le e4 with h | h
                · exact h
                · exact absurd (e5 h) hw
              by_cases hn : n = level s
              · have := (m7 hn).resolve_left hw
                subst this
                exact ⟨level t, hframe, e4, fun h => by omega⟩
              · exact ⟨max (level t) n, (hframe.mono (Nat.le_max_left ..)).trans (m5.mono (Nat.le_max_right ..)), by omega, fun h => by omega⟩
      have hacts : ∀ act ∈ script (w.trace ++ [.call s id (a.cb id) arg]),
          ∃ t y, act = .emit t y ∧ a.Live t ∧ size t y < size s arg ∧ level t ≤ level s ∧ (level t = level s → (a.slots s).length ≤ 1) := by
        intro act hact
        obtain ⟨t, y, e1, e2, e3⟩ := he _ s id _ arg act hact
        obtain ⟨e4, e5⟩ := hl _ s id _ arg act hact t y e1
        exact ⟨t, y, e1, e2, e3, e4, e5⟩
      obtain ⟨ems, w2, m1, m2, m3, m4, n, m5, m6, m7⟩ := inner _ (w.record (.call s id (a.cb id) arg)) (hr.record _) hacts
      obtain ⟨c', n1, n2⟩ := m5 s _ _ _ hg
      obtain ⟨i1, i2⟩ := m4.setIter iterInc n1
      have hperm := hr.perm_slots hs hg
      have hc : ids.drop (c' + 1) = ids.drop (c + 1) ∧ ids.length - (c' + 1) ≤ ids.length - (c + 1) := by
        have hlen := hperm.length_eq
        by_cases h1 : (a.slots s).length ≤ 1
        · rw [List.drop_eq_nil_iff.mpr (by omega), List.drop_eq_nil_iff.mpr (by omega)]
          exact ⟨rfl, by omega⟩
        · have : c' = c := by
            rcases Nat.lt_or_eq_of_le m6 with h | h
            · exact n2 h
            · have := (m7 h).resolve_left h1
              subst this
              have e : w.sigs s = _ := n1
              rw [hg] at e
              simpa using e.symm
          rw [this]; exact ⟨rfl, Nat.le_refl _⟩
      have hg3 : (w2.setSig s (some ⟨ids.map some, fb, some (c' + 1)⟩)).sigs s = some ⟨ids.map some, fb, some (c' + 1)⟩ := by simp [World.setSig]
      obtain ⟨w', tr, q1, q2, q3, q4, q5⟩ := ih _ s arg ids fb (c' + 1) i2 hs hg3 (by omega)
      refine ⟨w', tr, ?_, q2, ?_, q4, ?_⟩
      · simp only [emitLoop, hcur, ok_bind, Option.map_some]
        have hm2 := m2
        rw [show w.trace ++ [.call s id (a.cb id) arg] = (w.record (.call s id (a.cb id) arg)).trace from rfl] at hm2
        rw [hm2]
        simp only [ok_bind, i1]
        exact q1
      · rw [hdrop]
        rw [hc.1] at q3
        exact .call m1 m3 q3
      · exact ((m5.mono m6).trans (Frame.setSig n1 (c' + 1) (Nat.le_refl _))).trans q5

end Verif.Signal
