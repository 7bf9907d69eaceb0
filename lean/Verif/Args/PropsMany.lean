import Verif.Args.SpecMany

/-!
# Property C169: signals with several parameters
-/

namespace Verif.Args.Many
open Verif.Args

variable {V : Type}

private def Moving (e : Init) : Prop := e.p = .value ∧ e.c = .rvalue

private def Valid (m : Mem V) (r : Ref) : Prop := ∀ j, r = .par j → j < m.next

private theorem get_set (m : Mem V) (r r' : Ref) (v : V) : (m.set r v).get r' = if r' = r then v else m.get r' := by
  cases r <;> cases r' <;> simp [Mem.set, Mem.get]

private theorem next_set (m : Mem V) (r : Ref) (v : V) : (m.set r v).next = m.next ∧ (m.set r v).calls = m.calls := by
  cases r <;> exact ⟨rfl, rfl⟩

/-- What the construction of a parameter does. -/
private theorem construct_spec (T : Ty V) (c : Cat) (r : Ref) (m : Mem V) :
    (construct T c r m).1 = .par m.next ∧ (construct T c r m).2.next = m.next + 1 ∧ (construct T c r m).2.calls = m.calls ∧
      (construct T c r m).2.pars m.next = m.get r ∧
      ∀ r', Valid m r' → (construct T c r m).2.get r' = if r' = r ∧ c = .rvalue then T.movedFrom (m.get r) else m.get r' := by
  have hg : ∀ (m' : Mem V) (v : V) (r' : Ref), Valid m' r' → ({ m' with pars := fun k => if k = m'.next then v else m'.pars k, next := m'.next + 1 } : Mem V).get r' = m'.get r' := by
    intro m' v r' h
    cases r' with
    | var n => rfl
    | par j => have := h j rfl; simp only [Mem.get]; rw [if_neg (by omega)]
  unfold construct
  by_cases h : c = .rvalue
  · have hn := next_set m r (T.movedFrom (m.get r))
    simp only [h, if_true]
    refine ⟨by rw [hn.1], by simp [hn.1], by simp [hn.2], by simp [hn.1], ?_⟩
    intro r' hr'
    rw [hg _ _ _ (by unfold Valid; rw [hn.1]; exact hr'), get_set]
    simp
  · simp only [h, if_false]
    refine ⟨trivial, trivial, trivial, by simp, ?_⟩
    intro r' hr'
    rw [hg _ _ _ hr']
    simp

private theorem bindAll_spec (T : Ty V) : ∀ (es : List Init) (b0 : Nat → Ref) (m : Mem V), (∀ e ∈ es, binds T e.p e.c = true) → (es.map (·.i)).Nodup → (∀ e ∈ es, Valid m e.r) →
    es.Pairwise (fun e e' => Moving e → e.r ≠ e'.r) →
    ∃ b m', bindAll T es b0 m = some (b, m') ∧ m.next ≤ m'.next ∧ m'.calls = m.calls ∧
      (∀ i, (∀ e ∈ es, e.i ≠ i) → b i = b0 i) ∧
      (∀ e ∈ es, e.p ≠ .value → b e.i = e.r) ∧
      (∀ e ∈ es, e.p = .value → ∃ j, b e.i = .par j ∧ m.next ≤ j ∧ j < m'.next ∧ m'.pars j = m.get e.r) ∧
      (∀ e ∈ es, ∀ e' ∈ es, e.p = .value → e'.p = .value → b e.i = b e'.i → e.i = e'.i) ∧
      (∀ r, Valid m r → (∀ e ∈ es, Moving e → e.r ≠ r) → m'.get r = m.get r) ∧
      (∀ e ∈ es, Moving e → m'.get e.r = T.movedFrom (m.get e.r))
  | [], b0, m, _, _, _, _ => ⟨b0, m, rfl, Nat.le_refl _, rfl, fun _ _ => rfl, by simp, by simp, by simp, fun _ _ _ => rfl, by simp⟩
  | e :: es, b0, m, hb, hn, hv, hm => by
    rw [List.map_cons, List.nodup_cons] at hn
    rw [List.pairwise_cons] at hm
    have hni : ∀ e' ∈ es, e'.i ≠ e.i := fun e' he' h => hn.1 (h ▸ List.mem_map_of_mem he')
    have hbe := hb e (by simp)
    have hve := hv e (by simp)
    by_cases hp : e.p = .value
    · obtain ⟨c1, c2, c3, c4, c5⟩ := construct_spec T e.c e.r m
      generalize hx : construct T e.c e.r m = x at c1 c2 c3 c4 c5
      have hval : ∀ r, Valid m r → Valid x.2 r := fun r h j hj => by have := h j hj; omega
      obtain ⟨b, m', h0, h1, h2, h3, h4, h5, h6, h7, h8⟩ := bindAll_spec T es (fun k => if k = e.i then x.1 else b0 k) x.2 (fun e' he' => hb e' (by simp [he'])) hn.2
        (fun e' he' => hval _ (hv e' (by simp [he']))) hm.2
      have hbi : b e.i = .par m.next := by rw [h3 e.i hni]; simp [c1]
      have hget : ∀ e' ∈ es, x.2.get e'.r = m.get e'.r := by
        intro e' he'
        rw [c5 _ (hv e' (by simp [he']))]
        rw [if_neg]
        rintro ⟨h, hc⟩
        exact hm.1 e' he' ⟨hp, hc⟩ h.symm
      have hfresh : ∀ e' ∈ es, e'.p = .value → b e'.i ≠ .par m.next := by
        intro e' he' hp' h
        obtain ⟨j, hj, hj1, _, _⟩ := h5 e' he' hp'
        rw [hj] at h
        injection h with h
        omega
      refine ⟨b, m', by rw [bindAll, if_pos hbe, if_pos hp, hx]; exact h0, by omega, by rw [h2, c3], ?_, ?_, ?_, ?_, ?_, ?_⟩
      · intro i hi
        rw [h3 i (fun e' he' => hi e' (by simp [he']))]
        exact if_neg (fun h => hi e (by simp) h.symm)
      · intro e' he' hp'
        rcases List.mem_cons.mp he' with rfl | he'
        · exact absurd hp hp'
        · exact h4 e' he' hp'
      · intro e' he' hp'
        rcases List.mem_cons.mp he' with rfl | he'
        · refine ⟨m.next, hbi, Nat.le_refl _, by omega, ?_⟩
          have := h7 (.par m.next) (fun j hj => by injection hj; omega) (fun e'' he'' _ h => by
            have := hv e'' (by simp [he'']) _ h
            omega)
          simp only [Mem.get] at this
          rw [this, c4]
        · obtain ⟨j, hj, hj1, hj2, hj3⟩ := h5 e' he' hp'
          exact ⟨j, hj, by omega, hj2, by rw [hj3, hget e' he']⟩
      · intro e1 he1 e2 he2 hp1 hp2 h
        rcases List.mem_cons.mp he1 with rfl | he1' <;> rcases List.mem_cons.mp he2 with rfl | he2'
        · rfl
        · exact absurd (h.symm.trans hbi) (hfresh e2 he2' hp2)
        · exact absurd (h.trans hbi) (hfresh e1 he1' hp1)
        · exact h6 e1 he1' e2 he2' hp1 hp2 h
      · intro r hr hr'
        rw [h7 r (hval r hr) (fun e' he' => hr' e' (by simp [he'])), c5 r hr, if_neg]
        rintro ⟨h, hc⟩
        exact hr' e (by simp) ⟨hp, hc⟩ h.symm
      · intro e' he' hmv
        rcases List.mem_cons.mp he' with rfl | he'
        · rw [h7 _ (hval _ hve) (fun e'' he'' _ h => hm.1 e'' he'' hmv h.symm), c5 _ hve, if_pos ⟨rfl, hmv.2⟩]
        · rw [h8 e' he' hmv, hget e' he']
    · have hnm : ¬ Moving e := fun h => hp h.1
      obtain ⟨b, m', h0, h1, h2, h3, h4, h5, h6, h7, h8⟩ := bindAll_spec T es (fun k => if k = e.i then e.r else b0 k) m (fun e' he' => hb e' (by simp [he'])) hn.2
        (fun e' he' => hv e' (by simp [he'])) hm.2
      refine ⟨b, m', by rw [bindAll, if_pos hbe, if_neg hp]; exact h0, h1, h2, ?_, ?_, ?_, ?_, ?_, ?_⟩
      · intro i hi
        rw [h3 i (fun e' he' => hi e' (by simp [he']))]
        exact if_neg (fun h => hi e (by simp) h.symm)
      · intro e' he' hp'
        rcases List.mem_cons.mp he' with rfl | he'
        · rw [h3 _ hni]; simp
        · exact h4 e' he' hp'
      · intro e' he' hp'
        rcases List.mem_cons.mp he' with rfl | he'
        · exact absurd hp' hp
        · exact h5 e' he' hp'
      · intro e1 he1 e2 he2 hp1 hp2 h
        rcases List.mem_cons.mp he1 with rfl | he1'
        · exact absurd hp1 hp
        rcases List.mem_cons.mp he2 with rfl | he2'
        · exact absurd hp2 hp
        · exact h6 e1 he1' e2 he2' hp1 hp2 h
      · intro r hr hr'
        exact h7 r hr (fun e' he' => hr' e' (by simp [he']))
      · intro e' he' hmv
        rcases List.mem_cons.mp he' with rfl | he'
        · exact absurd hmv hnm
        · exact h8 e' he' hmv

/-- The assignments of a body: what reaches the variables, and what does not change. -/
private theorem assignAll_spec (S : Signature) (arg : Nat → Nat) (f : Fun V) (b : Nat → Ref) (w : Nat → Option V) (N : Nat) : ∀ (is : List Nat) (m : Mem V),
    (∀ i ∈ is, f.params i ≠ .clref → (S.params i = .lref ∧ f.params i = .lref) ∧ b i = .var (arg i) ∨ ¬ (S.params i = .lref ∧ f.params i = .lref) ∧ ∃ j, N ≤ j ∧ b i = .par j) →
    (assignAll f.params b w is m).vars = reach S arg f w is m.vars ∧ (∀ j < N, (assignAll f.params b w is m).pars j = m.pars j) ∧
      (assignAll f.params b w is m).next = m.next ∧ (assignAll f.params b w is m).calls = m.calls
  | [], m, _ => ⟨rfl, fun _ _ => rfl, rfl, rfl⟩
  | i :: is, m, h => by
    have hi := h i (by simp)
    have ih := fun m => assignAll_spec S arg f b w N is m (fun i hi => h i (by simp [hi]))
    rw [assignAll, reach]
    cases w i with
    | none => exact ih m
    | some v =>
      by_cases hc : f.params i = .clref
      · have hne : ¬ (S.params i = .lref ∧ f.params i = .lref) := by rw [hc]; simp
        simp only [hc, if_true, reduceCtorEq, and_false, if_false]
        exact ih m
      · rcases hi hc with ⟨h1, h2⟩ | ⟨h1, j, hj, h2⟩
        · simp only [if_neg hc, if_pos h1, h2]
          exact ih _
        · simp only [if_neg hc, if_neg h1, h2]
          obtain ⟨i1, i2, i3, i4⟩ := ih (m.set (.par j) v)
          refine ⟨i1, fun j' hj' => ?_, i3, i4⟩
          rw [i2 j' hj']
          simp only [Mem.set]
          rw [if_neg (by omega)]

/-- The parameters of the emission: objects with the values at its start, or the variables. -/
private def Held (S : Signature) (arg : Nat → Nat) (start : Nat → V) (held : Nat → Ref) (N : Nat) (m : Mem V) : Prop :=
  N ≤ m.next ∧ ∀ i < S.k, (S.params i = .value → ∃ j < N, held i = .par j ∧ m.pars j = start (arg i)) ∧ (S.params i ≠ .value → held i = .var (arg i))

private theorem pairwise_map {S : Signature} (hS : S.Ordered) (g : Nat → Init) (R : Init → Init → Prop) (h : ∀ i < S.k, ∀ j < S.k, i ≠ j → R (g i) (g j)) : (S.order.map g).Pairwise R := by
  rw [List.pairwise_map]
  exact hS.1.imp_of_mem (fun {a b} ha hb hab => h a ((hS.2 a).mp ha) b ((hS.2 b).mp hb) hab)

private theorem forwarded_rvalue {p : Param} (h : p ≠ .rref) (h' : forwarded p = .rvalue) : p = .value := by
  cases p <;> simp_all [forwarded]

private theorem both_references {T : Ty V} {p q : Param} (hb : binds T q (forwarded p) = true) (h1 : p ≠ .rref) (h2 : p ≠ .value) (h3 : q ≠ .value) (h4 : q ≠ .clref) : p = .lref ∧ q = .lref := by
  cases p <;> cases q <;> simp_all [forwarded, binds]

private theorem callSlot_spec (T : Ty V) {S : Signature} (hS : S.Ordered) {cat : Nat → Cat} (hc : Compiles T S cat) {f : Fun V} (hf : Connectable T S f) {arg : Nat → Nat} {start : Nat → V}
    {held : Nat → Ref} {N : Nat} {m : Mem V} (hm : Held S arg start held N m) :
    ∃ m', callSlot T S held f m = some m' ∧ Held S arg start held N m' ∧ m'.vars = after S arg start m.vars f ∧ m'.calls = m.calls ++ [(f.id, visible S arg start m.vars)] := by
  obtain ⟨hN, hh⟩ := hm
  have hmem : ∀ i, i ∈ S.order ↔ i < S.k := hS.2
  have hcp : ∀ i < S.k, S.params i ≠ .rref ∧ binds T (S.params i) (named (S.params i)) = true := by
    intro i hi
    have := hc i hi
    simp only [emissionCompiles, Bool.and_eq_true] at this
    refine ⟨fun h => ?_, this.2⟩
    rw [h] at this
    simp [binds, named] at this
  have hnm : ∀ p, named p ≠ .rvalue := by intro p; cases p <;> decide
  have hvh : ∀ i < S.k, Valid m (held i) := by
    intro i hi j hj
    by_cases hp : S.params i = .value
    · obtain ⟨j', hj', e, _⟩ := (hh i hi).1 hp
      rw [e] at hj; injection hj with hj; omega
    · rw [(hh i hi).2 hp] at hj; cases hj
  obtain ⟨b, m2, a0, a1, a2, _, a4, a5, a6, a7, _⟩ := bindAll_spec T (S.order.map (fun i => ⟨i, S.params i, named (S.params i), held i⟩)) held m
    (by intro e he; obtain ⟨i, hi, rfl⟩ := List.mem_map.mp he; exact (hcp i ((hmem i).mp hi)).2)
    (by rw [List.map_map]; simpa [Function.comp_def] using hS.1)
    (by intro e he; obtain ⟨i, hi, rfl⟩ := List.mem_map.mp he; exact hvh i ((hmem i).mp hi))
    (pairwise_map hS _ _ (fun i _ j _ _ h => absurd h.2 (hnm _)))
  have a7 : ∀ r, Valid m r → m2.get r = m.get r := fun r hr => a7 r hr (by
    intro e he h; obtain ⟨i, hi, rfl⟩ := List.mem_map.mp he; exact absurd h.2 (hnm _))
  have hbv : ∀ i < S.k, S.params i = .value → ∃ j, b i = .par j ∧ m.next ≤ j ∧ j < m2.next ∧ m2.pars j = start (arg i) := by
    intro i hi hp
    obtain ⟨j, e1, e2, e3, e4⟩ := a5 _ (List.mem_map_of_mem ((hmem i).mpr hi)) hp
    obtain ⟨j', _, e, e'⟩ := (hh i hi).1 hp
    exact ⟨j, e1, e2, e3, by rw [e4]; simp only [e, Mem.get, e']⟩
  have hbr : ∀ i < S.k, S.params i ≠ .value → b i = .var (arg i) := by
    intro i hi hp
    rw [a4 _ (List.mem_map_of_mem ((hmem i).mpr hi)) hp]
    exact (hh i hi).2 hp
  have hbi : ∀ i < S.k, ∀ i' < S.k, S.params i = .value → b i = b i' → i = i' := by
    intro i hi i' hi' hp e
    by_cases hp' : S.params i' = .value
    · exact a6 _ (List.mem_map_of_mem ((hmem i).mpr hi)) _ (List.mem_map_of_mem ((hmem i').mpr hi')) hp hp' e
    · obtain ⟨j, e1, _⟩ := hbv i hi hp
      rw [e1, hbr i' hi' hp'] at e; cases e
  have hfw : ∀ i < S.k, forwarded (S.params i) = .rvalue → S.params i = .value := by
    intro i hi h
    exact forwarded_rvalue (hcp i hi).1 h
  obtain ⟨b3, m3, d0, d1, d2, _, d4, d5, _, d7, _⟩ := bindAll_spec T (S.order.map (fun i => ⟨i, f.params i, forwarded (S.params i), b i⟩)) b m2
    (by intro e he; obtain ⟨i, hi, rfl⟩ := List.mem_map.mp he; exact hf i ((hmem i).mp hi))
    (by rw [List.map_map]; simpa [Function.comp_def] using hS.1)
    (by
      intro e he j hj; obtain ⟨i, hi, rfl⟩ := List.mem_map.mp he
      have hi := (hmem i).mp hi
      by_cases hp : S.params i = .value
      · obtain ⟨j', e1, _, e3, _⟩ := hbv i hi hp
        simp only [e1] at hj; injection hj with hj; omega
      · simp only [hbr i hi hp] at hj; cases hj)
    (pairwise_map hS _ _ (fun i hi j hj hij h e => hij (hbi i hi j hj (hfw i hi h.2) e)))
  have d7' : ∀ r, Valid m2 r → (∀ i < S.k, f.params i = .value → S.params i = .value → b i ≠ r) → m3.get r = m2.get r := by
    intro r hr h
    refine d7 r hr ?_
    intro e he hmv; obtain ⟨i, hi, rfl⟩ := List.mem_map.mp he
    have hi := (hmem i).mp hi
    exact h i hi hmv.1 (hfw i hi hmv.2)
  have hvars : m3.vars = m.vars := by
    funext n
    have h2 := a7 (.var n) (by intro j hj; cases hj)
    have h3 := d7' (.var n) (by intro j hj; cases hj) (by
      intro i hi _ hp e
      obtain ⟨j, e1, _⟩ := hbv i hi hp
      rw [e1] at e; cases e)
    exact h3.trans h2
  have hpars : ∀ j < m.next, m3.pars j = m.pars j := by
    intro j hj
    have h2 := a7 (.par j) (by intro j' hj'; injection hj'; omega)
    have h3 := d7' (.par j) (by intro j' hj'; injection hj'; omega) (by
      intro i hi _ hp e
      obtain ⟨j', e1, e2, _⟩ := hbv i hi hp
      rw [e1] at e; injection e; omega)
    exact h3.trans h2
  have hb2 : ∀ i < S.k, Valid m2 (b i) ∧ m2.get (b i) = if S.params i = .value then start (arg i) else m.vars (arg i) := by
    intro i hi
    by_cases hp : S.params i = .value
    · obtain ⟨j, e1, e2, e3, e4⟩ := hbv i hi hp
      rw [e1, if_pos hp]
      exact ⟨by intro j' hj'; injection hj'; omega, e4⟩
    · rw [hbr i hi hp, if_neg hp]
      exact ⟨(by intro j hj; cases hj), a7 (.var _) (by intro j hj; cases hj)⟩
  have hvals : (List.range S.k).map (fun i => m3.get (b3 i)) = visible S arg start m.vars := by
    unfold visible
    apply List.map_congr_left
    intro i hi
    have hi := List.mem_range.mp hi
    rw [← (hb2 i hi).2]
    by_cases hp : f.params i = .value
    · obtain ⟨j, e1, e2, e3, e4⟩ := d5 _ (List.mem_map_of_mem ((hmem i).mpr hi)) hp
      simp only at e1
      rw [e1]; exact e4
    · have e := d4 _ (List.mem_map_of_mem ((hmem i).mpr hi)) hp
      simp only at e
      rw [e]
      apply d7' _ (hb2 i hi).1
      intro i' hi' hf' hp' e'
      have := hbi i' hi' i hi hp' e'
      subst this
      exact hp hf'
  have hcls : ∀ i ∈ List.range S.k, f.params i ≠ .clref →
      (S.params i = .lref ∧ f.params i = .lref) ∧ b3 i = .var (arg i) ∨ ¬ (S.params i = .lref ∧ f.params i = .lref) ∧ ∃ j, m.next ≤ j ∧ b3 i = .par j := by
    intro i hi hcl
    have hi := List.mem_range.mp hi
    by_cases hp : f.params i = .value
    · right
      obtain ⟨j, e1, e2, e3, e4⟩ := d5 _ (List.mem_map_of_mem ((hmem i).mpr hi)) hp
      exact ⟨by rw [hp]; simp, j, by omega, e1⟩
    · have e := d4 _ (List.mem_map_of_mem ((hmem i).mpr hi)) hp
      simp only at e
      rw [e]
      by_cases hp' : S.params i = .value
      · right
        obtain ⟨j, e1, e2, _⟩ := hbv i hi hp'
        exact ⟨by rw [hp']; simp, j, e2, e1⟩
      · left
        refine ⟨?_, hbr i hi hp'⟩
        exact both_references (hf i hi) (hcp i hi).1 hp' hp hcl
  obtain ⟨g1, g2, g3, g4⟩ := assignAll_spec S arg f b3 (f.body m3.vars ((List.range S.k).map (fun i => m3.get (b3 i)))).2 m.next (List.range S.k)
    { m3 with vars := (f.body m3.vars ((List.range S.k).map (fun i => m3.get (b3 i)))).1, calls := m3.calls ++ [(f.id, (List.range S.k).map (fun i => m3.get (b3 i)))] } hcls
  refine ⟨f.run S.k b3 m3, ?_, ⟨?_, ?_⟩, ?_, ?_⟩
  · simp only [callSlot, a0, d0, Option.bind_eq_bind, Option.bind_some]
  · show _ ≤ (assignAll _ _ _ _ _).next
    rw [g3]
    show N ≤ m3.next
    omega
  · intro i hi
    refine ⟨fun hp => ?_, (hh i hi).2⟩
    obtain ⟨j, e1, e2, e3⟩ := (hh i hi).1 hp
    refine ⟨j, e1, e2, ?_⟩
    show (assignAll _ _ _ _ _).pars j = _
    rw [g2 j (by omega)]
    show m3.pars j = _
    rw [hpars j (by omega), e3]
  · show (assignAll _ _ _ _ _).vars = _
    rw [g1]
    show reach S arg f (f.body m3.vars _).2 _ (f.body m3.vars _).1 = _
    rw [hvals, hvars]
    rfl
  · show (assignAll _ _ _ _ _).calls = _
    rw [g4]
    show m3.calls ++ _ = _
    rw [hvals, d2, a2]

private theorem callSlots_spec (T : Ty V) {S : Signature} (hS : S.Ordered) {cat : Nat → Cat} (hc : Compiles T S cat) {arg : Nat → Nat} {start : Nat → V}
    {held : Nat → Ref} {N : Nat} : ∀ (fs : List (Fun V)) (_ : ∀ f ∈ fs, Connectable T S f) {m : Mem V} (_ : Held S arg start held N m),
    ∃ m', callSlots T S held fs m = some m' ∧ m'.vars = (expected S arg start m.vars fs).2 ∧ m'.calls = m.calls ++ (expected S arg start m.vars fs).1
  | [], _, m, _ => ⟨m, rfl, rfl, by simp [expected]⟩
  | f :: fs, hf, m, hm => by
    obtain ⟨m1, h1, h2, h3, h4⟩ := callSlot_spec T hS hc (hf f (by simp)) hm
    obtain ⟨m2, h5, h6, h7⟩ := callSlots_spec T hS hc fs (fun f hf' => hf f (by simp [hf'])) h2
    refine ⟨m2, ?_, ?_, ?_⟩
    · simp only [callSlots, h1, Option.bind_eq_bind, Option.bind_some, h5]
    · rw [h6, h3]; rfl
    · rw [h7, h4, h3]; simp [expected]

/-- C169: every slot of a signal with any number of parameters is called once, in order, and gets all arguments, each at its place: for parameters by value the values that the arguments had when
the signal was emitted, whatever the slots before it did to their parameters or to the variables; for references the variables themselves. This does not depend on the order in which the compiler
initialises parameters, as long as no variable is given with `std::move` and a second time. -/
theorem C169_slots_partial (T : Ty V) {S : Signature} (hS : S.Ordered) {cat : Nat → Cat} (hc : Compiles T S cat) {arg : Nat → Nat} (hm : MovedOnce S cat arg) (fs : List (Fun V))
    (hf : ∀ f ∈ fs, Connectable T S f) (m : Mem V) :
    ∃ m', emission T S cat arg fs m = some m' ∧ m'.calls = m.calls ++ (expected S arg m.vars (passed T S cat arg m.vars) fs).1 ∧
      m'.vars = (expected S arg m.vars (passed T S cat arg m.vars) fs).2 := by
  have hmem : ∀ i, i ∈ S.order ↔ i < S.k := hS.2
  obtain ⟨held, m1, a0, a1, a2, _, a4, a5, a6, a7, a8⟩ := bindAll_spec T (S.order.map (fun i => ⟨i, S.params i, cat i, .var (arg i)⟩)) (fun i => .var (arg i)) m
    (by
      intro e he; obtain ⟨i, hi, rfl⟩ := List.mem_map.mp he
      have := hc i ((hmem i).mp hi)
      simp only [emissionCompiles, Bool.and_eq_true] at this
      exact this.1)
    (by rw [List.map_map]; simpa [Function.comp_def] using hS.1)
    (by intro e he j hj; obtain ⟨i, hi, rfl⟩ := List.mem_map.mp he; cases hj)
    (pairwise_map hS _ _ (fun i hi j hj hij h e => by injection e with e; exact hm i hi j hj hij h.1 h.2 e))
  have hvars : m1.vars = passed T S cat arg m.vars := by
    funext n
    unfold passed
    split
    · rename_i h
      rw [List.any_eq_true] at h
      obtain ⟨i, hi, h⟩ := h
      obtain ⟨h1, h2, rfl⟩ := of_decide_eq_true h
      exact a8 _ (List.mem_map_of_mem ((hmem i).mpr (List.mem_range.mp hi))) ⟨h1, h2⟩
    · rename_i h
      refine a7 (.var n) (by intro j hj; cases hj) ?_
      intro e he hmv e'
      obtain ⟨i, hi, rfl⟩ := List.mem_map.mp he
      injection e' with e'
      apply h
      rw [List.any_eq_true]
      exact ⟨i, List.mem_range.mpr ((hmem i).mp hi), decide_eq_true ⟨hmv.1, hmv.2, e'⟩⟩
  have hheld : Held S arg m.vars held m1.next m1 := by
    refine ⟨Nat.le_refl _, fun i hi => ⟨fun hp => ?_, fun hp => a4 _ (List.mem_map_of_mem ((hmem i).mpr hi)) hp⟩⟩
    obtain ⟨j, e1, _, e3, e4⟩ := a5 _ (List.mem_map_of_mem ((hmem i).mpr hi)) hp
    exact ⟨j, e3, e1, e4⟩
  obtain ⟨m', h1, h2, h3⟩ := callSlots_spec T hS hc fs hf hheld
  refine ⟨m', ?_, ?_, ?_⟩
  · simp only [emission, a0, Option.bind_eq_bind, Option.bind_some, h1]
  · rw [h3, a2, hvars]
  · rw [h2, hvars]

private theorem expected_values {S : Signature} (hp : ∀ i < S.k, S.params i = .value) (arg : Nat → Nat) (start : Nat → V) : ∀ (fs : List (Fun V)) (now : Nat → V),
    (expected S arg start now fs).1 = fs.map (fun f => (f.id, (List.range S.k).map (fun i => start (arg i))))
  | [], _ => rfl
  | f :: fs, now => by
    have hv : visible S arg start now = (List.range S.k).map (fun i => start (arg i)) := by
      unfold visible
      apply List.map_congr_left
      intro i hi
      rw [if_pos (hp i (List.mem_range.mp hi))]
    rw [expected, List.map_cons, ← expected_values hp arg start fs (after S arg start now f), hv]

/-- C169: with parameters by value only, all slots get the same values: those of the arguments when the signal was emitted. -/
theorem C169_values_partial (T : Ty V) {S : Signature} (hS : S.Ordered) (hp : ∀ i < S.k, S.params i = .value) (hT : T.copyable = true) {cat : Nat → Cat} {arg : Nat → Nat} (hm : MovedOnce S cat arg)
    (fs : List (Fun V)) (hf : ∀ f ∈ fs, Connectable T S f) (m : Mem V) :
    ∃ m', emission T S cat arg fs m = some m' ∧ m'.calls = m.calls ++ fs.map (fun f => (f.id, (List.range S.k).map (fun i => m.vars (arg i)))) := by
  have hc : Compiles T S cat := by
    intro i hi
    rw [hp i hi, emissionCompiles]
    cases cat i <;> simp [binds, named, hT]
  obtain ⟨m', h1, h2, _⟩ := C169_slots_partial T hS hc hm fs hf m
  exact ⟨m', h1, by rw [h2, expected_values hp]⟩

/-- C169: but `signal(std::move(x), x)` depends on the compiler: if it initialises the parameters from the left to the right, every slot gets a moved-from second argument, in the other order the value. -/
theorem C169_moved_twice_violated (T : Ty V) (hT : T.copyable = true) (fs : List (Fun V)) (hf : ∀ f ∈ fs, ∀ i < 2, binds T (f.params i) .rvalue = true) (n : Nat) (m : Mem V) :
    let cat : Nat → Cat := fun i => if i = 0 then .rvalue else .lvalue
    (∃ m', emission T ⟨2, fun _ => .value, [0, 1]⟩ cat (fun _ => n) fs m = some m' ∧ m'.calls = m.calls ++ fs.map (fun f => (f.id, [m.vars n, T.movedFrom (m.vars n)]))) ∧
    (∃ m', emission T ⟨2, fun _ => .value, [1, 0]⟩ cat (fun _ => n) fs m = some m' ∧ m'.calls = m.calls ++ fs.map (fun f => (f.id, [m.vars n, m.vars n]))) := by
  intro cat
  have hc : ∀ o, Compiles T ⟨2, fun _ => .value, o⟩ cat := by
    intro o i hi
    simp only [emissionCompiles]
    cases cat i <;> simp [binds, named, hT]
  have key : ∀ (o : List Nat) (ho : (⟨2, fun _ => .value, o⟩ : Signature).Ordered) (held : Nat → Ref) (m1 : Mem V) (start : Nat → V), m1.calls = m.calls →
      bindAll T (o.map (fun i => ⟨i, .value, cat i, .var n⟩)) (fun _ => .var n) m = some (held, m1) → (∀ i < 2, ∃ j < m1.next, held i = .par j ∧ m1.pars j = start i) →
      ∃ m', emission T ⟨2, fun _ => .value, o⟩ cat (fun _ => n) fs m = some m' ∧ m'.calls = m.calls ++ fs.map (fun f => (f.id, [start 0, start 1])) := by
    intro o ho held m1 start hcalls hb hh
    obtain ⟨m', h1, _, h3⟩ := callSlots_spec T ho (hc o) (arg := id) (start := start) (held := held) (N := m1.next) fs (fun f hf' i hi => hf f hf' i hi) (m := m1)
      ⟨Nat.le_refl _, fun i hi => ⟨fun _ => hh i hi, fun h => absurd rfl h⟩⟩
    refine ⟨m', ?_, ?_⟩
    · simp only [emission, hb, Option.bind_eq_bind, Option.bind_some, h1]
    · rw [h3, expected_values (fun i _ => rfl), hcalls]; rfl
  refine ⟨?_, ?_⟩
  · refine key [0, 1] ⟨by decide, by intro i; simp; omega⟩ _ _ (fun i => if i = 0 then m.vars n else T.movedFrom (m.vars n)) ?_ (by simp [bindAll, binds, hT, cat]; exact ⟨rfl, rfl⟩) ?_
    · rfl
    · intro i hi
      obtain rfl | rfl : i = 0 ∨ i = 1 := by omega
      · exact ⟨m.next, by simp [construct, Mem.set]; omega, by simp [construct, Mem.set], by simp [construct, Mem.set, Mem.get]⟩
      · exact ⟨m.next + 1, by simp [construct, Mem.set], by simp [construct, Mem.set], by simp [construct, Mem.set, Mem.get]⟩
  · refine key [1, 0] ⟨by decide, by intro i; simp; omega⟩ _ _ (fun _ => m.vars n) ?_ (by simp [bindAll, binds, hT, cat]; exact ⟨rfl, rfl⟩) ?_
    · rfl
    · intro i hi
      obtain rfl | rfl : i = 0 ∨ i = 1 := by omega
      · exact ⟨m.next + 1, by simp [construct, Mem.set], by simp [construct, Mem.set], by simp [construct, Mem.set, Mem.get]⟩
      · exact ⟨m.next, by simp [construct, Mem.set]; omega, by simp [construct], by simp [construct, Mem.set, Mem.get]⟩

private theorem assignAll_reachRef (S : Signature) (arg : Nat → Nat) (f : Fun V) (b : Nat → Ref) (w : Nat → Option V) : ∀ (is : List Nat) (m : Mem V),
    (∀ i ∈ is, (S.params i ≠ .value ∧ f.params i ≠ .value → b i = .var (arg i)) ∧ (¬ (S.params i ≠ .value ∧ f.params i ≠ .value) → ∃ j, b i = .par j)) →
    (assignAll f.params b w is m).vars = reachRef S arg f w is m.vars
  | [], _, _ => rfl
  | i :: is, m, h => by
    rw [assignAll, assignAll_reachRef S arg f b w is _ (fun i' hi' => h i' (List.mem_cons_of_mem _ hi')), reachRef]
    congr 1
    obtain ⟨h1, h2⟩ := h i List.mem_cons_self
    cases w i with
    | none => rfl
    | some v =>
      show (if f.params i = .clref then m else m.set (b i) v).vars = if _ then _ else _
      by_cases hv : S.params i ≠ .value ∧ f.params i ≠ .value
      · rw [h1 hv]
        cases hp : f.params i <;> simp_all [Mem.set] <;> rfl
      · obtain ⟨j, e⟩ := h2 hv
        rw [e]
        cases hp : f.params i <;> simp_all [Mem.set]

/-- C170: a `FunctionRef` with any number of parameters: the function gets all arguments, each at its place, with the values they have; variables are moved from exactly where `std::move` was written
and a parameter by value takes them over; what the function assigns to its parameters reaches the variables where both signatures have references.  Missing: a variable that is moved from and given a second time (`C170_moved_twice_violated`). -/
theorem C170_values_partial (T : Ty V) {S : Signature} (hS : S.Ordered) (f : Fun V) (hf : Connectable T S f) {cat : Nat → Cat} (hc : ∀ i < S.k, binds T (S.params i) (cat i) = true) {arg : Nat → Nat}
    (hm : ∀ i < S.k, ∀ j < S.k, i ≠ j → MovedBy S f cat i → arg i ≠ arg j) (m : Mem V) :
    ∃ m', throughRef T S f cat arg m = some m' ∧ m'.calls = m.calls ++ [(f.id, (List.range S.k).map (fun i => m.vars (arg i)))] ∧
      (let x := f.body (handedOver T S f cat arg m.vars) ((List.range S.k).map (fun i => m.vars (arg i)))
       m'.vars = reachRef S arg f x.2 (List.range S.k) x.1) := by
  have hmem : ∀ i, i ∈ S.order ↔ i < S.k := hS.2
  have hvv : ∀ (m : Mem V) n, Valid m (.var n) := fun m n j hj => by cases hj
  obtain ⟨b, m2, a0, a1, a2, _, a4, a5, a6, a7, a8⟩ := bindAll_spec T (S.order.map (fun i => ⟨i, S.params i, cat i, .var (arg i)⟩)) (fun i => .var (arg i)) m
    (by intro e he; obtain ⟨i, hi, rfl⟩ := List.mem_map.mp he; exact hc i ((hmem i).mp hi))
    (by rw [List.map_map]; simpa [Function.comp_def] using hS.1)
    (by intro e he; obtain ⟨i, hi, rfl⟩ := List.mem_map.mp he; exact hvv _ _)
    (pairwise_map hS _ _ (fun i hi j hj hij h e => by injection e with e; exact hm i hi j hj hij (.inl h) e))
  have hbv : ∀ i < S.k, S.params i = .value → ∃ j, b i = .par j ∧ j < m2.next ∧ m2.pars j = m.vars (arg i) := by
    intro i hi hp
    obtain ⟨j, e1, _, e3, e4⟩ := a5 _ (List.mem_map_of_mem ((hmem i).mpr hi)) hp
    exact ⟨j, e1, e3, e4⟩
  have hbr : ∀ i < S.k, S.params i ≠ .value → b i = .var (arg i) := fun i hi hp => a4 _ (List.mem_map_of_mem ((hmem i).mpr hi)) hp
  have hvb : ∀ i < S.k, Valid m2 (b i) := by
    intro i hi
    by_cases hp : S.params i = .value
    · obtain ⟨j, e1, e3, _⟩ := hbv i hi hp
      rw [e1]; intro j' hj'; injection hj'; omega
    · rw [hbr i hi hp]; exact hvv _ _
  have hfw : ∀ i, forwarded (S.params i) = .rvalue → S.params i = .value ∨ S.params i = .rref := by
    intro i h
    cases hp : S.params i <;> simp [hp, forwarded] at h ⊢
  /- an object moved from by the second initialisation is at no other position -/
  have hmv : ∀ i < S.k, ∀ j < S.k, i ≠ j → f.params i = .value → forwarded (S.params i) = .rvalue → b i ≠ b j := by
    intro i hi j hj hij h1 h2 e
    rcases hfw i h2 with hp | hp
    · by_cases hp' : S.params j = .value
      · exact hij (a6 _ (List.mem_map_of_mem ((hmem i).mpr hi)) _ (List.mem_map_of_mem ((hmem j).mpr hj)) hp hp' e)
      · obtain ⟨j', e1, _⟩ := hbv i hi hp
        rw [e1, hbr j hj hp'] at e; cases e
    · have e1 := hbr i hi (by rw [hp]; decide)
      by_cases hp' : S.params j = .value
      · obtain ⟨j', e2, _⟩ := hbv j hj hp'
        rw [e1, e2] at e; cases e
      · rw [e1, hbr j hj hp'] at e
        injection e with e
        exact hm i hi j hj hij (.inr ⟨hp, h1⟩) e
  obtain ⟨b3, m3, d0, d1, d2, _, d4, d5, _, d7, d8⟩ := bindAll_spec T (S.order.map (fun i => ⟨i, f.params i, forwarded (S.params i), b i⟩)) b m2
    (by intro e he; obtain ⟨i, hi, rfl⟩ := List.mem_map.mp he; exact hf i ((hmem i).mp hi))
    (by rw [List.map_map]; simpa [Function.comp_def] using hS.1)
    (by intro e he; obtain ⟨i, hi, rfl⟩ := List.mem_map.mp he; exact hvb i ((hmem i).mp hi))
    (pairwise_map hS _ _ (fun i hi j hj hij h => hmv i hi j hj hij h.1 h.2))
  have hb2 : ∀ i < S.k, m2.get (b i) = m.vars (arg i) := by
    intro i hi
    by_cases hp : S.params i = .value
    · obtain ⟨j, e1, _, e4⟩ := hbv i hi hp
      rw [e1]; exact e4
    · rw [hbr i hi hp]
      refine a7 _ (hvv _ _) ?_
      intro e he h; obtain ⟨i', hi', rfl⟩ := List.mem_map.mp he
      intro e; injection e with e
      have hne : i' ≠ i := by rintro rfl; exact hp h.1
      exact hm i' ((hmem i').mp hi') i hi hne (.inl h) e
  have hvals : (List.range S.k).map (fun i => m3.get (b3 i)) = (List.range S.k).map (fun i => m.vars (arg i)) := by
    apply List.map_congr_left
    intro i hi
    have hi := List.mem_range.mp hi
    rw [← hb2 i hi]
    by_cases hp : f.params i = .value
    · obtain ⟨j, e1, _, _, e4⟩ := d5 _ (List.mem_map_of_mem ((hmem i).mpr hi)) hp
      simp only at e1
      rw [e1]; exact e4
    · have e := d4 _ (List.mem_map_of_mem ((hmem i).mpr hi)) hp
      simp only at e
      rw [e]
      refine d7 _ (hvb i hi) ?_
      intro e' he' h; obtain ⟨i', hi', rfl⟩ := List.mem_map.mp he'
      exact hmv i' ((hmem i').mp hi') i hi (by rintro rfl; exact hp h.1) h.1 h.2
  have hvars : m3.vars = handedOver T S f cat arg m.vars := by
    funext n
    unfold handedOver
    split
    · rename_i h
      rw [List.any_eq_true] at h
      obtain ⟨i, hi, h⟩ := h
      obtain ⟨h1, rfl⟩ := of_decide_eq_true h
      have hi := List.mem_range.mp hi
      rcases h1 with ⟨h1, h2⟩ | ⟨h1, h2⟩
      · refine (d7 (.var (arg i)) (hvv _ _) ?_).trans (a8 _ (List.mem_map_of_mem ((hmem i).mpr hi)) ⟨h1, h2⟩)
        intro e' he' h' e; obtain ⟨i', hi', rfl⟩ := List.mem_map.mp he'
        have hi' := (hmem i').mp hi'
        rcases hfw i' h'.2 with hp | hp
        · obtain ⟨j, e1, _⟩ := hbv i' hi' hp
          simp only [e1] at e; cases e
        · simp only [hbr i' hi' (by rw [hp]; decide)] at e
          injection e with e
          exact hm i hi i' hi' (by rintro rfl; rw [hp] at h1; cases h1) (.inl ⟨h1, h2⟩) e.symm
      · have e := hbr i hi (by rw [h1]; decide)
        have := d8 _ (List.mem_map_of_mem ((hmem i).mpr hi)) ⟨h2, by simp only [h1]; rfl⟩
        simp only [hb2 i hi] at this
        rw [e] at this
        exact this
    · rename_i h
      have hno : ∀ i < S.k, MovedBy S f cat i → arg i ≠ n := by
        intro i hi hmv e
        apply h
        rw [List.any_eq_true]
        exact ⟨i, List.mem_range.mpr hi, decide_eq_true ⟨hmv, e⟩⟩
      refine (d7 (.var n) (hvv _ _) ?_).trans (a7 (.var n) (hvv _ _) ?_)
      · intro e' he' h' e; obtain ⟨i', hi', rfl⟩ := List.mem_map.mp he'
        have hi' := (hmem i').mp hi'
        rcases hfw i' h'.2 with hp | hp
        · obtain ⟨j, e1, _⟩ := hbv i' hi' hp
          simp only [e1] at e; cases e
        · simp only [hbr i' hi' (by rw [hp]; decide)] at e
          injection e with e
          exact hno i' hi' (.inr ⟨hp, h'.1⟩) e
      · intro e' he' h' e; obtain ⟨i', hi', rfl⟩ := List.mem_map.mp he'
        injection e with e
        exact hno i' ((hmem i').mp hi') (.inl h') e
  refine ⟨f.run S.k b3 m3, ?_, ?_, ?_⟩
  · simp only [throughRef, a0, d0, Option.bind_eq_bind, Option.bind_some]
  · have h : ∀ (w : Nat → Option V) (is : List Nat) (m : Mem V), (assignAll f.params b3 w is m).calls = m.calls := by
      intro w is
      induction is with
      | nil => intro m; rfl
      | cons i is ih =>
        intro m
        rw [assignAll, ih]
        cases w i with
        | none => rfl
        | some v =>
          show (if _ then m else m.set (b3 i) v).calls = _
          split
          · rfl
          · exact (next_set m _ v).2
    show (assignAll _ _ _ _ _).calls = _
    rw [h]
    show m3.calls ++ _ = _
    rw [hvals, d2, a2]
  · show (assignAll _ _ _ _ _).vars = _
    rw [assignAll_reachRef S arg]
    · show reachRef S arg f (f.body m3.vars _).2 _ (f.body m3.vars _).1 = _
      rw [hvals, hvars]
    · intro i hi
      have hi := List.mem_range.mp hi
      constructor
      · rintro ⟨hp, hq⟩
        have e := d4 _ (List.mem_map_of_mem ((hmem i).mpr hi)) hq
        simp only at e
        rw [e, hbr i hi hp]
      · intro hn
        by_cases hq : f.params i = .value
        · obtain ⟨j, e1, _⟩ := d5 _ (List.mem_map_of_mem ((hmem i).mpr hi)) hq
          exact ⟨j, e1⟩
        · have hp : S.params i = .value := by
            by_cases hp : S.params i = .value
            · exact hp
            · exact absurd ⟨hp, hq⟩ hn
          obtain ⟨j, e1, _⟩ := hbv i hi hp
          have e := d4 _ (List.mem_map_of_mem ((hmem i).mpr hi)) hq
          simp only at e
          exact ⟨j, by rw [e, e1]⟩

private theorem assignAll_calls (params : Nat → Param) (b : Nat → Ref) (w : Nat → Option V) : ∀ (is : List Nat) (m : Mem V), (assignAll params b w is m).calls = m.calls
  | [], _ => rfl
  | i :: is, m => by
    rw [assignAll, assignAll_calls params b w is]
    cases w i with
    | none => rfl
    | some v =>
      show (if _ then m else m.set (b i) v).calls = _
      split
      · rfl
      · exact (next_set m _ v).2

/-- C170: but with `FunctionRef<void(T, const T&)>` made from a function `(T&&, const T&)`, the call `ref(std::move(x), x)` gives it a moved-from second argument, in both orders of
initialisation; the function itself called like this gets the value twice. -/
theorem C170_moved_twice_violated (T : Ty V) (f : Fun V) (h0 : f.params 0 = .rref) (h1 : f.params 1 = .clref) (o : List Nat) (ho : o = [0, 1] ∨ o = [1, 0]) (n : Nat) (m : Mem V) :
    let S : Signature := ⟨2, fun i => if i = 0 then .value else .clref, o⟩
    let cat : Nat → Cat := fun i => if i = 0 then .rvalue else .lvalue
    (∃ m', throughRef T S f cat (fun _ => n) m = some m' ∧ m'.calls = m.calls ++ [(f.id, [m.vars n, T.movedFrom (m.vars n)])]) ∧
    (∃ m', direct T S f cat (fun _ => n) m = some m' ∧ m'.calls = m.calls ++ [(f.id, [m.vars n, m.vars n])]) := by
  rcases ho with rfl | rfl
  · constructor
    · refine ⟨_, by simp [throughRef, bindAll, binds, forwarded, h0, h1]; rfl, ?_⟩
      simp [Fun.run, assignAll_calls, construct, Mem.get, Mem.set, List.range_succ]
    · refine ⟨_, by simp [direct, bindAll, binds, h0, h1]; rfl, ?_⟩
      simp [Fun.run, assignAll_calls, Mem.get, List.range_succ]
  · constructor
    · refine ⟨_, by simp [throughRef, bindAll, binds, forwarded, h0, h1]; rfl, ?_⟩
      simp [Fun.run, assignAll_calls, construct, Mem.get, Mem.set, List.range_succ]
    · refine ⟨_, by simp [direct, bindAll, binds, h0, h1]; rfl, ?_⟩
      simp [Fun.run, assignAll_calls, Mem.get, List.range_succ]

/-- A type, and a signal with a parameter by value, a reference and a reference to a constant, given two different variables, one of them twice. -/
def text : Ty Nat := ⟨true, fun _ => 0⟩
def signal : Signature := ⟨3, fun i => if i = 0 then .value else if i = 1 then .lref else .clref, [2, 0, 1]⟩

example : signal.Ordered := ⟨by decide, by intro i; simp [signal]; omega⟩
example : Compiles text signal (fun i => if i = 0 then .rvalue else .lvalue) := by unfold Compiles; decide
example : MovedOnce signal (fun i => if i = 0 then .rvalue else .lvalue) (fun i => if i = 0 then 7 else 8) := by
  intro i _ j _ hij _ hc
  by_cases h : i = 0 <;> simp_all
  omega
/-- A slot that takes the first by value, and changes the second. -/
def slot : Fun Nat := ⟨5, fun i => if i = 0 then .value else if i = 1 then .lref else .clref, fun g _ => (g, fun i => if i < 2 then some 100 else none)⟩
example : Connectable text signal slot := by unfold Connectable; decide
example : expected signal (fun i => if i = 0 then 7 else 8) (fun n => n) (fun n => n) [slot, slot] =
    ([(5, [7, 8, 8]), (5, [7, 100, 100])], (expected signal (fun i => if i = 0 then 7 else 8) (fun n => n) (fun n => n) [slot, slot]).2) := rfl

/-- Through a `FunctionRef`: a moved string by value, and one variable for both references. -/
example : ∃ m', throughRef text signal ⟨5, slot.params, fun g vs => (assign g 9 (vs.headD 0), fun i => if i = 1 then some 3 else none)⟩ (fun i => if i = 0 then .rvalue else .lvalue) (fun i => if i = 0 then 7 else 8)
      ⟨fun n => n, fun _ => 0, 0, []⟩ = some m' ∧ m'.calls = [(5, [7, 8, 8])] ∧ m'.vars 7 = 0 ∧ m'.vars 8 = 3 ∧ m'.vars 9 = 7 := by
  obtain ⟨m', h1, h2, h3⟩ := C170_values_partial text (S := signal) ⟨by decide, by intro i; simp [signal]; omega⟩ ⟨5, slot.params, fun g vs => (assign g 9 (vs.headD 0), fun i => if i = 1 then some 3 else none)⟩
    (by unfold Connectable; decide) (cat := fun i => if i = 0 then .rvalue else .lvalue) (by decide) (arg := fun i => if i = 0 then 7 else 8)
    (by
      intro i hi j hj hij hm
      by_cases h : i = 0
      · by_cases h' : j = 0
        · omega
        · simp [h, h']
      · exfalso
        rcases hm with ⟨_, h2⟩ | ⟨h2, _⟩
        · simp [h] at h2
        · simp only [signal, h, if_false] at h2; split at h2 <;> cases h2)
    ⟨fun n => n, fun _ => 0, 0, []⟩
  refine ⟨m', h1, h2, ?_⟩
  rw [h3]
  exact ⟨rfl, rfl, rfl⟩

end Verif.Args.Many
