import Verif.MemoryPool.ModelOwn
import Verif.MemoryPool.LemmasIter

/-! # Lemmas about memory pools of objects that own entries -/

namespace Verif.MemoryPool
open Verif.Cpp Verif.Bitset

variable {α : Type} {owns : α → List Nat}

/-! ### Trees -/

/-- The hypotheses of `Forest`, with the levels given. -/
structure Ranked (owns : α → List Nat) (m : Nat → Option α) (rank : Nat → Nat) : Prop where
  object : ∀ i j, Owns owns m i j → ∃ v, m j = some v
  once : ∀ i j k, Owns owns m i k → Owns owns m j k → i = j
  nodup : ∀ i v, m i = some v → (owns v).Nodup
  rank : ∀ i j, Owns owns m i j → rank j < rank i

theorem Owns.mono {m m' : Nat → Option α} (h : ∀ i v, m' i = some v → m i = some v) {i j : Nat} (ho : Owns owns m' i j) : Owns owns m i j := by
  obtain ⟨v, hv, hj⟩ := ho
  exact ⟨v, h i v hv, hj⟩

theorem Below.mono {m m' : Nat → Option α} (h : ∀ i v, m' i = some v → m i = some v) {i j : Nat} (ho : Below owns m' i j) : Below owns m i j := by
  induction ho with
  | refl => exact .refl
  | step _ h2 ih => exact .step ih (h2.mono h)

theorem Below.trans {m : Nat → Option α} {i j k : Nat} (h1 : Below owns m i j) (h2 : Below owns m j k) : Below owns m i k := by
  induction h2 with
  | refl => exact h1
  | step _ h ih => exact .step ih h

theorem Below.head {m : Nat → Option α} {i k : Nat} (h : Below owns m i k) : i = k ∨ ∃ j, Owns owns m i j ∧ Below owns m j k := by
  induction h with
  | refl => exact .inl rfl
  | @step x y _ h2 ih =>
    right
    cases ih with
    | inl e => subst e; exact ⟨_, h2, .refl⟩
    | inr hj =>
      obtain ⟨j, j1, j2⟩ := hj
      exact ⟨j, j1, .step j2 h2⟩

theorem Below.rank_le {m : Nat → Option α} {rank : Nat → Nat} (h : ∀ i j, Owns owns m i j → rank j < rank i) {i k : Nat} (hb : Below owns m i k) :
    rank k ≤ rank i := by
  induction hb with
  | refl => exact Nat.le_refl _
  | step _ h2 ih => exact Nat.le_trans (Nat.le_of_lt (h _ _ h2)) ih

/-- Trees of different roots have nothing in common. -/
theorem disjoint {m : Nat → Option α} (honce : ∀ i j k, Owns owns m i k → Owns owns m j k → i = j) {c d : Nat} (hc : Root owns m c) (hd : Root owns m d) (hcd : c ≠ d) {x : Nat}
    (h1 : Below owns m c x) : ¬ Below owns m d x := by
  induction h1 with
  | refl =>
    intro h2
    cases h2 with
    | refl => exact hcd rfl
    | step _ h => exact hc _ h
  | step _ h ih =>
    intro h2
    cases h2 with
    | refl => exact hd _ h
    | step h3 h4 =>
      rw [honce _ _ _ h4 h] at h3
      exact ih h3

open Classical in
/-- The entries that satisfy `P` are taken out. -/
noncomputable def Abs.without (a : Abs α) (P : Nat → Prop) : Abs α := ⟨fun i => if P i then none else a.entries i, a.bases⟩

theorem Abs.without_pos (a : Abs α) {P : Nat → Prop} {i : Nat} (h : P i) : (a.without P).entries i = none := if_pos h

theorem Abs.without_neg (a : Abs α) {P : Nat → Prop} {i : Nat} (h : ¬ P i) : (a.without P).entries i = a.entries i := if_neg h

theorem Abs.ext' {a b : Abs α} (h : ∀ i, a.entries i = b.entries i) (hb : a.bases = b.bases) : a = b := by
  cases a
  cases b
  simp only [Abs.mk.injEq]
  exact ⟨funext h, hb⟩

theorem Abs.set_same (a : Abs α) (i : Nat) (x : Option (Option α)) : (a.set i x).entries i = x := if_pos rfl

theorem Abs.set_other (a : Abs α) (i : Nat) (x : Option (Option α)) {j : Nat} (h : j ≠ i) : (a.set i x).entries j = a.entries j := if_neg h

theorem Abs.without_object (a : Abs α) (P : Nat → Prop) {i : Nat} {v : α} : (a.without P).object i = some v ↔ ¬ P i ∧ a.object i = some v := by
  simp only [Abs.without, Abs.object]
  split
  · simp [*]
  · simp [*]

theorem Abs.without_congr (a : Abs α) {P Q : Nat → Prop} (h : ∀ i, P i ↔ Q i) : a.without P = a.without Q := by
  have : P = Q := funext fun i => propext (h i)
  rw [this]

theorem Abs.without_without (a : Abs α) (P Q : Nat → Prop) : (a.without P).without Q = a.without (fun i => P i ∨ Q i) := by
  simp only [Abs.without, Abs.mk.injEq, and_true]
  funext i
  by_cases h1 : P i <;> by_cases h2 : Q i <;> simp [h1, h2]

theorem Abs.without_none (a : Abs α) : a.without (fun _ => False) = a := by
  simp [Abs.without]

/-- A tree is taken out. -/
theorem Ranked.without {a : Abs α} {rank : Nat → Nat} (h : Ranked owns a.object rank) {c : Nat} (hc : Root owns a.object c) :
    Ranked owns (a.without (Below owns a.object c)).object rank := by
  have hm : ∀ i v, (a.without (Below owns a.object c)).object i = some v → a.object i = some v := fun i v hi => ((Abs.without_object a _).mp hi).2
  refine ⟨?_, ?_, ?_, ?_⟩
  · intro i j hij
    have ho := hij.mono hm
    obtain ⟨w, hw⟩ := h.object i j ho
    refine ⟨w, (Abs.without_object a _).mpr ⟨?_, hw⟩⟩
    intro hb
    obtain ⟨v, hv, _⟩ := hij
    have hni := ((Abs.without_object a _).mp hv).1
    cases hb with
    | refl => exact hc _ ho
    | step h1 h2 =>
      rw [h.once _ _ _ h2 ho] at h1
      exact hni h1
  · intro i j k h1 h2
    exact h.once i j k (h1.mono hm) (h2.mono hm)
  · intro i v hi
    exact h.nodup i v (hm i v hi)
  · intro i j hij
    exact h.rank i j (hij.mono hm)

theorem Root.mono {m m' : Nat → Option α} (h : ∀ i v, m' i = some v → m i = some v) {i : Nat} (hr : Root owns m i) : Root owns m' i :=
  fun j hj => hr j (hj.mono h)

/-- The other trees are as before. -/
theorem below_without {a : Abs α} {rank : Nat → Nat} (h : Ranked owns a.object rank) {c d : Nat} (hc : Root owns a.object c) (hd : Root owns a.object d) (hcd : c ≠ d)
    (x : Nat) : Below owns (a.without (Below owns a.object c)).object d x ↔ Below owns a.object d x := by
  have hm : ∀ i v, (a.without (Below owns a.object c)).object i = some v → a.object i = some v := fun i v hi => ((Abs.without_object a _).mp hi).2
  constructor
  · exact fun hb => hb.mono hm
  · intro hb
    induction hb with
    | refl => exact .refl
    | @step y z h1 h2 ih =>
      refine .step ih ?_
      obtain ⟨v, hv, hj⟩ := h2
      exact ⟨v, (Abs.without_object a _).mpr ⟨fun hb => disjoint h.once hc hd hcd hb h1, hv⟩, hj⟩

/-! ### Pools whose first blocks have been reset -/

/-- The first `d` blocks of the pool hold no objects (their bits may be anything); the other blocks have the contents `a`. -/
structure RFrom (bs d : Nat) (p : Pool α) (a : Abs α) : Prop where
  size : p.blockSize = bs
  len : p.blocks.length = a.bases.length
  block : ∀ (k : Nat) (b : Block α) (base : Nat), d ≤ k → p.blocks[k]? = some b → a.bases[k]? = some base → BRepr bs base b (fun j => a.entries (k * bs + j))
  raw : ∀ (k : Nat) (b : Block α), k < d → p.blocks[k]? = some b → b.memory = Slots.mk bs (fun _ => none)
  bound : ∀ i, a.isLive i = true → d * bs ≤ i ∧ i < a.capacity bs

theorem Repr.from {bs S : Nat} {p : Pool α} {a : Abs α} (h : Repr bs S p a) : RFrom bs 0 p a :=
  ⟨h.size, h.len, fun k b base _ => h.block k b base, fun k b hk => by omega, fun i hi => ⟨by omega, h.bound i hi⟩⟩

theorem RFrom.repr {bs S : Nat} {p : Pool α} {a : Abs α} (h : RFrom bs 0 p a)
    (hap : ∀ (k k' : Nat) (x y : Nat), k ≠ k' → a.bases[k]? = some x → a.bases[k']? = some y → Abs.Apart bs S x y) : Repr bs S p a :=
  ⟨h.size, h.len, fun k b base => h.block k b base (Nat.zero_le _), fun i hi => (h.bound i hi).2, hap⟩

theorem RFrom.get {bs d : Nat} {p : Pool α} {a : Abs α} (h : RFrom bs d p a) {k : Nat} (hd : d ≤ k) (hk : k < p.blocks.length) :
    ∃ b base, p.blocks[k]? = some b ∧ rd p.blocks k = .ok b ∧ a.bases[k]? = some base ∧ BRepr bs base b (fun j => a.entries (k * bs + j)) := by
  have hk' : k < a.bases.length := by rw [← h.len]; exact hk
  exact ⟨p.blocks[k], a.bases[k], List.getElem?_eq_getElem hk, rd_ok hk, List.getElem?_eq_getElem hk',
    h.block k _ _ hd (List.getElem?_eq_getElem hk) (List.getElem?_eq_getElem hk')⟩

theorem RFrom.update {bs d : Nat} {p : Pool α} {a : Abs α} (h : RFrom bs d p a) {k l : Nat} (hd : d ≤ k) (hk : k < p.blocks.length) (hl : l < bs) {b' : Block α}
    {base : Nat} (hbase : a.bases[k]? = some base) {x : Option (Option α)}
    (hb : BRepr bs base b' (upd (fun j => a.entries (k * bs + j)) l x)) :
    RFrom bs d ⟨p.blockSize, p.blocks.set k b'⟩ (a.set (k * bs + l) x) := by
  refine ⟨h.size, by simp [h.len, Abs.set], ?_, ?_, ?_⟩
  · intro j c base' hdj h1 h2
    simp only [Abs.set] at h2
    rw [List.getElem?_set] at h1
    by_cases hj : k = j
    · subst hj
      simp only [hk, if_true, Option.some.injEq] at h1
      subst h1
      rw [hbase] at h2
      cases h2
      refine hb.congr ?_
      intro i hi
      simp only [upd, Abs.set, Nat.add_left_cancel_iff]
    · rw [if_neg hj] at h1
      refine (h.block j c base' hdj h1 h2).congr ?_
      intro i hi
      simp only [Abs.set]
      rw [if_neg]
      intro e
      exact hj (index_inj hi hl e).1.symm
  · intro j c hj h1
    rw [List.getElem?_set, if_neg (by omega)] at h1
    exact h.raw j c hj h1
  · intro i hi
    simp only [Abs.isLive, Abs.set, Abs.capacity] at hi ⊢
    by_cases e : i = k * bs + l
    · subst e
      have := Nat.mul_le_mul_right bs hd
      exact ⟨by omega, index_lt hl (by rw [← h.len]; exact hk)⟩
    · simp only [e, if_false] at hi
      exact h.bound i hi

theorem RFrom.index {bs d : Nat} {p : Pool α} {a : Abs α} (h : RFrom bs d p a) (hbs : 0 < bs) {i : Nat} (hi : a.isLive i = true) :
    d ≤ i / bs ∧ i / bs < p.blocks.length := by
  obtain ⟨h1, h2⟩ := h.bound i hi
  refine ⟨(Nat.le_div_iff_mul_le hbs).mpr h1, ?_⟩
  rw [h.len]; exact div_lt_blocks h2

theorem RFrom.pointer {bs d S : Nat} {p : Pool α} {a : Abs α} (h : RFrom bs d p a) (hbs : 0 < bs) {i : Nat} (hi : a.isLive i = true) :
    ∃ x, getAllocatedPointer S p (i / bs) (i % bs) = .ok x := by
  obtain ⟨hd, hk⟩ := h.index hbs hi
  obtain ⟨b, base, g1, g2, g3, g4⟩ := h.get hd hk
  have ht : (a.entries (i / bs * bs + i % bs)).isSome = true := by rw [index_split]; exact hi
  refine ⟨b.address S (i % bs), ?_⟩
  simp only [getAllocatedPointer, hk, decide_true, assert_true, ok_bind, g2, Has.test g4.occupied (Nat.mod_lt i hbs), ht, pure_ok]

/-- The object of an entry is read, and destroyed. -/
theorem RFrom.destroy {bs d : Nat} {p : Pool α} {a : Abs α} (h : RFrom bs d p a) (hbs : 0 < bs) {i : Nat} {v : α} (hi : a.entries i = some (some v)) :
    ∃ b q, rd p.blocks (i / bs) = .ok b ∧ Slots.read b.memory (i % bs) = .ok v ∧ onSlot p (i / bs) (i % bs) Slots.destroy = .ok q ∧
      RFrom bs d q (a.set i (some none)) := by
  have hlive : a.isLive i = true := by simp [Abs.isLive, hi]
  obtain ⟨hd, hk⟩ := h.index hbs hlive
  have hl := Nat.mod_lt i hbs
  obtain ⟨b, base, g1, g2, g3, g4⟩ := h.get hd hk
  have hsp := index_split bs i
  have := g4.slot (k := i % bs) (by simp only [hsp]; exact hlive) none
  have hu := h.update hd hk hl g3 this
  rw [hsp] at hu
  have hv : (fun j => (a.entries (i / bs * bs + j)).join) (i % bs) = some v := by simp only [hsp, hi]; rfl
  refine ⟨b, _, g2, ?_, ?_, hu⟩
  · rw [g4.memory]; exact Slots.read_mk hl hv
  · have hds := Slots.destroy_mk (f := fun j => (a.entries (i / bs * bs + j)).join) (v := v) hl hv
    simp only [onSlot, g2, ok_bind, g4.memory, hds, wr_ok hk, pure_ok]

theorem RFrom.release {bs d : Nat} {p : Pool α} {a : Abs α} (h : RFrom bs d p a) (hbs : 0 < bs) {i : Nat} (hi : a.entries i = some none) :
    ∃ q, MemoryPool.release p (i / bs) (i % bs) = .ok q ∧ RFrom bs d q (a.set i none) := by
  have hlive : a.isLive i = true := by simp [Abs.isLive, hi]
  obtain ⟨hd, hk⟩ := h.index hbs hlive
  have hl := Nat.mod_lt i hbs
  obtain ⟨b, base, g1, g2, g3, g4⟩ := h.get hd hk
  have hsp := index_split bs i
  obtain ⟨hc, f, o, ef, eo, hr⟩ := g4.release hl (by simp only [hsp]; exact hi)
  have hu := h.update hd hk hl g3 hr
  rw [hsp] at hu
  refine ⟨_, ?_, hu⟩
  simp only [MemoryPool.release, g2, ok_bind, hc, decide_true, assert_true, ef, eo, wr_ok hk, pure_ok, gt_iff_lt]

/-! ### Destruction of a tree -/

/-- What the free of a root does. -/
def FreesTree (S : Nat) (owns : α → List Nat) (rank : Nat → Nat) (bs d n : Nat) : Prop :=
  ∀ (p : Pool α) (a : Abs α) (i : Nat) (v : α), RFrom bs d p a → Ranked owns a.object rank → a.object i = some v → Root owns a.object i → rank i < n →
    ∃ q, freeO S owns n p i = .ok q ∧ RFrom bs d q (a.without (Below owns a.object i))

/-- Free of several roots. -/
theorem freeAll_ok {S bs d n : Nat} {rank : Nat → Nat} (H : FreesTree S owns rank bs d n) (cs : List Nat) {p : Pool α} {a : Abs α} (h : RFrom bs d p a)
    (hr : Ranked owns a.object rank) (hn : cs.Nodup) (hobj : ∀ c ∈ cs, (∃ v, a.object c = some v) ∧ Root owns a.object c ∧ rank c < n) :
    ∃ q, cs.foldlM (freeO S owns n) p = .ok q ∧ RFrom bs d q (a.without (fun j => ∃ c ∈ cs, Below owns a.object c j)) := by
  induction cs generalizing p a with
  | nil =>
    refine ⟨p, rfl, ?_⟩
    rw [Abs.without_congr a (Q := fun _ => False) (by simp), Abs.without_none]
    exact h
  | cons c cs ih =>
    obtain ⟨⟨v, hv⟩, hroot, hrank⟩ := hobj c List.mem_cons_self
    obtain ⟨q, e, r⟩ := H p a c v h hr hv hroot hrank
    rw [List.nodup_cons] at hn
    have hne : ∀ x ∈ cs, c ≠ x := fun x hx e => hn.1 (e ▸ hx)
    have hm : ∀ i v, (a.without (Below owns a.object c)).object i = some v → a.object i = some v := fun i v hi => ((Abs.without_object a _).mp hi).2
    obtain ⟨q', e', r'⟩ := ih r (hr.without hroot) hn.2 (by
      intro x hx
      obtain ⟨⟨w, hw⟩, hxr, hxn⟩ := hobj x (List.mem_cons_of_mem _ hx)
      refine ⟨⟨w, (Abs.without_object a _).mpr ⟨?_, hw⟩⟩, hxr.mono hm, hxn⟩
      intro hb
      exact disjoint hr.once hroot hxr (hne x hx) hb .refl)
    refine ⟨q', ?_, ?_⟩
    · rw [List.foldlM_cons, e]; exact e'
    · rw [Abs.without_without] at r'
      rw [Abs.without_congr a (Q := fun j => Below owns a.object c j ∨ ∃ x ∈ cs, Below owns (a.without (Below owns a.object c)).object x j)]
      · exact r'
      · intro j
        simp only [List.mem_cons, exists_eq_or_imp]
        constructor
        · rintro (h1 | ⟨x, hx, h1⟩)
          · exact .inl h1
          · exact .inr ⟨x, hx, (below_without hr hroot (hobj x (List.mem_cons_of_mem _ hx)).2.1 (hne x hx) j).mpr h1⟩
        · rintro (h1 | ⟨x, hx, h1⟩)
          · exact .inl h1
          · exact .inr ⟨x, hx, (below_without hr hroot (hobj x (List.mem_cons_of_mem _ hx)).2.1 (hne x hx) j).mp h1⟩

theorem object_set (a : Abs α) (i : Nat) (x : Option α) (j : Nat) : (a.set i (some x)).object j = if j = i then x else a.object j := by
  simp only [Abs.object, Abs.set]
  split <;> rfl

/-- The destruction of a root: what it owns is freed. -/
theorem destroyWith_ok {S bs d n : Nat} (hbs : 0 < bs) {rank : Nat → Nat} (H : FreesTree S owns rank bs d n) {p : Pool α} {a : Abs α} {i : Nat} {v : α} (h : RFrom bs d p a)
    (hr : Ranked owns a.object rank) (hv : a.object i = some v) (hroot : Root owns a.object i) (hrank : rank i ≤ n) :
    ∃ q, destroyWith owns (freeO S owns n) p (i / bs) (i % bs) = .ok q ∧ RFrom bs d q ((a.without (Below owns a.object i)).set i (some none)) := by
  have hi : a.entries i = some (some v) := by
    simp only [Abs.object] at hv
    cases hx : a.entries i with
    | none => rw [hx] at hv; cases hv
    | some x => rw [hx] at hv; simp only [Option.join] at hv; simpa using hv
  obtain ⟨b, q, e1, e2, e3, r⟩ := h.destroy hbs hi
  have hm : ∀ j w, (a.set i (some none)).object j = some w → a.object j = some w := by
    intro j w hj
    rw [object_set] at hj
    split at hj
    · cases hj
    · exact hj
  have hsub : ∀ j, j ≠ i → (a.set i (some none)).object j = a.object j := by
    intro j hj; rw [object_set, if_neg hj]
  have hown : ∀ x ∈ owns v, Owns owns a.object i x := fun x hx => ⟨v, hv, hx⟩
  have hxi : ∀ x ∈ owns v, x ≠ i := fun x hx e => hroot i (e ▸ hown x hx)
  have hr' : Ranked owns (a.set i (some none)).object rank := by
    refine ⟨?_, ?_, ?_, ?_⟩
    · intro x y hxy
      have ho := hxy.mono hm
      obtain ⟨w, hw⟩ := hr.object x y ho
      refine ⟨w, ?_⟩
      rw [hsub y]
      · exact hw
      · intro e
        subst e
        exact hroot _ ho
    · exact fun x y z h1 h2 => hr.once x y z (h1.mono hm) (h2.mono hm)
    · exact fun x w hx => hr.nodup x w (hm x w hx)
    · exact fun x y hxy => hr.rank x y (hxy.mono hm)
  obtain ⟨q', e', r'⟩ := freeAll_ok H (owns v) r hr' (hr.nodup i v hv) (by
    intro x hx
    obtain ⟨w, hw⟩ := hr.object i x (hown x hx)
    refine ⟨⟨w, by rw [hsub x (hxi x hx)]; exact hw⟩, ?_, ?_⟩
    · intro y hy
      have := hr.once _ _ _ (hy.mono hm) (hown x hx)
      subst this
      obtain ⟨u, hu, _⟩ := hy
      rw [object_set, if_pos rfl] at hu
      cases hu
    · have := hr.rank i x (hown x hx)
      omega)
  refine ⟨q', ?_, ?_⟩
  · simp only [destroyWith, e1, ok_bind, e2, e3, e']
  · have hbelow : ∀ j, j ≠ i → ((∃ c ∈ owns v, Below owns (a.set i (some none)).object c j) ↔ Below owns a.object i j) := by
      intro j hj
      constructor
      · rintro ⟨c, hc, hb⟩
        exact Below.trans (.step .refl (hown c hc)) (hb.mono hm)
      · intro hb
        have key : ∀ j, Below owns a.object i j → j = i ∨ ∃ c ∈ owns v, Below owns (a.set i (some none)).object c j := by
          intro j hb
          induction hb with
          | refl => exact .inl rfl
          | @step y z h1 h2 ih =>
            right
            cases ih with
            | inl e =>
              subst e
              obtain ⟨w, hw, hz⟩ := h2
              rw [hv] at hw
              cases hw
              exact ⟨z, hz, .refl⟩
            | inr hc =>
              obtain ⟨c, hc, hb⟩ := hc
              refine ⟨c, hc, .step hb ?_⟩
              obtain ⟨w, hw, hz⟩ := h2
              refine ⟨w, ?_, hz⟩
              rw [hsub]
              · exact hw
              · intro e
                subst e
                cases hb with
                | refl => exact hxi _ hc rfl
                | step _ h4 => exact hroot _ (h4.mono hm)
        cases key j hb with
        | inl e => exact absurd e hj
        | inr h => exact h
    have : (a.without (Below owns a.object i)).set i (some none) =
        (a.set i (some none)).without (fun j => ∃ c ∈ owns v, Below owns (a.set i (some none)).object c j) := by
      refine Abs.ext' (fun j => ?_) rfl
      by_cases hj : j = i
      · subst hj
        have hno : ¬ ∃ c ∈ owns v, Below owns (Abs.set a j (some none)).object c j := by
          rintro ⟨c, hc, hb⟩
          cases hb with
          | refl => exact hxi _ hc rfl
          | step _ h4 => exact hroot _ (h4.mono hm)
        rw [Abs.set_same, Abs.without_neg _ hno, Abs.set_same]
      · rw [Abs.set_other _ _ _ hj]
        by_cases hb : Below owns a.object i j
        · rw [Abs.without_pos _ hb, Abs.without_pos _ ((hbelow j hj).mpr hb)]
        · rw [Abs.without_neg _ hb, Abs.without_neg _ (fun hh => hb ((hbelow j hj).mp hh)), Abs.set_other _ _ _ hj]
    rw [this]
    exact r'

theorem freeO_ok (S bs d : Nat) (hbs : 0 < bs) (rank : Nat → Nat) (n : Nat) : FreesTree S owns rank bs d n := by
  induction n with
  | zero => intro p a i v _ _ _ _ hn; omega
  | succ n ih =>
    intro p a i v h hr hv hroot hrank
    have h0 : (bs != 0) = true := by simp; omega
    have hlive : a.isLive i = true := by
      simp only [Abs.object] at hv
      cases hx : a.entries i with
      | none => rw [hx] at hv; cases hv
      | some x => simp [Abs.isLive, hx]
    obtain ⟨x, ex⟩ := h.pointer (S := S) hbs hlive
    obtain ⟨q, e, r⟩ := destroyWith_ok hbs ih h hr hv hroot (by omega)
    obtain ⟨q', e', r'⟩ := r.release hbs (i := i) (by simp [Abs.set])
    rw [set_set] at r'
    refine ⟨q', ?_, ?_⟩
    · have hs : q.blockSize = bs := r.size
      simp only [freeO, h.size, h0, guardUB_true, ok_bind, ex, e, hs, e']
    · have : (a.without (Below owns a.object i)).set i none = a.without (Below owns a.object i) :=
        set_of_none (by simp [Abs.without, Below.refl])
      rw [this] at r'
      exact r'

/-! ### Reset -/

theorem exists_root {m : Nat → Option α} {rank : Nat → Nat} (h : ∀ i j, Owns owns m i j → rank j < rank i) {n : Nat} (hn : ∀ i, rank i ≤ n) (y : Nat) :
    ∃ r, Root owns m r ∧ Below owns m r y := by
  by_cases hr : Root owns m y
  · exact ⟨y, hr, .refl⟩
  · unfold Root at hr
    simp only [not_forall, Classical.not_not] at hr
    obtain ⟨x, hx⟩ := hr
    have := h x y hx
    have := hn x
    obtain ⟨r, h1, h2⟩ := exists_root h hn x
    exact ⟨r, h1, .step h2 hx⟩
termination_by n - rank y

theorem below_object {m : Nat → Option α} {r y : Nat} {v : α} (h : Below owns m r y) (hy : m y = some v) : ∃ w, m r = some w := by
  rcases h.head with e | ⟨j, ⟨w, hw, _⟩, _⟩
  · subst e; exact ⟨v, hy⟩
  · exact ⟨w, hw⟩

/-- The first object is a root. -/
theorem first_root {m : Nat → Option α} {rank : Nat → Nat} (h : ∀ i j, Owns owns m i j → rank j < rank i) {n : Nat} (hn : ∀ i, rank i ≤ n) (hf : RootFirst owns m)
    {i : Nat} (hi : ∀ j v, m j = some v → i ≤ j) : Root owns m i := by
  intro y hy
  obtain ⟨r, h1, h2⟩ := exists_root h hn y
  obtain ⟨v, hv, hj⟩ := hy
  obtain ⟨w, hw⟩ := below_object h2 hv
  have hle := hf r h1 i (.step h2 ⟨v, hv, hj⟩)
  have := hi r w hw
  have e : r = i := by omega
  subst e
  exact h1 y ⟨v, hv, hj⟩

theorem rootFirst_without {a : Abs α} (hf : RootFirst owns a.object) (c : Nat) :
    RootFirst owns (a.without (Below owns a.object c)).object := by
  have hm : ∀ i v, (a.without (Below owns a.object c)).object i = some v → a.object i = some v := fun i v hi => ((Abs.without_object a _).mp hi).2
  intro r hr j hj
  by_cases hrc : Below owns a.object c r
  · rcases hj.head with e | ⟨k, ⟨v, hv, _⟩, _⟩
    · omega
    · exact absurd hrc ((Abs.without_object a _).mp hv).1
  · refine hf r ?_ j (hj.mono hm)
    intro y hy
    obtain ⟨v, hv, hk⟩ := hy
    refine hr y ⟨v, (Abs.without_object a _).mpr ⟨?_, hv⟩, hk⟩
    intro hb
    exact hrc (.step hb ⟨v, hv, hk⟩)

theorem object_some {a : Abs α} {i : Nat} {v : α} : a.object i = some v ↔ a.entries i = some (some v) := by
  simp only [Abs.object]
  cases a.entries i with
  | none => simp
  | some x => simp [Option.join]

theorem object_none {a : Abs α} {i : Nat} : a.object i = none ↔ a.entries i = none ∨ a.entries i = some none := by
  simp only [Abs.object]
  cases a.entries i with
  | none => simp
  | some x => simp [Option.join]

/-- The objects that `Reset` still has to destroy when it comes to index `lo`. -/
structure Pending (owns : α → List Nat) (rank : Nat → Nat) (lo : Nat) (a : Abs α) : Prop where
  ranked : Ranked owns a.object rank
  first : RootFirst owns a.object
  before : ∀ j, j < lo → a.object j = none
  after : ∀ j, lo ≤ j → a.entries j ≠ some none

/-- One step of the loop. -/
theorem Pending.next {rank : Nat → Nat} {lo : Nat} {a : Abs α} (h : Pending owns rank lo a) :
    Pending owns rank (lo + 1) ((a.without (Below owns a.object lo)).set lo (some none)) ∨ ¬ Root owns a.object lo := by
  by_cases hroot : Root owns a.object lo
  · left
    have hobj : ((a.without (Below owns a.object lo)).set lo (some none)).object = (a.without (Below owns a.object lo)).object := by
      funext j
      rw [object_set]
      split
      · rename_i e
        subst e
        exact (object_none.mpr (.inl (Abs.without_pos a Below.refl))).symm
      · rfl
    refine ⟨?_, ?_, ?_, ?_⟩
    · rw [hobj]; exact h.ranked.without hroot
    · rw [hobj]; exact rootFirst_without h.first lo
    · intro j hj
      rw [object_set]
      split
      · rfl
      · rename_i e
        have := h.before j (by omega)
        simp only [Abs.object] at this ⊢
        by_cases hb : Below owns a.object lo j
        · rw [Abs.without_pos a hb]; rfl
        · rw [Abs.without_neg a hb]; exact this
    · intro j hj
      rw [Abs.set_other _ _ _ (by omega)]
      by_cases hb : Below owns a.object lo j
      · rw [Abs.without_pos a hb]; simp
      · rw [Abs.without_neg a hb]; exact h.after j (by omega)
  · exact .inr hroot

theorem Pending.skip {rank : Nat → Nat} {lo hi : Nat} {a : Abs α} (h : Pending owns rank lo a) (hle : lo ≤ hi) (hdead : ∀ j, lo ≤ j → j < hi → a.isLive j = false) :
    Pending owns rank hi a := by
  refine ⟨h.ranked, h.first, ?_, fun j hj => h.after j (by omega)⟩
  intro j hj
  by_cases hl : j < lo
  · exact h.before j hl
  · rw [object_none]
    exact .inl (isLive_false (hdead j (by omega) hj))

theorem destroyLoopO_ok {S bs d n : Nat} (hbs : 0 < bs) {rank : Nat → Nat} (hn : ∀ i, rank i ≤ n) (fuel : Nat) {p : Pool α} {a : Abs α} (h : RFrom bs d p a)
    (hd : d < p.blocks.length) {l : Nat} (hl : l < bs) (hlive : a.isLive (d * bs + l) = true) (hp : Pending owns rank (d * bs + l) a) (hfuel : bs - l < fuel)
    (hdepth : FreesTree S owns rank bs d n) :
    ∃ q a', destroyLoopO S owns n d fuel (some l) p = .ok q ∧ RFrom bs d q a' ∧ a'.bases = a.bases ∧ Pending owns rank ((d + 1) * bs) a' := by
  induction fuel generalizing p a l with
  | zero => omega
  | succ fuel ih =>
    obtain ⟨v, hv⟩ : ∃ v, a.object (d * bs + l) = some v := by
      cases ho : a.object (d * bs + l) with
      | some v => exact ⟨v, rfl⟩
      | none =>
        rcases object_none.mp ho with e | e
        · simp [Abs.isLive, e] at hlive
        · exact absurd e (hp.after _ (Nat.le_refl _))
    have hroot : Root owns a.object (d * bs + l) := by
      refine first_root hp.ranked.rank hn hp.first ?_
      intro j w hj
      by_cases hlt : j < d * bs + l
      · rw [hp.before j hlt] at hj; cases hj
      · omega
    obtain ⟨q, e, r⟩ := destroyWith_ok hbs hdepth h hp.ranked hv hroot (hn _)
    rw [index_div hl, index_mod hl] at e
    have hp' : Pending owns rank (d * bs + l + 1) ((a.without (Below owns a.object (d * bs + l))).set (d * bs + l) (some none)) := by
      rcases hp.next with h | h
      · exact h
      · exact absurd hroot h
    have hd' : d < q.blocks.length := by rw [r.len]; rw [h.len] at hd; exact hd
    obtain ⟨b, base, g1, g2, g3, g4⟩ := r.get (Nat.le_refl d) hd'
    obtain ⟨f, ef, f1, f2⟩ := Has.findNext g4.occupied hl
    simp only [destroyLoopO, e, ok_bind, g2, ef]
    cases f with
    | none =>
      obtain ⟨fu, rfl⟩ : ∃ fu, fuel = fu + 1 := ⟨fuel - 1, by omega⟩
      refine ⟨q, _, rfl, r, rfl, hp'.skip ?_ ?_⟩
      · rw [Nat.succ_mul]; omega
      · intro j h1 h2
        rw [Nat.succ_mul] at h2
        have := f2 rfl (j - d * bs) (by omega) (by omega)
        rw [show d * bs + (j - d * bs) = j by omega] at this
        exact this
    | some l' =>
      obtain ⟨c1, c2, c3, c4⟩ := f1 l' rfl
      obtain ⟨q', a', e', r', hb', hp''⟩ := ih r hd' c2 c3 (hp'.skip (by omega) (by
        intro j h1 h2
        have := c4 (j - d * bs) (by omega) (by omega)
        rw [show d * bs + (j - d * bs) = j by omega] at this
        exact this)) (by omega)
      exact ⟨q', a', e', r', hb', hp''⟩

/-- The blocks before `d + 1` are done. -/
theorem RFrom.advance {bs d : Nat} {p : Pool α} {a : Abs α} (h : RFrom bs d p a) {b : Block α} (hb : p.blocks[d]? = some b)
    (hm : b.memory = Slots.mk bs (fun _ => none)) : RFrom bs (d + 1) p (a.without (fun i => i < (d + 1) * bs)) := by
  refine ⟨h.size, h.len, ?_, ?_, ?_⟩
  · intro k c base hk h1 h2
    refine (h.block k c base (by omega) h1 h2).congr ?_
    intro j hj
    have hle := Nat.mul_le_mul_right bs hk
    exact (Abs.without_neg a (by omega)).symm
  · intro k c hk h1
    by_cases hkd : k = d
    · subst hkd
      rw [hb] at h1
      cases h1
      exact hm
    · exact h.raw k c (by omega) h1
  · intro i hi
    by_cases hlt : i < (d + 1) * bs
    · simp only [Abs.isLive, Abs.without_pos a (P := fun i => i < (d + 1) * bs) hlt] at hi
      cases hi
    · simp only [Abs.isLive, Abs.without_neg a (P := fun i => i < (d + 1) * bs) hlt] at hi
      exact ⟨by omega, (h.bound i hi).2⟩

theorem Pending.without {rank : Nat → Nat} {lo : Nat} {a : Abs α} (h : Pending owns rank lo a) : Pending owns rank lo (a.without (fun i => i < lo)) := by
  have hobj : (a.without (fun i => i < lo)).object = a.object := by
    funext j
    by_cases hj : j < lo
    · rw [h.before j hj]
      exact object_none.mpr (.inl (Abs.without_pos a (P := fun i => i < lo) hj))
    · simp only [Abs.object, Abs.without_neg a (P := fun i => i < lo) hj]
  refine ⟨by rw [hobj]; exact h.ranked, by rw [hobj]; exact h.first, by rw [hobj]; exact h.before, ?_⟩
  intro j hj
  rw [Abs.without_neg a (P := fun i => i < lo) (by omega)]
  exact h.after j hj

/-- The objects of one block are destroyed. -/
theorem resetBlockO_ok {S bs d n : Nat} (h2 : 2 ≤ bs) {rank : Nat → Nat} (hn : ∀ i, rank i ≤ n) {p : Pool α} {a : Abs α} (h : RFrom bs d p a)
    (hd : d < p.blocks.length) (hp : Pending owns rank (d * bs) a) :
    ∃ q a', resetBlockO S owns n d p = .ok q ∧ RFrom bs (d + 1) q a' ∧ a'.bases = a.bases ∧ Pending owns rank ((d + 1) * bs) a' := by
  have hbs : 0 < bs := by omega
  obtain ⟨b, base, g1, g2, g3, g4⟩ := h.get (Nat.le_refl d) hd
  by_cases hc : b.count = 0
  · have hdead : ∀ j, j < bs → (a.entries (d * bs + j)).isSome = false := countP_none.mp (g4.count.symm.trans hc)
    have hp' : Pending owns rank ((d + 1) * bs) a := hp.skip (Nat.mul_le_mul_right bs (by omega)) (by
      intro j h1 h3
      rw [Nat.succ_mul] at h3
      have := hdead (j - d * bs) (by omega)
      rw [show d * bs + (j - d * bs) = j by omega] at this
      exact this)
    refine ⟨p, _, ?_, h.advance g1 ?_, rfl, hp'.without⟩
    · simp only [resetBlockO, g2, ok_bind, hc, if_true, pure_ok]
    · rw [g4.memory]
      apply Slots.mk_congr
      intro j hj
      have := hdead j hj
      cases hh : a.entries (d * bs + j) <;> simp_all
  · obtain ⟨f, ef, f1, f2⟩ := Has.findFirst g4.occupied
    cases f with
    | none =>
      exact absurd (g4.count.trans (countP_none.mpr (f2 rfl))) hc
    | some l =>
      obtain ⟨c1, c2, c3⟩ := f1 l rfl
      obtain ⟨q, a', e, r, hb', hp'⟩ := destroyLoopO_ok (S := S) hbs hn (bs + 1) h hd c1 c2 (hp.skip (by omega) (by
        intro j h1 h3
        have := c3 (j - d * bs) (by omega)
        rw [show d * bs + (j - d * bs) = j by omega] at this
        exact this)) (by omega) (freeO_ok S bs d hbs rank n)
      have hd' : d < q.blocks.length := by rw [r.len, hb']; rw [h.len] at hd; exact hd
      obtain ⟨b', base', k1, k2, k3, k4⟩ := r.get (Nat.le_refl d) hd'
      obtain ⟨fr, efr, hfr⟩ := Has.set k4.free (show 1 < bs by omega) false
      obtain ⟨oc, eoc, hoc⟩ := Has.set k4.occupied hbs false
      refine ⟨⟨q.blockSize, q.blocks.set d ⟨0, b'.base, b'.memory, fr, oc⟩⟩, a'.without (fun i => i < (d + 1) * bs), ?_, ?_, hb', hp'.without⟩
      · simp only [resetBlockO, g2, ok_bind, hc, if_false, ef, g4.occupied.size, e, k2, Bitset.reset, efr, eoc, wr_ok hd', pure_ok]
      · have hraw : b'.memory = Slots.mk bs (fun _ => none) := by
          rw [k4.memory]
          apply Slots.mk_congr
          intro j hj
          exact hp'.before (d * bs + j) (by rw [Nat.succ_mul]; omega)
        have ha := r.advance k1 hraw
        refine ⟨ha.size, by simpa using ha.len, ?_, ?_, ha.bound⟩
        · intro k c base'' hk j1 j2
          simp only at j1
          rw [List.getElem?_set, if_neg (by omega)] at j1
          exact ha.block k c base'' hk j1 j2
        · intro k c hk j1
          simp only at j1
          rw [List.getElem?_set] at j1
          by_cases hkd : d = k
          · rw [if_pos hkd, if_pos hd'] at j1
            cases j1
            exact hraw
          · rw [if_neg hkd] at j1
            exact ha.raw k c hk j1

theorem destructorO_ok {S bs n : Nat} (h2 : 2 ≤ bs) {rank : Nat → Nat} (hn : ∀ i, rank i ≤ n) {p : Pool α} {a : Abs α} (h : RFrom bs 0 p a)
    (hp : Pending owns rank 0 a) : destructorO S owns n p = .ok 0 := by
  obtain ⟨q, e, a', r, hb, _⟩ := forUp_ok (lo := 0) (n := p.blocks.length) (s := p) (f := resetBlockO S owns n)
    (fun k q => ∃ a' : Abs α, RFrom bs k q a' ∧ a'.bases = a.bases ∧ Pending owns rank (k * bs) a')
    ⟨a, h, rfl, by rw [Nat.zero_mul]; exact hp⟩ (by
      rintro k q hk ⟨a', r, hb, hp⟩
      rw [Nat.zero_add]
      obtain ⟨q', a'', e, r', hb', hp'⟩ := resetBlockO_ok (S := S) h2 hn r (by rw [r.len, hb, ← h.len]; exact hk) hp
      exact ⟨q', e, a'', r', hb'.trans hb, hp'⟩)
  have hz : (q.blocks.map (fun b => b.memory.alive)).sum = 0 := by
    apply sum_zero
    intro x hx
    obtain ⟨b, hb', rfl⟩ := List.mem_map.mp hx
    obtain ⟨k, hkk, rfl⟩ := List.mem_iff_getElem.mp hb'
    rw [r.raw k _ (by rw [r.len, hb, ← h.len] at hkk; exact hkk) (List.getElem?_eq_getElem hkk)]
    exact alive_raw bs
  simp only [destructorO, resetO, e, ok_bind, pure_ok, hz]

end Verif.MemoryPool
