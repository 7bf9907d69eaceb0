import Verif.MemoryPool.Lemmas

/-!
# Counters, iteration, addresses and `Reset`
-/

namespace Verif.MemoryPool
open Verif.Cpp Verif.Bitset

variable {α : Type}

/-! ### Counters -/

theorem countP_blocks (q : Nat → Bool) (n bs : Nat) :
    (List.range (n * bs)).countP q = ((List.range n).map (fun k => (List.range bs).countP (fun j => q (k * bs + j)))).sum := by
  induction n with
  | zero => simp
  | succ n ih =>
    rw [Nat.succ_mul, List.range_add, List.countP_append, ih, List.range_succ, List.map_append, List.sum_append]
    simp only [List.map_cons, List.map_nil, List.sum_cons, List.sum_nil, Nat.add_zero, List.countP_map]
    rfl

theorem foldl_count (l : List (Block α)) (n : Nat) : l.foldl (fun n b => n + b.count) n = n + (l.map (fun b => b.count)).sum := by
  induction l generalizing n with
  | nil => simp
  | cons b l ih => simp [ih, Nat.add_assoc]

theorem live_length (bs : Nat) (a : Abs α) : (a.live bs).length = (List.range (a.capacity bs)).countP a.isLive := by
  rw [Abs.live, List.countP_eq_length_filter]

theorem allocated_repr {bs S : Nat} {p : Pool α} {a : Abs α} (h : Repr bs S p a) : getAllocatedEntryCount p = (a.live bs).length := by
  rw [getAllocatedEntryCount, foldl_count, Nat.zero_add, live_length, Abs.capacity, countP_blocks, ← h.len]
  congr 1
  apply List.ext_getElem (by simp)
  intro k h1 h2
  simp only [List.length_map] at h1
  obtain ⟨b, base, g1, _, _, g4⟩ := h.get h1
  rw [List.getElem?_eq_getElem h1] at g1
  cases g1
  simp only [List.getElem_map, List.getElem_range, g4.count]
  rfl

theorem live_le (bs : Nat) (a : Abs α) : (a.live bs).length ≤ a.capacity bs := by
  rw [live_length]; exact countP_le

theorem free_repr_count {bs S : Nat} {p : Pool α} {a : Abs α} (h : Repr bs S p a) :
    getFreeEntryCount p = (a.capacity bs - (a.live bs).length : Nat) := by
  have := live_le bs a
  rw [getFreeEntryCount, allocated_repr h, h.size, h.len]
  simp only [Abs.capacity] at this ⊢
  omega

/-! ### Iteration -/

theorem firstFrom_repr {bs S : Nat} {p : Pool α} {a : Abs α} (h : Repr bs S p a) (hbs : 0 < bs) (k : Nat) :
    ∃ r, getFirstAllocatedEntryFromBlock p k = .ok r ∧
      (∀ b l, r = some (b, l) → k * bs ≤ b * bs + l ∧ l < bs ∧ a.isLive (b * bs + l) = true ∧
        ∀ j, k * bs ≤ j → j < b * bs + l → a.isLive j = false) ∧
      (r = none → ∀ j, k * bs ≤ j → a.isLive j = false) := by
  obtain ⟨r, e, h1, h2⟩ := findUp_ok (lo := k) (n := p.blocks.length - k) (p := fun i => do
    let b ← rd p.blocks i
    pure (b.count != 0)) (fun i => (List.range bs).any (fun j => a.isLive (i * bs + j))) (by
      intro i hi1 hi
      obtain ⟨b, base, g1, g2, g3, g4⟩ := h.get (by omega : i < p.blocks.length)
      rw [g2, ok_bind, pure_ok]
      congr 1
      rw [Bool.eq_iff_iff]
      simp only [bne_iff_ne, ne_eq, g4.count, countP_none, List.any_eq_true, List.mem_range]
      constructor
      · intro hn
        by_contra hc
        apply hn
        intro j hj
        cases hh : (a.entries (i * bs + j)).isSome
        · rfl
        · exact absurd ⟨j, hj, hh⟩ hc
      · rintro ⟨j, hj, hh⟩ hn
        have := hn j hj
        simp only [Abs.isLive] at hh
        rw [this] at hh
        exact absurd hh (by simp))
  have ndead : ∀ (i : Nat), (List.range bs).any (fun j => a.isLive (i * bs + j)) = false → ∀ j, j / bs = i → a.isLive j = false := by
    intro i hi j hj
    rw [List.any_eq_false] at hi
    have := hi (j % bs) (List.mem_range.mpr (Nat.mod_lt _ hbs))
    subst hj
    rw [index_split] at this
    simpa using this
  have hkd : ∀ j, k * bs ≤ j → k ≤ j / bs := fun j hj => (Nat.le_div_iff_mul_le hbs).mpr hj
  unfold getFirstAllocatedEntryFromBlock
  rw [e, ok_bind]
  cases r with
  | none =>
    refine ⟨none, rfl, by intro b l hh; simp at hh, ?_⟩
    intro _ j hj
    by_cases hlt : j / bs < p.blocks.length
    · refine ndead (j / bs) (h2 rfl _ (hkd j hj) ?_) j rfl
      have := hkd j hj
      generalize j / bs = q at *
      omega
    · cases hh : a.isLive j
      · rfl
      · have := div_lt_blocks (h.bound _ hh)
        rw [← h.len] at this
        exact absurd this hlt
  | some b =>
    obtain ⟨hb1, hb2, hq, hlt⟩ := h1 b rfl
    obtain ⟨blk, base, g1, g2, g3, g4⟩ := h.get (by omega : b < p.blocks.length)
    obtain ⟨f, ef, f1, f2⟩ := Has.findFirst g4.occupied
    simp only [g2, ok_bind, ef]
    cases f with
    | none =>
      exfalso
      obtain ⟨j, hj, hh⟩ := List.any_eq_true.mp hq
      have := f2 rfl j (List.mem_range.mp hj)
      simp only [Abs.isLive] at hh
      rw [this] at hh
      exact absurd hh (by simp)
    | some l =>
      obtain ⟨hl, hl1, hl2⟩ := f1 l rfl
      refine ⟨some (b, l), rfl, ?_, by simp⟩
      intro b' l' hh
      simp only [Option.some.injEq, Prod.mk.injEq] at hh
      obtain ⟨rfl, rfl⟩ := hh
      have hm := Nat.mul_le_mul_right bs hb1
      refine ⟨by omega, hl, hl1, ?_⟩
      intro j hj1 hj2
      by_cases hjb : j < b * bs
      · exact ndead (j / bs) (hlt _ (hkd j hj1) (div_lt_blocks hjb)) j rfl
      · have := hl2 (j - b * bs) (by omega)
        rw [show b * bs + (j - b * bs) = j by omega] at this
        exact this

theorem next_repr {bs S : Nat} {p : Pool α} {a : Abs α} (h : Repr bs S p a) (hbs : 0 < bs) {k l : Nat} (hl : l < bs) (hk : k < p.blocks.length) :
    ∃ r, getNextAllocatedEntry p k l = .ok r ∧
      (∀ b l', r = some (b, l') → k * bs + l < b * bs + l' ∧ l' < bs ∧ a.isLive (b * bs + l') = true ∧
        ∀ j, k * bs + l < j → j < b * bs + l' → a.isLive j = false) ∧
      (r = none → ∀ j, k * bs + l < j → a.isLive j = false) := by
  obtain ⟨blk, base, g1, g2, g3, g4⟩ := h.get hk
  obtain ⟨f, ef, f1, f2⟩ := Has.findNext g4.occupied hl
  simp only [getNextAllocatedEntry, hk, decide_true, assert_true, ok_bind, g2, ef]
  cases f with
  | some n =>
    obtain ⟨a1, a2, a3, a4⟩ := f1 n rfl
    refine ⟨some (k, n), rfl, ?_, by simp⟩
    intro b l' hh
    simp only [Option.some.injEq, Prod.mk.injEq] at hh
    obtain ⟨rfl, rfl⟩ := hh
    refine ⟨by omega, a2, a3, ?_⟩
    intro j hj1 hj2
    have := a4 (j - k * bs) (by omega) (by omega)
    rw [show k * bs + (j - k * bs) = j by omega] at this
    exact this
  | none =>
    have hrest : ∀ j, k * bs + l < j → j < (k + 1) * bs → a.isLive j = false := by
      intro j hj1 hj2
      rw [Nat.succ_mul] at hj2
      have := f2 rfl (j - k * bs) (by omega) (by omega)
      rw [show k * bs + (j - k * bs) = j by omega] at this
      exact this
    obtain ⟨r, e, r1, r2⟩ := firstFrom_repr h hbs (k + 1)
    refine ⟨r, e, ?_, ?_⟩
    · intro b l' hh
      obtain ⟨b1, b2, b3, b4⟩ := r1 b l' hh
      refine ⟨by rw [Nat.succ_mul] at b1; omega, b2, b3, ?_⟩
      intro j hj1 hj2
      by_cases hj : j < (k + 1) * bs
      · exact hrest j hj1 hj
      · exact b4 j (by omega) hj2
    · intro hr j hj1
      by_cases hj : j < (k + 1) * bs
      · exact hrest j hj1 hj
      · exact r2 hr j (by omega)

theorem block_lt {bs S : Nat} {p : Pool α} {a : Abs α} (h : Repr bs S p a) {k l : Nat} (hl : l < bs) (hlive : a.isLive (k * bs + l) = true) :
    k < p.blocks.length := by
  have := div_lt_blocks (h.bound _ hlive)
  rwa [index_div hl, ← h.len] at this

theorem walk_repr {bs S : Nat} {p : Pool α} {a : Abs α} (h : Repr bs S p a) (hbs : 0 < bs) (fuel : Nat) {k l : Nat} (hl : l < bs)
    (hlive : a.isLive (k * bs + l) = true) (hf : (setFrom a.isLive (k * bs + l) (a.capacity bs)).length < fuel) :
    walk S p fuel (some (k, l)) = .ok ((setFrom a.isLive (k * bs + l) (a.capacity bs)).map (fun i => (i, a.address bs S i))) := by
  induction fuel generalizing k l with
  | zero => omega
  | succ fuel ih =>
    have hi := h.bound _ hlive
    rw [setFrom_cons _ _ _ hi hlive] at hf ⊢
    rw [List.length_cons] at hf
    obtain ⟨r, e, h1, h2⟩ := next_repr h hbs hl (block_lt h hl hlive)
    simp only [walk, pointer_repr h hl, hlive, if_true, ok_bind, e, h.size]
    cases r with
    | none =>
      have := setFrom_none a.isLive (k * bs + l + 1) (a.capacity bs) (fun j hj => h2 rfl j hj)
      rw [this] at hf ⊢
      cases fuel with
      | zero => simp at hf
      | succ f => simp [walk]
    | some q =>
      obtain ⟨b, l'⟩ := q
      obtain ⟨a1, a2, a3, a4⟩ := h1 b l' rfl
      have hq := h.bound _ a3
      have := setFrom_skip a.isLive (k * bs + l + 1) (b * bs + l') (a.capacity bs) (by omega) (by omega) (fun j hj1 hj2 => a4 j hj1 hj2)
      rw [this] at hf ⊢
      rw [ih a2 a3 (by omega)]
      rfl

theorem iterate_repr {bs S : Nat} {p : Pool α} {a : Abs α} (h : Repr bs S p a) (hbs : 0 < bs) (fuel : Nat) (hf : (a.live bs).length < fuel) :
    iterate S p fuel = .ok ((a.live bs).map (fun i => (i, a.address bs S i))) := by
  have e0 : a.live bs = setFrom a.isLive 0 (a.capacity bs) := by
    unfold setFrom Abs.live; rw [List.range_eq_range', Nat.sub_zero]
  rw [e0] at hf ⊢
  obtain ⟨r, e, h1, h2⟩ := firstFrom_repr h hbs 0
  simp only [iterate, e, ok_bind]
  cases r with
  | none =>
    rw [setFrom_none _ _ _ (fun j hj => h2 rfl j (by omega))]
    cases fuel with
    | zero => omega
    | succ f => rfl
  | some q =>
    obtain ⟨b, l⟩ := q
    obtain ⟨a1, a2, a3, a4⟩ := h1 b l rfl
    have hq := h.bound _ a3
    rw [setFrom_skip a.isLive 0 (b * bs + l) (a.capacity bs) (by omega) (by omega) (fun j _ hj2 => a4 j (by omega) hj2)] at hf ⊢
    exact walk_repr h hbs fuel a2 a3 hf

theorem set_of_none {a : Abs α} {i : Nat} (h : a.entries i = none) : a.set i none = a := by
  cases a
  simp only [Abs.set, Abs.mk.injEq, and_true]
  funext j
  by_cases hj : j = i
  · simp_all
  · simp [hj]

/-- The entries `i ≥ lo` with `sel i` are taken out. -/
def Abs.drop (a : Abs α) (lo : Nat) (sel : Nat → Bool) : Abs α := ⟨fun i => if lo ≤ i ∧ sel i = true then none else a.entries i, a.bases⟩

theorem walkFree_repr {bs S : Nat} (hbs : 0 < bs) (sel : Nat → Bool) (fuel : Nat) {p : Pool α} {a : Abs α} (h : Repr bs S p a)
    (hobj : ∀ i, sel i = true → a.entries i ≠ some none) {k l : Nat} (hl : l < bs)
    (hlive : a.isLive (k * bs + l) = true) (hf : (setFrom a.isLive (k * bs + l) (a.capacity bs)).length < fuel) :
    ∃ q, walkFree S sel fuel (some (k, l)) p = .ok (q, (setFrom a.isLive (k * bs + l) (a.capacity bs)).map (fun i => (i, a.address bs S i))) ∧
      Repr bs S q (a.drop (k * bs + l) sel) := by
  induction fuel generalizing k l p a with
  | zero => omega
  | succ fuel ih =>
    have hi := h.bound _ hlive
    have hk := block_lt h hl hlive
    rw [setFrom_cons _ _ _ hi hlive] at hf ⊢
    rw [List.length_cons] at hf
    -- the pool after the visit of the entry
    obtain ⟨p1, a1, e1, r1, hb1, hent, hs1⟩ : ∃ p1 a1, (if sel (k * bs + l) then free S p (k * bs + l) else pure p) = .ok p1 ∧ Repr bs S p1 a1 ∧
        a1.bases = a.bases ∧ (∀ j, j ≠ k * bs + l → a1.entries j = a.entries j) ∧
        a1.entries (k * bs + l) = if sel (k * bs + l) then none else a.entries (k * bs + l) := by
      cases hsel : sel (k * bs + l)
      · exact ⟨p, a, rfl, h, rfl, fun _ _ => rfl, rfl⟩
      · cases hx : a.entries (k * bs + l) with
        | none => simp [Abs.isLive, hx] at hlive
        | some x =>
          cases x with
          | none => exact absurd hx (hobj _ hsel)
          | some v =>
            obtain ⟨q, e, r⟩ := free_repr h hbs hx
            exact ⟨q, _, e, r, rfl, fun j hj => by simp [Abs.set, hj], by simp [Abs.set]⟩
    have hlive1 : ∀ j, k * bs + l < j → a1.isLive j = a.isLive j := fun j hj => by simp only [Abs.isLive, hent j (by omega)]
    have hset : ∀ m, k * bs + l < m → setFrom a1.isLive m (a1.capacity bs) = setFrom a.isLive m (a.capacity bs) := by
      intro m hm
      unfold setFrom Abs.capacity
      rw [hb1]
      apply List.filter_congr
      intro j hj
      rw [List.mem_range'] at hj
      obtain ⟨i, _, rfl⟩ := hj
      exact hlive1 _ (by omega)
    have haddr : ∀ i, a1.address bs S i = a.address bs S i := fun i => by simp only [Abs.address, hb1]
    have hdrop : ∀ m, k * bs + l < m → (∀ j, k * bs + l < j → j < m → a.isLive j = false) →
        a1.drop m sel = a.drop (k * bs + l) sel := by
      intro m hm hdead
      simp only [Abs.drop, Abs.mk.injEq, hb1, and_true]
      funext j
      by_cases h1 : j = k * bs + l
      · subst h1
        rw [hs1]
        have : ¬ m ≤ k * bs + l := by omega
        simp [this]
      · rw [hent j h1]
        by_cases h2 : j < k * bs + l
        · simp [show ¬ m ≤ j by omega, show ¬ k * bs + l ≤ j by omega]
        · by_cases h3 : m ≤ j
          · simp [h3, show k * bs + l ≤ j by omega]
          · have := isLive_false (hdead j (by omega) (by omega))
            simp [this]
    have hk1 : k < p1.blocks.length := by rw [r1.len, hb1, ← h.len]; exact hk
    obtain ⟨r, e, h1, h2⟩ := next_repr r1 hbs hl hk1
    have hsz : p.blockSize = bs := h.size
    have unfold_step : ∀ q l', walkFree S sel fuel r p1 = .ok (q, l') →
        walkFree S sel (fuel + 1) (some (k, l)) p = .ok (q, (k * bs + l, a.address bs S (k * bs + l)) :: l') := by
      intro q l' hq
      cases hsel : sel (k * bs + l) <;> rw [hsel] at e1
      · simp only [Bool.false_eq_true, if_false, pure_ok, Except.ok.injEq] at e1
        subst e1
        simp only [walkFree, pointer_repr h hl, hlive, if_true, ok_bind, hsz, hsel, Bool.false_eq_true, if_false, e, hq, pure_ok]
      · simp only [if_true] at e1
        simp only [walkFree, pointer_repr h hl, hlive, if_true, ok_bind, hsz, hsel, e1, e, hq, pure_ok]
    cases r with
    | none =>
      have hdead : ∀ j, k * bs + l + 1 ≤ j → a.isLive j = false := fun j hj => by
        rw [← hlive1 j (by omega)]; exact h2 rfl j (by omega)
      have hn := setFrom_none a.isLive (k * bs + l + 1) (a.capacity bs) hdead
      rw [hn] at hf ⊢
      obtain ⟨f, rfl⟩ : ∃ f, fuel = f + 1 := ⟨fuel - 1, by simp at hf; omega⟩
      refine ⟨p1, unfold_step p1 [] rfl, ?_⟩
      rw [← hdrop (k * bs + l + 1 + a.capacity bs) (by omega) (fun j hj _ => hdead j hj)]
      have : a1.drop (k * bs + l + 1 + a.capacity bs) sel = a1 := by
        cases a1
        simp only [Abs.drop, Abs.mk.injEq, and_true]
        funext j
        by_cases hj : k * bs + l + 1 + a.capacity bs ≤ j
        · have := h2 rfl j (by omega)
          have := isLive_false this
          simp only at this
          simp [this]
        · simp [hj]
      rw [this]
      exact r1
    | some q =>
      obtain ⟨b, l'⟩ := q
      obtain ⟨c1, c2, c3, c4⟩ := h1 b l' rfl
      have hq := r1.bound _ c3
      have hq' : b * bs + l' < a.capacity bs := by simpa only [Abs.capacity, hb1] using hq
      have hdead : ∀ j, k * bs + l < j → j < b * bs + l' → a.isLive j = false := fun j hj1 hj2 => by
        rw [← hlive1 j hj1]; exact c4 j hj1 hj2
      have hskip := setFrom_skip a.isLive (k * bs + l + 1) (b * bs + l') (a.capacity bs) (by omega) (by omega) (fun j hj1 hj2 => hdead j hj1 hj2)
      rw [hskip] at hf ⊢
      rw [← hset _ c1] at hf ⊢
      obtain ⟨q, eq, rq⟩ := ih r1 (fun i hs => by
        by_cases hi : i = k * bs + l
        · subst hi
          rw [hs1, hs]
          simp
        · rw [hent i hi]; exact hobj i hs) c2 c3 (by omega)
      refine ⟨q, ?_, by rw [← hdrop _ c1 hdead]; exact rq⟩
      rw [unfold_step q _ eq]
      simp only [List.map_cons, haddr]

theorem iterateFree_repr {bs S : Nat} (hbs : 0 < bs) (sel : Nat → Bool) (fuel : Nat) {p : Pool α} {a : Abs α} (h : Repr bs S p a)
    (hobj : ∀ i, sel i = true → a.entries i ≠ some none) (hf : (a.live bs).length < fuel) :
    ∃ q, iterateFree S sel p fuel = .ok (q, (a.live bs).map (fun i => (i, a.address bs S i))) ∧ Repr bs S q (a.drop 0 sel) := by
  have e0 : a.live bs = setFrom a.isLive 0 (a.capacity bs) := by
    unfold setFrom Abs.live; rw [List.range_eq_range', Nat.sub_zero]
  rw [e0] at hf ⊢
  obtain ⟨r, e, h1, h2⟩ := firstFrom_repr h hbs 0
  simp only [iterateFree, e, ok_bind]
  cases r with
  | none =>
    rw [setFrom_none _ _ _ (fun j hj => h2 rfl j (by omega))]
    obtain ⟨f, rfl⟩ : ∃ f, fuel = f + 1 := ⟨fuel - 1, by omega⟩
    refine ⟨p, rfl, ?_⟩
    have : a.drop 0 sel = a := by
      cases a
      simp only [Abs.drop, Abs.mk.injEq, and_true]
      funext j
      have := isLive_false (h2 rfl j (by omega))
      simp only at this
      simp [this]
    rw [this]
    exact h
  | some q =>
    obtain ⟨b, l⟩ := q
    obtain ⟨a1, a2, a3, a4⟩ := h1 b l rfl
    have hq := h.bound _ a3
    rw [setFrom_skip a.isLive 0 (b * bs + l) (a.capacity bs) (by omega) (by omega) (fun j _ hj2 => a4 j (by omega) hj2)] at hf ⊢
    obtain ⟨q, eq, rq⟩ := walkFree_repr hbs sel fuel h hobj a2 a3 hf
    refine ⟨q, eq, ?_⟩
    have : a.drop 0 sel = a.drop (b * bs + l) sel := by
      simp only [Abs.drop, Abs.mk.injEq, and_true]
      funext j
      by_cases hj : b * bs + l ≤ j
      · simp [hj]
      · have := isLive_false (a4 j (by omega) (by omega))
        simp [this]
    rw [this]
    exact rq

theorem shows_repr {bs S : Nat} {p : Pool α} {a : Abs α} (h : Repr bs S p a) (hbs : 0 < bs) : Shows bs S p a :=
  ⟨h.size, h.len, allocated_repr h, free_repr_count h, h.bound, retrieve_repr h hbs, fun _ _ hi => readAt_repr h hbs hi, iterate_repr h hbs⟩

/-! ### Addresses -/

theorem entryIndex_repr {bs S : Nat} {p : Pool α} {a : Abs α} (h : Repr bs S p a) (hS : 0 < S) {i : Nat} (hlive : a.isLive i = true) :
    retrieveEntryIndex S S p (a.address bs S i) = .ok (some i) := by
  have hcap := h.bound i hlive
  have hbs : 0 < bs := by
    rcases Nat.eq_zero_or_pos bs with h0 | h0
    · subst h0; simp [Abs.capacity] at hcap
    · exact h0
  have hk := div_lt_blocks hcap
  have hl := Nat.mod_lt i hbs
  obtain ⟨B, baseB, _, _, g3, g4⟩ := h.get (k := i / bs) (by rw [h.len]; exact hk)
  have hin : i % bs * S < bs * S := Nat.mul_lt_mul_of_pos_right hl hS
  have haddr : a.address bs S i = baseB + i % bs * S := by simp [Abs.address, g3]
  obtain ⟨r, e, h1, h2⟩ := findUp_ok (lo := 0) (n := p.blocks.length) (p := fun k => do
    let b ← rd p.blocks k
    pure (decide (b.base ≤ a.address bs S i) && decide (a.address bs S i < b.base + p.blockSize * S))) (fun k => decide (k = i / bs)) (by
      intro k _ hkl
      obtain ⟨b, base, c1, c2, c3, c4⟩ := h.get (by omega : k < p.blocks.length)
      rw [c2, ok_bind, pure_ok, h.size, c4.base, haddr]
      congr 1
      by_cases hki : k = i / bs
      · rw [hki, g3] at c3
        cases c3
        simp [hki, hin]
      · have := h.apart k (i / bs) base baseB hki c3 g3
        simp only [hki, decide_false, Bool.and_eq_false_iff, decide_eq_false_iff_not]
        rcases this with hh | hh
        · right; omega
        · left; omega)
  simp only [retrieveEntryIndex, e, ok_bind]
  have hr : r = some (i / bs) := by
    cases r with
    | none =>
      have := h2 rfl (i / bs) (Nat.zero_le _) (by rw [h.len, Nat.zero_add]; exact hk)
      simp at this
    | some k =>
      have := (h1 k rfl).2.2.1
      simpa using this
  subst hr
  obtain ⟨b, base, c1, c2, c3, c4⟩ := h.get (k := i / bs) (by rw [h.len]; exact hk)
  rw [g3] at c3
  cases c3
  have hsub : baseB + i % bs * S - baseB = i % bs * S := by omega
  simp only [c2, ok_bind, c4.base, haddr, hsub, Nat.mul_mod_left, beq_self_eq_true, guardUB_true, Nat.mul_div_cancel _ hS, Block.address, assert_true,
    pure_ok, h.size, index_split]

theorem entryIndex_outside {bs S Z : Nat} {p : Pool α} {a : Abs α} (h : Repr bs S p a) (hZ : Z ≤ S) (data : Nat)
    (hd : ∀ b ∈ a.bases, data < b ∨ b + bs * S ≤ data) : retrieveEntryIndex S Z p data = .ok none := by
  obtain ⟨r, e, h1, h2⟩ := findUp_ok (lo := 0) (n := p.blocks.length) (p := fun k => do
    let b ← rd p.blocks k
    pure (decide (b.base ≤ data) && decide (data < b.base + p.blockSize * Z))) (fun _ => false) (by
      intro k _ hkl
      obtain ⟨b, base, c1, c2, c3, c4⟩ := h.get (by omega : k < p.blocks.length)
      rw [c2, ok_bind, pure_ok, h.size, c4.base]
      have := hd base (List.mem_of_getElem? c3)
      have hm := Nat.mul_le_mul_left bs hZ
      congr 1
      simp only [Bool.and_eq_false_iff, decide_eq_false_iff_not]
      omega)
  cases r with
  | none => rw [retrieveEntryIndex, e]; rfl
  | some k => exact absurd (h1 k rfl).2.2.1 (by simp)

/-- Entries do not overlap. -/
theorem address_apart {bs S : Nat} {p : Pool α} {a : Abs α} (h : Repr bs S p a) {i j : Nat} (hij : i ≠ j) (hi : i < a.capacity bs) (hj : j < a.capacity bs) :
    a.address bs S i + S ≤ a.address bs S j ∨ a.address bs S j + S ≤ a.address bs S i := by
  have hbs : 0 < bs := by
    rcases Nat.eq_zero_or_pos bs with h0 | h0
    · subst h0; simp [Abs.capacity] at hi
    · exact h0
  have hki := div_lt_blocks hi
  have hkj := div_lt_blocks hj
  have hli := Nat.mod_lt i hbs
  have hlj := Nat.mod_lt j hbs
  have gi := List.getElem?_eq_getElem hki
  have gj := List.getElem?_eq_getElem hkj
  simp only [Abs.address, List.getD, gi, gj, Option.getD_some]
  have mi := Nat.mul_le_mul_right S (show i % bs + 1 ≤ bs from hli)
  have mj := Nat.mul_le_mul_right S (show j % bs + 1 ≤ bs from hlj)
  rw [Nat.succ_mul] at mi mj
  by_cases hk : i / bs = j / bs
  · have hne : i % bs ≠ j % bs := by
      intro hh
      apply hij
      rw [← index_split bs i, ← index_split bs j, hk, hh]
    simp only [hk]
    rcases Nat.lt_or_gt_of_ne hne with hlt | hlt
    · left
      have := Nat.mul_le_mul_right S (show i % bs + 1 ≤ j % bs from hlt)
      rw [Nat.succ_mul] at this
      omega
    · right
      have := Nat.mul_le_mul_right S (show j % bs + 1 ≤ i % bs from hlt)
      rw [Nat.succ_mul] at this
      omega
  · rcases h.apart _ _ _ _ hk gi gj with hh | hh
    · left; omega
    · right; omega

/-! ### Reset -/

theorem destroyLoop_ok {n : Nat} {o : Bitset 64} {f : Nat → Bool} (ho : Has o n f) (fuel : Nat) {i : Nat} (hi : i < n) (hfi : f i = true) (hfuel : n - i < fuel)
    {m : Nat → Option α} (hm : ∀ j, i ≤ j → j < n → f j = true → ∃ v, m j = some v) :
    destroyLoop o fuel (some i) (Slots.mk n m) = .ok (Slots.mk n (fun j => if i ≤ j ∧ f j = true then none else m j)) := by
  induction fuel generalizing i m with
  | zero => omega
  | succ fuel ih =>
    obtain ⟨v, hv⟩ := hm i (Nat.le_refl _) hi hfi
    obtain ⟨r, e, h1, h2⟩ := Has.findNext ho hi
    simp only [destroyLoop, Slots.destroy_mk hi hv, ok_bind, e]
    cases r with
    | none =>
      cases fuel with
      | zero => omega
      | succ fu =>
        simp only [destroyLoop]
        congr 1
        apply Slots.mk_congr
        intro j hj
        by_cases hji : j = i
        · simp [Slots.upd, hji, hfi]
        · simp only [Slots.upd, hji, if_false]
          rw [if_neg]
          rintro ⟨c1, c2⟩
          rw [h2 rfl j (by omega) hj] at c2
          exact absurd c2 (by simp)
    | some q =>
      obtain ⟨a1, a2, a3, a4⟩ := h1 q rfl
      rw [ih a2 a3 (by omega) (m := Slots.upd m i none) (by
        intro j hj1 hj2 hj3
        obtain ⟨v, hv⟩ := hm j (by omega) hj2 hj3
        exact ⟨v, by simp [Slots.upd, show j ≠ i by omega, hv]⟩)]
      congr 1
      apply Slots.mk_congr
      intro j hj
      by_cases hji : j = i
      · subst hji
        simp [Slots.upd, hfi]
      · simp only [Slots.upd, hji, if_false]
        by_cases hq : q ≤ j
        · have : i ≤ j := by omega
          simp [hq, this]
        · have hc : ¬ (i ≤ j ∧ f j = true) := by
            rintro ⟨c1, c2⟩
            rw [a4 j (by omega) (by omega)] at c2
            exact absurd c2 (by simp)
          simp [hq, hc]

/-- A block after `Reset`: no object is left and the count is 0, but the bitsets have hardly changed. -/
structure RBlock (n base : Nat) (b : Block α) (g : Nat → Option (Option α)) : Prop where
  base : b.base = base
  count : b.count = 0
  memory : b.memory = Slots.mk n (fun _ => none)
  free : Has b.freeEntries n (fun j => (g j).isNone && !(decide (j = 1) && (List.range n).any (fun i => (g i).isSome)))
  occupied : Has b.occupiedEntries n (fun j => (g j).isSome && !(decide (j = 0) && (List.range n).any (fun i => (g i).isSome)))

theorem BRepr.any_count {n base : Nat} {b : Block α} {g : Nat → Option (Option α)} (h : BRepr n base b g) :
    b.count = 0 ↔ (List.range n).any (fun i => (g i).isSome) = false := by
  rw [h.count, countP_none, List.any_eq_false]
  simp

theorem resetBlock_repr {n base : Nat} {b : Block α} {g : Nat → Option (Option α)} (h : BRepr n base b g) (hobj : ∀ j, j < n → g j ≠ some none)
    (hn : n = 1 → ∀ j, j < n → g j = none) : ∃ b', resetBlock b = .ok b' ∧ RBlock n base b' g := by
  by_cases hc : b.count = 0
  · refine ⟨b, by rw [resetBlock, if_pos hc]; rfl, h.base, hc, ?_, h.free.congr ?_, h.occupied.congr ?_⟩
    · rw [h.memory]
      apply Slots.mk_congr
      intro j hj
      have := countP_none.mp (h.count.symm.trans hc) j hj
      cases hh : g j <;> simp_all
    · intro j _
      rw [h.any_count.mp hc]; simp
    · intro j _
      rw [h.any_count.mp hc]; simp
  · have hany : (List.range n).any (fun i => (g i).isSome) = true := by
      have := (not_congr h.any_count).mp hc
      rwa [Bool.not_eq_false] at this
    obtain ⟨i0, hi0, hg0⟩ := List.any_eq_true.mp hany
    have hi0 := List.mem_range.mp hi0
    have hn2 : 2 ≤ n := by
      rcases Nat.lt_or_ge n 2 with hlt | hge
      · have : n = 1 := by omega
        rw [hn this i0 hi0] at hg0
        exact absurd hg0 (by simp)
      · exact hge
    obtain ⟨r, e, h1, h2⟩ := Has.findFirst h.occupied
    cases r with
    | none => exact absurd (h2 rfl i0 hi0) (by simp [hg0])
    | some q =>
      obtain ⟨a1, a2, a3⟩ := h1 q rfl
      have hd := destroyLoop_ok h.occupied (n + 1) a1 a2 (by omega) (m := fun j => (g j).join) (by
        intro j _ hj hs
        cases hh : g j with
        | none => rw [hh] at hs; exact absurd hs (by simp)
        | some x =>
          cases x with
          | none => exact absurd hh (hobj j hj)
          | some v => exact ⟨v, by rfl⟩)
      obtain ⟨f, ef, hf⟩ := Has.set h.free (show 1 < n by omega) false
      obtain ⟨o, eo, ho⟩ := Has.set h.occupied (show 0 < n by omega) false
      refine ⟨⟨0, b.base, Slots.mk n (fun _ => none), f, o⟩, ?_, h.base, rfl, rfl, hf.congr ?_, ho.congr ?_⟩
      · simp only [resetBlock, hc, if_false, e, ok_bind, h.occupied.size, h.memory, hd, Bitset.reset, ef, eo, pure_ok]
        congr 2
        apply Slots.mk_congr
        intro j hj
        by_cases hs : (g j).isSome = true
        · have : q ≤ j := by
            by_contra hlt
            rw [a3 j (by omega)] at hs
            exact absurd hs (by simp)
          simp [this, hs]
        · cases hh : g j <;> simp_all
      · intro j _
        rw [hany]
        by_cases hj : j = 1 <;> simp [hj]
      · intro j _
        rw [hany]
        by_cases hj : j = 0 <;> simp [hj]

/-- `Reset` acts on the blocks one by one. -/
theorem reset_blocks (p : Pool α) (h : ∀ b ∈ p.blocks, ∃ b', resetBlock b = .ok b') :
    ∃ l : List (Block α), reset p = .ok ⟨p.blockSize, l⟩ ∧ l.length = p.blocks.length ∧
      ∀ (k : Nat) (b : Block α), p.blocks[k]? = some b → ∃ b', resetBlock b = .ok b' ∧ l[k]? = some b' := by
  obtain ⟨q, e, h1, h2, h3, h4⟩ := forUp_ok (lo := 0) (n := p.blocks.length) (s := p) (f := fun i p => do
    let b ← rd p.blocks i
    let b ← resetBlock b
    let blocks ← wr p.blocks i b
    pure ⟨p.blockSize, blocks⟩)
    (fun k q => q.blockSize = p.blockSize ∧ q.blocks.length = p.blocks.length ∧
      (∀ (j : Nat) (b : Block α), j < k → p.blocks[j]? = some b → ∃ b', resetBlock b = .ok b' ∧ q.blocks[j]? = some b') ∧ ∀ j, k ≤ j → q.blocks[j]? = p.blocks[j]?)
    ⟨rfl, rfl, by intro j b hj; omega, fun _ _ => rfl⟩ (by
      rintro k q hk ⟨q1, q2, q3, q4⟩
      rw [Nat.zero_add]
      have hb := q4 k (Nat.le_refl _)
      rw [List.getElem?_eq_getElem hk] at hb
      obtain ⟨b', eb⟩ := h _ (List.getElem_mem hk)
      refine ⟨⟨q.blockSize, q.blocks.set k b'⟩, ?_, q1, by simpa using q2, ?_, ?_⟩
      · have : rd q.blocks k = .ok p.blocks[k] := by simp [rd, hb]
        simp only [this, ok_bind, eb, wr_ok (show k < q.blocks.length by omega), pure_ok]
      · intro j b hj hjb
        simp only [List.getElem?_set]
        by_cases hkj : k = j
        · subst hkj
          rw [List.getElem?_eq_getElem hk] at hjb
          cases hjb
          exact ⟨b', eb, by simp [q2, hk]⟩
        · rw [if_neg hkj]
          exact q3 j b (by omega) hjb
      · intro j hj
        simp only [List.getElem?_set]
        rw [if_neg (by omega)]
        exact q4 j (by omega))
  refine ⟨q.blocks, ?_, h2, ?_⟩
  · rw [reset, e, ← h1]
  · intro k b hb
    exact h3 k b (by have := (List.getElem?_eq_some_iff.mp hb).1; exact this) hb

/-- `Reset` on a pool all of whose entries hold objects. -/
theorem reset_repr {bs S : Nat} {p : Pool α} {a : Abs α} (h : Repr bs S p a) (hobj : ∀ i, a.entries i ≠ some none) (h1 : bs = 1 → ∀ i, a.entries i = none) :
    ∃ l : List (Block α), reset p = .ok ⟨bs, l⟩ ∧ l.length = a.bases.length ∧
      ∀ (k : Nat) (b : Block α), l[k]? = some b → ∃ base, a.bases[k]? = some base ∧ RBlock bs base b (fun j => a.entries (k * bs + j)) := by
  have hb : ∀ (k : Nat) (b : Block α) (base : Nat), p.blocks[k]? = some b → a.bases[k]? = some base →
      ∃ b', resetBlock b = .ok b' ∧ RBlock bs base b' (fun j => a.entries (k * bs + j)) := fun k b base e1 e2 =>
    resetBlock_repr (h.block k b base e1 e2) (fun j _ => hobj _) (fun hh j _ => h1 hh _)
  obtain ⟨l, e, hl, hk⟩ := reset_blocks p (by
    intro b hbm
    obtain ⟨k, hkk, rfl⟩ := List.mem_iff_getElem.mp hbm
    obtain ⟨b, base, g1, g2, g3, g4⟩ := h.get hkk
    obtain ⟨b', eb, _⟩ := hb k b base g1 g3
    rw [List.getElem?_eq_getElem hkk] at g1
    cases g1
    exact ⟨b', eb⟩)
  refine ⟨l, by rw [e, h.size], hl.trans h.len, ?_⟩
  intro k b hkb
  have hlt : k < p.blocks.length := by rw [← hl]; exact (List.getElem?_eq_some_iff.mp hkb).1
  obtain ⟨c, base, g1, g2, g3, g4⟩ := h.get hlt
  obtain ⟨c', ec, hc'⟩ := hb k c base g1 g3
  obtain ⟨c'', ec', hcl⟩ := hk k c g1
  rw [ec] at ec'
  cases ec'
  rw [hkb] at hcl
  cases hcl
  exact ⟨base, g3, hc'⟩

theorem sum_zero (l : List Nat) (h : ∀ x ∈ l, x = 0) : l.sum = 0 := by
  induction l with
  | nil => rfl
  | cons x l ih => rw [List.sum_cons, h x (by simp), ih (fun y hy => h y (by simp [hy]))]

theorem alive_raw (n : Nat) : Slots.alive (Slots.mk n (fun _ => (none : Option α))) = 0 := by
  simp [Slots.alive, Slots.mk, List.countP_map]

theorem clear_repr {bs S : Nat} {p : Pool α} {a : Abs α} (h : Repr bs S p a) (hobj : ∀ i, a.entries i ≠ some none) (h1 : bs = 1 → ∀ i, a.entries i = none) :
    clear p = .ok (⟨bs, []⟩, 0) ∧ destructor p = .ok 0 := by
  obtain ⟨l, e, hl, hk⟩ := reset_repr h hobj h1
  have hz : (l.map (fun b => b.memory.alive)).sum = 0 := by
    apply sum_zero
    intro x hx
    obtain ⟨b, hb, rfl⟩ := List.mem_map.mp hx
    obtain ⟨k, hkk, rfl⟩ := List.mem_iff_getElem.mp hb
    obtain ⟨base, _, r⟩ := hk k _ (List.getElem?_eq_getElem hkk)
    rw [r.memory]
    exact alive_raw bs
  exact ⟨by simp only [clear, e, ok_bind, pure_ok, hz], by simp only [destructor, e, ok_bind, pure_ok, hz]⟩

theorem empty_repr (bs S : Nat) : Repr bs S (⟨bs, []⟩ : Pool α) .empty :=
  ⟨rfl, rfl, by intro k b base h; simp at h, by intro i h; simp [Abs.isLive, Abs.empty] at h, by intro k k' x y _ h; simp [Abs.empty] at h⟩

/-! ### Histories -/

theorem run_repr {bs S : Nat} {p : Pool α} {a : Abs α} (h : Repr bs S p a) (hbs : 0 < bs) (o : Op α) (hok : o.ok bs S a) :
    ∃ q, o.run S p = .ok (q, (o.spec bs a).2) ∧ Repr bs S q (o.spec bs a).1 := by
  cases o with
  | allocate base v =>
    obtain ⟨q, e, r⟩ := allocate_repr h hbs hok v
    exact ⟨q, by simp only [Op.run, e, ok_bind, pure_ok, Op.spec], r⟩
  | allocateDefer base =>
    obtain ⟨q, e, r⟩ := allocateDefer_repr h hbs hok
    exact ⟨q, by simp only [Op.run, e, ok_bind, pure_ok, Op.spec], r⟩
  | constructAt i v =>
    obtain ⟨q, e, r⟩ := constructAt_repr h hbs hok v
    exact ⟨q, by simp only [Op.run, e, ok_bind, pure_ok, Op.spec], r⟩
  | destroyAt i =>
    obtain ⟨v, hv⟩ := hok
    obtain ⟨q, e, r⟩ := destroyAt_repr h hbs hv
    exact ⟨q, by simp only [Op.run, e, ok_bind, pure_ok, Op.spec], r⟩
  | assignAt i v =>
    obtain ⟨u, hv⟩ := hok
    obtain ⟨q, e, r⟩ := assignAt_repr h hbs hv v
    exact ⟨q, by simp only [Op.run, e, ok_bind, pure_ok, Op.spec], r⟩
  | free i =>
    obtain ⟨u, hv⟩ := hok
    obtain ⟨q, e, r⟩ := free_repr h hbs hv
    exact ⟨q, by simp only [Op.run, e, ok_bind, pure_ok, Op.spec], r⟩
  | freeNoDestruction i =>
    obtain ⟨q, e, r⟩ := freeNoDestruction_repr h hbs hok
    exact ⟨q, by simp only [Op.run, e, ok_bind, pure_ok, Op.spec], r⟩
  | clear =>
    have := (clear_repr h hok.1 hok.2).1
    exact ⟨⟨bs, []⟩, by simp only [Op.run, this, ok_bind, pure_ok, Op.spec], empty_repr bs S⟩

theorem runAll_repr {bs S : Nat} {p : Pool α} {a : Abs α} (h : Repr bs S p a) (hbs : 0 < bs) (os : List (Op α)) (hok : okAll bs S os a) :
    ∃ q, runAll S os p = .ok (q, (specAll bs os a).2) ∧ Repr bs S q (specAll bs os a).1 := by
  induction os generalizing p a with
  | nil => exact ⟨p, rfl, h⟩
  | cons o os ih =>
    obtain ⟨q, e, r⟩ := run_repr h hbs o hok.1
    obtain ⟨q', e', r'⟩ := ih r hok.2
    exact ⟨q', by simp only [runAll, e, ok_bind, e', pure_ok, specAll], r'⟩

end Verif.MemoryPool
