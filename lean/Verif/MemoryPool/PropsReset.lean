import Verif.MemoryPool.Props

/-!
# C37: a pool after `Reset`
-/

namespace Verif.MemoryPool
open Verif.Cpp Verif.Bitset

variable {α : Type}

/-- Right after `Reset`, for blocks of more than one entry, no object is alive, all entries count as free and the loop over the pool visits nothing.  (That the pool can be used
again is false: `C37_reuse_violated`.) -/
theorem C37_reset_partial {bs S : Nat} {p : Pool α} {a : Abs α} (h : Reached bs S p a) (hobj : ∀ i, a.entries i ≠ some none) (h2 : 2 ≤ bs) :
    ∃ q, reset p = .ok q ∧ getAllocatedEntryCount q = 0 ∧ getFreeEntryCount q = getBlockCount q * getBlockSize q ∧ getBlockCount q = getBlockCount p ∧
      getBlockSize q = bs ∧ (q.blocks.map (fun b => b.memory.alive)).sum = 0 ∧ ∀ fuel, 0 < fuel → iterate S q fuel = .ok [] := by
  have r := h.repr
  obtain ⟨l, e, hl, hk⟩ := reset_repr r hobj (by omega)
  have hz : ∀ b ∈ l, b.count = 0 ∧ b.memory.alive = 0 := by
    intro b hb
    obtain ⟨k, hkk, rfl⟩ := List.mem_iff_getElem.mp hb
    obtain ⟨base, _, rb⟩ := hk k _ (List.getElem?_eq_getElem hkk)
    exact ⟨rb.count, by rw [rb.memory]; exact alive_raw bs⟩
  have hcount : getAllocatedEntryCount (⟨bs, l⟩ : Pool α) = 0 := by
    rw [getAllocatedEntryCount, foldl_count, Nat.zero_add]
    apply sum_zero
    intro x hx
    obtain ⟨b, hb, rfl⟩ := List.mem_map.mp hx
    exact (hz b hb).1
  refine ⟨⟨bs, l⟩, e, hcount, ?_, ?_, rfl, ?_, ?_⟩
  · rw [getFreeEntryCount, hcount]; simp [getBlockCount, getBlockSize]
  · simp [getBlockCount, hl, r.len]
  · apply sum_zero
    intro x hx
    obtain ⟨b, hb, rfl⟩ := List.mem_map.mp hx
    exact (hz b hb).2
  · intro fuel hf
    obtain ⟨rr, e, h1, h2⟩ := findUp_ok (lo := 0) (n := l.length - 0) (p := fun i => do
      let b ← rd l i
      pure (b.count != 0)) (fun _ => false) (by
        intro i _ hi
        have hi' : i < l.length := by omega
        rw [rd_ok hi', ok_bind, pure_ok, (hz _ (List.getElem_mem hi')).1]
        rfl)
    have hn : rr = none := by
      cases rr with
      | none => rfl
      | some k => exact absurd (h1 k rfl).2.2.1 (by simp)
    subst hn
    obtain ⟨f, rfl⟩ : ∃ f, fuel = f + 1 := ⟨fuel - 1, by omega⟩
    have e2 : getFirstAllocatedEntryFromBlock (⟨bs, l⟩ : Pool α) 0 = .ok none := by
      simp only [getFirstAllocatedEntryFromBlock, e, ok_bind]
      rfl
    simp only [iterate, e2, ok_bind, walk]

/-- Resetting a pool without entries changes nothing. -/
theorem C37_reset_empty {bs S : Nat} {p : Pool α} {a : Abs α} (h : Reached bs S p a) (hnone : ∀ i, a.entries i = none) : reset p = .ok p := by
  have r := h.repr
  have hb : ∀ b ∈ p.blocks, resetBlock b = .ok b := by
    intro b hb
    obtain ⟨k, hkk, rfl⟩ := List.mem_iff_getElem.mp hb
    obtain ⟨b, base, g1, g2, g3, g4⟩ := r.get hkk
    rw [List.getElem?_eq_getElem hkk] at g1
    cases g1
    have : p.blocks[k].count = 0 := by
      rw [g4.count, countP_none]
      intro j _
      simp [hnone]
    rw [resetBlock, if_pos this]; rfl
  obtain ⟨l, e, hl, hk⟩ := reset_blocks p (fun b hb' => ⟨b, hb b hb'⟩)
  have : l = p.blocks := by
    apply List.ext_getElem? 
    intro k
    by_cases hkk : k < p.blocks.length
    · obtain ⟨b', e', hb'⟩ := hk k _ (List.getElem?_eq_getElem hkk)
      rw [hb _ (List.getElem_mem hkk)] at e'
      cases e'
      rw [hb', List.getElem?_eq_getElem hkk]
    · rw [List.getElem?_eq_none (by omega), List.getElem?_eq_none (by omega)]
  rw [e, this]

/-! ### Reuse -/

/-- `n` allocations with construction, with the values and possible block addresses `f`. -/
def allocateMany (S : Nat) (f : Nat → Nat × α) : Nat → Pool α → M (Pool α)
  | 0, p => pure p
  | n + 1, p => do
    let p ← allocateMany S f n p
    let r ← allocate S (f n).1 (some (f n).2) p
    pure r.1

/-- Number of free bits of a block. -/
def freeBits (bs : Nat) (b : Block α) : Nat := (List.range bs).countP (fun j => bitAt b.freeEntries.blocks j)

/-- State of a block after `Reset`, and after later allocations: the free entries hold no objects, and there may be fewer free entries than the count says. -/
structure Stale (bs : Nat) (b : Block α) : Prop where
  free : ∃ f, Has b.freeEntries bs f
  occupied : ∃ o, Has b.occupiedEntries bs o
  count : freeBits bs b + b.count ≤ bs
  memory : ∃ m, b.memory = Slots.mk bs m ∧ ∀ j, j < bs → bitAt b.freeEntries.blocks j = true → m j = none

/-- The pool after `Reset` and later allocations: one block has too few free entries. -/
structure StalePool (bs : Nat) (p : Pool α) : Prop where
  size : p.blockSize = bs
  block : ∀ b ∈ p.blocks, Stale bs b
  deficit : ∃ b ∈ p.blocks, freeBits bs b + b.count < bs

theorem freeBits_has {bs : Nat} {b : Block α} {f : Nat → Bool} (h : Has b.freeEntries bs f) : freeBits bs b = (List.range bs).countP f :=
  countP_range_congr (fun _ hi => Has.bitAt_lt h hi)

theorem sum_set (l : List (Block α)) (g : Block α → Nat) (k : Nat) (b : Block α) (hk : k < l.length) :
    ((l.set k b).map g).sum + g l[k] = (l.map g).sum + g b := by
  induction l generalizing k with
  | nil => simp at hk
  | cons c l ih =>
    cases k with
    | zero => simp; omega
    | succ k =>
      simp only [List.set_cons_succ, List.map_cons, List.sum_cons, List.getElem_cons_succ]
      have := ih k (by simpa using hk)
      omega

/-- One allocation: it fails, or there is one free entry less. -/
theorem stale_step {bs S : Nat} {p : Pool α} (h : StalePool bs p) (base : Nat) (v : α) :
    allocate S base (some v) p = .error .assert ∨
    ∃ r, allocate S base (some v) p = .ok r ∧ StalePool bs r.1 ∧ (r.1.blocks.map (freeBits bs)).sum + 1 = (p.blocks.map (freeBits bs)).sum := by
  obtain ⟨r, e, h1, h2⟩ := findUp_ok (lo := 0) (n := p.blocks.length) (p := fun i => do
    let b ← rd p.blocks i
    pure (b.count != p.blockSize)) (fun i => ((p.blocks[i]?).map (fun b => b.count != bs)).getD false) (by
      intro i _ hi
      have hi' : i < p.blocks.length := by omega
      rw [rd_ok hi', ok_bind, pure_ok, h.size, List.getElem?_eq_getElem hi']
      rfl)
  cases r with
  | none =>
    exfalso
    obtain ⟨b, hb, hlt⟩ := h.deficit
    obtain ⟨k, hk, rfl⟩ := List.mem_iff_getElem.mp hb
    have := h2 rfl k (by omega) (by omega)
    rw [List.getElem?_eq_getElem hk] at this
    simp at this
    omega
  | some k =>
    obtain ⟨_, hk, hq, _⟩ := h1 k rfl
    have hk : k < p.blocks.length := by omega
    rw [List.getElem?_eq_getElem hk] at hq
    simp only [Option.map_some, Option.getD_some, bne_iff_ne, ne_eq] at hq
    obtain ⟨b, hbk⟩ : ∃ b, b = p.blocks[k] := ⟨_, rfl⟩
    have hbm : b ∈ p.blocks := by rw [hbk]; exact List.getElem_mem hk
    have hs := h.block b hbm
    have hrd : rd p.blocks k = .ok b := by rw [rd_ok hk, hbk]
    obtain ⟨f, hf⟩ := hs.free
    obtain ⟨o, ho⟩ := hs.occupied
    obtain ⟨m, hm, hmf⟩ := hs.memory
    obtain ⟨x, ex, x1, x2⟩ := Has.findFirst hf
    cases x with
    | none =>
      left
      simp only [allocate, allocateDefer, chooseEntry, findFree, e, ok_bind, hrd, ex, err_bind]
    | some l =>
      right
      obtain ⟨hl, hfl, _⟩ := x1 l rfl
      obtain ⟨f', ef, hf'⟩ := Has.set hf hl false
      obtain ⟨o', eo, ho'⟩ := Has.set ho hl true
      have hbit : bitAt b.freeEntries.blocks l = true := by rw [Has.bitAt_lt hf hl]; exact hfl
      have hml := hmf l hl hbit
      have hc := Slots.create_mk (n := bs) v hl hml
      have hset : (p.blocks.set k ⟨b.count + 1, b.base, b.memory, f', o'⟩)[k]? = some ⟨b.count + 1, b.base, b.memory, f', o'⟩ := by simp [hk]
      have hal : allocate S base (some v) p = .ok (⟨bs, p.blocks.set k ⟨b.count + 1, b.base, Slots.mk bs (Slots.upd m l (some v)), f', o'⟩⟩, k * bs + l, b.base + l * S, false) := by
        have hrd2 : rd (p.blocks.set k ⟨b.count + 1, b.base, b.memory, f', o'⟩) k = .ok ⟨b.count + 1, b.base, b.memory, f', o'⟩ := by simp [rd, hk]
        have hff : findFree p = .ok (some (k, l)) := by
          simp only [findFree, e, ok_bind, hrd, ex]
          rfl
        rw [hm] at hrd2
        simp only [allocate, allocateDefer, chooseEntry, hff, ok_bind, hrd, pure_ok, Block.take, Bitset.reset, ef, eo, wr_ok hk, h.size, onSlot,
          index_div hl, index_mod hl, hm, hrd2, hc, Block.address]
        rw [wr_ok (by simpa using hk)]
        simp only [ok_bind, List.set_set]
      -- the new block
      have hbits : freeBits bs b = freeBits bs (⟨b.count + 1, b.base, Slots.mk bs (Slots.upd m l (some v)), f', o'⟩ : Block α) + 1 := by
        rw [freeBits_has hf, freeBits_has (b := ⟨b.count + 1, b.base, Slots.mk bs (Slots.upd m l (some v)), f', o'⟩) hf']
        refine countP_upd hl (by simp) hfl ?_
        intro i hi
        simp [hi]
      refine ⟨_, hal, ⟨rfl, ?_, ?_⟩, ?_⟩
      · intro c hcm
        obtain ⟨i, hi, rfl⟩ := List.mem_iff_getElem.mp hcm
        simp only [List.getElem_set]
        split
        · refine ⟨⟨_, hf'⟩, ⟨_, ho'⟩, ?_, _, rfl, ?_⟩
          · have := hs.count
            simp only [] at hbits ⊢
            omega
          · intro j hj hb
            simp only at hb
            rw [Has.bitAt_lt hf' hj] at hb
            by_cases hjl : j = l
            · simp [hjl] at hb
            · simp only [hjl, if_false] at hb
              simp only [Slots.upd, hjl, if_false]
              exact hmf j hj (by rw [Has.bitAt_lt hf hj]; exact hb)
        · exact h.block _ (List.getElem_mem _)
      · obtain ⟨c, hcm, hlt⟩ := h.deficit
        obtain ⟨i, hi, rfl⟩ := List.mem_iff_getElem.mp hcm
        by_cases hik : i = k
        · subst hik
          refine ⟨_, List.mem_iff_getElem.mpr ⟨i, by simpa using hi, rfl⟩, ?_⟩
          simp only [List.getElem_set_self]
          rw [← hbk] at hlt
          omega
        · refine ⟨p.blocks[i], List.mem_iff_getElem.mpr ⟨i, by simpa using hi, ?_⟩, hlt⟩
          simp [Ne.symm hik]
      · have := sum_set p.blocks (freeBits bs) k ⟨b.count + 1, b.base, Slots.mk bs (Slots.upd m l (some v)), f', o'⟩ hk
        rw [← hbk] at this
        simp only
        omega

theorem allocateMany_front (S : Nat) (f : Nat → Nat × α) (n : Nat) (p q : Pool α) (i addr : Nat) (t : Bool)
    (h : allocate S (f 0).1 (some (f 0).2) p = .ok (q, i, addr, t)) : allocateMany S f (n + 1) p = allocateMany S (fun k => f (k + 1)) n q := by
  induction n with
  | zero => simp only [allocateMany, pure_ok, ok_bind, h]
  | succ n ih =>
    rw [allocateMany, ih]
    rfl

theorem stale_fails {bs S : Nat} (n : Nat) {p : Pool α} (h : StalePool bs p) (hn : (p.blocks.map (freeBits bs)).sum = n) (f : Nat → Nat × α) :
    ∃ k, k ≤ n ∧ (∀ j, j ≤ k → ∃ q, allocateMany S f j p = .ok q) ∧ allocateMany S f (k + 1) p = .error .assert := by
  induction n generalizing p f with
  | zero =>
    rcases stale_step (S := S) h (f 0).1 (f 0).2 with e | ⟨r, _, _, hr⟩
    · refine ⟨0, Nat.le_refl _, ?_, ?_⟩
      · intro j hj
        have : j = 0 := by omega
        subst this
        exact ⟨p, rfl⟩
      · simp only [allocateMany, pure_ok, ok_bind, e, err_bind]
    · omega
  | succ n ih =>
    rcases stale_step (S := S) h (f 0).1 (f 0).2 with e | ⟨⟨q, i, addr, t⟩, er, hr, hsum⟩
    · refine ⟨0, Nat.zero_le _, ?_, ?_⟩
      · intro j hj
        have : j = 0 := by omega
        subst this
        exact ⟨p, rfl⟩
      · simp only [allocateMany, pure_ok, ok_bind, e, err_bind]
    · obtain ⟨k, hk, hok, hfail⟩ := ih hr (by simp only at hsum ⊢; omega) (fun k => f (k + 1))
      refine ⟨k + 1, by omega, ?_, ?_⟩
      · intro j hj
        cases j with
        | zero => exact ⟨p, rfl⟩
        | succ j =>
          obtain ⟨q', hq'⟩ := hok j (by omega)
          exact ⟨q', by rw [allocateMany_front S f j p q i addr t er]; exact hq'⟩
      · rw [allocateMany_front S f (k + 1) p q i addr t er]
        exact hfail

theorem sum_lt (l : List (Block α)) (g : Block α → Nat) (n : Nat) (h : ∀ b ∈ l, g b ≤ n) (hex : ∃ b ∈ l, g b < n) : (l.map g).sum < l.length * n := by
  have hle : ∀ l : List (Block α), (∀ b ∈ l, g b ≤ n) → (l.map g).sum ≤ l.length * n := by
    intro l hl
    induction l with
    | nil => simp
    | cons b l ih =>
      have h1 := hl b (by simp)
      have h2 := ih (fun c hc => hl c (by simp [hc]))
      simp only [List.map_cons, List.sum_cons, List.length_cons, Nat.succ_mul]
      omega
  induction l with
  | nil => obtain ⟨b, hb, _⟩ := hex; simp at hb
  | cons b l ih =>
    simp only [List.map_cons, List.sum_cons, List.length_cons, Nat.succ_mul]
    obtain ⟨c, hc, hlt⟩ := hex
    rcases List.mem_cons.mp hc with rfl | hc
    · have := hle l (fun c hc => h c (by simp [hc]))
      omega
    · have := ih (fun c hc => h c (by simp [hc])) ⟨c, hc, hlt⟩
      have := h b (by simp)
      omega

/-- A pool that was reset while objects lived in it cannot be used as an empty one: after fewer allocations than it has entries, an allocation fails an assertion (the entries
that were in use at the time of the `Reset` are neither free nor counted), although `GetFreeEntryCount` was the number of all entries. -/
theorem C37_reuse_violated {bs S : Nat} {p : Pool α} {a : Abs α} (h : Reached bs S p a) (hobj : ∀ i, a.entries i ≠ some none) (h2 : 2 ≤ bs)
    (hl : ∃ i, a.isLive i = true) (f : Nat → Nat × α) :
    ∃ q k, reset p = .ok q ∧ k < getBlockCount q * getBlockSize q ∧ getFreeEntryCount q = getBlockCount q * getBlockSize q ∧
      (∀ j, j ≤ k → ∃ q', allocateMany S f j q = .ok q') ∧ allocateMany S f (k + 1) q = .error .assert := by
  have r := h.repr
  have hbs := h.1
  obtain ⟨l, e, hlen, hk⟩ := reset_repr r hobj (by omega)
  obtain ⟨q, e', _, hfree, _⟩ := C37_reset_partial h hobj h2
  rw [e] at e'
  cases e'
  have hst : ∀ b ∈ l, Stale bs b ∧ b.count = 0 := by
    intro b hb
    obtain ⟨k, hkk, rfl⟩ := List.mem_iff_getElem.mp hb
    obtain ⟨base, _, rb⟩ := hk k _ (List.getElem?_eq_getElem hkk)
    refine ⟨⟨⟨_, rb.free⟩, ⟨_, rb.occupied⟩, ?_, _, rb.memory, fun _ _ _ => rfl⟩, rb.count⟩
    rw [rb.count, Nat.add_zero]
    exact countP_le
  obtain ⟨i, hi⟩ := hl
  have hki := div_lt_blocks (r.bound i hi)
  have hli := Nat.mod_lt i hbs
  have hki' : i / bs < l.length := by rw [hlen]; exact hki
  have hdef : ∃ b ∈ l, freeBits bs b + b.count < bs := by
    refine ⟨l[i / bs], List.getElem_mem hki', ?_⟩
    obtain ⟨base, _, rb⟩ := hk (i / bs) _ (List.getElem?_eq_getElem hki')
    rw [rb.count, Nat.add_zero, freeBits_has rb.free]
    have hle := countP_le (n := bs) (p := fun j => (a.entries (i / bs * bs + j)).isNone && !(decide (j = 1) && (List.range bs).any (fun q => (a.entries (i / bs * bs + q)).isSome)))
    rcases Nat.lt_or_eq_of_le hle with hlt | heq
    · exact hlt
    · have := countP_full.mp heq (i % bs) hli
      simp only [index_split] at this
      simp only [Abs.isLive] at hi
      rw [Bool.and_eq_true] at this
      have h3 := this.1
      cases hh : a.entries i <;> simp_all
  have hsp : StalePool bs (⟨bs, l⟩ : Pool α) := ⟨rfl, fun b hb => (hst b hb).1, hdef⟩
  obtain ⟨k, hkle, hok, hfail⟩ := stale_fails (S := S) _ hsp rfl f
  refine ⟨_, k, e, ?_, hfree, hok, hfail⟩
  have := sum_lt l (freeBits bs) bs (fun b hb => by have := (hst b hb).1.count; omega) (by
    obtain ⟨b, hb, hlt⟩ := hdef
    exact ⟨b, hb, by omega⟩)
  simp only [getBlockCount, getBlockSize]
  simp only at hkle
  omega

example : ∃ p a, Reached 2 4 (α := Nat) p a ∧ (∀ i, a.entries i ≠ some none) ∧ ∃ i, a.isLive i = true := by
  obtain ⟨p, a, h, h0, _, _, _, _, ho⟩ := sample_reached
  exact ⟨p, a, h, ho, 0, by simp [Abs.isLive, h0]⟩

example : ∃ p a, Reached 3 4 (α := Nat) p a ∧ ∀ i, a.entries i = none := by
  obtain ⟨p0, p, e0, e, _⟩ := C32_history (α := Nat) 3 4 1000 (by omega) [.allocate 9 5, .free 0] ⟨by simp [Op.ok, Abs.start, Abs.Apart], ⟨5, rfl⟩, trivial⟩
  refine ⟨p, _, ⟨by omega, 1000, [.allocate 9 5, .free 0], p0, _, e0, ⟨by simp [Op.ok, Abs.start, Abs.Apart], ⟨5, rfl⟩, trivial⟩, e, rfl⟩, ?_⟩
  intro i
  match i with
  | 0 => rfl
  | i + 1 => rfl

end Verif.MemoryPool
