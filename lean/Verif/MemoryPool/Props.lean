import Verif.MemoryPool.LemmasIter

/-!
# Properties of `MemoryPool`: C32 - C36, C65, C66
-/

namespace Verif.MemoryPool
open Verif.Cpp Verif.Bitset

variable {α : Type}

theorem Reached.repr {bs S : Nat} {p : Pool α} {a : Abs α} (h : Reached bs S p a) : Repr bs S p a := by
  obtain ⟨hbs, base, os, p0, rs, e0, hok, e, rfl⟩ := h
  obtain ⟨p0', e0', r0⟩ := new_repr (α := α) (bs := bs) (S := S) base
  rw [e0] at e0'
  cases e0'
  obtain ⟨q, eq, r⟩ := runAll_repr r0 hbs os hok
  rw [e] at eq
  cases eq
  exact r

/-! ## C32 -/

/-- Every allowed sequence of calls (allocations with and without construction, constructions, destructions and assignments by the user, frees, `Clear`)
on a new pool runs without assertion failure, undefined behaviour or wrong lifetime; it returns the indices, and leaves the pool with the contents, of
a map from indices to objects. -/
theorem C32_history (bs S base : Nat) (hbs : 0 < bs) (os : List (Op α)) (hok : okAll bs S os (.start base)) :
    ∃ p0 p, new bs base = .ok p0 ∧ runAll S os p0 = .ok (p, (specAll bs os (.start base)).2) ∧ Shows bs S p (specAll bs os (.start base)).1 := by
  obtain ⟨p0, e0, r0⟩ := new_repr (α := α) (bs := bs) (S := S) base
  obtain ⟨q, eq, r⟩ := runAll_repr r0 hbs os hok
  exact ⟨p0, q, e0, eq, shows_repr r hbs⟩

/-- Three objects in blocks of two entries, the second freed and its entry given out again. -/
def sample : List (Op Nat) := [.allocate 9 10, .allocate 9 20, .allocate 100 30, .free 1, .allocate 9 40, .assignAt 0 11, .allocateDefer 9, .constructAt 3 50]

theorem sample_ok : okAll 2 4 sample (.start 1000) := by
  refine ⟨?_, ?_, ?_, ?_, ?_, ?_, ?_, ?_, trivial⟩
  all_goals first
    | (simp only [Op.ok]; exact ⟨_, rfl⟩)
    | (simp only [Op.ok]; rfl)
    | (simp only [Op.ok]; show ∀ b ∈ [1000], _; simp [Abs.Apart])
    | (simp only [Op.ok]; show ∀ b ∈ [1000, 100], _; simp [Abs.Apart])

/-- The pool of `sample`. -/
theorem sample_reached : ∃ p a, Reached 2 4 (α := Nat) p a ∧ a.entries 0 = some (some 11) ∧ a.entries 1 = some (some 40) ∧ a.entries 2 = some (some 30) ∧
    a.entries 3 = some (some 50) ∧ a.bases = [1000, 100] ∧ (∀ i, a.entries i ≠ some none) := by
  obtain ⟨p0, p, e0, e, _⟩ := C32_history 2 4 1000 (by omega) sample sample_ok
  refine ⟨p, _, ⟨by omega, 1000, sample, p0, _, e0, sample_ok, e, rfl⟩, rfl, rfl, rfl, rfl, rfl, ?_⟩
  intro i
  match i with
  | 0 => exact (by simp : (some (some 11) : Option (Option Nat)) ≠ some none)
  | 1 => exact (by simp : (some (some 40) : Option (Option Nat)) ≠ some none)
  | 2 => exact (by simp : (some (some 30) : Option (Option Nat)) ≠ some none)
  | 3 => exact (by simp : (some (some 50) : Option (Option Nat)) ≠ some none)
  | i + 4 => exact (by simp : (none : Option (Option Nat)) ≠ some none)

/-- The indices returned in `sample`: entry 1 is given out again, after it was freed. -/
example : (specAll 2 sample (.start 1000)).2 = [some 0, some 1, some 2, none, some 1, none, some 3, none] := rfl

/-- An allocation gives an index that was not in use, at an address that overlaps no entry in use; the entries in use keep their addresses and objects.
(`base` is the storage of a block that may be added.) -/
theorem C32_allocate {bs S : Nat} {p : Pool α} {a : Abs α} (h : Reached bs S p a) (base : Nat)
    (hb : ∀ b ∈ a.bases, base + bs * S ≤ b ∨ b + bs * S ≤ base) (v : α) :
    ∃ p' i addr, allocate S base (some v) p = .ok (p', i, addr, false) ∧
      retrieveFromIndex S p i = .error .assert ∧
      retrieveFromIndex S p' i = .ok addr ∧
      readAt S p' i = .ok v ∧
      (∀ j, j ≠ i → retrieveFromIndex S p' j = retrieveFromIndex S p j) ∧
      (∀ j u, readAt S p j = .ok u → readAt S p' j = .ok u) ∧
      (∀ j addr', retrieveFromIndex S p j = .ok addr' → addr + S ≤ addr' ∨ addr' + S ≤ addr) := by
  have hbs := h.1
  have r := h.repr
  obtain ⟨p', e, r'⟩ := allocate_repr r hbs hb v
  have hfree := firstFree_free r hbs
  have hkeep : ∀ j, j ≠ a.firstFree bs → ((a.grow bs base).set (a.firstFree bs) (some (some v))).entries j = a.entries j := by
    intro j hj
    simp only [Abs.set, hj, if_false, Abs.grow]
    split <;> rfl
  have hlive' : ∀ j, j ≠ a.firstFree bs → ((a.grow bs base).set (a.firstFree bs) (some (some v))).isLive j = a.isLive j := by
    intro j hj
    simp only [Abs.isLive, hkeep j hj]
  have haddr : ∀ j, a.isLive j = true → ((a.grow bs base).set (a.firstFree bs) (some (some v))).address bs S j = a.address bs S j := by
    intro j hj
    have hlt := div_lt_blocks (r.bound j hj)
    simp only [Abs.address, Abs.set, Abs.grow]
    split
    · simp only [List.getD, List.getElem?_append, hlt, if_true]
    · rfl
  have hnew : ((a.grow bs base).set (a.firstFree bs) (some (some v))).isLive (a.firstFree bs) = true := by simp [Abs.isLive, Abs.set]
  refine ⟨p', _, _, e, ?_, ?_, ?_, ?_, ?_, ?_⟩
  · rw [retrieve_repr r hbs, hfree]; rfl
  · rw [retrieve_repr r' hbs, hnew]; rfl
  · exact readAt_repr r' hbs (by simp [Abs.set])
  · intro j hj
    rw [retrieve_repr r' hbs, retrieve_repr r hbs, hlive' j hj]
    cases hl : a.isLive j
    · rfl
    · rw [haddr j hl]
  · intro j u hu
    have hj : a.isLive j = true := by
      cases hl : a.isLive j
      · rw [readAt, retrieve_repr r hbs, hl] at hu
        exact absurd hu (by simp [err_bind])
      · rfl
    have hne : j ≠ a.firstFree bs := by
      rintro rfl
      rw [hfree] at hj
      exact absurd hj (by simp)
    cases hx : a.entries j with
    | none => simp [Abs.isLive, hx] at hj
    | some x =>
      cases x with
      | some w =>
        rw [readAt_repr r hbs hx] at hu
        cases hu
        exact readAt_repr r' hbs (by rw [hkeep j hne]; exact hx)
      | none =>
        exfalso
        have hk : j / bs < p.blocks.length := by
          rw [r.len]; exact div_lt_blocks (r.bound j hj)
        obtain ⟨b, base', g1, g2, g3, g4⟩ := r.get hk
        have hm := Slots.mk_get (f := fun i => (a.entries (j / bs * bs + i)).join) (Nat.mod_lt j hbs)
        simp only [index_split, hx] at hm
        rw [show (some (none : Option α)).join = none from rfl] at hm
        simp only [readAt, retrieve_repr r hbs, hj, if_true, ok_bind, r.size, g2, g4.memory, Slots.read, hm] at hu
        exact absurd hu (by simp)
  · intro j addr' hj'
    rw [retrieve_repr r hbs] at hj'
    cases hl : a.isLive j
    · rw [hl] at hj'; exact absurd hj' (by simp)
    · rw [hl, if_pos rfl] at hj'
      cases hj'
      have hne : a.firstFree bs ≠ j := by
        rintro rfl
        rw [hfree] at hl
        exact absurd hl (by simp)
      have := address_apart r' hne (r'.bound _ hnew) (r'.bound j (by rw [hlive' j hne.symm]; exact hl))
      rw [haddr j hl] at this
      exact this

/-- A freed index is not in use any more (a second `Free` of it fails an assertion), the other entries keep their addresses and objects. -/
theorem C32_free {bs S : Nat} {p : Pool α} {a : Abs α} (h : Reached bs S p a) (i : Nat) (v : α) (hi : a.entries i = some (some v)) :
    ∃ p', free S p i = .ok p' ∧ retrieveFromIndex S p' i = .error .assert ∧ free S p' i = .error .assert ∧
      (∀ j, j ≠ i → retrieveFromIndex S p' j = retrieveFromIndex S p j) ∧
      (∀ j u, j ≠ i → a.entries j = some (some u) → readAt S p' j = .ok u) := by
  have hbs := h.1
  have r := h.repr
  obtain ⟨p', e, r'⟩ := free_repr r hbs hi
  have hdead : (a.set i none).isLive i = false := by simp [Abs.isLive, Abs.set]
  refine ⟨p', e, ?_, ?_, ?_, ?_⟩
  · rw [retrieve_repr r' hbs, hdead]; rfl
  · have h0 : (bs != 0) = true := by simp; omega
    simp only [free, r'.size, h0, guardUB_true, ok_bind, pointer_repr r' (Nat.mod_lt i hbs), index_split, hdead]
    rfl
  · intro j hj
    rw [retrieve_repr r' hbs, retrieve_repr r hbs]
    simp only [Abs.isLive, Abs.set, hj, if_false]
    rfl
  · intro j u hj hu
    exact readAt_repr r' hbs (by simp [Abs.set, hj, hu])

/-- `RetrieveFromIndex` and `Free` of an index that is not in use (never given out, or freed) fail an assertion. -/
theorem C32_not_in_use {bs S : Nat} {p : Pool α} {a : Abs α} (h : Reached bs S p a) (i : Nat) (hi : a.entries i = none) :
    retrieveFromIndex S p i = .error .assert ∧ free S p i = .error .assert := by
  have hbs := h.1
  have r := h.repr
  have h0 : (bs != 0) = true := by simp; omega
  have hdead : a.isLive i = false := by simp [Abs.isLive, hi]
  constructor
  · rw [retrieve_repr r hbs, hdead]; rfl
  · simp only [free, r.size, h0, guardUB_true, ok_bind, pointer_repr r (Nat.mod_lt i hbs), index_split, hdead]
    rfl

example : ∃ p a, Reached 2 4 (α := Nat) p a ∧ a.entries 1 = some (some 40) ∧ ∀ b ∈ a.bases, 16 + 2 * 4 ≤ b ∨ b + 2 * 4 ≤ 16 := by
  obtain ⟨p, a, h, _, h1, _, _, hb, _⟩ := sample_reached
  exact ⟨p, a, h, h1, by rw [hb]; simp⟩

/-! ## C33 -/

/-- An allocation adds one live entry. -/
theorem live_alloc {bs S : Nat} {p p' : Pool α} {a : Abs α} (r : Repr bs S p a) (hbs : 0 < bs) {base : Nat} {x : Option α}
    (r' : Repr bs S p' ((a.grow bs base).set (a.firstFree bs) (some x))) :
    (((a.grow bs base).set (a.firstFree bs) (some x)).live bs).length = (a.live bs).length + 1 := by
  have hfree := firstFree_free r hbs
  have hlt' := r'.bound (a.firstFree bs) (by simp [Abs.isLive, Abs.set])
  have hcap : a.capacity bs ≤ ((a.grow bs base).set (a.firstFree bs) (some x)).capacity bs := by
    show a.capacity bs ≤ (a.grow bs base).capacity bs
    unfold Abs.grow
    split
    · simp [Abs.capacity, Nat.succ_mul]
    · exact Nat.le_refl _
  rw [live_length, live_length]
  have hext : (List.range (((a.grow bs base).set (a.firstFree bs) (some x)).capacity bs)).countP a.isLive =
      (List.range (a.capacity bs)).countP a.isLive := by
    obtain ⟨d, hd⟩ := Nat.exists_eq_add_of_le hcap
    rw [hd, List.range_add, List.countP_append]
    have : List.countP a.isLive (List.map (fun x => a.capacity bs + x) (List.range d)) = 0 := by
      rw [List.countP_eq_zero]
      intro x hx
      obtain ⟨y, _, rfl⟩ := List.mem_map.mp hx
      intro hh
      have := r.bound _ hh
      omega
    rw [this]; rfl
  rw [← hext]
  refine countP_upd hlt' hfree (by simp [Abs.isLive, Abs.set]) ?_
  intro j hj
  simp only [Abs.isLive, Abs.set, hj, if_false, Abs.grow]
  split <;> rfl

/-- Allocated and free entries add up to the number of blocks times their size; an allocation adds 1 to the former, and a block exactly if
there is no free entry. -/
theorem C33_allocate {bs S : Nat} {p : Pool α} {a : Abs α} (h : Reached bs S p a) (base : Nat)
    (hb : ∀ b ∈ a.bases, base + bs * S ≤ b ∨ b + bs * S ≤ base) (v : α) :
    ∃ p' i addr, allocate S base (some v) p = .ok (p', i, addr, false) ∧
      getAllocatedEntryCount p' = getAllocatedEntryCount p + 1 ∧
      getBlockCount p' = getBlockCount p + (if getFreeEntryCount p = 0 then 1 else 0) ∧
      getFreeEntryCount p' + getAllocatedEntryCount p' = getBlockCount p' * getBlockSize p' ∧
      0 ≤ getFreeEntryCount p' := by
  have hbs := h.1
  have r := h.repr
  obtain ⟨p', e, r'⟩ := allocate_repr r hbs hb v
  have hcount := live_alloc r hbs r'
  have hfull : a.firstFree bs = a.capacity bs ↔ (a.live bs).length = a.capacity bs := by
    rw [live_length, countP_full]
    constructor
    · intro hf i hi
      rcases findFree_repr r hbs with ⟨_, hn⟩ | ⟨k, l, hk, hl, _, e2, _⟩
      · cases hh : a.isLive i
        · exfalso
          have hsome : ((List.range (a.capacity bs)).find? (fun i => !a.isLive i)).isSome = true := by
            rw [List.find?_isSome]
            exact ⟨i, List.mem_range.mpr hi, by simp [hh]⟩
          obtain ⟨x, hx⟩ := Option.isSome_iff_exists.mp hsome
          have hxm := List.mem_range.mp (List.mem_of_find?_eq_some hx)
          rw [Abs.firstFree, hx, Option.getD_some] at hf
          omega
        · rfl
      · have := index_lt hl hk
        rw [hf, Abs.capacity, ← r.len] at e2
        omega
    · intro hall
      refine firstFree_unique (Nat.le_refl _) (by omega) hall
  have hle := live_le bs a
  have hle' := live_le bs ((a.grow bs base).set (a.firstFree bs) (some (some v)))
  have f := free_repr_count r
  have f' := free_repr_count r'
  refine ⟨p', _, _, e, ?_, ?_, ?_, ?_⟩
  · rw [allocated_repr r', allocated_repr r, hcount]
  · simp only [getBlockCount, r'.len, r.len, f]
    by_cases hfl : a.firstFree bs = a.capacity bs
    · have := hfull.mp hfl
      rw [if_pos (by omega)]
      simp [Abs.set, Abs.grow, hfl]
    · have := (not_congr hfull).mp hfl
      rw [if_neg (by omega)]
      simp [Abs.set, Abs.grow, hfl]
  · rw [f', allocated_repr r', getBlockCount, getBlockSize, r'.len, r'.size]
    simp only [Abs.capacity] at hle' ⊢
    omega
  · rw [f']; omega

/-- Freeing an entry takes 1 from the number of allocated entries and adds 1 to the number of free ones. -/
theorem C33_free {bs S : Nat} {p : Pool α} {a : Abs α} (h : Reached bs S p a) (i : Nat) (v : α) (hi : a.entries i = some (some v)) :
    ∃ p', free S p i = .ok p' ∧ getAllocatedEntryCount p' + 1 = getAllocatedEntryCount p ∧ getFreeEntryCount p' = getFreeEntryCount p + 1 ∧
      getBlockCount p' = getBlockCount p := by
  have hbs := h.1
  have r := h.repr
  obtain ⟨p', e, r'⟩ := free_repr r hbs hi
  have hlive : a.isLive i = true := by simp [Abs.isLive, hi]
  have hc : ((a.set i none).live bs).length + 1 = (a.live bs).length := by
    rw [live_length, live_length]
    have hcap : (a.set i none).capacity bs = a.capacity bs := rfl
    rw [hcap]
    refine (countP_upd (r.bound i hlive) (by simp [Abs.isLive, Abs.set]) hlive ?_).symm
    intro j hj
    simp [Abs.isLive, Abs.set, hj]
  have hle := live_le bs a
  have f := free_repr_count r
  have f' := free_repr_count r'
  have hcap : (a.set i none).capacity bs = a.capacity bs := rfl
  rw [hcap] at f'
  refine ⟨p', e, by rw [allocated_repr r', allocated_repr r, hc], by rw [f, f']; omega, ?_⟩
  rw [getBlockCount, getBlockCount, r'.len, r.len]
  rfl

/-- The counters of a reachable pool are the number of indices in use and of those not in use. -/
theorem C33_counters {bs S : Nat} {p : Pool α} {a : Abs α} (h : Reached bs S p a) :
    getAllocatedEntryCount p = (List.range (getBlockCount p * getBlockSize p)).countP (fun i => (retrieveFromIndex S p i).toOption.isSome) ∧
    getFreeEntryCount p = (List.range (getBlockCount p * getBlockSize p)).countP (fun i => !(retrieveFromIndex S p i).toOption.isSome) := by
  have hbs := h.1
  have r := h.repr
  have e : ∀ i, (retrieveFromIndex S p i).toOption.isSome = a.isLive i := by
    intro i
    rw [retrieve_repr r hbs]
    cases a.isLive i <;> rfl
  simp only [e, getBlockCount, getBlockSize, r.len, r.size]
  have h1 : getAllocatedEntryCount p = (List.range (a.bases.length * bs)).countP a.isLive := by
    rw [allocated_repr r, live_length]; rfl
  refine ⟨h1, ?_⟩
  have := List.length_eq_countP_add_countP a.isLive (l := List.range (a.bases.length * bs))
  rw [List.length_range] at this
  have hn : (List.range (a.bases.length * bs)).countP (fun i => !a.isLive i) = List.countP (fun i => decide ¬a.isLive i = true) (List.range (a.bases.length * bs)) := by
    apply List.countP_congr
    intro i _
    simp
  rw [getFreeEntryCount, h1, r.len, r.size, hn]
  omega

example : ∃ p a, Reached 2 4 (α := Nat) p a ∧ getFreeEntryCount p = 0 ∧ getBlockCount p = 2 := by
  obtain ⟨p, a, h, h0, h1, h2, h3, hb, _⟩ := sample_reached
  refine ⟨p, a, h, ?_, by rw [getBlockCount, h.repr.len, hb]; rfl⟩
  have : (a.live 2).length = 4 := by
    rw [live_length, show a.capacity 2 = 4 by rw [Abs.capacity, hb]; rfl]
    simp [List.range, List.range.loop, Abs.isLive, h0, h1, h2, h3]
  rw [free_repr_count h.repr, this, Abs.capacity, hb]
  rfl

/-! ## C34 -/

/-- The loop over a pool ends, and visits exactly the indices in use, in increasing order, with their addresses. -/
theorem C34_iterate {bs S : Nat} {p : Pool α} {a : Abs α} (h : Reached bs S p a) (fuel : Nat) (hf : getAllocatedEntryCount p < fuel) :
    ∃ l, iterate S p fuel = .ok l ∧ (l.map Prod.fst).Pairwise (· < ·) ∧ ∀ i addr, (i, addr) ∈ l ↔ retrieveFromIndex S p i = .ok addr := by
  have hbs := h.1
  have r := h.repr
  rw [allocated_repr r] at hf
  refine ⟨_, iterate_repr r hbs fuel hf, ?_, ?_⟩
  · rw [List.map_map]
    have : (Prod.fst ∘ fun i => (i, a.address bs S i)) = id := rfl
    rw [this, List.map_id, Abs.live]
    exact List.Pairwise.filter _ List.pairwise_lt_range
  · intro i addr
    rw [retrieve_repr r hbs, List.mem_map]
    constructor
    · rintro ⟨j, hj, he⟩
      cases he
      rw [Abs.live, List.mem_filter] at hj
      rw [hj.2, if_pos rfl]
    · intro he
      cases hl : a.isLive i
      · rw [hl] at he; exact absurd he (by simp)
      · rw [hl, if_pos rfl] at he
        cases he
        exact ⟨i, List.mem_filter.mpr ⟨List.mem_range.mpr (r.bound i hl), hl⟩, rfl⟩

/-- A loop that frees entries while it visits them visits the same entries as one that does not, and leaves the entries that it does not free. -/
theorem C34_free_while_iterating {bs S : Nat} {p : Pool α} {a : Abs α} (h : Reached bs S p a) (sel : Nat → Bool)
    (hobj : ∀ i, sel i = true → a.entries i ≠ some none) (fuel : Nat) (hf : getAllocatedEntryCount p < fuel) :
    ∃ q l, iterateFree S sel p fuel = .ok (q, l) ∧ iterate S p fuel = .ok l ∧
      (∀ i, retrieveFromIndex S q i = if sel i then .error .assert else retrieveFromIndex S p i) ∧
      (∀ i v, sel i = false → a.entries i = some (some v) → readAt S q i = .ok v) := by
  have hbs := h.1
  have r := h.repr
  rw [allocated_repr r] at hf
  obtain ⟨q, e, rq⟩ := iterateFree_repr hbs sel fuel r hobj hf
  refine ⟨q, _, e, iterate_repr r hbs fuel hf, ?_, ?_⟩
  · intro i
    rw [retrieve_repr rq hbs, retrieve_repr r hbs]
    cases hs : sel i <;> simp [Abs.isLive, Abs.drop, hs, Abs.address]
  · intro i v hs hv
    exact readAt_repr rq hbs (by simp [Abs.drop, hs, hv])

example : ∃ p a, Reached 2 4 (α := Nat) p a ∧ getAllocatedEntryCount p < 1000000 ∧ ∀ i, (i % 2 == 0) = true → a.entries i ≠ some none := by
  obtain ⟨p, a, h, _, _, _, _, hb, ho⟩ := sample_reached
  refine ⟨p, a, h, ?_, fun i _ => ho i⟩
  have := live_le 2 a
  rw [Abs.capacity, hb] at this
  rw [allocated_repr h.repr]
  simp at this
  omega

/-! ## C35 -/

/-- If `sizeof(T)` is the distance of the entries, `RetrieveEntryIndex` is the inverse of `RetrieveFromIndex`.  (The property is for every alignment; see `C35_alignment_violated`.) -/
theorem C35_inverse_partial {bs S : Nat} {p : Pool α} {a : Abs α} (h : Reached bs S p a) (hS : 0 < S) (i addr : Nat) :
    retrieveFromIndex S p i = .ok addr → retrieveEntryIndex S S p addr = .ok (some i) := by
  have hbs := h.1
  have r := h.repr
  intro he
  rw [retrieve_repr r hbs] at he
  cases hl : a.isLive i
  · rw [hl] at he; exact absurd he (by simp)
  · rw [hl, if_pos rfl] at he
    cases he
    exact entryIndex_repr r hS hl

/-- A pointer that is in the storage of no block has no index, for every alignment. -/
theorem C35_outside {bs S Z : Nat} {p : Pool α} {a : Abs α} (h : Reached bs S p a) (hZ : Z ≤ S) (addr : Nat)
    (ho : ∀ b ∈ a.bases, addr < b ∨ b + bs * S ≤ addr) : retrieveEntryIndex S Z p addr = .ok none :=
  entryIndex_outside h.repr hZ addr ho

/-- The addresses of two indices in use differ, and are at least the size of an entry apart. -/
theorem C35_injective {bs S : Nat} {p : Pool α} {a : Abs α} (h : Reached bs S p a) (i j x y : Nat) (hij : i ≠ j)
    (hi : retrieveFromIndex S p i = .ok x) (hj : retrieveFromIndex S p j = .ok y) : x + S ≤ y ∨ y + S ≤ x := by
  have hbs := h.1
  have r := h.repr
  rw [retrieve_repr r hbs] at hi hj
  cases hli : a.isLive i <;> cases hlj : a.isLive j <;> simp only [hli, hlj, Bool.false_eq_true, if_false, if_true, reduceCtorEq, Except.ok.injEq] at hi hj
  subst hi
  subst hj
  exact address_apart r hij (r.bound i hli) (r.bound j hlj)

/-- If the `Alignment` parameter makes the entries larger than `sizeof(T)`, `RetrieveEntryIndex` finds no index for any entry that is not the first of its block: it
divides the distance in bytes by `sizeof(T)`. -/
theorem C35_alignment_violated {bs S Z : Nat} {p : Pool α} {a : Abs α} (h : Reached bs S p a) (hZ : Z < S) (i addr : Nat)
    (hi : retrieveFromIndex S p i = .ok addr) (hl : i % bs ≠ 0) : ∀ j, retrieveEntryIndex S Z p addr ≠ .ok (some j) := by
  have hbs := h.1
  have r := h.repr
  intro j hj
  rw [retrieve_repr r hbs] at hi
  cases hlive : a.isLive i
  · rw [hlive] at hi; exact absurd hi (by simp)
  rw [hlive, if_pos rfl] at hi
  cases hi
  have hk := div_lt_blocks (r.bound i hlive)
  have hlb := Nat.mod_lt i hbs
  obtain ⟨B, baseB, _, _, g3, g4⟩ := r.get (k := i / bs) (by rw [r.len]; exact hk)
  have haddr : a.address bs S i = baseB + i % bs * S := by simp [Abs.address, g3]
  have hin : i % bs * S < bs * S := Nat.mul_lt_mul_of_pos_right hlb (by omega)
  have hm := Nat.mul_le_mul_left bs (Nat.le_of_lt hZ)
  obtain ⟨rr, e, h1, h2⟩ := findUp_ok (lo := 0) (n := p.blocks.length) (p := fun k => do
    let b ← rd p.blocks k
    pure (decide (b.base ≤ a.address bs S i) && decide (a.address bs S i < b.base + p.blockSize * Z)))
    (fun k => decide (a.bases.getD k 0 ≤ a.address bs S i) && decide (a.address bs S i < a.bases.getD k 0 + bs * Z)) (by
      intro k _ hkl
      obtain ⟨b, base, c1, c2, c3, c4⟩ := r.get (by omega : k < p.blocks.length)
      rw [c2, ok_bind, pure_ok, r.size, c4.base]
      simp [c3])
  rw [retrieveEntryIndex, e] at hj
  cases rr with
  | none => exact absurd hj (by simp [pure_ok, ok_bind])
  | some k =>
    obtain ⟨_, k2, k3, _⟩ := h1 k rfl
    obtain ⟨b, base, c1, c2, c3, c4⟩ := r.get (by omega : k < p.blocks.length)
    have hc3 : a.bases.getD k 0 = base := by simp [c3]
    rw [hc3] at k3
    simp only [Bool.and_eq_true, decide_eq_true_eq, haddr] at k3
    have hki : k = i / bs := by
      by_contra hne
      rcases r.apart k (i / bs) base baseB hne c3 g3 with hh | hh <;> omega
    subst hki
    rw [g3] at c3
    cases c3
    have hsub : baseB + i % bs * S - baseB = i % bs * S := by omega
    simp only [ok_bind, c2, c4.base, haddr, hsub, Block.address] at hj
    by_cases hd : i % bs * S % Z = 0
    · rw [show (i % bs * S % Z == 0) = true by simpa using hd, guardUB_true, ok_bind] at hj
      by_cases hs : i % bs * S = i % bs * S / Z * S
      · have hdiv : i % bs * S / Z * Z = i % bs * S := by
          rw [Nat.mul_comm]; exact Nat.mul_div_cancel' (Nat.dvd_of_mod_eq_zero hd)
        have h3 : i % bs = i % bs * S / Z := Nat.eq_of_mul_eq_mul_right (by omega : 0 < S) hs
        rw [← h3] at hdiv
        have := Nat.eq_of_mul_eq_mul_left (Nat.pos_of_ne_zero hl) hdiv
        omega
      · rw [show (baseB + i % bs * S == baseB + i % bs * S / Z * S) = false by
          rw [beq_eq_false_iff_ne]; omega] at hj
        simp [Cpp.assert, err_bind] at hj
    · rw [show (i % bs * S % Z == 0) = false by simpa using hd] at hj
      simp [guardUB, err_bind] at hj

example : ∃ p a, Reached 2 4 (α := Nat) p a ∧ retrieveFromIndex 4 p 3 = .ok 104 ∧ 3 % 2 ≠ 0 := by
  obtain ⟨p, a, h, h0, h1, h2, h3, hb, _⟩ := sample_reached
  refine ⟨p, a, h, ?_, by omega⟩
  rw [retrieve_repr h.repr h.1]
  simp [Abs.isLive, h3, Abs.address, hb]

/-! ## C36 -/

/-- If at the end all entries in use hold an object, and blocks have more than one entry, the destructor destroys exactly the objects of the pool: it succeeds
(destroying anything else is an error of the model) and leaves no object alive. -/
theorem C36_destructor_partial {bs S : Nat} {p : Pool α} {a : Abs α} (h : Reached bs S p a) (hobj : ∀ i, a.entries i ≠ some none) (h2 : 2 ≤ bs) :
    destructor p = .ok 0 ∧ ∃ q, clear p = .ok (q, 0) ∧ getAllocatedEntryCount q = 0 ∧ getBlockCount q = 0 :=
  ⟨(clear_repr h.repr hobj (by omega)).2, ⟨bs, []⟩, (clear_repr h.repr hobj (by omega)).1, rfl, rfl⟩

/-- A pool all of whose entries were freed is destroyed without failure, for every block size. -/
theorem C36_all_freed {bs S : Nat} {p : Pool α} {a : Abs α} (h : Reached bs S p a) (hobj : ∀ i, a.entries i = none) : destructor p = .ok 0 :=
  (clear_repr h.repr (by simp [hobj]) (fun _ => hobj)).2

theorem forUp_error {σ : Type} (I : Nat → σ → Prop) {lo n m : Nat} {f : Nat → σ → M σ} {s : σ} {e : Err} (hm : m < n) (h0 : I 0 s)
    (hstep : ∀ k s, k < m → I k s → ∃ s', f (lo + k) s = .ok s' ∧ I (k + 1) s') (he : ∀ s, I m s → f (lo + m) s = .error e) :
    forUp lo n f s = .error e := by
  induction m generalizing lo n s I with
  | zero =>
    obtain ⟨n, rfl⟩ : ∃ k, n = k + 1 := ⟨n - 1, by omega⟩
    have := he s h0
    rw [Nat.add_zero] at this
    simp only [forUp, this]
  | succ m ih =>
    obtain ⟨n, rfl⟩ : ∃ k, n = k + 1 := ⟨n - 1, by omega⟩
    obtain ⟨s1, e1, i1⟩ := hstep 0 s (by omega) h0
    rw [Nat.add_zero] at e1
    simp only [forUp, e1]
    exact ih (fun k => I (k + 1)) (by omega) i1 (fun k s hk hI => by
      have := hstep (k + 1) s (by omega) hI
      rwa [show lo + 1 + k = lo + (k + 1) by omega]) (fun s hs => by
      have := he s hs
      rwa [show lo + 1 + m = lo + (m + 1) by omega])

/-- `Reset` fails at the first block for which the body of the loop fails. -/
theorem reset_error (p : Pool α) {k : Nat} {b : Block α} {e : Err} (hb : p.blocks[k]? = some b) (hok : ∀ j c, j < k → p.blocks[j]? = some c → ∃ c', resetBlock c = .ok c')
    (he : resetBlock b = .error e) : reset p = .error e := by
  have hk : k < p.blocks.length := (List.getElem?_eq_some_iff.mp hb).1
  refine forUp_error (fun k q => q.blocks.length = p.blocks.length ∧ ∀ j, k ≤ j → q.blocks[j]? = p.blocks[j]?) hk ⟨rfl, fun _ _ => rfl⟩ ?_ ?_
  · rintro j q hj ⟨q2, q4⟩
    rw [Nat.zero_add]
    have hjl : j < p.blocks.length := by omega
    obtain ⟨c', ec⟩ := hok j _ hj (List.getElem?_eq_getElem hjl)
    have hrd : rd q.blocks j = .ok p.blocks[j] := by
      have := q4 j (Nat.le_refl _)
      rw [List.getElem?_eq_getElem hjl] at this
      simp [rd, this]
    refine ⟨⟨q.blockSize, q.blocks.set j c'⟩, by simp only [hrd, ok_bind, ec, wr_ok (show j < q.blocks.length by omega), pure_ok], by simpa using q2, ?_⟩
    intro i hi
    simp only [List.getElem?_set]
    rw [if_neg (by omega)]
    exact q4 i (by omega)
  · rintro q ⟨q2, q4⟩
    rw [Nat.zero_add]
    have hrd : rd q.blocks k = .ok b := by
      have := q4 k (Nat.le_refl _)
      rw [hb] at this
      simp [rd, this]
    simp only [hrd, ok_bind, he, err_bind]

/-- A pool with blocks of one entry cannot be destroyed, cleared or reset while an object lives in it: `freeEntries.Reset(true)` is a call
of `Reset(std::size_t)` with the index 1, which fails an assertion. -/
theorem C36_block_of_one_violated {S : Nat} {p : Pool α} {a : Abs α} (h : Reached 1 S p a) (hobj : ∀ i, a.entries i ≠ some none)
    (hl : ∃ i, a.isLive i = true) : destructor p = .error .assert ∧ clear p = .error .assert ∧ reset p = .error .assert := by
  have r := h.repr
  -- the first live entry
  obtain ⟨i, hi, hmin⟩ : ∃ i, a.isLive i = true ∧ ∀ j, j < i → a.isLive j = false := by
    obtain ⟨i, hi⟩ := hl
    induction i using Nat.strongRecOn with
    | _ i ih =>
      by_cases hex : ∃ j, j < i ∧ a.isLive j = true
      · obtain ⟨j, hj, hjl⟩ := hex
        exact ih j hj hjl
      · refine ⟨i, hi, fun j hj => ?_⟩
        cases hh : a.isLive j
        · rfl
        · exact absurd ⟨j, hj, hh⟩ hex
  have hcap := r.bound i hi
  rw [Abs.capacity, Nat.mul_one] at hcap
  obtain ⟨b, base, g1, g2, g3, g4⟩ := r.get (k := i) (by rw [r.len]; exact hcap)
  have hres : reset p = .error .assert := by
    refine reset_error p g1 ?_ ?_
    · intro j c hj hc
      obtain ⟨c', base', d1, d2, d3, d4⟩ := r.get (k := j) (List.getElem?_eq_some_iff.mp hc).1
      rw [hc] at d1
      cases d1
      refine ⟨c, ?_⟩
      have : c.count = 0 := by
        rw [d4.count, countP_none]
        intro q hq
        have : q = 0 := by omega
        subst this
        simpa [Abs.isLive] using hmin j hj
      rw [resetBlock, if_pos this]; rfl
    · have hsome : (a.entries (i * 1 + 0)).isSome = true := by simpa [Abs.isLive] using hi
      have hc : b.count ≠ 0 := by
        rw [g4.count]
        intro hh
        rw [countP_none.mp hh 0 (by omega)] at hsome
        exact absurd hsome (by simp)
      obtain ⟨f, ef, f1, f2⟩ := Has.findFirst g4.occupied
      cases f with
      | none => rw [f2 rfl 0 (by omega)] at hsome; exact absurd hsome (by simp)
      | some q =>
        obtain ⟨a1, a2, a3⟩ := f1 q rfl
        have hd := destroyLoop_ok g4.occupied 2 a1 a2 (by omega) (m := fun j => (a.entries (i * 1 + j)).join) (by
          intro j _ hj hs
          cases hh : a.entries (i * 1 + j) with
          | none => rw [hh] at hs; exact absurd hs (by simp)
          | some x =>
            cases x with
            | none => exact absurd hh (hobj _)
            | some v => exact ⟨v, by simp [Option.join]⟩)
        simp only [resetBlock, hc, if_false, ef, ok_bind, g4.occupied.size, g4.memory, hd, Bitset.reset, Has.set_assert g4.free (Nat.le_refl 1), err_bind]
  exact ⟨by simp only [destructor, hres, err_bind], by simp only [clear, hres, err_bind], hres⟩

/-- A pool with blocks of one entry that holds an object. -/
theorem one_reached : ∃ p a, Reached 1 4 (α := Nat) p a ∧ (∀ i, a.entries i ≠ some none) ∧ ∃ i, a.isLive i = true := by
  have hok : okAll 1 4 [Op.allocate 9 5] (.start 1000) := ⟨by simp [Op.ok, Abs.start, Abs.Apart], trivial⟩
  obtain ⟨p0, p, e0, e, _⟩ := C32_history 1 4 1000 (by omega) [Op.allocate 9 5] hok
  refine ⟨p, _, ⟨by omega, 1000, _, p0, _, e0, hok, e, rfl⟩, ?_, 0, rfl⟩
  intro i
  match i with
  | 0 => exact (by simp : (some (some 5) : Option (Option Nat)) ≠ some none)
  | i + 1 => exact (by simp : (none : Option (Option Nat)) ≠ some none)

example : ∃ p a, Reached 2 4 (α := Nat) p a ∧ (∀ i, a.entries i ≠ some none) ∧ ∃ i, a.isLive i = true := by
  obtain ⟨p, a, h, h0, _, _, _, _, ho⟩ := sample_reached
  exact ⟨p, a, h, ho, 0, by simp [Abs.isLive, h0]⟩

/-! ## C65 -/

/-- If the constructor of the element throws in `Allocate`, the entry stays allocated without object (the index is counted, retrieved and iterated over), and the
destruction of the pool runs the destructor of an object that does not exist. -/
theorem C65_throw_violated {bs S : Nat} {p : Pool α} {a : Abs α} (h : Reached bs S p a) (hobj : ∀ i, a.entries i ≠ some none) (h2 : 2 ≤ bs) (base : Nat)
    (hb : ∀ b ∈ a.bases, base + bs * S ≤ b ∨ b + bs * S ≤ base) :
    ∃ p' i addr, allocate S base none p = .ok (p', i, addr, true) ∧ getAllocatedEntryCount p' = getAllocatedEntryCount p + 1 ∧
      retrieveFromIndex S p' i = .ok addr ∧ destructor p' = .error .ub := by
  have hbs := h.1
  have r := h.repr
  obtain ⟨p', e, r'⟩ := allocateDefer_repr r hbs hb
  have hnew : ((a.grow bs base).set (a.firstFree bs) (some none)).entries (a.firstFree bs) = some none := by simp [Abs.set]
  have hlive : ((a.grow bs base).set (a.firstFree bs) (some none)).isLive (a.firstFree bs) = true := by simp [Abs.isLive, hnew]
  have hkeep : ∀ j, j ≠ a.firstFree bs → ((a.grow bs base).set (a.firstFree bs) (some none)).entries j ≠ some none := by
    intro j hj
    simp only [Abs.set, hj, if_false, Abs.grow]
    split <;> exact hobj j
  refine ⟨p', a.firstFree bs, (a.grow bs base).address bs S (a.firstFree bs), by simp only [allocate, e, ok_bind, pure_ok], ?_,
    by rw [retrieve_repr r' hbs, hlive]; rfl, ?_⟩
  · -- the entry is counted
    rw [allocated_repr r', allocated_repr r, live_alloc r hbs r']
  · -- the destruction
    generalize hA : (a.grow bs base).set (a.firstFree bs) (some none) = A at *
    generalize hI : a.firstFree bs = I at *
    have hk := div_lt_blocks (r'.bound I hlive)
    obtain ⟨b, base', g1, g2, g3, g4⟩ := r'.get (k := I / bs) (by rw [r'.len]; exact hk)
    have hres : reset p' = .error .ub := by
      refine reset_error p' g1 ?_ ?_
      · intro j c hj hc
        obtain ⟨c', base', d1, d2, d3, d4⟩ := r'.get (k := j) (List.getElem?_eq_some_iff.mp hc).1
        rw [hc] at d1
        cases d1
        obtain ⟨c', ec, _⟩ := resetBlock_repr d4 (fun q hq => hkeep _ (by
          intro hh
          rw [← hh, index_div hq] at hj
          exact absurd hj (Nat.lt_irrefl _))) (by omega)
        exact ⟨c', ec⟩
      · have hsome : (A.entries (I / bs * bs + I % bs)).isSome = true := by rw [index_split]; exact hlive
        have hl := Nat.mod_lt I hbs
        have hc : b.count ≠ 0 := by
          rw [g4.count]
          intro hh
          rw [countP_none.mp hh _ hl] at hsome
          exact absurd hsome (by simp)
        obtain ⟨f, ef, f1, f2⟩ := Has.findFirst g4.occupied
        cases f with
        | none => rw [f2 rfl _ hl] at hsome; exact absurd hsome (by simp)
        | some q =>
          obtain ⟨a1, a2, a3⟩ := f1 q rfl
          have hqle : q ≤ I % bs := by
            by_contra hlt
            rw [a3 _ (by omega)] at hsome
            exact absurd hsome (by simp)
          have hd : ∀ (fuel q : Nat) (m : Nat → Option α), q ≤ I % bs → (A.entries (I / bs * bs + q)).isSome = true → bs - q < fuel → m (I % bs) = none →
              (∀ j, q ≤ j → j < bs → j ≠ I % bs → (A.entries (I / bs * bs + j)).isSome = true → ∃ v, m j = some v) →
              destroyLoop b.occupiedEntries fuel (some q) (Slots.mk bs m) = .error .ub := by
            intro fuel
            induction fuel with
            | zero => intro q m _ _ h; omega
            | succ fuel ih =>
              intro q m hq hs hf hm hrest
              by_cases hqi : q = I % bs
              · subst hqi
                simp only [destroyLoop, Slots.destroy_raw hl hm, err_bind]
              · obtain ⟨v, hv⟩ := hrest q (Nat.le_refl _) (by omega) hqi hs
                obtain ⟨n, en, n1, n2⟩ := Has.findNext g4.occupied (show q < bs by omega)
                simp only [destroyLoop, Slots.destroy_mk (show q < bs by omega) hv, ok_bind, en]
                cases n with
                | none => rw [n2 rfl (I % bs) (by omega) hl] at hsome; exact absurd hsome (by simp)
                | some n =>
                  obtain ⟨c1, c2, c3, c4⟩ := n1 n rfl
                  have hn : n ≤ I % bs := by
                    by_contra hlt
                    rw [c4 (I % bs) (by omega) (by omega)] at hsome
                    exact absurd hsome (by simp)
                  refine ih n _ hn c3 (by omega) (by simp [Slots.upd, hm]) ?_
                  intro j hj1 hj2 hj3 hj4
                  obtain ⟨v, hv⟩ := hrest j (by omega) hj2 hj3 hj4
                  exact ⟨v, by simp [Slots.upd, show j ≠ q by omega, hv]⟩
          have := hd (bs + 1) q (fun j => (A.entries (I / bs * bs + j)).join) hqle a2 (by omega) (by
            simp only [index_split, hnew]; rfl) (by
            intro j _ hj hjn hs
            cases hh : A.entries (I / bs * bs + j) with
            | none => rw [hh] at hs; exact absurd hs (by simp)
            | some x =>
              cases x with
              | none =>
                refine absurd hh (hkeep _ ?_)
                intro hh2
                apply hjn
                rw [← hh2, index_mod hj]
              | some v => exact ⟨v, rfl⟩)
          simp only [resetBlock, hc, if_false, ef, ok_bind, g4.occupied.size, g4.memory, this, err_bind]
    simp only [destructor, hres, err_bind]

/-- A caller that catches the exception can repair the pool with the index that `Allocate` had stored before: `Free(index, NoDestruction)` takes the entry back. -/
theorem C65_repair_partial {bs S : Nat} {p : Pool α} {a : Abs α} (h : Reached bs S p a) (base : Nat)
    (hb : ∀ b ∈ a.bases, base + bs * S ≤ b ∨ b + bs * S ≤ base) :
    ∃ p' i addr q, allocate S base none p = .ok (p', i, addr, true) ∧ freeNoDestruction p' i = .ok q ∧
      Shows bs S q (a.grow bs base) := by
  have hbs := h.1
  have r := h.repr
  obtain ⟨p', e, r'⟩ := allocateDefer_repr r hbs hb
  have hnew : ((a.grow bs base).set (a.firstFree bs) (some none)).entries (a.firstFree bs) = some none := by simp [Abs.set]
  obtain ⟨q, eq, rq⟩ := freeNoDestruction_repr r' hbs hnew
  rw [set_set] at rq
  have hfree : (a.grow bs base).entries (a.firstFree bs) = none := by
    have := isLive_false (firstFree_free r hbs)
    simp only [Abs.grow]
    split <;> exact this
  rw [set_of_none hfree] at rq
  exact ⟨p', a.firstFree bs, (a.grow bs base).address bs S (a.firstFree bs), q, by simp only [allocate, e, ok_bind, pure_ok], eq, shows_repr rq hbs⟩

example : ∃ p a, Reached 2 4 (α := Nat) p a ∧ (∀ i, a.entries i ≠ some none) ∧ ∀ b ∈ a.bases, 16 + 2 * 4 ≤ b ∨ b + 2 * 4 ≤ 16 := by
  obtain ⟨p, a, h, _, _, _, _, hb, ho⟩ := sample_reached
  exact ⟨p, a, h, ho, by rw [hb]; simp⟩

/-! ## C66 -/

/-- Moving a pool into a new one: the new pool is the old one, with the same indices, addresses and objects; the old one is empty, can be used again, and its destruction
destroys nothing. -/
theorem C66_moveConstruct {bs S : Nat} {p : Pool α} {a : Abs α} (h : Reached bs S p a) :
    Shows bs S (moveConstruct p).1 a ∧ Shows bs S (moveConstruct p).2 .empty ∧ destructor (moveConstruct p).2 = .ok 0 ∧
    ∀ os, okAll bs S os (.empty : Abs α) → ∃ q, runAll S os (moveConstruct p).2 = .ok (q, (specAll bs os .empty).2) ∧ Shows bs S q (specAll bs os .empty).1 := by
  have hbs := h.1
  have r := h.repr
  have r2 : Repr bs S (moveConstruct p).2 .empty := by
    have : (moveConstruct p).2 = ⟨bs, []⟩ := by rw [moveConstruct, r.size]
    rw [this]
    exact empty_repr bs S
  refine ⟨shows_repr r hbs, shows_repr r2 hbs, (clear_repr r2 (by simp [Abs.empty]) (by simp [Abs.empty])).2, ?_⟩
  intro os hok
  obtain ⟨q, e, rq⟩ := runAll_repr r2 hbs os hok
  exact ⟨q, e, shows_repr rq hbs⟩

example : okAll 2 4 [Op.allocate 50 (1 : Nat), .free 0] .empty :=
  ⟨by simp [Op.ok, Abs.empty], ⟨1, rfl⟩, trivial⟩

/-- Number of objects of a pool. -/
theorem alive_count {bs S : Nat} {p : Pool α} {a : Abs α} (r : Repr bs S p a) :
    (p.blocks.map (fun b => b.memory.alive)).sum = (List.range (a.capacity bs)).countP (fun i => (a.entries i).join.isSome) := by
  rw [Abs.capacity, countP_blocks, ← r.len]
  congr 1
  apply List.ext_getElem (by simp)
  intro k h1 h2
  simp only [List.length_map] at h1
  obtain ⟨b, base, g1, _, _, g4⟩ := r.get h1
  rw [List.getElem?_eq_getElem h1] at g1
  cases g1
  simp only [List.getElem_map, List.getElem_range, g4.memory, Slots.alive, Slots.mk, List.countP_map]
  rfl

/-- Move assignment: the target has the contents of the source, the source is empty; the objects that were in the target are never destroyed, although their
storage is released. -/
theorem C66_moveAssign_violated {bs bs' S : Nat} {p p' : Pool α} {a a' : Abs α} (h : Reached bs S p a) (h' : Reached bs' S p' a') :
    Shows bs' S (moveAssign p p').1 a' ∧ Shows bs' S (moveAssign p p').2.1 .empty ∧
    (moveAssign p p').2.2 = (List.range (a.capacity bs)).countP (fun i => (a.entries i).join.isSome) ∧
    (∀ i v, a.entries i = some (some v) → 0 < (moveAssign p p').2.2) := by
  have r := h.repr
  have r' := h'.repr
  have r2 : Repr bs' S (moveAssign p p').2.1 .empty := by
    have : (moveAssign p p').2.1 = ⟨bs', []⟩ := by rw [moveAssign, r'.size]
    rw [this]
    exact empty_repr bs' S
  refine ⟨shows_repr r' h'.1, shows_repr r2 h'.1, alive_count r, ?_⟩
  intro i v hv
  show 0 < (p.blocks.map (fun b => b.memory.alive)).sum
  rw [alive_count r, List.countP_pos_iff]
  have hlive : a.isLive i = true := by simp [Abs.isLive, hv]
  exact ⟨i, List.mem_range.mpr (r.bound i hlive), by simp [hv]⟩

/-- A target without objects loses nothing. -/
theorem C66_moveAssign_partial {bs bs' S : Nat} {p p' : Pool α} {a a' : Abs α} (h : Reached bs S p a) (h' : Reached bs' S p' a')
    (ho : ∀ i v, a.entries i ≠ some (some v)) :
    Shows bs' S (moveAssign p p').1 a' ∧ Shows bs' S (moveAssign p p').2.1 .empty ∧ (moveAssign p p').2.2 = 0 := by
  obtain ⟨h1, h2, h3, _⟩ := C66_moveAssign_violated h h'
  refine ⟨h1, h2, ?_⟩
  rw [h3, countP_none]
  intro i _
  cases hh : a.entries i with
  | none => rfl
  | some x =>
    cases x with
    | none => rfl
    | some v => exact absurd hh (ho i v)

example : ∃ p a, Reached 3 4 (α := Nat) p a ∧ ∀ i v, a.entries i ≠ some (some v) := by
  obtain ⟨p0, p, e0, e, _⟩ := C32_history (α := Nat) 3 4 1000 (by omega) [] trivial
  exact ⟨p, _, ⟨by omega, 1000, [], p0, _, e0, trivial, e, rfl⟩, by intro i v; simp [specAll, Abs.start]⟩

end Verif.MemoryPool
