import Verif.MemoryPool.Spec
import Verif.Bitset.LemmasObs

/-!
# Blocks and pools represent maps
-/

namespace Verif.MemoryPool
open Verif.Cpp Verif.Bitset

variable {α : Type}

theorem w64 : IsBlockWidth 64 := ⟨6, rfl⟩
theorem mw64 : MathUtils.IsWidth 64 := by unfold MathUtils.IsWidth; simp

/-! ### Bitsets given by a function -/

theorem Has.bitAt_lt {b : Bitset 64} {n : Nat} {f : Nat → Bool} (h : Has b n f) {i : Nat} (hi : i < n) : bitAt b.blocks i = f i := by
  rw [h.bits]; simp [hi]

theorem Has.set {b : Bitset 64} {n : Nat} {f : Nat → Bool} (h : Has b n f) {k : Nat} (hk : k < n) (v : Bool) :
    ∃ b', Bitset.set b k v = .ok b' ∧ Has b' n (fun i => if i = k then v else f i) := by
  obtain ⟨b', e, h'⟩ := set_ok w64 b h.wf k (by rw [h.size]; exact hk) v
  rw [h.size] at h'
  refine ⟨b', e, h'.congr ?_⟩
  intro i hi
  by_cases hik : i = k
  · simp [hik]
  · simp [hik, Has.bitAt_lt h hi]

theorem Has.test {b : Bitset 64} {n : Nat} {f : Nat → Bool} (h : Has b n f) {k : Nat} (hk : k < n) : Bitset.test b k = .ok (f k) := by
  rw [test_ok w64 b h.wf k (by rw [h.size]; exact hk), Has.bitAt_lt h hk]

theorem Has.set_assert {b : Bitset 64} {n : Nat} {f : Nat → Bool} (h : Has b n f) {k : Nat} (hk : n ≤ k) (v : Bool) :
    Bitset.set b k v = .error .assert := by
  simp [Bitset.set, h.size, Nat.not_lt.mpr hk]

theorem Has.findFirst {b : Bitset 64} {n : Nat} {f : Nat → Bool} (h : Has b n f) :
    ∃ r, Bitset.findFirst b = .ok r ∧ (∀ i, r = some i → i < n ∧ f i = true ∧ ∀ j, j < i → f j = false) ∧ (r = none → ∀ j, j < n → f j = false) := by
  obtain ⟨r, e, h1, h2⟩ := findFirstFrom_ok mw64 b 0
  refine ⟨r, e, ?_, ?_⟩
  · intro i hi
    obtain ⟨_, a2, a3⟩ := h1 i hi
    rw [h.bits] at a2
    simp only [Bool.and_eq_true, decide_eq_true_eq] at a2
    refine ⟨a2.1, a2.2, ?_⟩
    intro j hj
    have := a3 j (by omega) hj
    rwa [Has.bitAt_lt h (by omega)] at this
  · intro hr j hj
    have := h2 hr j (by omega)
    rwa [Has.bitAt_lt h hj] at this

theorem Has.findNext {b : Bitset 64} {n : Nat} {f : Nat → Bool} (h : Has b n f) {k : Nat} (hk : k < n) :
    ∃ r, Bitset.findNext b k = .ok r ∧ (∀ i, r = some i → k < i ∧ i < n ∧ f i = true ∧ ∀ j, k < j → j < i → f j = false) ∧
      (r = none → ∀ j, k < j → j < n → f j = false) := by
  obtain ⟨r, e, h1, h2⟩ := findNext_ok mw64 b h.wf k (by rw [h.size]; exact hk)
  refine ⟨r, e, ?_, ?_⟩
  · intro i hi
    obtain ⟨a1, a2, a3⟩ := h1 i hi
    rw [h.bits] at a2
    simp only [Bool.and_eq_true, decide_eq_true_eq] at a2
    refine ⟨a1, a2.1, a2.2, ?_⟩
    intro j hj1 hj2
    have := a3 j hj1 hj2
    rwa [Has.bitAt_lt h (by omega)] at this
  · intro hr j hj1 hj
    have := h2 hr j hj1
    rwa [Has.bitAt_lt h hj] at this

theorem Has.new (n : Nat) (v : Bool) : ∃ b : Bitset 64, Bitset.resize Bitset.empty n v = .ok b ∧ Has b n (fun _ => v) := by
  obtain ⟨b, e, h⟩ := resize_ok w64 (Bitset.empty : Bitset 64) (has_empty 64).wf n v
  exact ⟨b, e, h.congr (fun i _ => by simp [Bitset.empty])⟩

/-! ### Counting -/

theorem countP_range_congr {n : Nat} {p q : Nat → Bool} (h : ∀ i, i < n → p i = q i) : (List.range n).countP p = (List.range n).countP q := by
  apply List.countP_congr
  intro i hi
  rw [h i (List.mem_range.mp hi)]

theorem countP_upd {n k : Nat} (hk : k < n) {p q : Nat → Bool} (hp : p k = false) (hq : q k = true) (h : ∀ i, i ≠ k → q i = p i) :
    (List.range n).countP q = (List.range n).countP p + 1 := by
  induction n with
  | zero => omega
  | succ n ih =>
    rw [List.range_succ, List.countP_append, List.countP_append]
    simp only [List.countP_cons, List.countP_nil]
    by_cases hn : n = k
    · subst hn
      rw [hp, hq, countP_range_congr (p := q) (q := p) (fun i hi => h i (by omega))]
      simp
    · rw [ih (by omega), h n hn]
      omega

theorem countP_full {n : Nat} {p : Nat → Bool} : (List.range n).countP p = n ↔ ∀ i, i < n → p i = true := by
  have := List.countP_eq_length (p := p) (l := List.range n)
  rw [List.length_range] at this
  simpa using this

theorem countP_none {n : Nat} {p : Nat → Bool} : (List.range n).countP p = 0 ↔ ∀ i, i < n → p i = false := by
  rw [List.countP_eq_zero]
  simp

theorem countP_le {n : Nat} {p : Nat → Bool} : (List.range n).countP p ≤ n := by
  have := List.countP_le_length (p := p) (l := List.range n)
  simpa using this

/-! ### Blocks -/

def upd (g : Nat → Option (Option α)) (k : Nat) (x : Option (Option α)) : Nat → Option (Option α) := fun j => if j = k then x else g j

/-- The block `b` of `n` entries at address `base` has the entries `g`. -/
structure BRepr (n base : Nat) (b : Block α) (g : Nat → Option (Option α)) : Prop where
  base : b.base = base
  count : b.count = (List.range n).countP (fun j => (g j).isSome)
  memory : b.memory = Slots.mk n (fun j => (g j).join)
  free : Has b.freeEntries n (fun j => (g j).isNone)
  occupied : Has b.occupiedEntries n (fun j => (g j).isSome)

theorem BRepr.congr {n base : Nat} {b : Block α} {g g' : Nat → Option (Option α)} (h : BRepr n base b g) (e : ∀ j, j < n → g j = g' j) :
    BRepr n base b g' := by
  refine ⟨h.base, ?_, ?_, h.free.congr (fun j hj => by rw [e j hj]), h.occupied.congr (fun j hj => by rw [e j hj])⟩
  · rw [h.count]; exact countP_range_congr (fun j hj => by rw [e j hj])
  · rw [h.memory]; exact Slots.mk_congr (fun j hj => by rw [e j hj])

theorem newBlock_repr (n base : Nat) : ∃ b : Block α, newBlock n base = .ok b ∧ BRepr n base b (fun _ => none) := by
  obtain ⟨f, ef, hf⟩ := Has.new n true
  obtain ⟨o, eo, ho⟩ := Has.new n false
  refine ⟨⟨0, base, List.replicate n none, f, o⟩, by simp only [newBlock, ef, eo, ok_bind, pure_ok], rfl, ?_, ?_, hf, ho⟩
  · simp
  · apply List.ext_getElem (by simp)
    intro i h1 h2
    simp [Slots.mk]

theorem BRepr.take {n base : Nat} {b : Block α} {g : Nat → Option (Option α)} (h : BRepr n base b g) {k : Nat} (hk : k < n) (hg : g k = none) :
    ∃ b', b.take k = .ok b' ∧ BRepr n base b' (upd g k (some none)) := by
  obtain ⟨f, ef, hf⟩ := Has.set h.free hk false
  obtain ⟨o, eo, ho⟩ := Has.set h.occupied hk true
  refine ⟨⟨b.count + 1, b.base, b.memory, f, o⟩, by simp only [Block.take, Bitset.reset, ef, eo, ok_bind, pure_ok], h.base, ?_, ?_,
    hf.congr ?_, ho.congr ?_⟩
  · rw [h.count]
    exact (countP_upd hk (by simp [hg]) (by simp [upd]) (fun i hi => by simp [upd, hi])).symm
  · rw [h.memory]
    apply Slots.mk_congr
    intro j _
    by_cases hj : j = k
    · simp [upd, hj, hg]
    · simp [upd, hj]
  · intro j _
    by_cases hj : j = k <;> simp [upd, hj]
  · intro j _
    by_cases hj : j = k <;> simp [upd, hj]

/-- The end of `Free` on a block. -/
theorem BRepr.release {n base : Nat} {b : Block α} {g : Nat → Option (Option α)} (h : BRepr n base b g) {k : Nat} (hk : k < n) (hg : g k = some none) :
    0 < b.count ∧ ∃ f o, Bitset.set b.freeEntries k true = .ok f ∧ Bitset.reset b.occupiedEntries k = .ok o ∧
      BRepr n base ⟨b.count - 1, b.base, b.memory, f, o⟩ (upd g k none) := by
  obtain ⟨f, ef, hf⟩ := Has.set h.free hk true
  obtain ⟨o, eo, ho⟩ := Has.set h.occupied hk false
  have hc : b.count = (List.range n).countP (fun j => (upd g k none j).isSome) + 1 := by
    rw [h.count]
    exact countP_upd hk (by simp [upd]) (by simp [hg]) (fun i hi => by simp [upd, hi])
  refine ⟨by omega, f, o, ef, eo, h.base, by simp only; omega, ?_, hf.congr ?_, ho.congr ?_⟩
  · rw [h.memory]
    apply Slots.mk_congr
    intro j _
    by_cases hj : j = k
    · simp [upd, hj, hg]
    · simp [upd, hj]
  · intro j _
    by_cases hj : j = k <;> simp [upd, hj]
  · intro j _
    by_cases hj : j = k <;> simp [upd, hj]

/-- A change of the object of a live entry. -/
theorem BRepr.slot {n base : Nat} {b : Block α} {g : Nat → Option (Option α)} (h : BRepr n base b g) {k : Nat} (hg : (g k).isSome = true) (x : Option α) :
    BRepr n base ⟨b.count, b.base, Slots.mk n (Slots.upd (fun j => (g j).join) k x), b.freeEntries, b.occupiedEntries⟩ (upd g k (some x)) := by
  refine ⟨h.base, ?_, ?_, h.free.congr ?_, h.occupied.congr ?_⟩
  · rw [h.count]
    apply countP_range_congr
    intro j _
    by_cases hj : j = k
    · simp [upd, hj, hg]
    · simp [upd, hj]
  · apply Slots.mk_congr
    intro j _
    by_cases hj : j = k <;> simp [upd, Slots.upd, hj]
  · intro j _
    by_cases hj : j = k
    · subst hj; simp only [upd, if_true]; cases hh : g j <;> simp_all
    · simp [upd, hj]
  · intro j _
    by_cases hj : j = k
    · simp [upd, hj, hg]
    · simp [upd, hj]

/-! ### Pools -/

theorem index_div {bs b l : Nat} (hl : l < bs) : (b * bs + l) / bs = b := by
  have h0 : 0 < bs := by omega
  rw [Nat.mul_comm, Nat.mul_add_div h0, Nat.div_eq_of_lt hl, Nat.add_zero]

theorem index_mod {bs b l : Nat} (hl : l < bs) : (b * bs + l) % bs = l := by
  rw [Nat.mul_comm, Nat.mul_add_mod, Nat.mod_eq_of_lt hl]

theorem index_lt {bs b l n : Nat} (hl : l < bs) (hb : b < n) : b * bs + l < n * bs := by
  have := Nat.mul_le_mul_right bs (show b + 1 ≤ n from hb)
  rw [Nat.succ_mul] at this
  omega

theorem index_split (bs i : Nat) : i / bs * bs + i % bs = i := by
  rw [Nat.mul_comm]; exact Nat.div_add_mod i bs

theorem div_lt_blocks {bs i n : Nat} (hi : i < n * bs) : i / bs < n := Nat.div_lt_of_lt_mul (by rwa [Nat.mul_comm])

theorem index_inj {bs b l b' l' : Nat} (hl : l < bs) (hl' : l' < bs) (h : b * bs + l = b' * bs + l') : b = b' ∧ l = l' := by
  have h1 := index_div (b := b) hl
  have h2 := index_mod (b := b) hl
  rw [h, index_div hl'] at h1
  rw [h, index_mod hl'] at h2
  exact ⟨h1.symm, h2.symm⟩

/-- The pool `p` with blocks of `bs` entries of size `S` shows the map `a`. -/
structure Repr (bs S : Nat) (p : Pool α) (a : Abs α) : Prop where
  size : p.blockSize = bs
  len : p.blocks.length = a.bases.length
  block : ∀ (k : Nat) (b : Block α) (base : Nat), p.blocks[k]? = some b → a.bases[k]? = some base → BRepr bs base b (fun j => a.entries (k * bs + j))
  bound : ∀ i, a.isLive i = true → i < a.capacity bs
  apart : ∀ (k k' : Nat) (x y : Nat), k ≠ k' → a.bases[k]? = some x → a.bases[k']? = some y → Abs.Apart bs S x y

theorem Repr.get {bs S : Nat} {p : Pool α} {a : Abs α} (h : Repr bs S p a) {k : Nat} (hk : k < p.blocks.length) :
    ∃ b base, p.blocks[k]? = some b ∧ rd p.blocks k = .ok b ∧ a.bases[k]? = some base ∧ BRepr bs base b (fun j => a.entries (k * bs + j)) := by
  have hk' : k < a.bases.length := by rw [← h.len]; exact hk
  exact ⟨p.blocks[k], a.bases[k], List.getElem?_eq_getElem hk, rd_ok hk, List.getElem?_eq_getElem hk',
    h.block k _ _ (List.getElem?_eq_getElem hk) (List.getElem?_eq_getElem hk')⟩

/-- Update of one block. -/
theorem Repr.update {bs S : Nat} {p : Pool α} {a : Abs α} (h : Repr bs S p a) {k l : Nat} (hk : k < p.blocks.length) (hl : l < bs) {b' : Block α}
    {base : Nat} (hbase : a.bases[k]? = some base) {x : Option (Option α)}
    (hb : BRepr bs base b' (upd (fun j => a.entries (k * bs + j)) l x)) :
    Repr bs S ⟨p.blockSize, p.blocks.set k b'⟩ (a.set (k * bs + l) x) := by
  refine ⟨h.size, by simp [h.len, Abs.set], ?_, ?_, h.apart⟩
  · intro j c base' h1 h2
    simp only [Abs.set] at h2
    rw [List.getElem?_set] at h1
    by_cases hj : k = j
    · subst hj
      simp only [hk, if_true, Option.some.injEq] at h1
      subst h1
      rw [hbase] at h2
      cases h2
      refine hb.congr ?_
      intro i hi
      simp only [upd, Abs.set, Nat.add_left_cancel_iff]
    · rw [if_neg hj] at h1
      refine (h.block j c base' h1 h2).congr ?_
      intro i hi
      simp only [Abs.set]
      rw [if_neg]
      intro e
      exact hj (index_inj hi hl e).1.symm
  · intro i hi
    simp only [Abs.isLive, Abs.set, Abs.capacity] at hi ⊢
    by_cases e : i = k * bs + l
    · subst e
      exact index_lt hl (by rw [← h.len]; exact hk)
    · simp only [e, if_false] at hi
      exact h.bound i hi

theorem allocateBlock_repr {bs S : Nat} {p : Pool α} {a : Abs α} (h : Repr bs S p a) {base : Nat} (hb : ∀ b ∈ a.bases, Abs.Apart bs S base b) :
    ∃ q, allocateBlock base p = .ok q ∧ q.blockSize = bs ∧ q.blocks.length = p.blocks.length + 1 ∧ Repr bs S q ⟨a.entries, a.bases ++ [base]⟩ := by
  obtain ⟨b, e, r⟩ := newBlock_repr (α := α) bs base
  refine ⟨⟨p.blockSize, p.blocks ++ [b]⟩, by simp only [allocateBlock, h.size, e, ok_bind, pure_ok], h.size, by simp, h.size, by simp [h.len], ?_, ?_, ?_⟩
  · intro k c base' h1 h2
    simp only [List.getElem?_append] at h1 h2
    by_cases hk : k < p.blocks.length
    · rw [if_pos hk] at h1
      rw [if_pos (by rw [← h.len]; exact hk)] at h2
      exact h.block k c base' h1 h2
    · rw [if_neg hk] at h1
      rw [if_neg (by rw [← h.len]; exact hk)] at h2
      obtain ⟨h3, rfl⟩ : k - p.blocks.length = 0 ∧ b = c := by
        cases hkk : k - p.blocks.length with
        | zero => rw [hkk] at h1; simpa using h1
        | succ m => rw [hkk] at h1; simp at h1
      obtain rfl : base = base' := by
        rw [show k - a.bases.length = 0 by rw [← h.len]; exact h3] at h2
        simpa using h2
      refine r.congr ?_
      intro j hj
      cases hh : a.entries (k * bs + j) with
      | none => rfl
      | some x =>
        have := h.bound (k * bs + j) (by simp [Abs.isLive, hh])
        have hle := Nat.mul_le_mul_right bs (Nat.not_lt.mp hk)
        simp only [Abs.capacity, ← h.len] at this
        omega
  · intro i hi
    have := h.bound i hi
    simp only [Abs.capacity, List.length_append, List.length_singleton, Nat.succ_mul] at this ⊢
    omega
  · intro k k' x y hkk h1 h2
    simp only [List.getElem?_append] at h1 h2
    by_cases hk : k < a.bases.length <;> by_cases hk' : k' < a.bases.length
    · rw [if_pos hk] at h1; rw [if_pos hk'] at h2
      exact h.apart k k' x y hkk h1 h2
    · rw [if_pos hk] at h1; rw [if_neg hk'] at h2
      have hx := List.mem_of_getElem? h1
      have hy : y = base := by have := List.mem_of_getElem? h2; simpa using this
      subst hy
      exact (hb x hx).symm
    · rw [if_neg hk] at h1; rw [if_pos hk'] at h2
      have hy := List.mem_of_getElem? h2
      have hx : x = base := by have := List.mem_of_getElem? h1; simpa using this
      subst hx
      exact hb y hy
    · rw [if_neg hk] at h1; rw [if_neg hk'] at h2
      have e1 : k - a.bases.length = 0 := by
        cases hkk : k - a.bases.length with
        | zero => rfl
        | succ m => rw [hkk] at h1; simp at h1
      have e2 : k' - a.bases.length = 0 := by
        cases hkk : k' - a.bases.length with
        | zero => rfl
        | succ m => rw [hkk] at h2; simp at h2
      omega

theorem new_repr {bs S : Nat} (base : Nat) : ∃ p : Pool α, new bs base = .ok p ∧ Repr bs S p (.start base) := by
  have h0 : Repr bs S (⟨bs, []⟩ : Pool α) .empty :=
    ⟨rfl, rfl, by intro k b base h; simp at h, by intro i h; simp [Abs.isLive, Abs.empty] at h, by intro k k' x y _ h; simp [Abs.empty] at h⟩
  obtain ⟨q, e, _, _, r⟩ := allocateBlock_repr h0 (base := base) (by intro b h; simp [Abs.empty] at h)
  exact ⟨q, e, r⟩

/-! ### Choosing an entry -/

theorem firstFree_unique {bs : Nat} {a : Abs α} {i : Nat} (hi : i ≤ a.capacity bs) (h1 : i < a.capacity bs → a.isLive i = false)
    (h2 : ∀ j, j < i → a.isLive j = true) : a.firstFree bs = i := by
  unfold Abs.firstFree
  rcases Nat.lt_or_ge i (a.capacity bs) with hlt | hge
  · have : (List.range (a.capacity bs)).find? (fun i => !a.isLive i) = some i := by
      rw [List.find?_range_eq_some]
      refine ⟨by simp [h1 hlt], by simpa using hlt, ?_⟩
      intro j hj
      simp [h2 j hj]
    rw [this]; rfl
  · have : (List.range (a.capacity bs)).find? (fun i => !a.isLive i) = none := by
      rw [List.find?_eq_none]
      intro j hj
      have := List.mem_range.mp hj
      simp [h2 j (by omega)]
    rw [this]
    simp only [Option.getD_none]
    omega

theorem findFree_repr {bs S : Nat} {p : Pool α} {a : Abs α} (h : Repr bs S p a) (hbs : 0 < bs) :
    (a.firstFree bs = a.capacity bs ∧ findFree p = .ok none) ∨
    ∃ k l, k < p.blocks.length ∧ l < bs ∧ findFree p = .ok (some (k, l)) ∧ a.firstFree bs = k * bs + l ∧ a.isLive (k * bs + l) = false := by
  obtain ⟨r, e, h1, h2⟩ := findUp_ok (lo := 0) (n := p.blocks.length) (p := fun i => do
    let b ← rd p.blocks i
    pure (b.count != p.blockSize)) (fun i => !(List.range bs).all (fun j => a.isLive (i * bs + j))) (by
      intro i _ hi
      obtain ⟨b, base, g1, g2, g3, g4⟩ := h.get (by omega : i < p.blocks.length)
      rw [g2, ok_bind, pure_ok, h.size]
      congr 1
      rw [Bool.eq_iff_iff]
      simp only [bne_iff_ne, ne_eq, Bool.not_eq_true', g4.count, countP_full]
      rw [← Bool.not_eq_true, List.all_eq_true]
      simp [Abs.isLive])
  unfold findFree
  rw [e, ok_bind]
  cases r with
  | none =>
    left
    refine ⟨?_, rfl⟩
    apply firstFree_unique (Nat.le_refl _) (fun hh => absurd hh (Nat.lt_irrefl _))
    intro j hj
    have hb := div_lt_blocks hj
    have := h2 rfl (j / bs) (Nat.zero_le _) (by rw [h.len, Nat.zero_add]; exact hb)
    simp only [Bool.not_eq_eq_eq_not, Bool.not_false, List.all_eq_true, List.mem_range] at this
    have := this (j % bs) (Nat.mod_lt _ hbs)
    rwa [index_split] at this
  | some k =>
    right
    obtain ⟨_, hk, hq, hlt⟩ := h1 k rfl
    have hk : k < p.blocks.length := by omega
    obtain ⟨b, base, g1, g2, g3, g4⟩ := h.get hk
    obtain ⟨f, ef, f1, f2⟩ := Has.findFirst g4.free
    simp only [g2, ok_bind, ef]
    cases f with
    | none =>
      exfalso
      have : (List.range bs).all (fun j => a.isLive (k * bs + j)) = true := by
        rw [List.all_eq_true]
        intro j hj
        have := f2 rfl j (List.mem_range.mp hj)
        simp only [Abs.isLive]
        cases hh : a.entries (k * bs + j) <;> simp_all
      rw [this] at hq
      exact absurd hq (by simp)
    | some l =>
      obtain ⟨hl, hfree, hbefore⟩ := f1 l rfl
      refine ⟨k, l, hk, hl, rfl, ?_, ?_⟩
      · have hcap : k * bs + l < a.capacity bs := index_lt hl (by rw [← h.len]; exact hk)
        apply firstFree_unique (Nat.le_of_lt hcap)
        · intro _
          simpa [Abs.isLive] using hfree
        · intro j hj
          by_cases hjk : j < k * bs
          · have hb := div_lt_blocks hjk
            have := hlt (j / bs) (Nat.zero_le _) hb
            simp only [Bool.not_eq_eq_eq_not, Bool.not_false, List.all_eq_true, List.mem_range] at this
            have := this (j % bs) (Nat.mod_lt _ hbs)
            rwa [index_split] at this
          · have := hbefore (j - k * bs) (by omega)
            rw [show k * bs + (j - k * bs) = j by omega] at this
            simp only [Abs.isLive]
            cases hh : a.entries j <;> simp_all
      · simpa [Abs.isLive] using hfree

theorem isLive_false {a : Abs α} {i : Nat} (h : a.isLive i = false) : a.entries i = none := by
  simp only [Abs.isLive] at h
  cases hh : a.entries i <;> simp_all

/-- The first free index is free. -/
theorem firstFree_free {bs S : Nat} {p : Pool α} {a : Abs α} (h : Repr bs S p a) (hbs : 0 < bs) : a.isLive (a.firstFree bs) = false := by
  rcases findFree_repr h hbs with ⟨e, _⟩ | ⟨k, l, _, _, _, e, hf⟩
  · rw [e]
    cases hh : a.isLive (a.capacity bs)
    · rfl
    · have := h.bound _ hh
      omega
  · rw [e]; exact hf

/-- `Allocate(DeferConstruct)` takes the first free entry. -/
theorem allocateDefer_repr {bs S : Nat} {p : Pool α} {a : Abs α} (h : Repr bs S p a) (hbs : 0 < bs) {base : Nat} (hb : ∀ b ∈ a.bases, Abs.Apart bs S base b) :
    ∃ q, allocateDefer S base p = .ok (q, a.firstFree bs, (a.grow bs base).address bs S (a.firstFree bs)) ∧
      Repr bs S q ((a.grow bs base).set (a.firstFree bs) (some none)) := by
  -- after the choice of the entry
  have fin : ∀ (p' : Pool α) (a' : Abs α) (k l : Nat), Repr bs S p' a' → k < p'.blocks.length → l < bs → a'.entries (k * bs + l) = none →
      chooseEntry base p = .ok (p', k, l) → a' = a.grow bs base → a.firstFree bs = k * bs + l →
      ∃ q, allocateDefer S base p = .ok (q, a.firstFree bs, (a.grow bs base).address bs S (a.firstFree bs)) ∧
        Repr bs S q ((a.grow bs base).set (a.firstFree bs) (some none)) := by
    intro p' a' k l h' hk hl hg e ea ef
    subst ea
    obtain ⟨b, bb, g1, g2, g3, g4⟩ := h'.get hk
    obtain ⟨b', eb, hb'⟩ := g4.take hl hg
    refine ⟨⟨p'.blockSize, p'.blocks.set k b'⟩, ?_, ?_⟩
    · simp only [allocateDefer, e, ok_bind, g2, eb, wr_ok hk, pure_ok, h'.size, ef]
      simp only [Abs.address, index_div hl, index_mod hl, Block.address, List.getD, g3, hb'.base, Option.getD_some]
    · rw [ef]
      exact h'.update hk hl g3 hb'
  rcases findFree_repr h hbs with ⟨e, ef⟩ | ⟨k, l, hk, hl, ef, e, hf⟩
  · obtain ⟨q, eq, hq1, hq2, hq3⟩ := allocateBlock_repr h hb
    have hgrow : (⟨a.entries, a.bases ++ [base]⟩ : Abs α) = a.grow bs base := by simp [Abs.grow, e]
    refine fin q ⟨a.entries, a.bases ++ [base]⟩ p.blocks.length 0 hq3 (by omega) hbs ?_ ?_ hgrow ?_
    · apply isLive_false
      cases hh : a.isLive (p.blocks.length * bs + 0)
      · exact hh
      · have := h.bound _ hh
        rw [Abs.capacity, ← h.len] at this
        omega
    · simp only [chooseEntry, ef, ok_bind, eq, pure_ok]
    · rw [e, Abs.capacity, h.len]; rfl
  · have hgrow : a = a.grow bs base := by
      have : k * bs + l < a.capacity bs := index_lt hl (by rw [← h.len]; exact hk)
      simp only [Abs.grow]
      rw [if_neg (by omega)]
    refine fin p a k l h hk hl (isLive_false hf) ?_ hgrow e
    simp only [chooseEntry, ef, ok_bind, pure_ok]

/-! ### Access to entries -/

theorem onSlot_repr {bs S : Nat} {p : Pool α} {a : Abs α} (h : Repr bs S p a) (hbs : 0 < bs) {i : Nat} (hi : a.isLive i = true) {x : Option α}
    {f : Slots α → Nat → M (Slots α)}
    (hf : ∀ g : Nat → Option α, g (i % bs) = (a.entries i).join → f (Slots.mk bs g) (i % bs) = .ok (Slots.mk bs (Slots.upd g (i % bs) x))) :
    ∃ q, onSlot p (i / bs) (i % bs) f = .ok q ∧ q.blockSize = bs ∧ Repr bs S q (a.set i (some x)) := by
  have hk : i / bs < p.blocks.length := by
    rw [h.len]; exact div_lt_blocks (h.bound i hi)
  have hl := Nat.mod_lt i hbs
  obtain ⟨b, base, g1, g2, g3, g4⟩ := h.get hk
  have hsp := index_split bs i
  have := g4.slot (k := i % bs) (by simp only [hsp]; exact hi) x
  have hu := h.update hk hl g3 this
  rw [hsp] at hu
  refine ⟨_, ?_, ?_, hu⟩
  · simp only [onSlot, g2, ok_bind, g4.memory]
    rw [hf (fun j => (a.entries (i / bs * bs + j)).join) (by simp only [hsp])]
    simp only [ok_bind, wr_ok hk, pure_ok]
  · exact h.size

theorem pointer_repr {bs S : Nat} {p : Pool α} {a : Abs α} (h : Repr bs S p a) {k l : Nat} (hl : l < bs) :
    getAllocatedPointer S p k l = if a.isLive (k * bs + l) then .ok (a.address bs S (k * bs + l)) else .error .assert := by
  by_cases hk : k < p.blocks.length
  · obtain ⟨b, base, g1, g2, g3, g4⟩ := h.get hk
    simp only [getAllocatedPointer, hk, decide_true, assert_true, ok_bind, g2, Has.test g4.occupied hl]
    have : (a.entries (k * bs + l)).isSome = a.isLive (k * bs + l) := rfl
    rw [this]
    cases hh : a.isLive (k * bs + l)
    · simp
    · simp only [assert_true, ok_bind, pure_ok, if_true]
      simp only [Abs.address, index_div hl, index_mod hl, Block.address, List.getD, g3, g4.base, Option.getD_some]
  · have : a.isLive (k * bs + l) = false := by
      cases hh : a.isLive (k * bs + l)
      · rfl
      · have hb := h.bound _ hh
        have := div_lt_blocks hb
        rw [index_div hl, ← h.len] at this
        exact absurd this hk
    simp [getAllocatedPointer, hk, this]

theorem retrieve_repr {bs S : Nat} {p : Pool α} {a : Abs α} (h : Repr bs S p a) (hbs : 0 < bs) (i : Nat) :
    retrieveFromIndex S p i = if a.isLive i then .ok (a.address bs S i) else .error .assert := by
  have h0 : (bs != 0) = true := by simp; omega
  simp only [retrieveFromIndex, h0, guardUB_true, ok_bind, h.size, pointer_repr h (Nat.mod_lt i hbs), index_split]

theorem release_repr {bs S : Nat} {p : Pool α} {a : Abs α} (h : Repr bs S p a) (hbs : 0 < bs) {i : Nat} (hi : a.entries i = some none) :
    ∃ q, release p (i / bs) (i % bs) = .ok q ∧ Repr bs S q (a.set i none) := by
  have hlive : a.isLive i = true := by simp [Abs.isLive, hi]
  have hk : i / bs < p.blocks.length := by
    rw [h.len]; exact div_lt_blocks (h.bound i hlive)
  have hl := Nat.mod_lt i hbs
  obtain ⟨b, base, g1, g2, g3, g4⟩ := h.get hk
  have hsp := index_split bs i
  obtain ⟨hc, f, o, ef, eo, hr⟩ := g4.release hl (by simp only [hsp]; exact hi)
  have hu := h.update hk hl g3 hr
  rw [hsp] at hu
  refine ⟨_, ?_, hu⟩
  simp only [release, g2, ok_bind, hc, decide_true, assert_true, ef, eo, wr_ok hk, pure_ok, gt_iff_lt]

theorem set_set (a : Abs α) (i : Nat) (x y : Option (Option α)) : (a.set i x).set i y = a.set i y := by
  simp only [Abs.set, Abs.mk.injEq, and_true]
  funext j
  by_cases h : j = i <;> simp [h]

theorem free_repr {bs S : Nat} {p : Pool α} {a : Abs α} (h : Repr bs S p a) (hbs : 0 < bs) {i : Nat} {v : α} (hi : a.entries i = some (some v)) :
    ∃ q, free S p i = .ok q ∧ Repr bs S q (a.set i none) := by
  have hlive : a.isLive i = true := by simp [Abs.isLive, hi]
  have h0 : (bs != 0) = true := by simp; omega
  have hl := Nat.mod_lt i hbs
  obtain ⟨q, e, hq, r⟩ := onSlot_repr h hbs hlive (x := none) (f := Slots.destroy) (by
    intro g hg
    exact Slots.destroy_mk (v := v) hl (by rw [hg, hi]; rfl))
  obtain ⟨q', e', r'⟩ := release_repr r hbs (i := i) (by simp [Abs.set])
  rw [set_set] at r'
  refine ⟨q', ?_, r'⟩
  simp only [free, h0, guardUB_true, ok_bind, h.size, pointer_repr h hl, index_split, hlive, if_true, e, hq, e']

theorem freeNoDestruction_repr {bs S : Nat} {p : Pool α} {a : Abs α} (h : Repr bs S p a) (hbs : 0 < bs) {i : Nat} (hi : a.entries i = some none) :
    ∃ q, freeNoDestruction p i = .ok q ∧ Repr bs S q (a.set i none) := by
  have h0 : (bs != 0) = true := by simp; omega
  obtain ⟨q, e, r⟩ := release_repr h hbs hi
  exact ⟨q, by simp only [freeNoDestruction, h0, guardUB_true, ok_bind, h.size, e], r⟩

theorem allocate_repr {bs S : Nat} {p : Pool α} {a : Abs α} (h : Repr bs S p a) (hbs : 0 < bs) {base : Nat} (hb : ∀ b ∈ a.bases, Abs.Apart bs S base b) (v : α) :
    ∃ q, allocate S base (some v) p = .ok (q, a.firstFree bs, (a.grow bs base).address bs S (a.firstFree bs), false) ∧
      Repr bs S q ((a.grow bs base).set (a.firstFree bs) (some (some v))) := by
  obtain ⟨q, e, r⟩ := allocateDefer_repr h hbs hb
  have hl := Nat.mod_lt (a.firstFree bs) hbs
  obtain ⟨q', e', _, r'⟩ := onSlot_repr r hbs (i := a.firstFree bs) (x := some v) (f := fun m i => Slots.create m i v) (by simp [Abs.isLive, Abs.set]) (by
    intro g hg
    exact Slots.create_mk v hl (by rw [hg]; simp [Abs.set]))
  rw [set_set] at r'
  refine ⟨q', ?_, r'⟩
  simp only [allocate, e, ok_bind, r.size, e', pure_ok]

theorem constructAt_repr {bs S : Nat} {p : Pool α} {a : Abs α} (h : Repr bs S p a) (hbs : 0 < bs) {i : Nat} (hi : a.entries i = some none) (v : α) :
    ∃ q, constructAt S p i v = .ok q ∧ Repr bs S q (a.set i (some (some v))) := by
  have hlive : a.isLive i = true := by simp [Abs.isLive, hi]
  obtain ⟨q, e, _, r⟩ := onSlot_repr h hbs hlive (x := some v) (f := fun m i => Slots.create m i v) (by
    intro g hg
    exact Slots.create_mk v (Nat.mod_lt i hbs) (by rw [hg, hi]; rfl))
  exact ⟨q, by simp only [constructAt, retrieve_repr h hbs, hlive, if_true, ok_bind, h.size, e], r⟩

theorem destroyAt_repr {bs S : Nat} {p : Pool α} {a : Abs α} (h : Repr bs S p a) (hbs : 0 < bs) {i : Nat} {v : α} (hi : a.entries i = some (some v)) :
    ∃ q, destroyAt S p i = .ok q ∧ Repr bs S q (a.set i (some none)) := by
  have hlive : a.isLive i = true := by simp [Abs.isLive, hi]
  obtain ⟨q, e, _, r⟩ := onSlot_repr h hbs hlive (x := none) (f := Slots.destroy) (by
    intro g hg
    exact Slots.destroy_mk (v := v) (Nat.mod_lt i hbs) (by rw [hg, hi]; rfl))
  exact ⟨q, by simp only [destroyAt, retrieve_repr h hbs, hlive, if_true, ok_bind, h.size, e], r⟩

theorem assignAt_repr {bs S : Nat} {p : Pool α} {a : Abs α} (h : Repr bs S p a) (hbs : 0 < bs) {i : Nat} {u : α} (hi : a.entries i = some (some u)) (v : α) :
    ∃ q, assignAt S p i v = .ok q ∧ Repr bs S q (a.set i (some (some v))) := by
  have hlive : a.isLive i = true := by simp [Abs.isLive, hi]
  obtain ⟨q, e, _, r⟩ := onSlot_repr h hbs hlive (x := some v) (f := fun m i => Slots.assign m i v) (by
    intro g hg
    exact Slots.assign_mk v (u := u) (Nat.mod_lt i hbs) (by rw [hg, hi]; rfl))
  exact ⟨q, by simp only [assignAt, retrieve_repr h hbs, hlive, if_true, ok_bind, h.size, e], r⟩

theorem readAt_repr {bs S : Nat} {p : Pool α} {a : Abs α} (h : Repr bs S p a) (hbs : 0 < bs) {i : Nat} {v : α} (hi : a.entries i = some (some v)) :
    readAt S p i = .ok v := by
  have hlive : a.isLive i = true := by simp [Abs.isLive, hi]
  have hk : i / bs < p.blocks.length := by
    rw [h.len]; exact div_lt_blocks (h.bound i hlive)
  obtain ⟨b, base, g1, g2, g3, g4⟩ := h.get hk
  simp only [readAt, retrieve_repr h hbs, hlive, if_true, ok_bind, h.size, g2, g4.memory]
  exact Slots.read_mk (Nat.mod_lt i hbs) (by simp only [index_split, hi]; rfl)

end Verif.MemoryPool
