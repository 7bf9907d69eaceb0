import Verif.BitsetAlloc.Lemmas
import Verif.MemoryPool.LemmasIter
import Verif.MemoryPoolAlloc.Spec

/-! # Lemmas on pools with a residue -/

namespace Verif.MemoryPoolAlloc
open Verif.Cpp Verif.Bitset Verif.MemoryPool

variable {α : Type}

/-- The pool `q` followed by the blocks `m`. -/
def ext (q : Pool α) (m : List (Block α)) : Pool α := ⟨q.blockSize, q.blocks ++ m⟩

/-- The block left by a failure. -/
def Stub (bs : Nat) (b : Block α) : Residue → Prop
  | .freeBits => b = rawBlock
  | .occupiedBits => ∃ f, Has f bs (fun _ => true) ∧ b = ⟨0, 0, [], f, Bitset.empty⟩
  | .storage => ∃ f o, Has f bs (fun _ => true) ∧ Has o bs (fun _ => false) ∧ b = ⟨0, 0, [], f, o⟩

def Left (bs : Nat) (m : List (Block α)) : Option Residue → Prop
  | none => m = []
  | some r => ∃ b, m = [b] ∧ Stub bs b r

/-- The blocks of a residue have no entries. -/
def Empty (m : List (Block α)) : Prop := ∀ b ∈ m, b.count = 0 ∧ b.memory = [] ∧ ∀ l, Bitset.test b.occupiedEntries l = .error .assert ∨ Bitset.test b.occupiedEntries l = .ok false

theorem test_empty (l : Nat) : Bitset.test (Bitset.empty : Bitset 64) l = .error .assert := by
  simp [Bitset.test, Bitset.empty]

theorem Stub.empty {bs : Nat} {b : Block α} {r : Residue} (h : Stub bs b r) : Empty [b] := by
  intro c hc
  obtain rfl := List.mem_singleton.mp hc
  cases r with
  | freeBits => cases h; exact ⟨rfl, rfl, fun l => .inl (test_empty l)⟩
  | occupiedBits => obtain ⟨f, _, rfl⟩ := h; exact ⟨rfl, rfl, fun l => .inl (test_empty l)⟩
  | storage =>
    obtain ⟨f, o, _, ho, rfl⟩ := h
    refine ⟨rfl, rfl, fun l => ?_⟩
    by_cases hl : l < bs
    · exact .inr (Has.test ho hl)
    · left; simp [Bitset.test, ho.size, hl]

theorem Left.empty {bs : Nat} {m : List (Block α)} {s : Option Residue} (h : Left bs m s) : Empty m := by
  cases s with
  | none => cases h; intro b hb; cases hb
  | some r => obtain ⟨b, rfl, hs⟩ := h; exact hs.empty

/-! ### Making a block -/

theorem words_eq (bs : Nat) : computeBlockCount 64 bs = words bs := by
  rw [computeBlockCount_eq w64, nb_eq_ceil (by omega)]; rfl

theorem words_pos {bs : Nat} (h : 0 < bs) : 0 < words bs := by unfold words; omega

/-- `Resize` of an empty bitset. -/
theorem resize_cases {bs : Nat} (hbs : 0 < bs) (g : BitsetAlloc.Grant) (v : Bool) :
    (BitsetAlloc.resize g bs v (Bitset.empty : Bitset 64) = .thrown Bitset.empty ∧ g 0 (words bs) = false) ∨
      ∃ b, BitsetAlloc.resize g bs v (Bitset.empty : Bitset 64) = .done b () ∧ Bitset.resize Bitset.empty bs v = .ok b ∧ Has b bs (fun _ => v) ∧ g 0 (words bs) = true := by
  have hp := words_pos hbs
  rcases BitsetAlloc.resize_strong g bs v (Bitset.empty : Bitset 64) (fun h => absurd h (by decide)) with ⟨h1, _, h3⟩ | ⟨h1, h2⟩
  · rw [words_eq] at h3; exact .inl ⟨h1, h3⟩
  · right
    obtain ⟨b, e, hb⟩ := Has.new bs v
    rw [words_eq] at h2
    refine ⟨b, by rw [h1, e]; rfl, e, hb, ?_⟩
    rcases h2 with h2 | h2
    · exact absurd h2 (by show ¬ words bs ≤ 0; omega)
    · exact h2

/-- The outcomes of the initialisation of a block. -/
theorem fillBlock_cases {bs : Nat} (hbs : 0 < bs) (g : Grants) (base : Nat) (hv : g.vector = true) :
    (∃ b : Block α, fillBlock g bs base rawBlock = .done b () ∧ newBlock bs base = .ok b ∧ g.all bs = true) ∨
      ∃ (b : Block α) (r : Residue), fillBlock g bs base rawBlock = .thrown b ∧ Stub bs b r ∧ g.residue bs = some r ∧ g.all bs = false := by
  unfold fillBlock
  rcases resize_cases hbs g.freeBits true with ⟨e1, h1⟩ | ⟨f, e1, f1, hf, h1⟩
  · right
    refine ⟨rawBlock, .freeBits, ?_, rfl, by simp [Grants.residue, hv, h1], by simp [Grants.all, h1]⟩
    exact X.bind_thrown (show X.zoom _ _ _ rawBlock = .thrown rawBlock by simp only [X.zoom, rawBlock, e1])
  · rw [X.bind_done (X.zoom_done (show BitsetAlloc.resize g.freeBits bs true (rawBlock : Block α).freeEntries = .done f () from e1))]
    rcases resize_cases hbs g.occupiedBits false with ⟨e2, h2⟩ | ⟨o, e2, f2, ho, h2⟩
    · right
      refine ⟨⟨0, 0, [], f, Bitset.empty⟩, .occupiedBits, ?_, ⟨f, hf, rfl⟩, by simp [Grants.residue, hv, h1, h2], by simp [Grants.all, h2]⟩
      exact X.bind_thrown (show X.zoom _ _ _ _ = .thrown _ by simp only [X.zoom, rawBlock, e2])
    · rw [X.bind_done (X.zoom_done (show BitsetAlloc.resize g.occupiedBits bs false (Block.occupiedEntries (⟨rawBlock.count, rawBlock.base, rawBlock.memory, f, rawBlock.occupiedEntries⟩ : Block α)) = .done o () from e2))]
      cases h3 : g.storage
      · right
        refine ⟨⟨0, 0, [], f, o⟩, .storage, by simp [makeStorage, h3, rawBlock], ⟨f, o, hf, ho, rfl⟩, by simp [Grants.residue, hv, h1, h2], by simp [Grants.all, h3]⟩
      · left
        refine ⟨⟨0, base, List.replicate bs none, f, o⟩, by simp [makeStorage, h3, rawBlock], by simp only [newBlock, f1, f2, ok_bind, pure_ok], by simp [Grants.all, hv, h1, h2, h3]⟩

/-- The outcomes of `AllocateBlock`. -/
theorem allocateBlock_cases {p : Pool α} (hbs : 0 < p.blockSize) (g : Grants) (base : Nat) :
    (∃ q, allocateBlock g base p = .done q () ∧ MemoryPool.allocateBlock base p = .ok q ∧ g.all p.blockSize = true) ∨
      ∃ m, allocateBlock g base p = .thrown (ext p m) ∧ Left p.blockSize m (g.residue p.blockSize) ∧ g.all p.blockSize = false := by
  unfold allocateBlock
  cases hv : g.vector
  · right
    refine ⟨[], ?_, by simp [Grants.residue, hv, Left], by simp [Grants.all, hv]⟩
    rw [X.bind_thrown (show emplaceBack g p = .thrown p by simp [emplaceBack, hv])]
    simp [ext]
  · rw [X.bind_done (show emplaceBack g p = .done (ext p [rawBlock]) () by simp [emplaceBack, hv, ext]), X.bind_done (X.get_run _)]
    rcases fillBlock_cases (α := α) hbs g base hv with ⟨b, e, f, ha⟩ | ⟨b, r, e, hs, hr, ha⟩
    · left
      refine ⟨ext p [b], ?_, ?_, ha⟩
      · rw [X.zoom_done (a := ()) (s := b) (by rw [show (ext p [rawBlock]).blocks.getLastD rawBlock = rawBlock by simp [ext]]; exact e)]
        simp [ext]
      · simp only [MemoryPool.allocateBlock, f, ok_bind, pure_ok, ext]
    · right
      refine ⟨[b], ?_, by rw [hr]; exact ⟨b, rfl, hs⟩, ha⟩
      rw [X.zoom, show (ext p [rawBlock]).blocks.getLastD rawBlock = rawBlock by simp [ext]]
      rw [show (ext p [rawBlock]).blockSize = p.blockSize from rfl, e]
      simp [ext]

/-! ### Calls on the pool with more blocks -/

theorem bind_eq_ok {β γ : Type} {m : M β} {f : β → M γ} {y : γ} (h : (m >>= f) = .ok y) : ∃ x, m = .ok x ∧ f x = .ok y := by
  cases m with
  | ok x => exact ⟨x, rfl, h⟩
  | error e => cases h

theorem rd_ext {l m : List (Block α)} {i : Nat} {b : Block α} (h : rd l i = .ok b) : rd (l ++ m) i = .ok b := by
  unfold rd at h ⊢
  cases hl : l[i]? with
  | none => rw [hl] at h; cases h
  | some c =>
    rw [hl] at h; cases h
    rw [List.getElem?_append_left (List.getElem?_eq_some_iff.mp hl).1, hl]

theorem wr_ext {l l' m : List (Block α)} {i : Nat} {b : Block α} (h : wr l i b = .ok l') : wr (l ++ m) i b = .ok (l' ++ m) := by
  by_cases hi : i < l.length
  · rw [wr_ok hi] at h
    cases h
    rw [wr_ok (by simp; omega), List.set_append_left _ _ hi]
  · exfalso
    unfold wr at h
    simp [hi] at h

theorem onSlot_ext {p q : Pool α} {m : List (Block α)} {k l : Nat} {f : Slots α → Nat → M (Slots α)} (h : onSlot p k l f = .ok q) :
    onSlot (ext p m) k l f = .ok (ext q m) := by
  unfold onSlot at h ⊢
  obtain ⟨b, e1, h⟩ := bind_eq_ok h
  obtain ⟨s, e2, h⟩ := bind_eq_ok h
  obtain ⟨bl, e3, h⟩ := bind_eq_ok h
  cases h
  simp only [ext, rd_ext e1, ok_bind, e2, wr_ext e3, pure_ok]

theorem pointer_ext {p : Pool α} {m : List (Block α)} {S k l x : Nat} (h : getAllocatedPointer S p k l = .ok x) : getAllocatedPointer S (ext p m) k l = .ok x := by
  unfold getAllocatedPointer at h ⊢
  obtain ⟨_, e1, h⟩ := bind_eq_ok h
  obtain ⟨b, e2, h⟩ := bind_eq_ok h
  obtain ⟨t, e3, h⟩ := bind_eq_ok h
  have hk : k < p.blocks.length := by
    by_contra hk
    simp [hk] at e1
  have : k < (ext p m).blocks.length := by simp [ext]; omega
  simp only [this, decide_true, assert_true, ok_bind, show rd (ext p m).blocks k = .ok b from rd_ext e2, e3, h]

/-- Entries that are not in the pool are not in the residue either. -/
theorem pointer_ext_error {p : Pool α} {m : List (Block α)} (hm : Empty m) {S k l : Nat} (h : getAllocatedPointer S p k l = .error .assert) :
    getAllocatedPointer S (ext p m) k l = .error .assert := by
  unfold getAllocatedPointer at h ⊢
  by_cases hk : k < p.blocks.length
  · have hk' : k < (ext p m).blocks.length := by simp [ext]; omega
    have e : rd (ext p m).blocks k = rd p.blocks k := by
      rw [rd_ok hk]; exact rd_ext (rd_ok hk)
    simp only [hk, hk', decide_true, assert_true, ok_bind, e] at h ⊢
    exact h
  · by_cases hk' : k < (ext p m).blocks.length
    · simp only [hk', decide_true, assert_true, ok_bind, rd_ok hk']
      have hmem : (ext p m).blocks[k] ∈ m := by
        simp only [ext]
        rw [List.getElem_append_right (by omega)]
        exact List.getElem_mem _
      rcases (hm _ hmem).2.2 l with e | e <;> rw [e]
      · rfl
      · rfl
    · simp [hk']

theorem retrieve_ext {p : Pool α} {m : List (Block α)} {S i x : Nat} (h : retrieveFromIndex S p i = .ok x) : retrieveFromIndex S (ext p m) i = .ok x := by
  unfold retrieveFromIndex at h ⊢
  obtain ⟨_, e1, h⟩ := bind_eq_ok h
  rw [show (ext p m).blockSize = p.blockSize from rfl, e1, ok_bind]
  exact pointer_ext h

theorem retrieve_ext_error {p : Pool α} {m : List (Block α)} (hm : Empty m) (hbs : 0 < p.blockSize) {S i : Nat} (h : retrieveFromIndex S p i = .error .assert) :
    retrieveFromIndex S (ext p m) i = .error .assert := by
  have h0 : (p.blockSize != 0) = true := by simp; omega
  unfold retrieveFromIndex at h ⊢
  rw [h0, guardUB_true, ok_bind] at h
  rw [show (ext p m).blockSize = p.blockSize from rfl, h0, guardUB_true, ok_bind]
  exact pointer_ext_error hm h

theorem readAt_ext {p : Pool α} {m : List (Block α)} {S i : Nat} {v : α} (h : readAt S p i = .ok v) : readAt S (ext p m) i = .ok v := by
  unfold readAt at h ⊢
  obtain ⟨x, e1, h⟩ := bind_eq_ok h
  obtain ⟨b, e2, h⟩ := bind_eq_ok h
  rw [retrieve_ext e1, ok_bind, show (ext p m).blockSize = p.blockSize from rfl, show rd (ext p m).blocks _ = .ok b from rd_ext e2, ok_bind]
  exact h

theorem release_ext {p q : Pool α} {m : List (Block α)} {k l : Nat} (h : release p k l = .ok q) : release (ext p m) k l = .ok (ext q m) := by
  unfold release at h ⊢
  obtain ⟨b, e1, h⟩ := bind_eq_ok h
  obtain ⟨u, e2, h⟩ := bind_eq_ok h
  obtain ⟨f, e3, h⟩ := bind_eq_ok h
  obtain ⟨o, e4, h⟩ := bind_eq_ok h
  obtain ⟨bl, e5, h⟩ := bind_eq_ok h
  cases h
  simp only [ext, rd_ext e1, ok_bind, e2, e3, e4, wr_ext e5, pure_ok]

/-! ### Searches -/

theorem findUp_add (lo n k : Nat) (p : Nat → M Bool) :
    findUp lo (n + k) p = (findUp lo n p >>= fun r => match r with | some i => .ok (some i) | none => findUp (lo + n) k p) := by
  induction n generalizing lo with
  | zero => simp [findUp]
  | succ n ih =>
    rw [show n + 1 + k = n + k + 1 by omega]
    simp only [findUp]
    cases p lo with
    | error e => rfl
    | ok b =>
      cases b
      · simp only [ih, show lo + 1 + n = lo + (n + 1) by omega]
      · rfl

theorem findUp_congr {lo n : Nat} {p q : Nat → M Bool} (h : ∀ i, lo ≤ i → i < lo + n → p i = q i) : findUp lo n p = findUp lo n q := by
  induction n generalizing lo with
  | zero => rfl
  | succ n ih =>
    simp only [findUp, h lo (Nat.le_refl _) (by omega), ih (lo := lo + 1) (fun i h1 h2 => h i (by omega) (by omega))]

theorem rd_left {l m : List (Block α)} {i : Nat} (h : i < l.length) : rd (l ++ m) i = rd l i := by
  rw [rd_ok h]; exact rd_ext (rd_ok h)

theorem findUp_some {lo n : Nat} {p : Nat → M Bool} {i : Nat} (h : findUp lo n p = .ok (some i)) : lo ≤ i ∧ i < lo + n := by
  induction n generalizing lo with
  | zero => cases h
  | succ n ih =>
    simp only [findUp] at h
    cases hp : p lo with
    | error e => rw [hp] at h; cases h
    | ok b =>
      rw [hp] at h
      cases b
      · have := ih h; omega
      · cases h; omega

/-- A free entry of the pool is found also when there are more blocks. -/
theorem findFree_ext {p : Pool α} {m : List (Block α)} {x : Nat × Nat} (h : findFree p = .ok (some x)) : findFree (ext p m) = .ok (some x) := by
  unfold findFree at h ⊢
  obtain ⟨r, e1, h⟩ := bind_eq_ok h
  have e2 : findUp 0 p.blocks.length (fun i => do
      let b ← rd (ext p m).blocks i
      pure (b.count != (ext p m).blockSize)) = .ok r := by
    rw [← e1]
    apply findUp_congr
    intro i _ hi
    rw [show rd (ext p m).blocks i = rd p.blocks i from rd_left (by omega)]
    rfl
  rw [show (ext p m).blocks.length = p.blocks.length + m.length by simp [ext], findUp_add, e2, ok_bind]
  cases r with
  | none => cases h
  | some k =>
    have := findUp_some e1
    simp only [ok_bind]
    rw [show rd (ext p m).blocks k = rd p.blocks k from rd_left (by omega)]
    exact h

/-- A full pool with a residue: the search stops in the residue. -/
theorem findFree_full {p : Pool α} (hbs : 0 < p.blockSize) {c : Block α} (hc : c.count = 0) (h : findFree p = .ok none) :
    findFree (ext p [c]) = (Bitset.findFirst c.freeEntries >>= fun f => match f with
      | none => .error .assert
      | some l => .ok (some (p.blocks.length, l))) := by
  unfold findFree at h ⊢
  obtain ⟨r, e1, h⟩ := bind_eq_ok h
  have e2 : findUp 0 p.blocks.length (fun i => do
      let b ← rd (ext p [c]).blocks i
      pure (b.count != (ext p [c]).blockSize)) = .ok r := by
    rw [← e1]
    apply findUp_congr
    intro i _ hi
    rw [show rd (ext p [c]).blocks i = rd p.blocks i from rd_left (by omega)]
    rfl
  have e3 : rd (ext p [c]).blocks p.blocks.length = .ok c := by
    simp [ext, rd]
  rw [show (ext p [c]).blocks.length = p.blocks.length + 1 by simp [ext], findUp_add, e2, ok_bind]
  cases r with
  | some k =>
    exfalso
    simp only at h
    obtain ⟨b, _, h⟩ := bind_eq_ok h
    obtain ⟨f, _, h⟩ := bind_eq_ok h
    cases f <;> cases h
  | none =>
    simp only [Nat.zero_add, findUp, e3, ok_bind, pure_ok, hc, show (0 != (ext p [c]).blockSize) = true by simp [ext]; omega]
    rfl

theorem first_ext {p : Pool α} {m : List (Block α)} (hm : Empty m) {k : Nat} {r : Option (Nat × Nat)} (hk : k ≤ p.blocks.length)
    (h : getFirstAllocatedEntryFromBlock p k = .ok r) : getFirstAllocatedEntryFromBlock (ext p m) k = .ok r := by
  unfold getFirstAllocatedEntryFromBlock at h ⊢
  obtain ⟨x, e1, h⟩ := bind_eq_ok h
  have e2 : findUp k (p.blocks.length - k) (fun i => do
      let b ← rd (ext p m).blocks i
      pure (b.count != 0)) = .ok x := by
    rw [← e1]
    apply findUp_congr
    intro i _ hi
    rw [show rd (ext p m).blocks i = rd p.blocks i from rd_left (by omega)]
  rw [show (ext p m).blocks.length - k = p.blocks.length - k + m.length by simp [ext]; omega, findUp_add, e2, ok_bind]
  cases x with
  | some b =>
    have := findUp_some e1
    simp only [ok_bind]
    rw [show rd (ext p m).blocks b = rd p.blocks b from rd_left (by omega)]
    exact h
  | none =>
    cases h
    obtain ⟨y, e3, h3, _⟩ := findUp_ok (lo := k + (p.blocks.length - k)) (n := m.length) (p := fun i => do
      let b ← rd (ext p m).blocks i
      pure (b.count != 0)) (fun _ => false) (by
        intro i h1 h2
        have hi : i < (ext p m).blocks.length := by simp [ext]; omega
        have hmem : (ext p m).blocks[i] ∈ m := by
          simp only [ext]
          rw [List.getElem_append_right (by omega)]
          exact List.getElem_mem _
        rw [rd_ok hi, ok_bind, (hm _ hmem).1]; rfl)
    simp only
    rw [e3]
    cases y with
    | none => rfl
    | some j => exact absurd (h3 j rfl).2.2.1 (by simp)

theorem next_ext {p : Pool α} {m : List (Block α)} (hm : Empty m) {k l : Nat} {r : Option (Nat × Nat)} (h : getNextAllocatedEntry p k l = .ok r) :
    getNextAllocatedEntry (ext p m) k l = .ok r := by
  unfold getNextAllocatedEntry at h ⊢
  obtain ⟨_, e1, h⟩ := bind_eq_ok h
  obtain ⟨b, e2, h⟩ := bind_eq_ok h
  obtain ⟨n, e3, h⟩ := bind_eq_ok h
  have hk : k < p.blocks.length := by
    by_contra hk
    simp [hk] at e1
  have : k < (ext p m).blocks.length := by simp [ext]; omega
  simp only [this, decide_true, assert_true, ok_bind, show rd (ext p m).blocks k = .ok b from rd_ext e2, e3]
  cases n with
  | some n => exact h
  | none => exact first_ext hm hk h

theorem walk_ext {p : Pool α} {m : List (Block α)} (hm : Empty m) {S fuel : Nat} {c : Option (Nat × Nat)} {r : List (Nat × Nat)} (h : walk S p fuel c = .ok r) :
    walk S (ext p m) fuel c = .ok r := by
  induction fuel generalizing c r with
  | zero => cases h
  | succ fuel ih =>
    cases c with
    | none => exact h
    | some c =>
      obtain ⟨k, l⟩ := c
      simp only [walk] at h ⊢
      obtain ⟨x, e1, h⟩ := bind_eq_ok h
      obtain ⟨n, e2, h⟩ := bind_eq_ok h
      obtain ⟨t, e3, h⟩ := bind_eq_ok h
      rw [pointer_ext e1, ok_bind, next_ext hm e2, ok_bind, ih e3, ok_bind]
      exact h

theorem iterate_ext {p : Pool α} {m : List (Block α)} (hm : Empty m) {S fuel : Nat} {r : List (Nat × Nat)} (h : MemoryPool.iterate S p fuel = .ok r) :
    MemoryPool.iterate S (ext p m) fuel = .ok r := by
  unfold MemoryPool.iterate at h ⊢
  obtain ⟨f, e1, h⟩ := bind_eq_ok h
  rw [first_ext hm (Nat.zero_le _) e1, ok_bind]
  exact walk_ext hm h

/-! ### Reset -/

theorem alive_nil : Slots.alive ([] : Slots α) = 0 := rfl

theorem clear_ext {bs S : Nat} {p : Pool α} {a : Abs α} (h : Repr bs S p a) {m : List (Block α)} (hm : Empty m) (hobj : ∀ i, a.entries i ≠ some none)
    (h1 : bs = 1 → ∀ i, a.entries i = none) : MemoryPool.clear (ext p m) = .ok (⟨bs, []⟩, 0) ∧ destructor (ext p m) = .ok 0 := by
  have hb : ∀ b ∈ (ext p m).blocks, ∃ b', resetBlock b = .ok b' ∧ b'.memory.alive = 0 := by
    intro b hb
    rcases List.mem_append.mp hb with hb | hb
    · obtain ⟨k, hkk, rfl⟩ := List.mem_iff_getElem.mp hb
      obtain ⟨b, base, g1, g2, g3, g4⟩ := h.get hkk
      obtain ⟨b', eb, r⟩ := resetBlock_repr g4 (fun j _ => hobj _) (fun hh j _ => h1 hh _)
      rw [List.getElem?_eq_getElem hkk] at g1
      cases g1
      exact ⟨b', eb, by rw [r.memory]; exact alive_raw bs⟩
    · refine ⟨b, ?_, ?_⟩
      · rw [resetBlock, if_pos (hm b hb).1]; rfl
      · rw [(hm b hb).2.1]; rfl
  obtain ⟨l, e, hl, hk⟩ := reset_blocks (ext p m) (fun b hb' => (hb b hb').imp fun _ h => h.1)
  have hz : (l.map (fun b => b.memory.alive)).sum = 0 := by
    apply sum_zero
    intro x hx
    obtain ⟨b, hbl, rfl⟩ := List.mem_map.mp hx
    obtain ⟨k, hkk, rfl⟩ := List.mem_iff_getElem.mp hbl
    have hk' : k < (ext p m).blocks.length := by omega
    obtain ⟨b', e1, e2⟩ := hk k _ (List.getElem?_eq_getElem hk')
    obtain ⟨b'', e3, e4⟩ := hb _ (List.getElem_mem hk')
    rw [e1] at e3
    cases e3
    rw [List.getElem?_eq_getElem hkk] at e2
    cases e2
    exact e4
  have hs : (ext p m).blockSize = bs := h.size
  exact ⟨by simp only [MemoryPool.clear, e, ok_bind, pure_ok, hz, hs], by simp only [destructor, e, ok_bind, pure_ok, hz]⟩

/-! ### The invariant -/

/-- The pool is a good one followed by its residue. -/
def Inv (bs S : Nat) (p : Pool α) (a : Abs α) (s : Option Residue) : Prop :=
  ∃ q m, p = ext q m ∧ Repr bs S q a ∧ Left bs m s

theorem observed_inv {bs S : Nat} (hbs : 0 < bs) {p : Pool α} {a : Abs α} {s : Option Residue} (h : Inv bs S p a s) : Observed bs S p a s := by
  obtain ⟨q, m, rfl, r, hl⟩ := h
  have hm := hl.empty
  have sh := shows_repr r hbs
  have hlen : m.length = if s.isSome then 1 else 0 := by
    cases s with
    | none => cases hl; rfl
    | some x => obtain ⟨b, rfl, _⟩ := hl; rfl
  have hcount : getAllocatedEntryCount (ext q m) = getAllocatedEntryCount q := by
    simp only [getAllocatedEntryCount, ext, List.foldl_append, foldl_count]
    rw [show (m.map (fun b => b.count)).sum = 0 from sum_zero _ (by
      intro x hx
      obtain ⟨b, hb, rfl⟩ := List.mem_map.mp hx
      exact (hm b hb).1)]
    omega
  refine ⟨sh.blockSize, ?_, hcount.trans sh.allocated, ?_, sh.live_lt, ?_, fun i v hi => readAt_ext (sh.read i v hi), fun fuel hf => iterate_ext hm (sh.iterate fuel hf)⟩
  · have := sh.blockCount
    simp only [MemoryPool.getBlockCount, ext, List.length_append] at this ⊢
    rw [this, hlen]
  · have := sh.free
    simp only [getFreeEntryCount] at this ⊢
    rw [hcount, show (ext q m).blockSize = q.blockSize from rfl, show (ext q m).blocks.length = q.blocks.length + m.length by simp [ext], Nat.add_mul, hlen,
      Nat.cast_add, Nat.cast_add, ← this, r.size]
    cases s <;> simp; omega
  · intro i
    have := sh.retrieve i
    cases hi : a.isLive i
    · simp only [hi, Bool.false_eq_true, if_false] at this ⊢
      exact retrieve_ext_error hm (by rw [r.size]; exact hbs) this
    · simp only [hi, if_true] at this ⊢
      exact retrieve_ext this

/-! ### Allocation -/

theorem takeEntry_ext {p q : Pool α} {m : List (Block α)} {S k l : Nat} {x : Nat × Nat} (h : takeEntry S k l p = .ok (q, x)) :
    takeEntry S k l (ext p m) = .ok (ext q m, x) := by
  unfold takeEntry at h ⊢
  obtain ⟨b, e1, h⟩ := bind_eq_ok h
  obtain ⟨b', e2, h⟩ := bind_eq_ok h
  obtain ⟨u, e3, h⟩ := bind_eq_ok h
  obtain ⟨bl, e4, h⟩ := bind_eq_ok h
  cases h
  simp only [ext, rd_ext e1, ok_bind, e2, e3, wr_ext e4, pure_ok]

theorem takeEntry_repr {bs S : Nat} {p : Pool α} {a : Abs α} (h : Repr bs S p a) {k l : Nat} (hk : k < p.blocks.length) (hl : l < bs) (hg : a.entries (k * bs + l) = none) :
    ∃ q, takeEntry S k l p = .ok (q, k * bs + l, a.address bs S (k * bs + l)) ∧ Repr bs S q (a.set (k * bs + l) (some none)) := by
  obtain ⟨b, bb, g1, g2, g3, g4⟩ := h.get hk
  obtain ⟨b', eb, hb'⟩ := g4.take hl hg
  refine ⟨⟨p.blockSize, p.blocks.set k b'⟩, ?_, h.update hk hl g3 hb'⟩
  have hlen : decide (l < b'.memory.length) = true := by rw [hb'.memory]; simp [hl]
  simp only [takeEntry, ok_bind, g2, eb, hlen, guardUB_true, wr_ok hk, pure_ok, h.size]
  simp only [Abs.address, index_div hl, index_mod hl, Block.address, List.getD, g3, hb'.base, Option.getD_some]

theorem update_ok {σ β : Type} {f : σ → M (σ × β)} {s s' : σ} {x : β} (h : f s = .ok (s', x)) : update f s = .done s' x := by
  simp [update, h]

theorem lift_ok {σ β : Type} {m : M β} {s : σ} {x : β} (h : m = .ok x) : lift m s = .done s x := by
  simp [lift, h]

theorem lift_err {σ β : Type} {m : M β} {s : σ} {e : Err} (h : m = .error e) : (lift m : X σ β) s = .fail e := by
  simp [lift, h]

theorem update_err {σ β : Type} {f : σ → M (σ × β)} {s : σ} {e : Err} (h : f s = .error e) : update f s = .fail e := by
  simp [update, h]

theorem hasFree_iff {bs S : Nat} {p : Pool α} {a : Abs α} (h : Repr bs S p a) (hbs : 0 < bs) : HasFree bs a ↔ a.firstFree bs < a.capacity bs := by
  constructor
  · rintro ⟨i, hi, hf⟩
    rcases findFree_repr h hbs with ⟨e, _⟩ | ⟨k, l, hk, hl, _, e, _⟩
    · exfalso
      unfold Abs.firstFree at e
      cases hs : (List.range (a.capacity bs)).find? (fun i => !a.isLive i) with
      | none =>
        have := List.find?_eq_none.mp hs i (List.mem_range.mpr hi)
        simp [Abs.isLive, hf] at this
      | some j =>
        rw [hs] at e
        have := List.mem_range.mp (List.mem_of_find?_eq_some hs)
        simp only [Option.getD_some] at e
        omega
    · rw [e]
      exact index_lt hl (by rw [← h.len]; exact hk)
  · intro hlt
    exact ⟨_, hlt, isLive_false (firstFree_free h hbs)⟩

/-- An allocation that finds a free entry. -/
theorem allocateDefer_found {bs S : Nat} {p : Pool α} {a : Abs α} (h : Repr bs S p a) (hbs : 0 < bs) (hf : HasFree bs a) (g : Grants) (base : Nat) (m : List (Block α)) :
    ∃ q, allocateDefer g S base (ext p m) = .done (ext q m) (a.firstFree bs, a.address bs S (a.firstFree bs)) ∧ Repr bs S q (a.set (a.firstFree bs) (some none)) := by
  have hlt := (hasFree_iff h hbs).mp hf
  rcases findFree_repr h hbs with ⟨e, _⟩ | ⟨k, l, hk, hl, ef, e, hfree⟩
  · omega
  · obtain ⟨q, eq, r⟩ := takeEntry_repr h hk hl (isLive_false hfree)
    refine ⟨q, ?_, by rw [e]; exact r⟩
    have hc : chooseEntry g base (ext p m) = .done (ext p m) (k, l) := by
      unfold chooseEntry
      rw [X.bind_done (X.get_run _), X.bind_done (lift_ok (findFree_ext ef))]
      rfl
    unfold allocateDefer
    rw [X.bind_done hc]
    rw [e]
    exact update_ok (takeEntry_ext eq)

/-- An allocation in a full pool without residue. -/
theorem allocateDefer_full {bs S : Nat} {p : Pool α} {a : Abs α} (h : Repr bs S p a) (hbs : 0 < bs) (hf : ¬ HasFree bs a) (g : Grants) {base : Nat}
    (hb : ∀ b ∈ a.bases, Abs.Apart bs S base b) :
    (∃ q, allocateDefer g S base p = .done q (a.firstFree bs, (a.grow bs base).address bs S (a.firstFree bs)) ∧
        Repr bs S q ((a.grow bs base).set (a.firstFree bs) (some none)) ∧ g.all bs = true) ∨
      ∃ m, allocateDefer g S base p = .thrown (ext p m) ∧ Left bs m (g.residue bs) ∧ g.all bs = false := by
  rcases findFree_repr h hbs with ⟨e, ef⟩ | ⟨k, l, hk, hl, ef, e, hfree⟩
  · have hgrow : a.grow bs base = ⟨a.entries, a.bases ++ [base]⟩ := by simp [Abs.grow, e]
    unfold allocateDefer chooseEntry
    rcases allocateBlock_cases (by rw [h.size]; exact hbs) g base (p := p) with ⟨q, e1, e2, ha⟩ | ⟨m, e1, hl, ha⟩
    · left
      obtain ⟨q', e3, s1, s2, r⟩ := allocateBlock_repr h hb
      rw [e2] at e3
      cases e3
      have hidx : a.firstFree bs = p.blocks.length * bs + 0 := by rw [e, Abs.capacity, h.len]; rfl
      obtain ⟨q'', e4, r'⟩ := takeEntry_repr r (k := p.blocks.length) (l := 0) (by omega) hbs (by
        rw [← hidx]; exact isLive_false (firstFree_free h hbs))
      refine ⟨q'', ?_, by rw [hgrow, hidx]; exact r', by rw [← h.size]; exact ha⟩
      rw [X.bind_done (s' := q) (a := (p.blocks.length, 0))]
      · rw [hgrow, hidx]
        exact update_ok e4
      · rw [X.bind_done (X.get_run _), X.bind_done (lift_ok ef)]
        simp only
        rw [X.bind_done e1]
        rfl
    · right
      rw [h.size] at hl ha
      refine ⟨m, ?_, hl, ha⟩
      apply X.bind_thrown
      rw [X.bind_done (X.get_run _), X.bind_done (lift_ok ef)]
      exact X.bind_thrown e1
  · exfalso
    exact hf ((hasFree_iff h hbs).mpr (by rw [e]; exact index_lt hl (by rw [← h.len]; exact hk)))

/-- An allocation in a full pool with a residue. -/
theorem allocateDefer_residue {bs S : Nat} {p : Pool α} {a : Abs α} (h : Repr bs S p a) (hbs : 0 < bs) (hf : ¬ HasFree bs a) {r : Residue} {m : List (Block α)}
    (hl : Left bs m (some r)) (g : Grants) (base : Nat) :
    allocateDefer g S base (ext p m) = .fail (if r = .storage then .ub else .assert) := by
  obtain ⟨c, rfl, hs⟩ := hl
  have hc : c.count = 0 := (hs.empty c (List.mem_singleton.mpr rfl)).1
  have ef : findFree p = .ok none := by
    rcases findFree_repr h hbs with ⟨_, ef⟩ | ⟨k, l, hk, hl, _, e, _⟩
    · exact ef
    · exact absurd ((hasFree_iff h hbs).mpr (by rw [e]; exact index_lt hl (by rw [← h.len]; exact hk))) hf
  have efull := findFree_full (by rw [h.size]; exact hbs) hc ef
  have first : ∀ {f : Bitset 64}, Has f bs (fun _ => true) → Bitset.findFirst f = .ok (some 0) := by
    intro f hf
    obtain ⟨r, e, h1, h2⟩ := Has.findFirst hf
    cases r with
    | none => exact absurd (h2 rfl 0 hbs) (by simp)
    | some i =>
      obtain ⟨_, _, h3⟩ := h1 i rfl
      rcases Nat.eq_zero_or_pos i with rfl | hi
      · exact e
      · exact absurd (h3 0 hi) (by simp)
  have eread : rd (ext p [c]).blocks p.blocks.length = .ok c := by simp [ext, rd]
  have fin : findFree (ext p [c]) = .ok (some (p.blocks.length, 0)) → ∀ e, takeEntry S p.blocks.length 0 (ext p [c]) = .error e →
      allocateDefer g S base (ext p [c]) = .fail e := by
    intro e1 e e2
    have hch : chooseEntry g base (ext p [c]) = .done (ext p [c]) (p.blocks.length, 0) := by
      unfold chooseEntry
      rw [X.bind_done (X.get_run _), X.bind_done (lift_ok e1)]
      rfl
    unfold allocateDefer
    rw [X.bind_done hch]
    exact update_err e2
  cases r with
  | freeBits =>
    cases hs
    have e0 : Bitset.findFirst (Bitset.empty : Bitset 64) = .ok none := by
      obtain ⟨r, e, h1, h2⟩ := Has.findFirst (has_empty 64)
      cases r with
      | none => exact e
      | some i => exact absurd (h1 i rfl).1 (by simp)
    unfold allocateDefer chooseEntry
    apply X.bind_fail
    rw [X.bind_done (X.get_run _)]
    apply X.bind_fail
    apply lift_err
    rw [efull]
    simp only [rawBlock, e0, ok_bind]
    rfl
  | occupiedBits =>
    obtain ⟨f, hff, rfl⟩ := hs
    apply fin
    · rw [efull]; simp only [first hff, ok_bind]
    · obtain ⟨f', e1, _⟩ := Has.set hff hbs false
      have e2 : Bitset.set (Bitset.empty : Bitset 64) 0 true = .error .assert := by simp [Bitset.set, Bitset.empty]
      simp only [takeEntry, eread, ok_bind, Block.take, Bitset.reset, e1, e2, err_bind]
      rfl
  | storage =>
    obtain ⟨f, o, hff, ho, rfl⟩ := hs
    apply fin
    · rw [efull]; simp only [first hff, ok_bind]
    · obtain ⟨f', e1, _⟩ := Has.set hff hbs false
      obtain ⟨o', e2, _⟩ := Has.set ho hbs true
      simp only [takeEntry, eread, ok_bind, Block.take, Bitset.reset, e1, e2, pure_ok]
      rfl

/-- Construction of the object in the entry that `Allocate` took. -/
theorem construct_done {bs S : Nat} (hbs : 0 < bs) {q : Pool α} {a : Abs α} {i : Nat} (r : Repr bs S q (a.set i (some none))) (v : α) (m : List (Block α)) :
    ∃ q', onSlot (ext q m) (i / (ext q m).blockSize) (i % (ext q m).blockSize) (fun m i => Slots.create m i v) = .ok (ext q' m) ∧ Repr bs S q' (a.set i (some (some v))) := by
  have hl := Nat.mod_lt i hbs
  obtain ⟨q', e', _, r'⟩ := onSlot_repr r hbs (i := i) (x := some v) (f := fun m i => Slots.create m i v) (by simp [Abs.isLive, Abs.set]) (by
    intro g hg
    exact Slots.create_mk v hl (by rw [hg]; simp [Abs.set]))
  rw [set_set] at r'
  refine ⟨q', ?_, r'⟩
  rw [show (ext q m).blockSize = bs from r.size]
  exact onSlot_ext e'

/-! ### One call -/

/-- The calls that do not allocate. -/
theorem run_ext {bs S : Nat} {p : Pool α} {a : Abs α} (h : Repr bs S p a) (hbs : 0 < bs) {m : List (Block α)} (hm : Empty m) (o : Op α) (ho : isAllocation o = false)
    (hok : o.ok bs S a) :
    ∃ q, o.run S (ext p m) = .ok (ext q (if isClear o then [] else m), (o.spec bs a).2) ∧ Repr bs S q (o.spec bs a).1 := by
  have h0 : (bs != 0) = true := by simp; omega
  have hsz : (ext p m).blockSize = bs := h.size
  cases o with
  | allocate base v => cases ho
  | allocateDefer base => cases ho
  | constructAt i v =>
    obtain ⟨q, e, r⟩ := constructAt_repr h hbs hok v
    refine ⟨q, ?_, r⟩
    unfold constructAt at e
    obtain ⟨x, e1, e⟩ := bind_eq_ok e
    have e2 := onSlot_ext (m := m) e
    rw [h.size] at e2
    simp only [MemoryPool.Op.run, constructAt, retrieve_ext e1, ok_bind, hsz, e2, pure_ok, MemoryPool.Op.spec, isClear, Bool.false_eq_true, if_false]
  | destroyAt i =>
    obtain ⟨v, hv⟩ := hok
    obtain ⟨q, e, r⟩ := destroyAt_repr h hbs hv
    refine ⟨q, ?_, r⟩
    unfold destroyAt at e
    obtain ⟨x, e1, e⟩ := bind_eq_ok e
    have e2 := onSlot_ext (m := m) e
    rw [h.size] at e2
    simp only [MemoryPool.Op.run, destroyAt, retrieve_ext e1, ok_bind, hsz, e2, pure_ok, MemoryPool.Op.spec, isClear, Bool.false_eq_true, if_false]
  | assignAt i v =>
    obtain ⟨u, hv⟩ := hok
    obtain ⟨q, e, r⟩ := assignAt_repr h hbs hv v
    refine ⟨q, ?_, r⟩
    unfold assignAt at e
    obtain ⟨x, e1, e⟩ := bind_eq_ok e
    have e2 := onSlot_ext (m := m) e
    rw [h.size] at e2
    simp only [MemoryPool.Op.run, assignAt, retrieve_ext e1, ok_bind, hsz, e2, pure_ok, MemoryPool.Op.spec, isClear, Bool.false_eq_true, if_false]
  | free i =>
    obtain ⟨u, hv⟩ := hok
    obtain ⟨q, e, r⟩ := free_repr h hbs hv
    refine ⟨q, ?_, r⟩
    unfold MemoryPool.free at e
    obtain ⟨_, e0, e⟩ := bind_eq_ok e
    obtain ⟨x, e1, e⟩ := bind_eq_ok e
    obtain ⟨q1, e2, e⟩ := bind_eq_ok e
    have e1 := pointer_ext (m := m) e1
    have e2' := onSlot_ext (m := m) e2
    have e3 := release_ext (m := m) e
    have hq1 : q1.blockSize = p.blockSize := by
      unfold onSlot at e2
      obtain ⟨_, _, e2⟩ := bind_eq_ok e2
      obtain ⟨_, _, e2⟩ := bind_eq_ok e2
      obtain ⟨_, _, e2⟩ := bind_eq_ok e2
      cases e2; rfl
    simp only [MemoryPool.Op.run, MemoryPool.free, show (ext p m).blockSize = p.blockSize from rfl, e0, ok_bind, e1, e2', show (ext q1 m).blockSize = q1.blockSize from rfl, e3, pure_ok, MemoryPool.Op.spec, isClear,
      Bool.false_eq_true, if_false]
  | freeNoDestruction i =>
    obtain ⟨q, e, r⟩ := freeNoDestruction_repr h hbs hok
    refine ⟨q, ?_, r⟩
    unfold freeNoDestruction at e
    obtain ⟨_, e0, e⟩ := bind_eq_ok e
    have e3 := release_ext (m := m) e
    simp only [MemoryPool.Op.run, freeNoDestruction, show (ext p m).blockSize = p.blockSize from rfl, e0, ok_bind, e3, pure_ok, MemoryPool.Op.spec, isClear, Bool.false_eq_true, if_false]
  | clear =>
    have := (clear_ext h hm hok.1 hok.2).1
    exact ⟨⟨bs, []⟩, by simp only [MemoryPool.Op.run, this, ok_bind, pure_ok, MemoryPool.Op.spec, isClear, if_true]; rfl, empty_repr bs S⟩

theorem ext_nil (p : Pool α) : ext p [] = p := by simp [ext]

/-- Allowed calls end normally with the effect of the specification, or with an exception and without effect on the contents. -/
theorem exec_cases {bs S : Nat} (hbs : 0 < bs) {p : Pool α} {a : Abs α} {s : Option Residue} (h : Inv bs S p a s) (g : Grants) (o : Op α) (hok : Allowed bs S a s o) :
    (∃ q, exec g S o p = .done q (o.spec bs a).2 ∧ Inv bs S q (o.spec bs a).1 (if isClear o then none else s) ∧
        (isAllocation o = false ∨ HasFree bs a ∨ g.all bs = true)) ∨
      (∃ q, exec g S o p = .thrown q ∧ Inv bs S q a (g.residue bs) ∧ isAllocation o = true ∧ ¬ HasFree bs a ∧ g.all bs = false ∧ s = none ∧ (g.vector = false → q = p)) := by
  obtain ⟨p0, m, rfl, r, hl⟩ := h
  have hgrow : HasFree bs a → ∀ base, a.grow bs base = a := by
    intro hf base
    have := (hasFree_iff r hbs).mp hf
    simp only [Abs.grow]
    rw [if_neg (by omega)]
  have hres : g.vector = false → ∀ m, Left (α := α) bs m (g.residue bs) → m = [] := by
    intro hv m hm
    rw [Grants.residue, if_pos hv] at hm
    exact hm
  cases ho : isAllocation o with
  | false =>
    left
    obtain ⟨q, e, r'⟩ := run_ext r hbs hl.empty o ho hok.1
    refine ⟨ext q (if isClear o then [] else m), ?_, ⟨q, if isClear o then [] else m, rfl, r', ?_⟩, .inl rfl⟩
    · cases o <;> first | exact update_ok e | cases ho
    · cases isClear o
      · exact hl
      · exact rfl
  | true =>
    cases o with
    | allocateDefer base =>
      by_cases hf : HasFree bs a
      · left
        obtain ⟨q, e, r'⟩ := allocateDefer_found r hbs hf g base m
        refine ⟨ext q m, ?_, ⟨q, m, rfl, ?_, hl⟩, .inr (.inl hf)⟩
        · simp only [exec]; rw [X.bind_done e]; rfl
        · simp only [MemoryPool.Op.spec, hgrow hf]; exact r'
      · have hs : s = none := by
          cases s with
          | none => rfl
          | some x => exact absurd (hok.2 rfl rfl) hf
        subst hs
        cases hl
        rw [ext_nil]
        rcases allocateDefer_full r hbs hf g hok.1 with ⟨q, e, r', ha⟩ | ⟨m, e, hm, ha⟩
        · left
          refine ⟨q, ?_, ⟨q, [], (ext_nil q).symm, r', rfl⟩, .inr (.inr ha)⟩
          simp only [exec]; rw [X.bind_done e]; rfl
        · right
          refine ⟨ext p0 m, ?_, ⟨p0, m, rfl, r, hm⟩, rfl, hf, ha, rfl, fun hv => by rw [hres hv m hm, ext_nil]⟩
          simp only [exec]; exact X.bind_thrown e
    | allocate base v =>
      by_cases hf : HasFree bs a
      · left
        obtain ⟨q, e, r'⟩ := allocateDefer_found r hbs hf g base m
        obtain ⟨q', e', r''⟩ := construct_done hbs r' v m
        refine ⟨ext q' m, ?_, ⟨q', m, rfl, ?_, hl⟩, .inr (.inl hf)⟩
        · simp only [exec, allocate]
          rw [X.bind_done (s' := ext q' m) (a := (a.firstFree bs, a.address bs S (a.firstFree bs)))]
          · rfl
          · rw [X.bind_done e]
            apply update_ok
            simp only [e', ok_bind, pure_ok]
        · simp only [MemoryPool.Op.spec, hgrow hf]; exact r''
      · have hs : s = none := by
          cases s with
          | none => rfl
          | some x => exact absurd (hok.2 rfl rfl) hf
        subst hs
        cases hl
        rw [ext_nil]
        rcases allocateDefer_full r hbs hf g hok.1 with ⟨q, e, r', ha⟩ | ⟨m, e, hm, ha⟩
        · left
          obtain ⟨q', e', r''⟩ := construct_done hbs r' v []
          rw [ext_nil, ext_nil] at e'
          refine ⟨q', ?_, ⟨q', [], (ext_nil q').symm, r'', rfl⟩, .inr (.inr ha)⟩
          simp only [exec, allocate]
          rw [X.bind_done (s' := q') (a := (a.firstFree bs, (a.grow bs base).address bs S (a.firstFree bs)))]
          · rfl
          · rw [X.bind_done e]
            apply update_ok
            simp only [e', ok_bind, pure_ok]
        · right
          refine ⟨ext p0 m, ?_, ⟨p0, m, rfl, r, hm⟩, rfl, hf, ha, rfl, fun hv => by rw [hres hv m hm, ext_nil]⟩
          simp only [exec, allocate]
          apply X.bind_thrown
          exact X.bind_thrown e
    | _ => cases ho

theorem Runs.pos {bs S : Nat} {p : Pool α} {a : Abs α} {s : Option Residue} (h : Runs bs S p a s) : 0 < bs := by
  induction h with
  | start _ hbs _ => exact hbs
  | succeeded _ _ _ _ _ ih => exact ih
  | failed _ _ _ _ _ ih => exact ih

theorem Runs.inv {bs S : Nat} {p : Pool α} {a : Abs α} {s : Option Residue} (h : Runs bs S p a s) : Inv bs S p a s := by
  induction h with
  | start base hbs h =>
    obtain ⟨p', e, r⟩ := new_repr (α := α) (bs := bs) (S := S) base
    rw [h] at e
    cases e
    exact ⟨_, [], (ext_nil _).symm, r, rfl⟩
  | succeeded g o h hok e ih =>
    rcases exec_cases h.pos ih g o hok with ⟨q, e', hq, _⟩ | ⟨q, e', _⟩
    · rw [e] at e'; cases e'; exact hq
    · rw [e] at e'; cases e'
  | failed g o h hok e ih =>
    rcases exec_cases h.pos ih g o hok with ⟨q, e', hq, _⟩ | ⟨q, e', hq, _⟩
    · rw [e] at e'; cases e'
    · rw [e] at e'; cases e'; exact hq

end Verif.MemoryPoolAlloc
