import Verif.Storage.Spec
import Verif.StackAlloc.Props

/-!
# C141: objects are in memory that is theirs and that suits them
-/

namespace Verif.Storage

theorem IsAlign.pos {a : Nat} (h : IsAlign a) : 0 < a := by
  obtain ⟨k, rfl⟩ := h
  exact Nat.two_pow_pos k

/-- Of two alignments the smaller divides the greater. -/
theorem IsAlign.dvd {a b : Nat} (ha : IsAlign a) (hb : IsAlign b) (h : a ≤ b) : a ∣ b := by
  obtain ⟨k, rfl⟩ := ha
  obtain ⟨l, rfl⟩ := hb
  exact Nat.pow_dvd_pow 2 ((Nat.pow_le_pow_iff_right (by decide)).mp h)

theorem IsAlign.max {a b : Nat} (ha : IsAlign a) (hb : IsAlign b) : IsAlign (max a b) := by
  rcases Nat.le_total a b with h | h
  · rwa [Nat.max_eq_right h]
  · rwa [Nat.max_eq_left h]

theorem dvd_roundUp (n a : Nat) : a ∣ roundUp n a := ⟨_, Nat.mul_comm _ _⟩

theorem le_roundUp (n : Nat) {a : Nat} (h : 0 < a) : n ≤ roundUp n a := by
  have := Nat.div_add_mod (n + a - 1) a
  have := Nat.mod_lt (n + a - 1) h
  unfold roundUp
  rw [Nat.mul_comm]
  omega

/-- `roundUp` is the least multiple. -/
theorem roundUp_le {n a m : Nat} (h : 0 < a) (hm : a ∣ m) (hn : n ≤ m) : roundUp n a ≤ m := by
  obtain ⟨c, rfl⟩ := hm
  unfold roundUp
  rw [Nat.mul_comm a c]
  refine Nat.mul_le_mul_right a ?_
  refine Nat.le_of_lt_succ ((Nat.div_lt_iff_lt_mul h).mpr ?_)
  rw [Nat.succ_mul, Nat.mul_comm c a]
  omega

theorem disjoint_of_le {r s : Region} (h : r.addr + r.size ≤ s.addr ∨ s.addr + s.size ≤ r.addr) : r.Disjoint s := by
  intro b h1 h2 h3 h4
  omega

theorem inside_of_le {r s : Region} (h1 : s.addr ≤ r.addr) (h2 : r.addr + r.size ≤ s.addr + s.size) : r.Inside s := by
  intro b _ _
  omega

/-- Entries of an array with a stride of at least the size of the objects. -/
theorem stride {i j S z : Nat} (h : z ≤ S) (hij : i < j) : i * S + z ≤ j * S := by
  have := Nat.mul_le_mul_right S (Nat.succ_le_of_lt hij)
  rw [Nat.succ_mul] at this
  omega

theorem le_alignedStorage {T : Ty} {A : Nat} (hA : 0 < A) : T.size ≤ (MemoryPool.alignedStorage T A).size := le_roundUp _ hA

/-- The objects of a pool do not overlap and lie in the memory of its blocks, whatever the alignment asked for. -/
theorem C141_memoryPool_disjoint {T : Ty} {A blockSize : Nat} (hA : IsAlign A) (hb : 0 < blockSize) (blocks : Nat → Nat)
    (hd : ∀ b c, b ≠ c → (MemoryPool.block T A blockSize (blocks b)).Disjoint (MemoryPool.block T A blockSize (blocks c))) (i j : Nat) :
    (MemoryPool.object T A blockSize blocks i).Inside (MemoryPool.block T A blockSize (blocks (i / blockSize))) ∧
    (i ≠ j → (MemoryPool.object T A blockSize blocks i).Disjoint (MemoryPool.object T A blockSize blocks j)) := by
  have hS : T.size ≤ (MemoryPool.alignedStorage T A).size := le_alignedStorage hA.pos
  have hin : ∀ i, (MemoryPool.object T A blockSize blocks i).Inside (MemoryPool.block T A blockSize (blocks (i / blockSize))) := by
    intro i
    have := stride (i := i % blockSize) hS (Nat.mod_lt i hb)
    refine inside_of_le ?_ ?_ <;> simp only [MemoryPool.object, MemoryPool.entry, MemoryPool.block] <;> omega
  refine ⟨hin i, fun hij => ?_⟩
  by_cases h : i / blockSize = j / blockSize
  · have hm : i % blockSize ≠ j % blockSize := by
      intro hm
      apply hij
      rw [← Nat.div_add_mod i blockSize, ← Nat.div_add_mod j blockSize, h, hm]
    refine disjoint_of_le ?_
    simp only [MemoryPool.object, MemoryPool.entry, h]
    rcases Nat.lt_or_gt_of_ne hm with hlt | hlt
    · have := stride hS hlt
      omega
    · have := stride hS hlt
      omega
  · intro b h1 h2 h3 h4
    obtain ⟨h5, h6⟩ := hin i b h1 h2
    obtain ⟨h7, h8⟩ := hin j b h3 h4
    exact hd _ _ h b h5 h6 h7 h8

/-- Blocks of four entries of 24 bytes, one after the other. -/
example : IsAlign 8 ∧ ∀ b c, b ≠ c →
    (MemoryPool.block ⟨24, 8⟩ 8 4 (b * 96)).Disjoint (MemoryPool.block ⟨24, 8⟩ 8 4 (c * 96)) := by
  refine ⟨⟨3, rfl⟩, fun b c hbc => disjoint_of_le ?_⟩
  have hs : roundUp 24 8 = 24 := by decide
  simp only [MemoryPool.block, MemoryPool.alignedStorage, hs]
  omega

/-- If the alignment asked for is at least that of the type (as it is by default), every object is at an address that suits it and the alignment
asked for, wherever the blocks are.  (The property is for every alignment; see `C141_memoryPool_violated`.) -/
theorem C141_memoryPool_partial {T : Ty} {A blockSize : Nat} (hT : T.Valid) (hA : IsAlign A) (h : T.align ≤ A) (blocks : Nat → Nat)
    (ha : ∀ b, A ∣ blocks b) (i : Nat) :
    (MemoryPool.object T A blockSize blocks i).Aligned T.align ∧ (MemoryPool.object T A blockSize blocks i).Aligned A := by
  have hA' : A ∣ blocks (i / blockSize) + i % blockSize * (MemoryPool.alignedStorage T A).size :=
    Nat.dvd_add (ha _) (Nat.dvd_trans (dvd_roundUp _ _) (Nat.dvd_mul_left _ _))
  exact ⟨Nat.dvd_trans (hT.align.dvd hA h) hA', hA'⟩

example : Ty.Valid ⟨24, 8⟩ ∧ IsAlign 32 ∧ (8 : Nat) ≤ 32 ∧ ∀ b : Nat, 32 ∣ b * 128 :=
  ⟨⟨⟨3, rfl⟩, by decide, by decide⟩, ⟨5, rfl⟩, by decide, fun b => Nat.dvd_trans (by decide) (Nat.dvd_mul_left 128 b)⟩

/-- Nothing stops a program from asking for a lower alignment than that of the type.  Then there are blocks, as aligned as the pool asks them to be,
all objects of which are at addresses that do not suit the type. -/
theorem C141_memoryPool_violated {T : Ty} {A : Nat} (hT : T.Valid) (hA : IsAlign A) (h : A < T.align) :
    ∃ memory, A ∣ memory ∧ ∀ blockSize blocks i, blocks (i / blockSize) = memory →
      ¬ (MemoryPool.object T A blockSize blocks i).Aligned T.align := by
  refine ⟨A, Nat.dvd_refl A, fun blockSize blocks i hm hc => ?_⟩
  have hs : (MemoryPool.alignedStorage T A).size = T.size :=
    Nat.le_antisymm (roundUp_le hA.pos (Nat.dvd_trans (hA.dvd hT.align (Nat.le_of_lt h)) hT.dvd) (Nat.le_refl _)) (le_alignedStorage hA.pos)
  simp only [Region.Aligned, MemoryPool.object, MemoryPool.entry, hm, hs] at hc
  have := (Nat.dvd_add_left (Nat.dvd_trans hT.dvd (Nat.dvd_mul_left _ (i % blockSize)))).mp hc
  exact absurd (Nat.le_of_dvd hA.pos this) (by omega)

example : Ty.Valid ⟨32, 16⟩ ∧ IsAlign 8 ∧ (8 : Nat) < 16 := ⟨⟨⟨4, rfl⟩, by decide, by decide⟩, ⟨3, rfl⟩, by decide⟩

/-- The elements of a FixedVector that does not use the fallback are inside it, at addresses that suit them; they overlap neither each other nor the
count of the elements nor the base class. -/
theorem C141_fixedVector {T base : Ty} {capacity this : Nat} (hT : T.Valid) (hB : IsAlign base.align)
    (hthis : (FixedVector.cls T base capacity).align ∣ this) {n : Nat} (hn : n < capacity) :
    (FixedVector.element T base this n).Aligned T.align ∧
    (FixedVector.element T base this n).Inside (FixedVector.whole T base capacity this) ∧
    (FixedVector.element T base this n).Disjoint (FixedVector.sizePart base this) ∧
    (FixedVector.element T base this n).Disjoint (FixedVector.basePart base this) ∧
    (∀ m, m ≠ n → (FixedVector.element T base this n).Disjoint (FixedVector.element T base this m)) ∧
    (FixedVector.sizePart base this).Aligned 8 ∧
    (FixedVector.sizePart base this).Inside (FixedVector.whole T base capacity this) ∧
    (FixedVector.sizePart base this).Disjoint (FixedVector.basePart base this) := by
  have h8 : IsAlign 8 := ⟨3, rfl⟩
  have hal : IsAlign (FixedVector.cls T base capacity).align := (hB.max h8).max hT.align
  have hTd : T.align ∣ this := Nat.dvd_trans (hT.align.dvd hal (Nat.le_max_right _ _)) hthis
  have h8d : 8 ∣ this := Nat.dvd_trans (h8.dvd hal (Nat.le_trans (Nat.le_max_right _ _) (Nat.le_max_left _ _))) hthis
  have e1 : base.size ≤ FixedVector.sizeOffset base.size := le_roundUp _ (by decide)
  have e2 : FixedVector.sizeOffset base.size + 8 ≤ FixedVector.dataOffset T base.size := le_roundUp _ hT.align.pos
  have e3 : FixedVector.dataOffset T base.size + T.size * capacity ≤ (FixedVector.cls T base capacity).size := le_roundUp _ hal.pos
  have e4 := stride (Nat.le_refl T.size) hn
  rw [Nat.mul_comm capacity] at e4
  refine ⟨?_, ?_, ?_, ?_, fun m hm => ?_, ?_, ?_, ?_⟩
  · exact Nat.dvd_add (Nat.dvd_add hTd (dvd_roundUp _ _)) (Nat.dvd_trans hT.dvd (Nat.dvd_mul_left _ _))
  · refine inside_of_le ?_ ?_ <;> simp only [FixedVector.element, FixedVector.whole] <;> omega
  · refine disjoint_of_le (Or.inr ?_)
    simp only [FixedVector.element, FixedVector.sizePart]
    omega
  · refine disjoint_of_le (Or.inr ?_)
    simp only [FixedVector.element, FixedVector.basePart]
    omega
  · refine disjoint_of_le ?_
    simp only [FixedVector.element]
    rcases Nat.lt_or_gt_of_ne hm with hlt | hlt
    · have := stride (Nat.le_refl T.size) hlt
      omega
    · have := stride (Nat.le_refl T.size) hlt
      omega
  · exact Nat.dvd_add h8d (dvd_roundUp _ _)
  · refine inside_of_le ?_ ?_ <;> simp only [FixedVector.sizePart, FixedVector.whole] <;> omega
  · refine disjoint_of_le (Or.inr ?_)
    simp only [FixedVector.sizePart, FixedVector.basePart]
    omega

/-- Three elements of 48 bytes with an alignment of 16, and a fallback of 24 bytes. -/
example : Ty.Valid ⟨48, 16⟩ ∧ IsAlign 8 ∧ (FixedVector.cls ⟨48, 16⟩ ⟨24, 8⟩ 3).align ∣ 160 ∧ 2 < 3 ∧
    FixedVector.element ⟨48, 16⟩ ⟨24, 8⟩ 160 2 = ⟨160 + 32 + 96, 48⟩ ∧ (FixedVector.cls ⟨48, 16⟩ ⟨24, 8⟩ 3).size = 176 :=
  ⟨⟨⟨4, rfl⟩, by decide, by decide⟩, ⟨3, rfl⟩, by decide, by decide, by decide, by decide⟩

/-- The static assertions of PrivateImpl with a buffer accept exactly the types that fit: those whose object is inside the PrivateImpl and at an address
that suits it, wherever the PrivateImpl is. -/
theorem C141_privateImpl {T : Ty} {bufferSize A : Nat} (hT : T.Valid) (hA : A = 0 ∨ IsAlign A) :
    PrivateImpl.compiles T bufferSize A = true ↔
      ∀ this, (PrivateImpl.impl bufferSize A).align ∣ this →
        (PrivateImpl.object T this).Aligned T.align ∧ (PrivateImpl.object T this).Inside (PrivateImpl.whole bufferSize A this) := by
  have hal : IsAlign (PrivateImpl.impl bufferSize A).align := by
    rcases hA with rfl | hA
    · exact ⟨0, rfl⟩
    · exact hA.max ⟨0, rfl⟩
  simp only [PrivateImpl.compiles, Bool.and_eq_true, decide_eq_true_eq]
  constructor
  · intro ⟨h1, h2⟩ this hthis
    refine ⟨Nat.dvd_trans (hT.align.dvd hal h2) hthis, inside_of_le (Nat.le_refl _) ?_⟩
    simp only [PrivateImpl.object, PrivateImpl.whole]
    omega
  · intro h
    obtain ⟨h1, h2⟩ := h _ (Nat.dvd_refl _)
    refine ⟨?_, Nat.le_of_dvd hal.pos h1⟩
    have hp := hT.pos
    obtain ⟨_, h4⟩ := h2 ((PrivateImpl.impl bufferSize A).align + (T.size - 1)) (by simp only [PrivateImpl.object]; omega)
      (by simp only [PrivateImpl.object]; omega)
    simp only [PrivateImpl.whole] at h4
    omega

/-- A type may be larger than `BufferSize`, up to the next multiple of the alignment: it is accepted, and its object goes beyond the array. -/
theorem C141_privateImpl_padding {T : Ty} {bufferSize A : Nat} (hA : IsAlign A) (hal : T.align ≤ A) :
    (bufferSize < T.size ∧ T.size ≤ roundUp bufferSize A) ↔
      (PrivateImpl.compiles T bufferSize A = true ∧ ∀ this, ¬ (PrivateImpl.object T this).Inside ⟨this, bufferSize⟩) := by
  have hm : max A 1 = A := Nat.max_eq_left hA.pos
  simp only [PrivateImpl.compiles, PrivateImpl.impl, hm, Bool.and_eq_true, decide_eq_true_eq]
  constructor
  · intro ⟨h1, h2⟩
    refine ⟨⟨h2, hal⟩, fun this hc => ?_⟩
    obtain ⟨_, h4⟩ := hc (this + bufferSize) (by simp only [PrivateImpl.object]; omega) (by simp only [PrivateImpl.object]; omega)
    simp only at h4
    omega
  · intro ⟨⟨h1, _⟩, h3⟩
    refine ⟨Nat.lt_of_not_le fun hc => h3 0 (inside_of_le (Nat.le_refl _) ?_), h1⟩
    simp only [PrivateImpl.object]
    omega

example : PrivateImpl.compiles ⟨32, 16⟩ 20 16 = true ∧ PrivateImpl.compiles ⟨48, 16⟩ 20 16 = false ∧ PrivateImpl.compiles ⟨32, 32⟩ 32 16 = false := by
  decide

/-- A StackArray or StackVector made by its macro, in memory the allocation (`alloca`, `operator new`) aligned to `M`: if the alignment of the type is at most `M`, the elements are
inside the memory, at addresses that suit them, and do not overlap.  `M` is 16 on the usual 64-bit platforms.  (The property is for every type; see
`C141_stack_violated`; sizes as in C103.) -/
theorem C141_stack_partial {S : Type} {e : StackAlloc.Expr S} {capacity : Nat} (he : e.Is capacity) (p : StackAlloc.Platform) (mf : Bool) {T : Ty} (hT : T.Valid)
    (hfit : capacity * T.size < 2 ^ 64) {M memory : Nat} (hM : IsAlign M) (hmem : M ∣ memory) (h : T.align ≤ M) {n : Nat} (hn : n < capacity) (s : S) :
    (Stack.element T memory n).Aligned T.align ∧
    (Stack.element T memory n).Inside ⟨memory, (StackAlloc.arguments p mf e T.size s).2.bytes⟩ ∧
    ∀ m, m ≠ n → (Stack.element T memory n).Disjoint (Stack.element T memory m) := by
  obtain ⟨bytes, hb, h1, _⟩ := StackAlloc.C103_room_partial he p mf hT.pos hfit s
  have e4 := stride (Nat.le_refl T.size) hn
  refine ⟨?_, ?_, fun m hm => disjoint_of_le ?_⟩
  · exact Nat.dvd_add (Nat.dvd_trans (hT.align.dvd hM h) hmem) (Nat.dvd_trans hT.dvd (Nat.dvd_mul_left _ _))
  · rw [hb]
    refine inside_of_le (Nat.le_add_right _ _) ?_
    simp only [Stack.element]
    omega
  · simp only [Stack.element]
    rcases Nat.lt_or_gt_of_ne hm with hlt | hlt
    · have := stride (Nat.le_refl T.size) hlt
      omega
    · have := stride (Nat.le_refl T.size) hlt
      omega

example : StackAlloc.Expr.Is (fun s : Nat => (s, 3)) ((3 : Nat) : Int) ∧ Ty.Valid ⟨24, 8⟩ ∧ 3 * 24 < 2 ^ 64 ∧ IsAlign 16 ∧ 16 ∣ 160 ∧ (8 : Nat) ≤ 16 :=
  ⟨fun _ => rfl, ⟨⟨3, rfl⟩, by decide, by decide⟩, by decide, ⟨4, rfl⟩, by decide, by decide⟩

/-- The macros ask for memory by its size alone.  For a type whose alignment is greater than the one the allocation gives, there is memory, aligned as promised,
in which no element is at an address that suits it. -/
theorem C141_stack_violated {T : Ty} {M : Nat} (hT : T.Valid) (hM : IsAlign M) (h : M < T.align) :
    ∃ memory, M ∣ memory ∧ ∀ n, ¬ (Stack.element T memory n).Aligned T.align := by
  refine ⟨M, Nat.dvd_refl M, fun n hc => ?_⟩
  have := (Nat.dvd_add_left (Nat.dvd_trans hT.dvd (Nat.dvd_mul_left _ n))).mp hc
  exact absurd (Nat.le_of_dvd hM.pos this) (by omega)

example : Ty.Valid ⟨64, 32⟩ ∧ IsAlign 16 ∧ (16 : Nat) < 32 := ⟨⟨⟨5, rfl⟩, by decide, by decide⟩, ⟨4, rfl⟩, by decide⟩

end Verif.Storage
