import Verif.MemoryPool.ModelSpawn
import Verif.MemoryPool.LemmasOwn

/-!
# Lemmas: `Reset` of objects whose destructors allocate
-/

namespace Verif.MemoryPool
open Verif.Cpp Verif.Bitset

variable {α : Type} {S : Nat} {bases : Nat → Nat} {spawn : α → List α} {moves : Nat → Nat → Bool}

/-- Block `d` of the pool is `b`, with the storage `m`. -/
def putMem (p : Pool α) (d : Nat) (b : Block α) (m : Slots α) : Pool α := ⟨p.blockSize, p.blocks.set d ⟨b.count, b.base, m, b.freeEntries, b.occupiedEntries⟩⟩

theorem putMem_length (p : Pool α) (d : Nat) (b : Block α) (m : Slots α) : (putMem p d b m).blocks.length = p.blocks.length := by simp [putMem]

theorem putMem_rd {p : Pool α} {d : Nat} (b : Block α) (m : Slots α) (hd : d < p.blocks.length) :
    rd (putMem p d b m).blocks d = .ok ⟨b.count, b.base, m, b.freeEntries, b.occupiedEntries⟩ := by
  simp [putMem, rd, hd]

theorem putMem_self {p : Pool α} {d : Nat} {b : Block α} (h : p.blocks[d]? = some b) : putMem p d b b.memory = p := by
  obtain ⟨hd, e⟩ := List.getElem?_eq_some_iff.mp h
  cases p
  simp only [putMem, Pool.mk.injEq, true_and]
  subst e
  exact List.set_getElem_self hd

theorem putMem_destroy {p : Pool α} {d : Nat} (b : Block α) {n i : Nat} {m : Nat → Option α} {v : α} (hd : d < p.blocks.length) (hi : i < n) (hm : m i = some v) :
    onSlot (putMem p d b (Slots.mk n m)) d i Slots.destroy = .ok (putMem p d b (Slots.mk n (Slots.upd m i none))) := by
  simp only [onSlot, putMem_rd b _ hd, ok_bind, Slots.destroy_mk hi hm]
  rw [wr_ok (by rw [putMem_length]; exact hd)]
  simp [putMem]

/-- The destruction of one object that allocates nothing. -/
theorem destroyLoopS_step {p : Pool α} {d : Nat} {b : Block α} {n i : Nat} {m : Nat → Option α} {v : α} (hd : d < p.blocks.length) (hi : i < n) (hm : m i = some v)
    (hv : spawn v = []) (fuel : Nat) :
    destroyLoopS S bases spawn moves d (fuel + 1) (some i) (putMem p d b (Slots.mk n m)) = (do
      let next ← Bitset.findNext b.occupiedEntries i
      destroyLoopS S bases spawn moves d fuel next (putMem p d b (Slots.mk n (Slots.upd m i none)))) := by
  simp only [destroyLoopS, putMem_rd b _ hd, ok_bind, Slots.read_mk hi hm, putMem_destroy b hd hi hm, hv, spawnAll, List.foldlM_nil, pure_ok, putMem_length, beq_self_eq_true,
    Bool.true_or, guardUB_true]

/-- The loop until position `k`. -/
theorem destroyLoopS_until {p : Pool α} {d : Nat} {b : Block α} {n k : Nat} {f : Nat → Bool} (ho : Has b.occupiedEntries n f) (hd : d < p.blocks.length) (hk : k < n)
    (hfk : f k = true) (fuel : Nat) {l : Nat} {m : Nat → Option α} (hl : l ≤ k) (hfl : f l = true) (hfuel : k - l ≤ fuel)
    (hq : ∀ j, l ≤ j → j < k → f j = true → ∃ v, m j = some v ∧ spawn v = []) :
    ∃ fuel', fuel ≤ fuel' + (k - l) ∧ destroyLoopS S bases spawn moves d fuel (some l) (putMem p d b (Slots.mk n m)) =
      destroyLoopS S bases spawn moves d fuel' (some k) (putMem p d b (Slots.mk n (fun j => if l ≤ j ∧ j < k ∧ f j = true then none else m j))) := by
  induction fuel generalizing l m with
  | zero =>
    obtain rfl : l = k := by omega
    refine ⟨0, by omega, ?_⟩
    rfl
  | succ fuel ih =>
    by_cases hlk : l = k
    · subst hlk
      refine ⟨fuel + 1, by omega, ?_⟩
      congr 3
      funext j
      rw [if_neg (by omega)]
    · obtain ⟨v, hv, hs⟩ := hq l (Nat.le_refl _) (by omega) hfl
      rw [destroyLoopS_step hd (by omega) hv hs]
      obtain ⟨r, e, h1, h2⟩ := Has.findNext ho (show l < n by omega)
      simp only [e, ok_bind]
      cases r with
      | none => exact absurd (h2 rfl k (by omega) hk) (by rw [hfk]; simp)
      | some l' =>
        obtain ⟨a1, a2, a3, a4⟩ := h1 l' rfl
        have hlk' : l' ≤ k := by
          rcases Nat.lt_or_ge k l' with hlt | hge
          · exact absurd (a4 k (by omega) hlt) (by rw [hfk]; simp)
          · exact hge
        obtain ⟨fuel', g1, g2⟩ := ih hlk' a3 (by omega) (m := Slots.upd m l none) (by
          intro j j1 j2 j3
          obtain ⟨w, w1, w2⟩ := hq j (by omega) j2 j3
          exact ⟨w, by simp [Slots.upd, show j ≠ l by omega, w1], w2⟩)
        refine ⟨fuel', by omega, ?_⟩
        rw [g2]
        congr 3
        funext j
        by_cases hj : j = l
        · subst hj
          rw [if_neg (by omega), if_pos ⟨Nat.le_refl _, by omega, hfl⟩]
          simp [Slots.upd]
        · simp only [Slots.upd, hj, if_false]
          by_cases hj' : l' ≤ j
          · have : l ≤ j := by omega
            simp [hj', this]
          · rw [if_neg (by omega)]
            by_cases hb : l ≤ j ∧ j < k ∧ f j = true
            · have := a4 j (by omega) (by omega)
              rw [this] at hb
              exact absurd hb.2.2 (by simp)
            · rw [if_neg hb]

/-- The loop from position `l` to the end of the block. -/
theorem destroyLoopS_end {p : Pool α} {d : Nat} {b : Block α} {n : Nat} {f : Nat → Bool} (ho : Has b.occupiedEntries n f) (hd : d < p.blocks.length)
    (fuel : Nat) {l : Nat} {m : Nat → Option α} (hl : l < n) (hfl : f l = true) (hfuel : n - l < fuel)
    (hq : ∀ j, l ≤ j → j < n → f j = true → ∃ v, m j = some v ∧ spawn v = []) :
    destroyLoopS S bases spawn moves d fuel (some l) (putMem p d b (Slots.mk n m)) =
      .ok (putMem p d b (Slots.mk n (fun j => if l ≤ j ∧ f j = true then none else m j))) := by
  induction fuel generalizing l m with
  | zero => omega
  | succ fuel ih =>
    obtain ⟨v, hv, hs⟩ := hq l (Nat.le_refl _) (by omega) hfl
    rw [destroyLoopS_step hd (by omega) hv hs]
    obtain ⟨r, e, h1, h2⟩ := Has.findNext ho hl
    simp only [e, ok_bind]
    cases r with
    | none =>
      cases fuel with
      | zero => omega
      | succ fu =>
        simp only [destroyLoopS]
        congr 2
        apply Slots.mk_congr
        intro j hj
        by_cases hji : j = l
        · simp [Slots.upd, hji, hfl]
        · simp only [Slots.upd, hji, if_false]
          rw [if_neg]
          rintro ⟨c1, c2⟩
          rw [h2 rfl j (by omega) hj] at c2
          exact absurd c2 (by simp)
    | some l' =>
      obtain ⟨a1, a2, a3, a4⟩ := h1 l' rfl
      rw [ih a2 a3 (by omega) (m := Slots.upd m l none) (by
        intro j j1 j2 j3
        obtain ⟨w, w1, w2⟩ := hq j (by omega) j2 j3
        exact ⟨w, by simp [Slots.upd, show j ≠ l by omega, w1], w2⟩)]
      congr 2
      apply Slots.mk_congr
      intro j hj
      by_cases hji : j = l
      · subst hji
        simp [Slots.upd, hfl]
      · simp only [Slots.upd, hji, if_false]
        by_cases hq : l' ≤ j
        · have : l ≤ j := by omega
          simp [hq, this]
        · have hc : ¬ (l ≤ j ∧ f j = true) := by
            rintro ⟨c1, c2⟩
            rw [a4 j (by omega) (by omega)] at c2
            exact absurd c2 (by simp)
          simp [hq, hc]

/-- The loop after position `k`. -/
theorem destroyLoopS_after {p : Pool α} {d : Nat} {b : Block α} {n : Nat} {f : Nat → Bool} (ho : Has b.occupiedEntries n f) (hd : d < p.blocks.length)
    (fuel : Nat) {k : Nat} {m : Nat → Option α} (hk : k < n) (hfuel : n - k ≤ fuel)
    (hq : ∀ j, k < j → j < n → f j = true → ∃ v, m j = some v ∧ spawn v = []) :
    (do
      let next ← Bitset.findNext b.occupiedEntries k
      destroyLoopS S bases spawn moves d fuel next (putMem p d b (Slots.mk n m))) =
      .ok (putMem p d b (Slots.mk n (fun j => if k < j ∧ f j = true then none else m j))) := by
  obtain ⟨r, e, h1, h2⟩ := Has.findNext ho hk
  simp only [e, ok_bind]
  cases r with
  | none =>
    obtain ⟨fu, rfl⟩ : ∃ fu, fuel = fu + 1 := ⟨fuel - 1, by omega⟩
    simp only [destroyLoopS]
    congr 2
    apply Slots.mk_congr
    intro j hj
    rw [if_neg]
    rintro ⟨c1, c2⟩
    rw [h2 rfl j (by omega) hj] at c2
    exact absurd c2 (by simp)
  | some l =>
    obtain ⟨a1, a2, a3, a4⟩ := h1 l rfl
    rw [destroyLoopS_end ho hd fuel a2 a3 (by omega) (fun j j1 j2 j3 => hq j (by omega) j2 j3)]
    congr 2
    apply Slots.mk_congr
    intro j hj
    by_cases hlj : l ≤ j
    · simp [hlj, show k < j by omega]
    · have hc : ¬ (k < j ∧ f j = true) := by
        rintro ⟨c1, c2⟩
        rw [a4 j (by omega) (by omega)] at c2
        exact absurd c2 (by simp)
      simp [hlj, hc]

/-- No object of the block allocates anything, and no entry is without object. -/
def QuietBlock (spawn : α → List α) (n : Nat) (g : Nat → Option (Option α)) : Prop := ∀ j, j < n → g j ≠ some none ∧ ∀ v, g j = some (some v) → spawn v = []

/-- The end of the body of `Reset` for one block. -/
theorem closeBlock {p : Pool α} {d : Nat} {b : Block α} {n : Nat} {f g : Nat → Bool} (h2 : 2 ≤ n) (hd : d < p.blocks.length) (m : Slots α)
    (hf : Has b.freeEntries n f) (ho : Has b.occupiedEntries n g) :
    ∃ c : Block α, (do
      let b' ← rd (putMem p d b m).blocks d
      let free ← Bitset.reset b'.freeEntries 1
      let occupied ← Bitset.reset b'.occupiedEntries 0
      let blocks ← wr (putMem p d b m).blocks d ⟨0, b'.base, b'.memory, free, occupied⟩
      pure (⟨(putMem p d b m).blockSize, blocks⟩ : Pool α)) = .ok ⟨p.blockSize, p.blocks.set d c⟩ ∧ c.count = 0 ∧ c.memory = m ∧
      Has c.freeEntries n (fun j => if j = 1 then false else f j) ∧ Has c.occupiedEntries n (fun j => if j = 0 then false else g j) := by
  obtain ⟨fr, efr, hfr⟩ := Has.set hf (show 1 < n by omega) false
  obtain ⟨oc, eoc, hoc⟩ := Has.set ho (show 0 < n by omega) false
  refine ⟨⟨0, b.base, m, fr, oc⟩, ?_, rfl, rfl, hfr, hoc⟩
  simp only [putMem_rd b m hd, ok_bind, Bitset.reset, efr, eoc, wr_ok (show d < (putMem p d b m).blocks.length by rw [putMem_length]; exact hd), pure_ok]
  simp [putMem]

theorem BRepr.first {n base : Nat} {b : Block α} {g : Nat → Option (Option α)} (h : BRepr n base b g) {k : Nat} (hk : k < n) (hg : (g k).isSome = true) :
    b.count ≠ 0 ∧ ∃ l, Bitset.findFirst b.occupiedEntries = .ok (some l) ∧ l ≤ k ∧ (g l).isSome = true ∧ ∀ j, j < l → (g j).isSome = false := by
  refine ⟨?_, ?_⟩
  · intro hc
    have := countP_none.mp (h.count.symm.trans hc) k hk
    rw [hg] at this; cases this
  · obtain ⟨r, e, h1, h2⟩ := Has.findFirst h.occupied
    cases r with
    | none => have := h2 rfl k hk; rw [hg] at this; cases this
    | some l =>
      obtain ⟨a1, a2, a3⟩ := h1 l rfl
      refine ⟨l, e, ?_, a2, a3⟩
      rcases Nat.lt_or_ge k l with hlt | hge
      · have := a3 k hlt; rw [hg] at this; cases this
      · exact hge

/-- `Reset` of one block whose objects allocate nothing. -/
theorem resetBlockS_quiet {p : Pool α} {d n base : Nat} {b : Block α} {g : Nat → Option (Option α)} (h2 : 2 ≤ n) (hb : p.blocks[d]? = some b) (h : BRepr n base b g)
    (hq : QuietBlock spawn n g) :
    ∃ c : Block α, resetBlockS S bases spawn moves d p = .ok ⟨p.blockSize, p.blocks.set d c⟩ ∧ c.count = 0 ∧ c.memory = Slots.mk n (fun _ => none) ∧
      ∃ f, Has c.freeEntries n f ∧ ((∀ j, j < n → (g j).isSome = true) → ∀ j, f j = true → n ≤ j) ∧ ∃ f', Has c.occupiedEntries n f' := by
  obtain ⟨hd, hbe⟩ := List.getElem?_eq_some_iff.mp hb
  have hrd : rd p.blocks d = .ok b := by rw [rd_ok hd, hbe]
  by_cases hc : b.count = 0
  · have hdead : ∀ j, j < n → (g j).isSome = false := countP_none.mp (h.count.symm.trans hc)
    refine ⟨b, ?_, hc, ?_, _, h.free, ?_, _, h.occupied⟩
    · simp only [resetBlockS, hrd, ok_bind, hc, if_true, pure_ok]
      subst hbe
      rw [List.set_getElem_self hd]
    · rw [h.memory]
      apply Slots.mk_congr
      intro j hj
      have := hdead j hj
      cases hh : g j <;> simp_all
    · intro hall
      have := hall 0 (by omega)
      rw [hdead 0 (by omega)] at this
      cases this
  · obtain ⟨k, hk, hg⟩ : ∃ k, k < n ∧ (g k).isSome = true := by
      by_contra hn
      apply hc
      rw [h.count]
      apply countP_none.mpr
      intro i hi
      cases hh : (g i).isSome
      · rfl
      · exact absurd ⟨i, hi, hh⟩ hn
    obtain ⟨_, l, e, hl, hgl, hbefore⟩ := h.first hk hg
    have hend := destroyLoopS_end (S := S) (bases := bases) (spawn := spawn) (moves := moves) (p := p) h.occupied hd (n + 1) (l := l) (m := fun j => (g j).join)
      (by omega) hgl (by omega) (by
        intro j _ j2 j3
        cases hh : g j with
        | none => simp [hh] at j3
        | some x =>
          cases x with
          | none => exact absurd hh (hq j j2).1
          | some v => exact ⟨v, rfl, (hq j j2).2 v hh⟩)
    rw [← h.memory, putMem_self hb] at hend
    obtain ⟨c, ec, c1, c2, c3, c4⟩ := closeBlock h2 hd (Slots.mk n (fun j => if l ≤ j ∧ (g j).isSome = true then none else (g j).join)) h.free h.occupied
    refine ⟨c, ?_, c1, ?_, _, c3, ?_, _, c4⟩
    · simp only [resetBlockS, hrd, ok_bind, hc, if_false, e, h.occupied.size, hend]
      exact ec
    · rw [c2]
      apply Slots.mk_congr
      intro j hj
      split
      · rfl
      · rename_i hn
        cases hh : g j with
        | none => rfl
        | some x =>
          exfalso
          apply hn
          refine ⟨?_, by rw [hh]; rfl⟩
          rcases Nat.lt_or_ge j l with hlt | hge
          · have := hbefore j hlt
            rw [hh] at this; cases this
          · exact hge
    · intro hall j hj
      rcases Nat.lt_or_ge j n with hlt | hge
      · have := hall j hlt
        split at hj
        · cases hj
        · simp only [Option.isNone_iff_eq_none] at hj
          rw [hj] at this; cases this
      · exact hge

/-- The loop of `Reset` over `c` blocks whose objects allocate nothing. -/
theorem resetLoopS_quiet {n : Nat} (h2 : 2 ≤ n) (c : Nat) {p : Pool α} {d fuel : Nat} (hlen : d + c ≤ p.blocks.length)
    (h : ∀ k, d ≤ k → k < d + c → ∃ b base g, p.blocks[k]? = some b ∧ BRepr n base b g ∧ QuietBlock spawn n g) :
    ∃ q, resetLoopS S bases spawn moves (fuel + c) d p = resetLoopS S bases spawn moves fuel (d + c) q ∧ q.blockSize = p.blockSize ∧ q.blocks.length = p.blocks.length ∧
      (∀ k, k < d ∨ d + c ≤ k → q.blocks[k]? = p.blocks[k]?) ∧
      (∀ k, d ≤ k → k < d + c → ∃ b, q.blocks[k]? = some b ∧ b.count = 0 ∧ b.memory = Slots.mk n (fun _ => none) ∧
        ∃ f, Has b.freeEntries n f ∧ (∀ b0 base g, p.blocks[k]? = some b0 → BRepr n base b0 g → (∀ j, j < n → (g j).isSome = true) → ∀ j, f j = true → n ≤ j) ∧
          ∃ f', Has b.occupiedEntries n f') := by
  induction c generalizing p d with
  | zero => exact ⟨p, rfl, rfl, rfl, fun k _ => rfl, fun k h1 h2 => by omega⟩
  | succ c ih =>
    obtain ⟨b, base, g, hb, hr, hq⟩ := h d (Nat.le_refl _) (by omega)
    obtain ⟨b', eb, c1, c2, f, hf, c3, f', hf'⟩ := resetBlockS_quiet (S := S) (bases := bases) (moves := moves) h2 hb hr hq
    have hd : d < p.blocks.length := by omega
    obtain ⟨q, e, q1, q2, q3, q4⟩ := ih (p := ⟨p.blockSize, p.blocks.set d b'⟩) (d := d + 1) (by simp; omega) (by
      intro k k1 k2
      obtain ⟨x, y, z, hx, hy, hz⟩ := h k (by omega) (by omega)
      exact ⟨x, y, z, by simp only [List.getElem?_set]; rw [if_neg (by omega)]; exact hx, hy, hz⟩)
    refine ⟨q, ?_, q1, by simpa using q2, ?_, ?_⟩
    · rw [show fuel + (c + 1) = (fuel + c) + 1 by omega]
      simp only [resetLoopS, hd, if_true, eb, ok_bind, e]
      rw [show d + 1 + c = d + (c + 1) by omega]
    · intro k hk
      rw [q3 k (by omega)]
      simp only [List.getElem?_set]
      rw [if_neg (by omega)]
    · intro k k1 k2
      by_cases hkd : k = d
      · subst hkd
        refine ⟨b', ?_, c1, c2, f, hf, ?_, f', hf'⟩
        · rw [q3 k (by omega)]; simp [hd]
        · intro b0 base0 g0 hb0 hr0 hall j hj
          rw [hb] at hb0
          cases hb0
          refine c3 ?_ j hj
          intro i hi
          have := (hr.occupied.bits i).symm.trans (hr0.occupied.bits i)
          simp only [hi, decide_true, Bool.true_and] at this
          rw [this]; exact hall i hi
      · obtain ⟨x, hx, x1, x2, fx, x3, x4, x5⟩ := q4 k (by omega) (by omega)
        refine ⟨x, hx, x1, x2, fx, x3, ?_, x5⟩
        intro b0 base0 g0 hb0
        refine x4 b0 base0 g0 ?_
        simp only [List.getElem?_set]
        rw [if_neg (by omega)]
        exact hb0

/-- `Reset` of the block of the object that allocates: the objects before it are destroyed, then it. -/
theorem resetBlockS_spawner {p : Pool α} {d n base kl : Nat} {b : Block α} {g : Nat → Option (Option α)} {v w : α} (hb : p.blocks[d]? = some b) (h : BRepr n base b g)
    (hk : kl < n) (hv : g kl = some (some v)) (hs : spawn v = [w]) (hq : ∀ j, j < n → j ≠ kl → g j ≠ some none ∧ ∀ u, g j = some (some u) → spawn u = []) :
    ∃ fuel, n - kl ≤ fuel ∧ resetBlockS S bases spawn moves d p = (do
      let r ← allocate S (bases p.blocks.length) (some w) (putMem p d b (Slots.mk n (fun j => if j ≤ kl then none else (g j).join)))
      guardUB (r.1.blocks.length == p.blocks.length || !moves p.blocks.length r.1.blocks.length)
      let b ← rd r.1.blocks d
      let next ← Bitset.findNext b.occupiedEntries kl
      let p ← destroyLoopS S bases spawn moves d fuel next r.1
      let b ← rd p.blocks d
      let free ← Bitset.reset b.freeEntries 1
      let occupied ← Bitset.reset b.occupiedEntries 0
      let blocks ← wr p.blocks d ⟨0, b.base, b.memory, free, occupied⟩
      pure ⟨p.blockSize, blocks⟩) := by
  obtain ⟨hd, hbe⟩ := List.getElem?_eq_some_iff.mp hb
  have hrd : rd p.blocks d = .ok b := by rw [rd_ok hd, hbe]
  have hgk : (g kl).isSome = true := by rw [hv]; rfl
  obtain ⟨hc, l, e, hl, hgl, hbefore⟩ := h.first hk hgk
  obtain ⟨fuel', g1, g2⟩ := destroyLoopS_until (S := S) (bases := bases) (spawn := spawn) (moves := moves) (p := p) h.occupied hd hk hgk (n + 1) (l := l)
    (m := fun j => (g j).join) hl hgl (by omega) (by
      intro j _ j2 j3
      cases hh : g j with
      | none => simp [hh] at j3
      | some x =>
        cases x with
        | none => exact absurd hh (hq j (by omega) (by omega)).1
        | some u => exact ⟨u, rfl, (hq j (by omega) (by omega)).2 u hh⟩)
  rw [← h.memory, putMem_self hb] at g2
  obtain ⟨fu, rfl⟩ : ∃ fu, fuel' = fu + 1 := ⟨fuel' - 1, by omega⟩
  refine ⟨fu, by omega, ?_⟩
  obtain ⟨M, hM⟩ : ∃ M : Nat → Option α, M = fun j => if l ≤ j ∧ j < kl ∧ (g j).isSome = true then none else (g j).join := ⟨_, rfl⟩
  have hm : M kl = some v := by
    simp [hM, hv]
  rw [← hM] at g2
  have hstep : destroyLoopS S bases spawn moves d (fu + 1) (some kl) (putMem p d b (Slots.mk n M)) = (do
      let r ← allocate S (bases p.blocks.length) (some w) (putMem p d b (Slots.mk n (Slots.upd M kl none)))
      guardUB (r.1.blocks.length == p.blocks.length || !moves p.blocks.length r.1.blocks.length)
      let b ← rd r.1.blocks d
      let next ← Bitset.findNext b.occupiedEntries kl
      destroyLoopS S bases spawn moves d fu next r.1) := by
    simp only [destroyLoopS, putMem_rd b _ hd, ok_bind, Slots.read_mk hk hm, putMem_destroy b hd hk hm, hs, spawnAll, List.foldlM_cons, List.foldlM_nil, putMem_length,
      bind_assoc, pure_bind]
  simp only [resetBlockS, hrd, ok_bind, hc, if_false, e, h.occupied.size, g2, hstep, bind_assoc]
  subst hM
  have hmem : Slots.mk n (Slots.upd (fun j => if l ≤ j ∧ j < kl ∧ (g j).isSome = true then none else (g j).join) kl none) =
      Slots.mk n (fun j => if j ≤ kl then none else (g j).join) := by
    apply Slots.mk_congr
    intro j hj
    simp only [Slots.upd]
    by_cases hjk : j = kl
    · simp [hjk]
    · rw [if_neg hjk]
      by_cases hlt : j ≤ kl
      · rw [if_pos hlt]
        split
        · rfl
        · rename_i hn
          cases hh : g j with
          | none => rfl
          | some x =>
            exfalso
            apply hn
            refine ⟨?_, by omega, by rw [hh]; rfl⟩
            rcases Nat.lt_or_ge j l with hlt | hge
            · have := hbefore j hlt
              rw [hh] at this; cases this
            · exact hge
      · rw [if_neg hlt, if_neg (by omega)]
  rw [hmem]

/-! ### The outcome -/

theorem sum_first {n : Nat} {l : List (Block α)} {c : Block α} (h0 : l[0]? = some c) (h : ∀ k b, 0 < k → l[k]? = some b → b.memory = Slots.mk n (fun _ => none)) :
    (l.map (fun b => b.memory.alive)).sum = c.memory.alive := by
  cases l with
  | nil => cases h0
  | cons x l =>
    simp only [List.getElem?_cons_zero, Option.some.injEq] at h0
    subst h0
    rw [List.map_cons, List.sum_cons, sum_zero, Nat.add_zero]
    intro y hy
    obtain ⟨b, hb, rfl⟩ := List.mem_map.mp hy
    obtain ⟨k, hk⟩ := List.mem_iff_getElem?.mp hb
    rw [h (k + 1) b (by omega) (by simpa using hk)]
    exact alive_raw n

theorem alive_one {n i : Nat} (hi : i < n) (w : α) : Slots.alive (Slots.mk n (Slots.upd (fun _ => none) i (some w))) = 1 := by
  have := countP_upd (n := n) (k := i) hi (p := fun _ => false) (q := fun j => decide (j = i)) rfl (by simp) (by intro j hj; simp [hj])
  simp only [Slots.alive, Slots.mk, List.countP_map]
  rw [show (Option.isSome ∘ Slots.upd (fun _ => none) i (some w)) = fun j => decide (j = i) from by
    funext j; by_cases hj : j = i <;> simp [Slots.upd, hj], this]
  simp

theorem firstFree_congr {bs : Nat} {a b : Abs α} (h : ∀ i, a.isLive i = b.isLive i) (hb : a.bases = b.bases) : a.firstFree bs = b.firstFree bs := by
  have : a.isLive = b.isLive := funext h
  simp only [Abs.firstFree, Abs.capacity, this, hb]

/-- The rest of the blocks. -/
theorem finish_rest {n : Nat} (h2 : 2 ≤ n) {p : Pool α} {d fuel : Nat} (hd : d ≤ p.blocks.length) (hfuel : p.blocks.length < fuel + d)
    (h : ∀ k, d ≤ k → k < p.blocks.length → ∃ b base g, p.blocks[k]? = some b ∧ BRepr n base b g ∧ QuietBlock spawn n g) :
    ∃ q, resetLoopS S bases spawn moves fuel d p = .ok q ∧ q.blocks.length = p.blocks.length ∧ (∀ k, k < d → q.blocks[k]? = p.blocks[k]?) ∧
      ∀ k b, d ≤ k → q.blocks[k]? = some b → b.memory = Slots.mk n (fun _ => none) := by
  obtain ⟨fu, rfl⟩ : ∃ fu, fuel = (fu + 1) + (p.blocks.length - d) := ⟨fuel - 1 - (p.blocks.length - d), by omega⟩
  obtain ⟨q, e, q1, q2, q3, q4⟩ := resetLoopS_quiet (S := S) (bases := bases) (moves := moves) h2 (p.blocks.length - d) (p := p) (d := d) (fuel := fu + 1) (by omega) (by
    intro k k1 k2
    exact h k k1 (by omega))
  refine ⟨q, ?_, q2, fun k hk => q3 k (by omega), ?_⟩
  · rw [e]
    simp only [resetLoopS]
    rw [if_neg (by omega)]
  · intro k b hk hb
    have hlt : k < q.blocks.length := (List.getElem?_eq_some_iff.mp hb).1
    obtain ⟨b', hb', _, hm, _⟩ := q4 k hk (by omega)
    rw [hb] at hb'
    cases hb'
    exact hm

theorem OneSpawns.quiet {a : Abs α} {k : Nat} {v w : α} (h : OneSpawns spawn a k v w) (hobj : ∀ i, a.entries i ≠ some none) {bs d : Nat} (hd : ∀ j, j < bs → d * bs + j ≠ k) :
    QuietBlock spawn bs (fun j => a.entries (d * bs + j)) :=
  fun j hj => ⟨hobj _, fun u hu => h.others _ u (hd j hj) hu⟩

/-- The object that allocates is in the first block. -/
theorem outcome_first {bs k : Nat} {p : Pool α} {a : Abs α} {v w : α} (h : Repr bs S p a) (h2 : 2 ≤ bs) (hobj : ∀ i, a.entries i ≠ some none)
    (hs : OneSpawns spawn a k v w) (hk : k < bs) (hb : ∀ b ∈ a.bases, Abs.Apart bs S (bases a.bases.length) b) {fuel : Nat} (hfuel : a.bases.length + 1 < fuel) :
    destructorS S bases spawn moves fuel p =
      if a.firstFree bs = a.capacity bs ∧ moves a.bases.length (a.bases.length + 1) = true then .error .ub
      else .ok (if a.firstFree bs < k then 1 else 0) := by
  have hbs : 0 < bs := by omega
  have hlivek : a.isLive k = true := by simp [Abs.isLive, hs.object]
  have hpos : 0 < p.blocks.length := by
    rw [h.len]
    have := h.bound k hlivek
    simp only [Abs.capacity] at this
    rcases Nat.eq_zero_or_pos a.bases.length with h0 | h0
    · rw [h0, Nat.zero_mul] at this; omega
    · exact h0
  obtain ⟨b, base, g1, g2, g3, g4⟩ := h.get hpos
  simp only [Nat.zero_mul, Nat.zero_add] at g4
  obtain ⟨fu, hfu, e⟩ := resetBlockS_spawner (S := S) (bases := bases) (moves := moves) g1 g4 hk hs.object hs.spawns (fun j _ hne => ⟨hobj j, fun u hu => hs.others j u hne hu⟩)
  -- the state when the object is allocated
  obtain ⟨a1, ha1⟩ : ∃ a1 : Abs α, a1 = ⟨fun i => if i ≤ k ∧ a.isLive i = true then some none else a.entries i, a.bases⟩ := ⟨_, rfl⟩
  have hlive1 : ∀ i, a1.isLive i = a.isLive i := by
    intro i
    have he : a1.entries i = if i ≤ k ∧ a.isLive i = true then some none else a.entries i := by rw [ha1]
    show (a1.entries i).isSome = _
    rw [he]
    by_cases hc : i ≤ k ∧ a.isLive i = true
    · rw [if_pos hc, hc.2]; rfl
    · rw [if_neg hc]; rfl
  have r1 : Repr bs S (putMem p 0 b (Slots.mk bs (fun j => if j ≤ k then none else (a.entries j).join))) a1 := by
    refine ⟨h.size, by rw [putMem_length, h.len, ha1], ?_, ?_, ?_⟩
    · intro d c base' e1 e2
      rw [ha1] at e2
      simp only [putMem, List.getElem?_set] at e1
      by_cases hd : 0 = d
      · subst hd
        rw [if_pos rfl, if_pos hpos] at e1
        cases e1
        rw [g3] at e2
        cases e2
        have hsome : ∀ j, (a1.entries j).isSome = (a.entries j).isSome := hlive1
        have hnone : ∀ j, (a1.entries j).isNone = (a.entries j).isNone := by
          intro j
          have := hsome j
          cases h1 : a1.entries j <;> cases h2 : a.entries j <;> rw [h1, h2] at this <;> first | rfl | cases this
        simp only [Nat.zero_mul, Nat.zero_add]
        refine ⟨g4.base, ?_, ?_, g4.free.congr (fun j _ => (hnone j).symm), g4.occupied.congr (fun j _ => (hsome j).symm)⟩
        · rw [g4.count]; exact countP_range_congr (fun j _ => (hsome j).symm)
        · apply Slots.mk_congr
          intro j hj
          rw [ha1]
          by_cases hjk : j ≤ k
          · cases hl : a.isLive j
            · simp [hjk, hl, isLive_false hl]
            · simp [hjk, hl]
          · simp [hjk]
      · rw [if_neg hd] at e1
        refine (h.block d c base' e1 e2).congr ?_
        intro j hj
        have : bs ≤ d * bs := Nat.le_mul_of_pos_left bs (by omega)
        rw [ha1]
        simp only
        rw [if_neg (by omega)]
    · intro i hi
      rw [hlive1] at hi
      have := h.bound i hi
      simpa [Abs.capacity, ha1] using this
    · rw [ha1]; exact h.apart
  have hff : a1.firstFree bs = a.firstFree bs := firstFree_congr hlive1 (by rw [ha1])
  have hlen1 : a1.bases = a.bases := by rw [ha1]
  obtain ⟨q, eq, r2⟩ := allocate_repr r1 hbs (base := bases p.blocks.length) (by rw [hlen1, h.len]; exact hb) w
  rw [hff] at eq r2
  have hfree : a.isLive (a.firstFree bs) = false := firstFree_free h hbs
  have hfk : a.firstFree bs ≠ k := by intro e; rw [e, hlivek] at hfree; cases hfree
  rw [eq] at e
  simp only [ok_bind] at e
  have hcap : a1.capacity bs = a.capacity bs := by simp [Abs.capacity, hlen1]
  have hql : q.blocks.length = if a.firstFree bs = a.capacity bs then a.bases.length + 1 else a.bases.length := by
    rw [r2.len]
    simp only [Abs.set, Abs.grow, hff, hcap]
    split <;> simp [hlen1]
  obtain ⟨fuel', rfl⟩ : ∃ fuel', fuel = fuel' + 1 := ⟨fuel - 1, by omega⟩
  by_cases hub : a.firstFree bs = a.capacity bs ∧ moves a.bases.length (a.bases.length + 1) = true
  · rw [if_pos hub]
    have : (q.blocks.length == p.blocks.length || !moves p.blocks.length q.blocks.length) = false := by
      rw [hql, if_pos hub.1, h.len, hub.2]; simp
    simp only [this, guardUB_false, err_bind] at e
    simp only [destructorS, resetLoopS, hpos, if_true, e, err_bind]
  · rw [if_neg hub]
    have hg : (q.blocks.length == p.blocks.length || !moves p.blocks.length q.blocks.length) = true := by
      rw [hql, h.len]
      by_cases hc : a.firstFree bs = a.capacity bs
      · rw [if_pos hc]
        have : moves a.bases.length (a.bases.length + 1) = false := by
          cases hm : moves a.bases.length (a.bases.length + 1)
          · rfl
          · exact absurd ⟨hc, hm⟩ hub
        simp [this]
      · rw [if_neg hc]; simp
    have hq0 : 0 < q.blocks.length := by rw [hql]; rw [h.len] at hpos; split <;> omega
    obtain ⟨b2, base2, k1, k2, k3, k4⟩ := r2.get hq0
    simp only [Nat.zero_mul, Nat.zero_add] at k4
    -- the entries now
    have hent : ∀ i, ((a1.grow bs (bases p.blocks.length)).set (a.firstFree bs) (some (some w))).entries i =
        if i = a.firstFree bs then some (some w) else if i ≤ k ∧ a.isLive i = true then some none else a.entries i := by
      intro i
      simp only [Abs.set, Abs.grow]
      by_cases hi : i = a.firstFree bs
      · simp [hi]
      · rw [if_neg hi, if_neg hi]
        split <;> rw [ha1]
    obtain ⟨g, hgdef⟩ : ∃ g : Nat → Option (Option α), g = ((a1.grow bs (bases p.blocks.length)).set (a.firstFree bs) (some (some w))).entries := ⟨_, rfl⟩
    rw [← hgdef] at hent
    have k4 : BRepr bs base2 b2 g := by rw [hgdef]; exact k4
    have hquiet : ∀ i, k < i → g i ≠ some none ∧ ∀ u, g i = some (some u) → spawn u = [] := by
      intro i hi
      rw [hent]
      by_cases hif : i = a.firstFree bs
      · rw [if_pos hif]
        refine ⟨by simp, ?_⟩
        intro u hu
        cases hu
        exact hs.child
      · rw [if_neg hif, if_neg (by omega)]
        exact ⟨hobj i, fun u hu => hs.others i u (by omega) hu⟩
    have haft := destroyLoopS_after (S := S) (bases := bases) (spawn := spawn) (moves := moves) (p := q) k4.occupied hq0 fu (k := k) (m := fun j => (g j).join) hk hfu (by
      intro j j1 j2 j3
      cases hh : g j with
      | none => simp [hh] at j3
      | some x =>
        cases x with
        | none => exact absurd hh (hquiet j j1).1
        | some u => exact ⟨u, rfl, (hquiet j j1).2 u hh⟩)
    rw [← k4.memory, putMem_self k1] at haft
    obtain ⟨c, ec, c1, c2, c3, c4⟩ := closeBlock h2 hq0 (Slots.mk bs (fun j => if k < j ∧ (g j).isSome = true then none else (g j).join)) k4.free k4.occupied
    have he : resetBlockS S bases spawn moves 0 p = .ok ⟨q.blockSize, q.blocks.set 0 c⟩ := by
      rw [e]
      simp only [hg, guardUB_true, ok_bind, k2]
      rw [← bind_assoc, haft]
      exact ec
    obtain ⟨z, ez, z1, z2, z3⟩ := finish_rest (S := S) (bases := bases) (spawn := spawn) (moves := moves) h2 (p := ⟨q.blockSize, q.blocks.set 0 c⟩) (d := 1) (fuel := fuel')
      (by rw [List.length_set]; exact hq0) (by simp only [List.length_set, hql]; split <;> omega) (by
        intro d d1 d2
        simp only [List.length_set] at d2
        obtain ⟨x, y, x1, x2, x3, x4⟩ := r2.get d2
        refine ⟨x, y, _, by simp only [List.getElem?_set]; rw [if_neg (by omega)]; exact x1, x4, ?_⟩
        intro j hj
        have : bs ≤ d * bs := Nat.le_mul_of_pos_left bs (by omega)
        rw [← hgdef]
        exact hquiet (d * bs + j) (by omega))
    have hz0 : z.blocks[0]? = some c := by
      rw [z2 0 (by omega)]
      simp [hq0]
    have hsum := sum_first hz0 (fun d b hd hb => z3 d b (by omega) hb)
    have hmem : Slots.mk bs (fun j => if k < j ∧ (g j).isSome = true then none else (g j).join) =
        if a.firstFree bs < k then Slots.mk bs (Slots.upd (fun _ => none) (a.firstFree bs) (some w)) else Slots.mk bs (fun _ => none) := by
      have hpt : ∀ j, (if k < j ∧ (g j).isSome = true then none else (g j).join) = if j = a.firstFree bs ∧ j < k then some w else none := by
        intro j
        rw [hent]
        by_cases hjf : j = a.firstFree bs
        · rw [if_pos hjf]
          by_cases hlt : k < j
          · rw [if_pos ⟨hlt, rfl⟩, if_neg (by omega)]
          · rw [if_neg (by omega), if_pos ⟨hjf, by omega⟩]; rfl
        · rw [if_neg hjf, if_neg (fun hc : j = a.firstFree bs ∧ j < k => hjf hc.1)]
          by_cases hjk : j ≤ k
          · rw [if_neg (by omega)]
            cases hl : a.isLive j
            · rw [if_neg (by simp), isLive_false hl]; rfl
            · rw [if_pos ⟨hjk, rfl⟩]; rfl
          · rw [if_neg (fun hc : j ≤ k ∧ a.isLive j = true => hjk hc.1)]
            cases hl : a.entries j with
            | none => simp
            | some x => simp; omega
      by_cases hlt : a.firstFree bs < k
      · rw [if_pos hlt]
        apply Slots.mk_congr
        intro j hj
        rw [hpt]
        by_cases hjf : j = a.firstFree bs
        · rw [if_pos ⟨hjf, by omega⟩]; simp [Slots.upd, hjf]
        · rw [if_neg (fun hc : j = a.firstFree bs ∧ j < k => hjf hc.1)]; simp [Slots.upd, hjf]
      · rw [if_neg hlt]
        apply Slots.mk_congr
        intro j hj
        rw [hpt, if_neg (by omega)]
    simp only [destructorS, resetLoopS, hpos, if_true, he, ok_bind, Nat.zero_add, ez, hsum, c2, hmem, pure_ok]
    congr 1
    split
    · rename_i hlt
      exact alive_one (by omega) w
    · exact alive_raw bs

/-- `Allocate` when the first block has been reset: it takes an entry of this block that was free before, or fails if there was none. -/
theorem allocate_stale {bs base : Nat} {p : Pool α} {b0 : Block α} {f f' : Nat → Bool} (hbs : 0 < bs) (hsz : p.blockSize = bs) (h0 : p.blocks[0]? = some b0) (hc : b0.count = 0)
    (hm : b0.memory = Slots.mk bs (fun _ => none)) (hf : Has b0.freeEntries bs f) (ho : Has b0.occupiedEntries bs f') (w : α) :
    allocate S base (some w) p = .error .assert ∨
      ∃ l b1 x, l < bs ∧ f l = true ∧ b1.memory = Slots.mk bs (Slots.upd (fun _ => none) l (some w)) ∧ allocate S base (some w) p = .ok (⟨bs, p.blocks.set 0 b1⟩, l, x, false) := by
  obtain ⟨hpos, hbe⟩ := List.getElem?_eq_some_iff.mp h0
  have hrd : rd p.blocks 0 = .ok b0 := by rw [rd_ok hpos, hbe]
  have hfind : findUp 0 p.blocks.length (fun i => do
      let b ← rd p.blocks i
      pure (b.count != p.blockSize)) = .ok (some 0) := by
    obtain ⟨n, hn⟩ : ∃ n, p.blocks.length = n + 1 := ⟨p.blocks.length - 1, by omega⟩
    have : (b0.count != p.blockSize) = true := by rw [hc, hsz]; simp; omega
    rw [hn]
    simp only [findUp, hrd, ok_bind, pure_ok, this]
  obtain ⟨r, er, r1, r2⟩ := Has.findFirst hf
  cases r with
  | none =>
    left
    simp only [allocate, allocateDefer, chooseEntry, findFree, hfind, ok_bind, hrd, er, err_bind]
  | some l =>
    right
    obtain ⟨a1, a2, a3⟩ := r1 l rfl
    obtain ⟨fr, efr, hfr⟩ := Has.set hf a1 false
    obtain ⟨oc, eoc, hoc⟩ := Has.set ho a1 true
    refine ⟨l, ⟨1, b0.base, Slots.mk bs (Slots.upd (fun _ => none) l (some w)), fr, oc⟩, b0.base + l * S, a1, a2, rfl, ?_⟩
    have hset : rd (p.blocks.set 0 (⟨1, b0.base, Slots.mk bs (fun _ => none), fr, oc⟩ : Block α)) 0 = .ok ⟨1, b0.base, Slots.mk bs (fun _ => none), fr, oc⟩ := by
      simp [rd, hpos]
    have hff : findFree p = .ok (some (0, l)) := by simp only [findFree, hfind, ok_bind, hrd, er]; rfl
    simp only [allocate, allocateDefer, chooseEntry, hff, ok_bind, hrd, pure_ok, Block.take, Bitset.reset, efr, eoc, hc, Nat.zero_add,
      wr_ok hpos, hsz, Nat.zero_mul, Nat.div_eq_of_lt a1, Nat.mod_eq_of_lt a1, onSlot, hset, hm, Slots.create_mk w a1 (f := fun _ => none) rfl,
      wr_ok (show 0 < (p.blocks.set 0 (⟨1, b0.base, Slots.mk bs (fun _ => none), fr, oc⟩ : Block α)).length by simpa using hpos), Block.address]
    simp

/-- The object that allocates is in a later block. -/
theorem outcome_later {bs k : Nat} {p : Pool α} {a : Abs α} {v w : α} (h : Repr bs S p a) (h2 : 2 ≤ bs) (hobj : ∀ i, a.entries i ≠ some none)
    (hs : OneSpawns spawn a k v w) (hk : bs ≤ k) {fuel : Nat} (hfuel : a.bases.length < fuel) :
    destructorS S bases spawn moves fuel p = .error .assert ∨ destructorS S bases spawn moves fuel p = .ok 1 := by
  have hbs : 0 < bs := by omega
  have hlivek : a.isLive k = true := by simp [Abs.isLive, hs.object]
  have hd : k / bs < p.blocks.length := by rw [h.len]; exact div_lt_blocks (h.bound k hlivek)
  have hd0 : 0 < k / bs := Nat.div_pos hk hbs
  have hkl := Nat.mod_lt k hbs
  obtain ⟨d, hdd⟩ : ∃ d, d = k / bs := ⟨_, rfl⟩
  obtain ⟨l, hll⟩ : ∃ l, l = k % bs := ⟨_, rfl⟩
  have hsp : d * bs + l = k := by rw [hdd, hll]; exact index_split bs k
  rw [← hdd] at hd hd0
  rw [← hll] at hkl
  have hquiet : ∀ e, e ≠ d → QuietBlock spawn bs (fun j => a.entries (e * bs + j)) := fun e he => hs.quiet hobj (by
    intro j hj hc
    rw [← hsp] at hc
    exact he (index_inj hj hkl hc).1)
  have hlt := h.len
  obtain ⟨fu, rfl⟩ : ∃ fu, fuel = (fu + 1) + d := ⟨fuel - 1 - d, by omega⟩
  obtain ⟨q, e, q1, q2, q3, q4⟩ := resetLoopS_quiet (S := S) (bases := bases) (spawn := spawn) (moves := moves) h2 d (p := p) (d := 0) (fuel := fu + 1) (by omega) (by
    intro c _ c2
    obtain ⟨x, y, x1, x2, x3, x4⟩ := h.get (show c < p.blocks.length by omega)
    exact ⟨x, y, _, x1, x4, hquiet c (by omega)⟩)
  rw [Nat.zero_add] at e
  obtain ⟨b, base, g1, g2, g3, g4⟩ := h.get hd
  have g1q : q.blocks[d]? = some b := by rw [q3 d (by omega)]; exact g1
  have hdq : d < q.blocks.length := by omega
  obtain ⟨fu', hfu', e'⟩ := resetBlockS_spawner (S := S) (bases := bases) (moves := moves) g1q g4 hkl (by simp only [hsp]; exact hs.object) hs.spawns (by
    intro j hj hne
    exact ⟨hobj _, fun u hu => hs.others _ u (by intro hc; rw [← hsp] at hc; omega) hu⟩)
  obtain ⟨b0, k1, k2, k3, f, k4, _, f', k5⟩ := q4 0 (by omega) (by omega)
  obtain ⟨M, hM⟩ : ∃ M : Nat → Option α, M = fun j => if j ≤ l then none else (a.entries (d * bs + j)).join := ⟨_, rfl⟩
  rw [← hM] at e'
  have hP0 : (putMem q d b (Slots.mk bs M)).blocks[0]? = some b0 := by
    simp only [putMem, List.getElem?_set]
    rw [if_neg (by omega)]; exact k1
  rcases allocate_stale (S := S) (base := bases q.blocks.length) hbs (show (putMem q d b (Slots.mk bs M)).blockSize = bs from q1.trans h.size) hP0 k2 k3 k4 k5 w
    with ea | ⟨l0, b1, x, hl0, hfl0, hb1, ea⟩
  · left
    rw [ea] at e'
    simp only [err_bind] at e'
    simp only [destructorS, e, resetLoopS, hdq, if_true, e', err_bind]
  · right
    obtain ⟨R, hR⟩ : ∃ R : Pool α, R = ⟨bs, q.blocks.set 0 b1⟩ := ⟨_, rfl⟩
    have hRl : R.blocks.length = q.blocks.length := by rw [hR]; simp
    have hPR : (⟨bs, (putMem q d b (Slots.mk bs M)).blocks.set 0 b1⟩ : Pool α) = putMem R d b (Slots.mk bs M) := by
      simp only [putMem, hR, Pool.mk.injEq, true_and]
      exact List.set_comm _ _ (by omega)
    rw [hPR] at ea
    have hdR : d < R.blocks.length := by omega
    have haft := destroyLoopS_after (S := S) (bases := bases) (spawn := spawn) (moves := moves) (p := R) g4.occupied hdR fu' (k := l) (m := M) hkl hfu' (by
      intro j j1 j2 j3
      cases hh : a.entries (d * bs + j) with
      | none => simp [hh] at j3
      | some x =>
        cases x with
        | none => exact absurd hh (hobj _)
        | some u =>
          refine ⟨u, ?_, hs.others _ u (by intro hc; rw [← hsp] at hc; omega) hh⟩
          rw [hM]
          simp only
          rw [if_neg (by omega), hh]; rfl)
    obtain ⟨c, ec, c1, c2, c3, c4⟩ := closeBlock h2 hdR (Slots.mk bs (fun j => if l < j ∧ (a.entries (d * bs + j)).isSome = true then none else M j)) g4.free g4.occupied
    have he : resetBlockS S bases spawn moves d q = .ok ⟨R.blockSize, R.blocks.set d c⟩ := by
      rw [e', ea]
      simp only [ok_bind, putMem_length, hRl, beq_self_eq_true, Bool.true_or, guardUB_true, putMem_rd b _ hdR]
      rw [← bind_assoc, haft]
      exact ec
    obtain ⟨z, ez, z1, z2, z3⟩ := finish_rest (S := S) (bases := bases) (spawn := spawn) (moves := moves) h2 (p := ⟨R.blockSize, R.blocks.set d c⟩) (d := d + 1) (fuel := fu)
      (by rw [List.length_set]; exact hdR) (by simp only [List.length_set]; omega) (by
        intro e e1 e2
        simp only [List.length_set] at e2
        obtain ⟨x, y, x1, x2, x3, x4⟩ := h.get (show e < p.blocks.length by omega)
        refine ⟨x, y, _, ?_, x4, hquiet e (by omega)⟩
        simp only [hR, List.getElem?_set]
        rw [if_neg (by omega), if_neg (by omega), q3 e (by omega)]; exact x1)
    have hz0 : z.blocks[0]? = some b1 := by
      rw [z2 0 (by omega)]
      simp only [hR, List.getElem?_set]
      rw [if_neg (by omega), if_pos trivial, if_pos (by omega)]
    have hraw : Slots.mk bs (fun j => if l < j ∧ (a.entries (d * bs + j)).isSome = true then none else M j) = Slots.mk bs (fun _ => none) := by
      apply Slots.mk_congr
      intro j hj
      rw [hM]
      simp only
      cases hh : a.entries (d * bs + j) with
      | none => simp
      | some x =>
        by_cases hlj : l < j
        · simp [hlj]
        · simp [hlj, show j ≤ l by omega]
    have hsum := sum_first (n := bs) hz0 (by
      intro e b' he hb'
      by_cases hed : d < e
      · exact z3 e b' (by omega) hb'
      · rw [z2 e (by omega)] at hb'
        simp only [hR, List.getElem?_set] at hb'
        by_cases hde : d = e
        · rw [if_pos hde, if_pos (by simp; omega)] at hb'
          cases hb'
          rw [c2, hraw]
        · rw [if_neg hde, if_neg (by omega)] at hb'
          obtain ⟨b'', h1, _, h3, _⟩ := q4 e (by omega) (by omega)
          rw [hb'] at h1
          cases h1
          exact h3)
    simp only [destructorS, e, resetLoopS, hdq, if_true, he, ok_bind, ez, hsum, hb1, alive_one hl0 w, pure_ok]

end Verif.MemoryPool
