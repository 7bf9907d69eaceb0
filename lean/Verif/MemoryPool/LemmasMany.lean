import Verif.MemoryPool.LemmasSpawn
import Verif.MemoryPool.SpecMany
import Verif.MemoryPool.PropsSpawn

/-! # Lemmas on pools whose objects allocate others when they are destroyed -/

namespace Verif.MemoryPool
open Verif.Cpp Verif.Bitset

variable {α : Type} {S : Nat} {bases : Nat → Nat} {spawn : α → List α} {moves : Nat → Nat → Bool}

theorem bind_inv {β γ : Type} {x : M β} {f : β → M γ} {r : γ} (h : (x >>= f) = .ok r) : ∃ y, x = .ok y ∧ f y = .ok r := by
  cases x with
  | error e => cases h
  | ok y => exact ⟨y, rfl, h⟩

/-! ## Objects of the first block stay -/

/-- Slot `j` of the first block holds an object. -/
def Kept (j : Nat) (l : List (Block α)) : Prop := ∃ b v, l[0]? = some b ∧ b.memory[j]? = some (some v)

theorem rd_inv {β : Type} {l : List β} {i : Nat} {x : β} (h : rd l i = .ok x) : l[i]? = some x := by
  unfold rd at h
  split at h
  · rename_i y hy; cases h; exact hy
  · cases h

theorem wr_kept {j k : Nat} {l l' : List (Block α)} {b b' : Block α} (hk : Kept j l) (hb : l[k]? = some b) (hm : ∀ v, b.memory[j]? = some (some v) → k = 0 → b'.memory[j]? = some (some v))
    (h : wr l k b' = .ok l') : Kept j l' := by
  unfold wr at h
  split at h
  · rename_i hlt
    cases h
    obtain ⟨c, v, h0, hv⟩ := hk
    by_cases hk0 : k = 0
    · subst hk0
      rw [h0] at hb
      cases hb
      exact ⟨b', v, by simp [hlt], hm v hv rfl⟩
    · refine ⟨c, v, ?_, hv⟩
      simp only [List.getElem?_set]
      rw [if_neg hk0]; exact h0
  · cases h

theorem create_kept {m m' : Slots α} {i j : Nat} {v w : α} (h : Slots.create m i w = .ok m') (hj : m[j]? = some (some v)) : m'[j]? = some (some v) := by
  unfold Slots.create at h
  split at h
  · rename_i hi
    cases h
    have : i ≠ j := by rintro rfl; rw [hi] at hj; cases hj
    simp only [List.getElem?_set]
    rw [if_neg this]; exact hj
  · cases h

theorem allocate_kept {j base : Nat} {p : Pool α} {w : α} {r} (h : allocate S base (some w) p = .ok r) (hk : Kept j p.blocks) : Kept j r.1.blocks := by
  unfold allocate at h
  obtain ⟨⟨p1, i1, a1⟩, e1, h⟩ := bind_inv h
  simp only at h
  obtain ⟨p2, e2, h⟩ := bind_inv h
  cases h
  have k1 : Kept j p1.blocks := by
    unfold allocateDefer at e1
    obtain ⟨⟨p0, bi, li⟩, e0, h⟩ := bind_inv e1
    obtain ⟨b, eb, h⟩ := bind_inv h
    obtain ⟨b', eb', h⟩ := bind_inv h
    obtain ⟨bl, ebl, h⟩ := bind_inv h
    cases h
    have k0 : Kept j p0.blocks := by
      unfold chooseEntry at e0
      obtain ⟨f, ef, h⟩ := bind_inv e0
      cases f with
      | some x => obtain ⟨x1, x2⟩ := x; cases h; exact hk
      | none =>
        obtain ⟨q, eq, h⟩ := bind_inv h
        cases h
        unfold allocateBlock at eq
        obtain ⟨nb, _, h⟩ := bind_inv eq
        cases h
        obtain ⟨c, v, h0, hv⟩ := hk
        exact ⟨c, v, by rw [List.getElem?_append_left (List.getElem?_eq_some_iff.mp h0).1]; exact h0, hv⟩
    refine wr_kept k0 (rd_inv eb) ?_ ebl
    intro v hv _
    unfold Block.take at eb'
    obtain ⟨fr, _, h⟩ := bind_inv eb'
    obtain ⟨oc, _, h⟩ := bind_inv h
    cases h
    exact hv
  unfold onSlot at e2
  obtain ⟨b, eb, h⟩ := bind_inv e2
  obtain ⟨m, em, h⟩ := bind_inv h
  obtain ⟨bl, ebl, h⟩ := bind_inv h
  cases h
  exact wr_kept k1 (rd_inv eb) (fun v hv _ => create_kept em hv) ebl

theorem spawnAll_kept {j : Nat} {ws : List α} {p q : Pool α} (h : spawnAll S bases ws p = .ok q) (hk : Kept j p.blocks) : Kept j q.blocks := by
  induction ws generalizing p with
  | nil => cases h; exact hk
  | cons w ws ih =>
    simp only [spawnAll, List.foldlM_cons] at h
    obtain ⟨p1, e1, h⟩ := bind_inv h
    obtain ⟨r, er, h1⟩ := bind_inv e1
    cases h1
    exact ih h (allocate_kept er hk)

theorem destroyLoopS_kept {j d : Nat} (hd : d ≠ 0) {fuel : Nat} {cur : Option Nat} {p q : Pool α} (h : destroyLoopS S bases spawn moves d fuel cur p = .ok q) (hk : Kept j p.blocks) :
    Kept j q.blocks := by
  induction fuel generalizing cur p with
  | zero => cases h
  | succ fuel ih =>
    cases cur with
    | none => cases h; exact hk
    | some i =>
      unfold destroyLoopS at h
      obtain ⟨b, eb, h⟩ := bind_inv h
      obtain ⟨v, _, h⟩ := bind_inv h
      obtain ⟨p1, e1, h⟩ := bind_inv h
      obtain ⟨p2, e2, h⟩ := bind_inv h
      obtain ⟨_, _, h⟩ := bind_inv h
      obtain ⟨_, _, h⟩ := bind_inv h
      obtain ⟨_, _, h⟩ := bind_inv h
      refine ih h (spawnAll_kept e2 ?_)
      unfold onSlot at e1
      obtain ⟨b, eb, h⟩ := bind_inv e1
      obtain ⟨m, em, h⟩ := bind_inv h
      obtain ⟨bl, ebl, h⟩ := bind_inv h
      cases h
      exact wr_kept hk (rd_inv eb) (fun v _ h0 => absurd h0 hd) ebl

theorem close_kept {j d : Nat} {p q : Pool α} (h : (do
      let b ← rd p.blocks d
      let free ← Bitset.reset b.freeEntries 1
      let occupied ← Bitset.reset b.occupiedEntries 0
      let blocks ← wr p.blocks d ⟨0, b.base, b.memory, free, occupied⟩
      pure (⟨p.blockSize, blocks⟩ : Pool α)) = .ok q) (hk : Kept j p.blocks) : Kept j q.blocks := by
  obtain ⟨b, eb, h⟩ := bind_inv h
  obtain ⟨_, _, h⟩ := bind_inv h
  obtain ⟨_, _, h⟩ := bind_inv h
  obtain ⟨bl, ebl, h⟩ := bind_inv h
  cases h
  refine wr_kept hk (rd_inv eb) ?_ ebl
  intro v hv _
  exact hv

theorem resetBlockS_kept {j d : Nat} (hd : d ≠ 0) {p q : Pool α} (h : resetBlockS S bases spawn moves d p = .ok q) (hk : Kept j p.blocks) : Kept j q.blocks := by
  unfold resetBlockS at h
  obtain ⟨b, eb, h⟩ := bind_inv h
  split at h
  · cases h; exact hk
  · obtain ⟨f, _, h⟩ := bind_inv h
    obtain ⟨p1, e1, h⟩ := bind_inv h
    exact close_kept h (destroyLoopS_kept hd e1 hk)

theorem resetLoopS_kept {j fuel d : Nat} (hd : d ≠ 0) {p q : Pool α} (h : resetLoopS S bases spawn moves fuel d p = .ok q) (hk : Kept j p.blocks) : Kept j q.blocks := by
  induction fuel generalizing d p with
  | zero => cases h
  | succ fuel ih =>
    unfold resetLoopS at h
    split at h
    · obtain ⟨p1, e1, h⟩ := bind_inv h
      exact ih (by omega) h (resetBlockS_kept hd e1 hk)
    · cases h; exact hk

theorem kept_sum {j : Nat} {l : List (Block α)} (hk : Kept j l) : 0 < (l.map (fun b => b.memory.alive)).sum := by
  obtain ⟨b, v, h0, hv⟩ := hk
  cases l with
  | nil => cases h0
  | cons x l =>
    simp only [List.getElem?_cons_zero, Option.some.injEq] at h0
    subst h0
    rw [List.map_cons, List.sum_cons]
    have : 0 < x.memory.alive := by
      unfold Slots.alive
      exact List.countP_pos_iff.mpr ⟨some v, List.mem_of_getElem? hv, rfl⟩
    omega

/-! ## The first block -/

theorem grow_bases {bs : Nat} {a : Abs α} (h : BasesOk bs S bases a) : BasesOk bs S bases (a.grow bs (bases a.bases.length)) := by
  unfold Abs.grow
  split
  · refine ⟨?_, ?_⟩
    · intro n hn b hb
      simp only [List.length_append, List.length_singleton] at hn
      rcases List.mem_append.mp hb with hb | hb
      · exact h.old n (by omega) b hb
      · rw [List.mem_singleton.mp hb]
        exact h.new _ _ (Nat.le_refl _) (by omega)
    · intro n m hn hm
      simp only [List.length_append, List.length_singleton] at hn
      exact h.new n m (by omega) hm
  · exact h

theorem set_bases {bs : Nat} {a : Abs α} (h : BasesOk bs S bases a) (i : Nat) (x : Option (Option α)) : BasesOk bs S bases (a.set i x) := ⟨h.old, h.new⟩

theorem spawnAll_repr {bs : Nat} (hbs : 0 < bs) (ws : List α) {p : Pool α} {a : Abs α} (h : Repr bs S p a) (hb : BasesOk bs S bases a) :
    ∃ q, spawnAll S bases ws p = .ok q ∧ Repr bs S q (Abs.spawned bs bases ws a) ∧ BasesOk bs S bases (Abs.spawned bs bases ws a) := by
  induction ws generalizing p a with
  | nil => exact ⟨p, rfl, h, hb⟩
  | cons w ws ih =>
    obtain ⟨q, e, r⟩ := allocate_repr h hbs (base := bases a.bases.length) (hb.old _ (Nat.le_refl _)) w
    obtain ⟨z, e', r', b'⟩ := ih r (set_bases (grow_bases hb) _ _)
    refine ⟨z, ?_, r', b'⟩
    simp only [spawnAll, List.foldlM_cons, h.len, e, ok_bind, pure_ok]
    exact e'

theorem spawned_none {bs : Nat} (ws : List α) {a : Abs α} {j : Nat} (h : (Abs.spawned bs bases ws a).entries j = some none) : a.entries j = some none := by
  induction ws generalizing a with
  | nil => exact h
  | cons w ws ih =>
    have := ih h
    simp only [Abs.set, Abs.grow] at this
    split at this
    · cases this
    · split at this <;> exact this

theorem swept_none {bs : Nat} {a : Abs α} (hobj : ∀ i, a.entries i ≠ some none) (n : Nat) {j : Nat} (h : (Abs.swept bs bases spawn n a).entries j = some none) : j < n := by
  induction n with
  | zero => exact absurd h (hobj j)
  | succ n ih =>
    simp only [Abs.swept, Abs.ended] at h
    split at h
    · have := spawned_none _ h
      simp only [Abs.set] at this
      split at this
      · omega
      · have := ih this; omega
    · have := ih h; omega

theorem swept_skip {bs : Nat} {a : Abs α} {m n : Nat} (h : ∀ j, m ≤ j → j < n → (Abs.swept bs bases spawn m a).isLive j = false) :
    ∀ j, m ≤ j → j ≤ n → Abs.swept bs bases spawn j a = Abs.swept bs bases spawn m a := by
  intro j hj hn
  induction j with
  | zero => rw [Nat.le_zero.mp hj]
  | succ j ih =>
    rcases Nat.lt_or_ge j m with hlt | hge
    · rw [show m = j + 1 by omega]
    · have e := ih hge (by omega)
      have := isLive_false (h j hge (by omega))
      simp only [Abs.swept, e, Abs.ended, this]

/-- What the loop over the first block does. -/
theorem sweepLoop {bs : Nat} (hbs : 0 < bs) {A : Abs α} (hobj : ∀ i, A.entries i ≠ some none) (fuel : Nat) {l : Nat} (hl : l < bs) (hfuel : bs - l < fuel) {p : Pool α}
    (h : Repr bs S p (A.swept bs bases spawn l)) (hb : BasesOk bs S bases (A.swept bs bases spawn l)) (hlive : (A.swept bs bases spawn l).isLive l = true) :
    (∃ i, l ≤ i ∧ i < bs ∧ ¬((A.swept bs bases spawn i).bases.length = (A.swept bs bases spawn (i + 1)).bases.length ∨
        moves (A.swept bs bases spawn i).bases.length (A.swept bs bases spawn (i + 1)).bases.length = false) ∧
      destroyLoopS S bases spawn moves 0 fuel (some l) p = .error .ub) ∨
    ((∀ i, l ≤ i → i < bs → (A.swept bs bases spawn i).bases.length = (A.swept bs bases spawn (i + 1)).bases.length ∨
        moves (A.swept bs bases spawn i).bases.length (A.swept bs bases spawn (i + 1)).bases.length = false) ∧
      ∃ q, destroyLoopS S bases spawn moves 0 fuel (some l) p = .ok q ∧ Repr bs S q (A.swept bs bases spawn bs)) := by
  induction fuel generalizing l p with
  | zero => omega
  | succ fuel ih =>
    obtain ⟨v, hv⟩ : ∃ v, (A.swept bs bases spawn l).entries l = some (some v) := by
      cases hx : (A.swept bs bases spawn l).entries l with
      | none => simp [Abs.isLive, hx] at hlive
      | some x =>
        cases x with
        | none => exact absurd (swept_none hobj l hx) (by omega)
        | some v => exact ⟨v, rfl⟩
    have hpos : 0 < p.blocks.length := by
      rw [h.len]
      have := h.bound l hlive
      simp only [Abs.capacity] at this
      rcases Nat.eq_zero_or_pos (A.swept bs bases spawn l).bases.length with h0 | h0
      · rw [h0, Nat.zero_mul] at this; omega
      · exact h0
    obtain ⟨b, base, g1, g2, g3, g4⟩ := h.get hpos
    simp only [Nat.zero_mul, Nat.zero_add] at g4
    have hread : Slots.read b.memory l = .ok v := by
      rw [g4.memory]
      exact Slots.read_mk hl (by rw [hv]; rfl)
    obtain ⟨q1, e1, r1⟩ := gone_repr h hbs hv
    rw [Nat.div_eq_of_lt hl, Nat.mod_eq_of_lt hl] at e1
    obtain ⟨q2, e2, r2, b2⟩ := spawnAll_repr hbs (spawn v) r1 (set_bases hb _ _)
    have hsw : Abs.spawned bs bases (spawn v) ((A.swept bs bases spawn l).set l (some none)) = A.swept bs bases spawn (l + 1) := by
      simp only [Abs.swept, Abs.ended, hv]
    rw [hsw] at r2 b2
    simp only [destroyLoopS, g2, ok_bind, hread, e1, e2, h.len, r2.len]
    by_cases hst : (A.swept bs bases spawn l).bases.length = (A.swept bs bases spawn (l + 1)).bases.length ∨
        moves (A.swept bs bases spawn l).bases.length (A.swept bs bases spawn (l + 1)).bases.length = false
    · have hg : ((A.swept bs bases spawn (l + 1)).bases.length == (A.swept bs bases spawn l).bases.length ||
          !moves (A.swept bs bases spawn l).bases.length (A.swept bs bases spawn (l + 1)).bases.length) = true := by
        rcases hst with h1 | h1
        · simp [h1]
        · simp [h1]
      rw [hg]
      have hlive2 : (A.swept bs bases spawn (l + 1)).isLive l = true := by
        cases hx : (A.swept bs bases spawn (l + 1)).isLive l
        · exfalso
          have hcnt : ∀ (ws : List α) (c : Abs α) (j : Nat), c.isLive j = true → (Abs.spawned bs bases ws c).isLive j = true := by
            intro ws
            induction ws with
            | nil => intro c j hc; exact hc
            | cons w ws ihw =>
              intro c j hc
              apply ihw
              simp only [Abs.isLive, Abs.set, Abs.grow] at hc ⊢
              split
              · rfl
              · split <;> exact hc
          rw [← hsw, hcnt _ _ _ (by simp [Abs.isLive, Abs.set])] at hx
          cases hx
        · rfl
      have hpos2 : 0 < q2.blocks.length := by
        rw [r2.len]
        have := r2.bound l hlive2
        simp only [Abs.capacity] at this
        rcases Nat.eq_zero_or_pos (A.swept bs bases spawn (l + 1)).bases.length with h0 | h0
        · rw [h0, Nat.zero_mul] at this; omega
        · exact h0
      obtain ⟨c, base2, k1, k2, k3, k4⟩ := r2.get hpos2
      simp only [Nat.zero_mul, Nat.zero_add] at k4
      obtain ⟨nx, en, n1, n2⟩ := Has.findNext k4.occupied hl
      simp only [guardUB_true, ok_bind, k2, en]
      cases nx with
      | none =>
        right
        have hd := n2 rfl
        have hskip := swept_skip (bs := bs) (bases := bases) (spawn := spawn) (a := A) (m := l + 1) (n := bs) (fun j j1 j2 => hd j (by omega) j2)
        obtain ⟨fu, rfl⟩ : ∃ fu, fuel = fu + 1 := ⟨fuel - 1, by omega⟩
        refine ⟨?_, q2, rfl, ?_⟩
        · intro i i1 i2
          by_cases hil : i = l
          · rw [hil]; exact hst
          · left; rw [hskip i (by omega) (by omega), hskip (i + 1) (by omega) (by omega)]
        · rw [hskip bs (by omega) (Nat.le_refl _)]; exact r2
      | some l' =>
        obtain ⟨m1, m2, m3, m4⟩ := n1 l' rfl
        have hskip := swept_skip (bs := bs) (bases := bases) (spawn := spawn) (a := A) (m := l + 1) (n := l') (fun j j1 j2 => m4 j (by omega) j2)
        have el' := hskip l' (by omega) (Nat.le_refl _)
        have hsk : ∀ i, l ≤ i → i < l' → (A.swept bs bases spawn i).bases.length = (A.swept bs bases spawn (i + 1)).bases.length ∨
            moves (A.swept bs bases spawn i).bases.length (A.swept bs bases spawn (i + 1)).bases.length = false := by
          intro i i1 i2
          by_cases hil : i = l
          · rw [hil]; exact hst
          · left; rw [hskip i (by omega) (by omega), hskip (i + 1) (by omega) (by omega)]
        rcases ih (l := l') (by omega) (by omega) (p := q2) (by rw [el']; exact r2) (by rw [el']; exact b2) (by rw [el']; exact m3) with ⟨i, i1, i2, i3, i4⟩ | ⟨i1, i2⟩
        · left
          exact ⟨i, by omega, i2, i3, i4⟩
        · right
          refine ⟨?_, i2⟩
          intro i i3 i4
          rcases Nat.lt_or_ge i l' with hlt | hge
          · exact hsk i i3 hlt
          · exact i1 i hge i4
    · left
      refine ⟨l, Nat.le_refl _, hl, hst, ?_⟩
      have hg : ((A.swept bs bases spawn (l + 1)).bases.length == (A.swept bs bases spawn l).bases.length ||
          !moves (A.swept bs bases spawn l).bases.length (A.swept bs bases spawn (l + 1)).bases.length) = false := by
        cases hx : moves (A.swept bs bases spawn l).bases.length (A.swept bs bases spawn (l + 1)).bases.length
        · exact absurd (Or.inr hx) hst
        · simp only [Bool.not_true, Bool.or_false, beq_eq_false_iff_ne, ne_eq]
          intro e; exact hst (Or.inl e.symm)
      rw [hg]
      rfl

/-- `Reset` of the first block. -/
theorem firstBlock {bs : Nat} (h2 : 2 ≤ bs) {A : Abs α} (hobj : ∀ i, A.entries i ≠ some none) {p : Pool α} (h : Repr bs S p A) (hb : BasesOk bs S bases A) (hpos : 0 < p.blocks.length) :
    (∃ i, i < bs ∧ ¬((A.swept bs bases spawn i).bases.length = (A.swept bs bases spawn (i + 1)).bases.length ∨
        moves (A.swept bs bases spawn i).bases.length (A.swept bs bases spawn (i + 1)).bases.length = false) ∧
      resetBlockS S bases spawn moves 0 p = .error .ub) ∨
    ((∀ i, i < bs → (A.swept bs bases spawn i).bases.length = (A.swept bs bases spawn (i + 1)).bases.length ∨
        moves (A.swept bs bases spawn i).bases.length (A.swept bs bases spawn (i + 1)).bases.length = false) ∧
      ∃ (q : Pool α) (c : Block α), resetBlockS S bases spawn moves 0 p = .ok ⟨bs, q.blocks.set 0 c⟩ ∧ Repr bs S q (A.swept bs bases spawn bs) ∧ 0 < q.blocks.length ∧ c.count = 0 ∧
        c.memory = Slots.mk bs (fun j => ((A.swept bs bases spawn bs).entries j).join) ∧ (∃ f, Has c.freeEntries bs f) ∧ ∃ f, Has c.occupiedEntries bs f) := by
  have hbs : 0 < bs := by omega
  obtain ⟨b, base, g1, g2, g3, g4⟩ := h.get hpos
  simp only [Nat.zero_mul, Nat.zero_add] at g4
  by_cases hc : b.count = 0
  · right
    have hdead : ∀ j, j < bs → A.isLive j = false := countP_none.mp (g4.count.symm.trans hc)
    have hskip := swept_skip (bs := bs) (bases := bases) (spawn := spawn) (a := A) (m := 0) (n := bs) (fun j _ j2 => hdead j j2)
    refine ⟨fun i hi => Or.inl (by rw [hskip i (by omega) (by omega), hskip (i + 1) (by omega) (by omega)]), p, b, ?_, ?_, hpos, hc, ?_, ⟨_, g4.free⟩, ⟨_, g4.occupied⟩⟩
    · simp only [resetBlockS, g2, ok_bind, hc, if_true, pure_ok, ← h.size]
      obtain ⟨hd, hbe⟩ := List.getElem?_eq_some_iff.mp g1
      rw [← hbe, List.set_getElem_self hd]
    · rw [hskip bs (by omega) (Nat.le_refl _)]; exact h
    · rw [hskip bs (by omega) (Nat.le_refl _)]; exact g4.memory
  · obtain ⟨k, hk, hg⟩ : ∃ k, k < bs ∧ (A.entries k).isSome = true := by
      by_contra hn
      apply hc
      rw [g4.count]
      apply countP_none.mpr
      intro i hi
      cases hh : (A.entries i).isSome
      · rfl
      · exact absurd ⟨i, hi, hh⟩ hn
    obtain ⟨_, l, e, hl, hgl, hbefore⟩ := g4.first hk hg
    have hskip := swept_skip (bs := bs) (bases := bases) (spawn := spawn) (a := A) (m := 0) (n := l) (fun j _ j2 => hbefore j j2)
    have el : A.swept bs bases spawn l = A := hskip l (by omega) (Nat.le_refl _)
    rcases sweepLoop (moves := moves) hbs hobj (bs + 1) (l := l) (by omega) (by omega) (p := p) (by rw [el]; exact h) (by rw [el]; exact hb) (by rw [el]; exact hgl) with
      ⟨i, i1, i2, i3, i4⟩ | ⟨i1, q, e', r⟩
    · left
      refine ⟨i, i2, i3, ?_⟩
      simp only [resetBlockS, g2, ok_bind, hc, if_false, e, g4.occupied.size, i4, err_bind]
    · right
      have hq0 : 0 < q.blocks.length := by
        rw [r.len]
        have hmono : ∀ n, A.bases.length ≤ (A.swept bs bases spawn n).bases.length := by
          intro n
          induction n with
          | zero => exact Nat.le_refl _
          | succ n ih =>
            refine Nat.le_trans ih ?_
            simp only [Abs.swept, Abs.ended]
            split
            · have : ∀ (ws : List α) (c : Abs α), c.bases.length ≤ (Abs.spawned bs bases ws c).bases.length := by
                intro ws
                induction ws with
                | nil => intro c; exact Nat.le_refl _
                | cons w ws ihw =>
                  intro c
                  refine Nat.le_trans ?_ (ihw _)
                  simp only [Abs.set, Abs.grow]
                  split <;> simp
              exact this _ (Abs.set _ n (some none))
            · exact Nat.le_refl _
        have := hmono bs
        rw [h.len] at hpos
        omega
      obtain ⟨x, base2, k1, k2, k3, k4⟩ := r.get hq0
      simp only [Nat.zero_mul, Nat.zero_add] at k4
      obtain ⟨c, ec, c1, c2, c3, c4⟩ := closeBlock h2 hq0 x.memory k4.free k4.occupied
      rw [putMem_self k1] at ec
      refine ⟨?_, q, c, ?_, r, hq0, c1, by rw [c2]; exact k4.memory, ⟨_, c3⟩, ⟨_, c4⟩⟩
      · intro i hi
        rcases Nat.lt_or_ge i l with hlt | hge
        · left; rw [hskip i (by omega) (by omega), hskip (i + 1) (by omega) (by omega)]
        · exact i1 i hge hi
      · simp only [resetBlockS, g2, ok_bind, hc, if_false, e, g4.occupied.size, e']
        rw [ec, r.size]

/-- After the first block: an object of another block that allocates leaves an object in the first block, or fails. -/
theorem later_fails {bs : Nat} (h2 : 2 ≤ bs) {A : Abs α} (hobj : ∀ i, bs ≤ i → A.entries i ≠ some none) {q : Pool α} (h : Repr bs S q A) {c : Block α} (hc : c.count = 0)
    (hm : c.memory = Slots.mk bs (fun _ => none)) {f f' : Nat → Bool} (hf : Has c.freeEntries bs f) (ho : Has c.occupiedEntries bs f') {k : Nat} {v : α} (hk : bs ≤ k)
    (hv : A.entries k = some (some v)) (hs : spawn v ≠ []) (hmin : ∀ i u, bs ≤ i → i < k → A.entries i = some (some u) → spawn u = []) {fuel : Nat} {z : Pool α}
    (hz : resetLoopS S bases spawn moves fuel 1 ⟨bs, q.blocks.set 0 c⟩ = .ok z) : ∃ j, Kept j z.blocks := by
  have hbs : 0 < bs := by omega
  have hlivek : A.isLive k = true := by simp [Abs.isLive, hv]
  have hd : k / bs < q.blocks.length := by rw [h.len]; exact div_lt_blocks (h.bound k hlivek)
  have hd0 : 0 < k / bs := Nat.div_pos hk hbs
  have hkl := Nat.mod_lt k hbs
  obtain ⟨d, hdd⟩ : ∃ d, d = k / bs := ⟨_, rfl⟩
  obtain ⟨l, hll⟩ : ∃ l, l = k % bs := ⟨_, rfl⟩
  have hsp : d * bs + l = k := by rw [hdd, hll]; exact index_split bs k
  rw [← hdd] at hd hd0
  rw [← hll] at hkl
  obtain ⟨P, hP⟩ : ∃ P : Pool α, P = ⟨bs, q.blocks.set 0 c⟩ := ⟨_, rfl⟩
  have hPl : P.blocks.length = q.blocks.length := by rw [hP]; simp
  rw [← hP] at hz
  have hPb : ∀ e, 0 < e → P.blocks[e]? = q.blocks[e]? := by
    intro e he
    rw [hP]
    simp only [List.getElem?_set]
    rw [if_neg (by omega)]
  have hP0 : P.blocks[0]? = some c := by
    have : 0 < q.blocks.length := by omega
    rw [hP]; simp [this]
  -- the blocks before
  by_cases hfu : fuel < d
  · exfalso
    have key : ∀ (n : Nat) (e : Nat) (x y : Pool α), e + n < d + 1 → d ≤ x.blocks.length → 0 < e → (∀ m, e ≤ m → x.blocks[m]? = q.blocks[m]?) →
        resetLoopS S bases spawn moves n e x ≠ .ok y := by
      intro n
      induction n with
      | zero => intro e x y _ _ _ _ hy; cases hy
      | succ n ih =>
        intro e x y h1 h3 h4 h5 hy
        have hex : e < x.blocks.length := by omega
        obtain ⟨xb, base, g1, g2, g3, g4⟩ := h.get (show e < q.blocks.length by omega)
        have hqb : QuietBlock spawn bs (fun j => A.entries (e * bs + j)) := by
          intro j hj
          have hle : bs ≤ e * bs := Nat.le_mul_of_pos_left bs h4
          have hlt : e * bs + j < k := by
            have : (e + 1) * bs ≤ d * bs := Nat.mul_le_mul_right bs (by omega)
            rw [Nat.succ_mul] at this
            omega
          exact ⟨hobj _ (by omega), fun u hu => hmin _ u (by omega) hlt hu⟩
        obtain ⟨y', ey, _⟩ := resetBlockS_quiet (S := S) (bases := bases) (moves := moves) h2 (by rw [h5 e (Nat.le_refl _)]; exact g1) g4 hqb
        simp only [resetLoopS, hex, if_true, ey, ok_bind] at hy
        refine ih (e + 1) _ y (by omega) (by simp only [List.length_set]; exact h3) (by omega) ?_ hy
        intro m hm
        simp only [List.getElem?_set]
        rw [if_neg (by omega)]
        exact h5 m (by omega)
    exact key fuel 1 P z (by omega) (by omega) (by omega) (fun m hm => hPb m (by omega)) hz
  · obtain ⟨fu, rfl⟩ : ∃ fu, fuel = fu + (d - 1) := ⟨fuel - (d - 1), by omega⟩
    obtain ⟨q', e, q1, q2, q3, q4⟩ := resetLoopS_quiet (S := S) (bases := bases) (spawn := spawn) (moves := moves) h2 (d - 1) (p := P) (d := 1) (fuel := fu) (by omega) (by
      intro e e1 e2
      obtain ⟨xb, base, g1, g2, g3, g4⟩ := h.get (show e < q.blocks.length by omega)
      refine ⟨xb, base, _, by rw [hPb e (by omega)]; exact g1, g4, ?_⟩
      intro j hj
      have hle : bs ≤ e * bs := Nat.le_mul_of_pos_left bs (by omega)
      have hlt : e * bs + j < k := by
        have : (e + 1) * bs ≤ d * bs := Nat.mul_le_mul_right bs (by omega)
        rw [Nat.succ_mul] at this
        omega
      exact ⟨hobj _ (by omega), fun u hu => hmin _ u (by omega) hlt hu⟩)
    rw [hz, show 1 + (d - 1) = d by omega] at e
    obtain ⟨b, base, g1, g2, g3, g4⟩ := h.get hd
    have g1q : q'.blocks[d]? = some b := by rw [q3 d (by omega), hPb d hd0]; exact g1
    have hdq : d < q'.blocks.length := by omega
    have hrd : rd q'.blocks d = .ok b := by
      obtain ⟨x1, x2⟩ := List.getElem?_eq_some_iff.mp g1q
      rw [rd_ok x1, x2]
    have k1 : q'.blocks[0]? = some c := by rw [q3 0 (by omega)]; exact hP0
    obtain ⟨fu', rfl⟩ : ∃ fu', fu = fu' + 1 := ⟨fu - 1, by omega⟩
    simp only [resetLoopS, hdq, if_true] at e
    obtain ⟨y, ey, ez⟩ := bind_inv e.symm
    suffices hy : ∃ j, Kept j y.blocks by
      obtain ⟨j, hj⟩ := hy
      exact ⟨j, resetLoopS_kept (by omega) ez hj⟩
    have hgk : (A.entries (d * bs + l)).isSome = true := by rw [hsp, hv]; rfl
    obtain ⟨hcnt, l0, el0, hl0, hgl0, hbefore⟩ := g4.first hkl hgk
    have hquietb : ∀ j, l0 ≤ j → j < l → (A.entries (d * bs + j)).isSome = true → ∃ u, (A.entries (d * bs + j)).join = some u ∧ spawn u = [] := by
      intro j _ j2 j3
      have hle : bs ≤ d * bs := Nat.le_mul_of_pos_left bs hd0
      cases hh : A.entries (d * bs + j) with
      | none => simp [hh] at j3
      | some x =>
        cases x with
        | none => exact absurd hh (hobj _ (by omega))
        | some u => exact ⟨u, rfl, hmin _ u (by omega) (by omega) hh⟩
    obtain ⟨fuel', f1, f2⟩ := destroyLoopS_until (S := S) (bases := bases) (spawn := spawn) (moves := moves) (p := q') g4.occupied hdq hkl hgk (bs + 1) (l := l0)
      (m := fun j => (A.entries (d * bs + j)).join) hl0 hgl0 (by omega) hquietb
    rw [← g4.memory, putMem_self g1q] at f2
    obtain ⟨M, hM⟩ : ∃ M : Nat → Option α, M = fun j => if l0 ≤ j ∧ j < l ∧ (A.entries (d * bs + j)).isSome = true then none else (A.entries (d * bs + j)).join := ⟨_, rfl⟩
    rw [← hM] at f2
    have hml : M l = some v := by
      rw [hM]
      simp only
      rw [if_neg (by omega), hsp, hv]; rfl
    simp only [resetBlockS, hrd, ok_bind, hcnt, if_false, el0, g4.occupied.size, f2] at ey
    obtain ⟨p1, ep1, ey⟩ := bind_inv ey
    suffices hy : ∃ j, Kept j p1.blocks by
      obtain ⟨j, hj⟩ := hy
      exact ⟨j, close_kept ey hj⟩
    obtain ⟨fu2, rfl⟩ : ∃ fu2, fuel' = fu2 + 1 := ⟨fuel' - 1, by omega⟩
    obtain ⟨w, ws, hws⟩ : ∃ w ws, spawn v = w :: ws := by
      cases hsv : spawn v with
      | nil => exact absurd hsv hs
      | cons w ws => exact ⟨w, ws, rfl⟩
    simp only [destroyLoopS, putMem_rd b _ hdq, ok_bind, Slots.read_mk hkl hml, putMem_destroy b hdq hkl hml, hws] at ep1
    obtain ⟨p2, ep2, ep1⟩ := bind_inv ep1
    obtain ⟨_, _, ep1⟩ := bind_inv ep1
    obtain ⟨_, _, ep1⟩ := bind_inv ep1
    obtain ⟨_, _, ep1⟩ := bind_inv ep1
    suffices hy : ∃ j, Kept j p2.blocks by
      obtain ⟨j, hj⟩ := hy
      exact ⟨j, destroyLoopS_kept (by omega) ep1 hj⟩
    simp only [spawnAll, List.foldlM_cons] at ep2
    obtain ⟨p3, ep3, ep2⟩ := bind_inv ep2
    obtain ⟨r, er, ep3⟩ := bind_inv ep3
    cases ep3
    suffices hy : ∃ j, Kept j r.1.blocks by
      obtain ⟨j, hj⟩ := hy
      exact ⟨j, spawnAll_kept ep2 hj⟩
    obtain ⟨Q, hQ⟩ : ∃ Q : Pool α, Q = putMem q' d b (Slots.mk bs (Slots.upd M l none)) := ⟨_, rfl⟩
    rw [← hQ] at er
    have hQ0 : Q.blocks[0]? = some c := by
      rw [hQ]
      simp only [putMem, List.getElem?_set]
      rw [if_neg (by omega)]; exact k1
    have hQs : Q.blockSize = bs := by rw [hQ]; show q'.blockSize = bs; rw [q1, hP]
    rcases allocate_stale (S := S) (base := bases Q.blocks.length) hbs hQs hQ0 hc hm hf ho w with ea | ⟨j, b1, x, j1, j2, j3, ea⟩
    · rw [er] at ea; cases ea
    · rw [er] at ea
      cases ea
      refine ⟨j, b1, w, ?_, ?_⟩
      · simp only [List.getElem?_set]
        rw [if_pos trivial, if_pos (List.getElem?_eq_some_iff.mp hQ0).1]
      · rw [j3, Slots.mk_get j1]; simp [Slots.upd]

end Verif.MemoryPool
