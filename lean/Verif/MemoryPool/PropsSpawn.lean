import Verif.MemoryPool.LemmasSpawn
import Verif.MemoryPool.PropsNest

/-!
# Properties of memory pools of objects whose destructors use the pool: C128
-/

namespace Verif.MemoryPool
open Verif.Cpp Verif.Bitset

variable {α : Type}

/-! ### Free -/

theorem gone_repr {bs S : Nat} {p : Pool α} {a : Abs α} (h : Repr bs S p a) (hbs : 0 < bs) {i : Nat} {v : α} (hi : a.entries i = some (some v)) :
    ∃ q, onSlot p (i / bs) (i % bs) Slots.destroy = .ok q ∧ Repr bs S q (a.set i (some none)) := by
  obtain ⟨q, e, _, r⟩ := onSlot_repr h hbs (i := i) (by simp [Abs.isLive, hi]) (x := none) (f := Slots.destroy) (by
    intro g hg
    exact Slots.destroy_mk (v := v) (Nat.mod_lt i hbs) (by rw [hg, hi]; rfl))
  exact ⟨q, e, r⟩

/-- The calls one after the other, as `Op`s. -/
def CallsD.flat (bs : Nat) : CallsD α → Abs α → List (Op α)
  | .done, _ => []
  | .call o rest, a => o :: rest.flat bs (o.spec bs a).1
  | .make base body v rest, a =>
    let i := a.firstFree bs
    let a0 := (a.grow bs base).set i (some none)
    let a1 := (body.spec bs a0).1
    match v with
    | none => .allocateDefer base :: (body.flat bs a0 ++ rest.flat bs a1)
    | some v => .allocateDefer base :: (body.flat bs a0 ++ .constructAt i v :: rest.flat bs (a1.set i (some (some v))))
  | .drop i body rest, a =>
    let a0 := a.set i (some none)
    let a1 := (body.spec bs a0).1
    .destroyAt i :: (body.flat bs a0 ++ .freeNoDestruction i :: rest.flat bs (a1.set i none))

theorem CallsD.flat_spec {bs S : Nat} (cs : CallsD α) (a : Abs α) (h : cs.ok bs S a) :
    okAll bs S (cs.flat bs a) a ∧ (specAll bs (cs.flat bs a) a).1 = (cs.spec bs a).1 := by
  induction cs generalizing a with
  | done => exact ⟨trivial, rfl⟩
  | call o rest ih => exact ⟨⟨h.1, (ih _ h.2).1⟩, (ih _ h.2).2⟩
  | make base body v rest ih1 ih2 =>
    obtain ⟨h1, h2, h3⟩ := h
    obtain ⟨b1, b2⟩ := ih1 _ h2
    cases v with
    | none =>
      obtain ⟨c1, c2⟩ := ih2 _ h3
      refine ⟨⟨h1, (okAll_append _ _ _).mpr ⟨b1, ?_⟩⟩, ?_⟩
      · rw [show (specAll bs (body.flat bs _) ((Op.allocateDefer base).spec bs a).1).1 = _ from b2]; exact c1
      · simp only [CallsD.flat, specAll, specAll_append, CallsD.spec]
        rw [show (specAll bs (body.flat bs _) ((Op.allocateDefer base).spec bs a).1).1 = _ from b2]; exact c2
    | some v =>
      obtain ⟨c1, c2⟩ := ih2 _ h3.2
      refine ⟨⟨h1, (okAll_append _ _ _).mpr ⟨b1, ?_⟩⟩, ?_⟩
      · rw [show (specAll bs (body.flat bs _) ((Op.allocateDefer base).spec bs a).1).1 = _ from b2]; exact ⟨h3.1, c1⟩
      · simp only [CallsD.flat, specAll, specAll_append, CallsD.spec]
        rw [show (specAll bs (body.flat bs _) ((Op.allocateDefer base).spec bs a).1).1 = _ from b2]; exact c2
  | drop i body rest ih1 ih2 =>
    obtain ⟨h1, h2, h3, h4⟩ := h
    obtain ⟨b1, b2⟩ := ih1 _ h2
    obtain ⟨c1, c2⟩ := ih2 _ h4
    refine ⟨⟨h1, (okAll_append _ _ _).mpr ⟨b1, ?_⟩⟩, ?_⟩
    · rw [show (specAll bs (body.flat bs _) ((Op.destroyAt i).spec bs a).1).1 = _ from b2]; exact ⟨h3, c1⟩
    · simp only [CallsD.flat, specAll, specAll_append, CallsD.spec]
      rw [show (specAll bs (body.flat bs _) ((Op.destroyAt i).spec bs a).1).1 = _ from b2]; exact c2

theorem CallsD.run_repr {bs S : Nat} (hbs : 0 < bs) (cs : CallsD α) {p : Pool α} {a : Abs α} (h : Repr bs S p a) (hok : cs.ok bs S a) :
    ∃ q rs, cs.run S p = .ok (q, (cs.spec bs a).2) ∧ runAll S (cs.flat bs a) p = .ok (q, rs) ∧ Repr bs S q (cs.spec bs a).1 := by
  have h0 : (bs != 0) = true := by simp; omega
  induction cs generalizing p a with
  | done => exact ⟨p, [], rfl, rfl, h⟩
  | call o rest ih =>
    obtain ⟨p1, e1, r1⟩ := MemoryPool.run_repr h hbs o hok.1
    obtain ⟨q, rs, e2, e3, r2⟩ := ih r1 hok.2
    refine ⟨q, (o.spec bs a).2 :: rs, ?_, ?_, r2⟩
    · simp only [CallsD.run, e1, ok_bind, e2, pure_ok]; rfl
    · simp only [CallsD.flat, runAll, e1, ok_bind, e3, pure_ok]
  | make base body v rest ih1 ih2 =>
    obtain ⟨h1, h2, h3⟩ := hok
    obtain ⟨p0, e0, r0⟩ := allocateDefer_repr h hbs h1
    obtain ⟨p1, rs1, e1, f1, r1⟩ := ih1 r0 h2
    cases v with
    | none =>
      obtain ⟨q, rs, e2, f2, r2⟩ := ih2 r1 h3
      refine ⟨q, some (a.firstFree bs) :: (rs1 ++ rs), ?_, ?_, r2⟩
      · simp only [CallsD.run, allocateWith, e0, ok_bind, e1, pure_ok, e2]; rfl
      · simp only [CallsD.flat, runAll, Op.run, e0, ok_bind, pure_ok, runAll_append _ _ f1 f2]
    | some v =>
      obtain ⟨p2, e2, s2, r2⟩ := create_repr r1 hbs h3.1 v
      obtain ⟨q, rs, e3, f3, r3⟩ := ih2 r2 h3.2
      have ec : constructAt S p1 (a.firstFree bs) v = .ok p2 := by
        have : Abs.isLive (body.spec bs ((a.grow bs base).set (a.firstFree bs) (some none))).1 (a.firstFree bs) = true := by
          simp [Abs.isLive, h3.1]
        simp only [constructAt, retrieve_repr r1 hbs, this, if_true, ok_bind, r1.size, e2]
      refine ⟨q, some (a.firstFree bs) :: (rs1 ++ none :: rs), ?_, ?_, r3⟩
      · simp only [CallsD.run, allocateWith, e0, ok_bind, e1, pure_ok, r1.size, e2, e3]; rfl
      · have : runAll S (Op.constructAt (a.firstFree bs) v :: rest.flat bs
            ((body.spec bs ((a.grow bs base).set (a.firstFree bs) (some none))).1.set (a.firstFree bs) (some (some v)))) p1 = .ok (q, none :: rs) := by
          simp only [runAll, Op.run, ec, ok_bind, pure_ok, f3]
        simp only [CallsD.flat, runAll, Op.run, e0, ok_bind, pure_ok, runAll_append _ _ f1 this]
  | drop i body rest ih1 ih2 =>
    obtain ⟨⟨v, h1⟩, h2, h3, h4⟩ := hok
    have hlive : a.isLive i = true := by simp [Abs.isLive, h1]
    obtain ⟨p0, e0, r0⟩ := gone_repr h hbs h1
    obtain ⟨p1, rs1, e1, f1, r1⟩ := ih1 r0 h2
    obtain ⟨p2, e2, r2⟩ := release_repr r1 hbs h3
    obtain ⟨q, rs, e3, f3, r3⟩ := ih2 r2 h4
    have ed : destroyAt S p i = .ok p0 := by
      simp only [destroyAt, retrieve_repr h hbs, hlive, if_true, ok_bind, h.size, e0]
    have ef : freeNoDestruction p1 i = .ok p2 := by
      simp only [freeNoDestruction, r1.size, h0, guardUB_true, ok_bind, e2]
    refine ⟨q, none :: (rs1 ++ none :: rs), ?_, ?_, r3⟩
    · simp only [CallsD.run, freeWith, h.size, h0, guardUB_true, ok_bind, pointer_repr h (Nat.mod_lt i hbs), index_split, hlive, if_true, e0, e1, pure_ok, e2, e3]; rfl
    · have : runAll S (Op.freeNoDestruction i :: rest.flat bs ((body.spec bs (a.set i (some none))).1.set i none)) p1 = .ok (q, none :: rs) := by
        simp only [runAll, Op.run, ef, ok_bind, pure_ok, f3]
      simp only [CallsD.flat, runAll, Op.run, ed, ok_bind, pure_ok, runAll_append _ _ f1 this]

/-- A destructor may make any calls on the pool that are allowed at that time, also allocations, when its object is freed: the object is gone first, its entry is free
when the destructor has ended; in the meantime the entry is not given to another object.  The calls return the indices of this meaning, and the pool is one that could
be reached without nested calls, so that all the properties of such pools hold. -/
theorem C128_free {bs S : Nat} {p : Pool α} {a : Abs α} (h : Reached bs S p a) (cs : CallsD α) (hok : cs.ok bs S a) :
    ∃ q, cs.run S p = .ok (q, (cs.spec bs a).2) ∧ Reached bs S q (cs.spec bs a).1 ∧ Shows bs S q (cs.spec bs a).1 := by
  obtain ⟨q, rs, e, f, r⟩ := cs.run_repr h.1 h.repr hok
  obtain ⟨g1, g2⟩ := cs.flat_spec a hok
  refine ⟨q, e, ?_, shows_repr r h.1⟩
  obtain ⟨hbs, base, os, p0, rs0, e0, hok0, e1, rfl⟩ := h
  exact ⟨hbs, base, os ++ cs.flat bs _, p0, _, e0, (okAll_append _ _ _).mpr ⟨hok0, g1⟩, runAll_append _ _ e1 f, by rw [specAll_append, g2]⟩

/-! ### Reset, Clear and the destructor -/

/-- No entry is free, as the pool shows it. -/
theorem free_zero {bs S : Nat} {p : Pool α} {a : Abs α} (h : Repr bs S p a) (hbs : 0 < bs) (hf : a.firstFree bs = a.capacity bs) : getFreeEntryCount p = 0 := by
  rw [(shows_repr h hbs).free, live_length, countP_full.mpr ?_]
  · simp
  · intro i hi
    cases hl : a.isLive i
    · exfalso
      have hmem : i ∈ List.range (a.capacity bs) := List.mem_range.mpr hi
      cases hfd : (List.range (a.capacity bs)).find? (fun i => !a.isLive i) with
      | none =>
        have := List.find?_eq_none.mp hfd i hmem
        simp [hl] at this
      | some j =>
        have hj := List.mem_range.mp (List.mem_of_find?_eq_some hfd)
        rw [Abs.firstFree, hfd, Option.getD_some] at hf
        omega
    · rfl

theorem zero_free {bs S : Nat} {p : Pool α} {a : Abs α} (h : Repr bs S p a) (hbs : 0 < bs) (hf : getFreeEntryCount p = 0) : a.firstFree bs = a.capacity bs := by
  rw [(shows_repr h hbs).free, live_length] at hf
  have hle := countP_le (n := a.capacity bs) (p := a.isLive)
  have hfull := countP_full.mp (show (List.range (a.capacity bs)).countP a.isLive = a.capacity bs by omega)
  rw [Abs.firstFree, List.find?_eq_none.mpr]
  · rfl
  · intro i hi
    simp [hfull i (List.mem_range.mp hi)]

/-- Objects that allocate nothing when they are destroyed: the destructor of the pool (and `Clear`) ends all of them, as for `destructor` in `C36_destroy_partial`. -/
theorem C128_quiet_partial {bs S : Nat} {bases : Nat → Nat} {spawn : α → List α} {moves : Nat → Nat → Bool} {p : Pool α} {a : Abs α} (h : Reached bs S p a) (h2 : 2 ≤ bs)
    (hobj : ∀ i, a.entries i ≠ some none) (hq : ∀ i v, a.entries i = some (some v) → spawn v = []) {fuel : Nat} (hfuel : getBlockCount p < fuel) :
    destructorS S bases spawn moves fuel p = .ok 0 := by
  obtain ⟨q, e, q1, q2, q3⟩ := finish_rest (S := S) (bases := bases) (spawn := spawn) (moves := moves) h2 (p := p) (d := 0) (fuel := fuel) (by omega) hfuel (by
    intro k _ hk
    obtain ⟨b, base, g1, g2, g3, g4⟩ := h.repr.get hk
    exact ⟨b, base, _, g1, g4, fun j _ => ⟨hobj _, fun v hv => hq _ v hv⟩⟩)
  have hz : (q.blocks.map (fun b => b.memory.alive)).sum = 0 := by
    apply sum_zero
    intro x hx
    obtain ⟨b, hb, rfl⟩ := List.mem_map.mp hx
    obtain ⟨k, hk⟩ := List.mem_iff_getElem?.mp hb
    rw [q3 k b (by omega) hk]
    exact alive_raw bs
  simp only [destructorS, e, ok_bind, pure_ok, hz]

/-- One object allocates another when it is destroyed.  The destructor of the pool (and `Clear`) ends all objects, the new one too, if the object is in the first block, the
new object gets an entry behind it, and the blocks are not moved if a block is added. -/
theorem C128_destroy_partial {bs S k : Nat} {bases : Nat → Nat} {spawn : α → List α} {moves : Nat → Nat → Bool} {p : Pool α} {a : Abs α} {v w : α} (h : Reached bs S p a)
    (h2 : 2 ≤ bs) (hobj : ∀ i, a.entries i ≠ some none) (hs : OneSpawns spawn a k v w) (hb : ∀ b ∈ a.bases, Abs.Apart bs S (bases a.bases.length) b)
    (hk : k < bs) (hf : k < a.firstFree bs) (hm : getFreeEntryCount p = 0 → moves (getBlockCount p) (getBlockCount p + 1) = false) {fuel : Nat}
    (hfuel : getBlockCount p + 1 < fuel) : destructorS S bases spawn moves fuel p = .ok 0 := by
  have hs' := shows_repr h.repr h.1
  rw [hs'.blockCount] at hm hfuel
  rw [outcome_first h.repr h2 hobj hs hk hb hfuel, if_neg, if_neg (by omega)]
  rintro ⟨h3, h4⟩
  rw [hm] at h4
  · cases h4
  · exact free_zero h.repr h.1 h3

/-- In all other cases it fails, or the new object is never destroyed. -/
theorem C128_destroy_violated {bs S k : Nat} {bases : Nat → Nat} {spawn : α → List α} {moves : Nat → Nat → Bool} {p : Pool α} {a : Abs α} {v w : α} (h : Reached bs S p a)
    (h2 : 2 ≤ bs) (hobj : ∀ i, a.entries i ≠ some none) (hs : OneSpawns spawn a k v w) (hb : ∀ b ∈ a.bases, Abs.Apart bs S (bases a.bases.length) b)
    (hn : ¬ (k < bs ∧ k < a.firstFree bs ∧ (getFreeEntryCount p = 0 → moves (getBlockCount p) (getBlockCount p + 1) = false))) {fuel : Nat}
    (hfuel : getBlockCount p + 1 < fuel) :
    destructorS S bases spawn moves fuel p = .error .ub ∨ destructorS S bases spawn moves fuel p = .error .assert ∨ destructorS S bases spawn moves fuel p = .ok 1 := by
  have hs' := shows_repr h.repr h.1
  rw [hs'.blockCount] at hn hfuel
  by_cases hk : k < bs
  · rw [outcome_first h.repr h2 hobj hs hk hb hfuel]
    by_cases hc : a.firstFree bs = a.capacity bs ∧ moves a.bases.length (a.bases.length + 1) = true
    · left; rw [if_pos hc]
    · right; right
      rw [if_neg hc]
      have hlt : a.firstFree bs < k := by
        rcases Nat.lt_or_ge (a.firstFree bs) k with hlt | hge
        · exact hlt
        · exfalso
          apply hn
          have hne : a.firstFree bs ≠ k := by
            intro e
            have := firstFree_free h.repr h.1
            rw [e, Abs.isLive, hs.object] at this
            cases this
          refine ⟨hk, by omega, ?_⟩
          intro h0
          have := zero_free h.repr h.1 h0
          cases hm : moves a.bases.length (a.bases.length + 1)
          · rfl
          · exact absurd ⟨this, hm⟩ hc
      rw [if_pos hlt]
  · right
    exact outcome_later h.repr h2 hobj hs (by omega) (by omega)

/-! ### Examples -/

/-- The hypotheses of `C128_free`: the destructor of object 0 frees object 1 and allocates two others, one of them in a new block; then entry 0 is taken again. -/
example : CallsD.ok 2 4 (.call (.allocate 8 5) (.call (.allocate 8 6) (.drop 0 (.drop 1 .done (.call (.allocate 8 7) (.call (.allocate 8 9) .done)))
    (.call (.allocate 16 8) .done)))) (.start (α := Nat) 0) := by
  refine ⟨?_, ?_, ⟨5, rfl⟩, ⟨⟨6, rfl⟩, trivial, rfl, ?_, ?_, trivial⟩, rfl, ?_, trivial⟩
  all_goals first
    | (simp only [Op.ok]; show ∀ b ∈ [0], _; simp [Abs.Apart])
    | (simp only [Op.ok]; show ∀ b ∈ [0, 8], _; simp [Abs.Apart])

/-- What these calls return: the objects allocated by the destructor get the entries 1 and 2, entry 0 is given to an object only afterwards. -/
example : (CallsD.spec 2 (.call (.allocate 8 5) (.call (.allocate 8 6) (.drop 0 (.drop 1 .done (.call (.allocate 8 7) (.call (.allocate 8 9) .done)))
    (.call (.allocate 16 8) .done)))) (.start (α := Nat) 0)).2 = [some 0, some 1, none, some 0] := by
  decide

/-- Objects of value 7 allocate an object of value 3 when they are destroyed. -/
def leavesThree (v : Nat) : List Nat := if v = 7 then [3] else []

theorem leaves_one {a : Abs Nat} {k : Nat} (hk : a.entries k = some (some 7)) (h : ∀ i, i ≠ k → a.entries i ≠ some (some 7)) : OneSpawns leavesThree a k 7 3 := by
  refine ⟨hk, rfl, rfl, ?_⟩
  intro i u hi hu
  unfold leavesThree
  rw [if_neg]
  rintro rfl
  exact h i hi hu

/-- The hypotheses of `C128_destroy_partial`: blocks of two entries of 4 bytes, 8 bytes apart, one object. -/
example : ∃ p a, Reached (α := Nat) 2 4 p a ∧ (∀ i, a.entries i ≠ some none) ∧ OneSpawns leavesThree a 0 7 3 ∧ (∀ b ∈ a.bases, Abs.Apart 2 4 (8 * a.bases.length) b) ∧
    0 < a.firstFree 2 ∧ (getFreeEntryCount p = 0 → (fun _ _ => true : Nat → Nat → Bool) (getBlockCount p) (getBlockCount p + 1) = false) := by
  have hok : okAll (α := Nat) 2 4 [.allocate 8 7] (.start 0) := by
    refine ⟨?_, trivial⟩
    simp only [Op.ok]; show ∀ b ∈ [0], _; simp [Abs.Apart]
  obtain ⟨p0, p, e0, e, s⟩ := C32_history 2 4 0 (by omega) _ hok
  have hent : ∀ i, (specAll 2 [.allocate 8 7] (.start 0)).1.entries i = if i = 0 then some (some 7) else none := fun _ => rfl
  refine ⟨p, _, ⟨by omega, 0, _, p0, _, e0, hok, e, rfl⟩, ?_, leaves_one rfl ?_, ?_, by decide, ?_⟩
  · intro i; rw [hent]; split <;> simp
  · intro i hi; rw [hent, if_neg hi]; simp
  · show ∀ b ∈ [0], Abs.Apart 2 4 (8 * 1) b; simp [Abs.Apart]
  · intro h0
    rw [s.free] at h0
    exact absurd h0 (by decide)

/-- The hypotheses of `C128_destroy_violated`: the object is behind a hole; the model runs into the leak.  In a full pool whose blocks are moved it ends in undefined
behaviour, and in a later block in the assertion. -/
example : ∃ p a, Reached (α := Nat) 2 4 p a ∧ (∀ i, a.entries i ≠ some none) ∧ OneSpawns leavesThree a 1 7 3 ∧ (∀ b ∈ a.bases, Abs.Apart 2 4 (8 * a.bases.length) b) ∧
    ¬ 1 < a.firstFree 2 := by
  have hok : okAll (α := Nat) 2 4 [.allocate 8 5, .allocate 8 7, .free 0] (.start 0) := by
    refine ⟨?_, ?_, ⟨5, rfl⟩, trivial⟩
    all_goals (simp only [Op.ok]; show ∀ b ∈ [0], _; simp [Abs.Apart])
  obtain ⟨p0, p, e0, e, s⟩ := C32_history 2 4 0 (by omega) _ hok
  have hent : ∀ i, (specAll 2 [.allocate 8 5, .allocate 8 7, .free 0] (.start 0)).1.entries i = if i = 0 then none else if i = 1 then some (some 7) else if i = 0 then some (some 5) else none :=
    fun _ => rfl
  refine ⟨p, _, ⟨by omega, 0, _, p0, _, e0, hok, e, rfl⟩, ?_, leaves_one rfl ?_, ?_, by decide⟩
  · intro i; rw [hent]; by_cases h0 : i = 0 <;> by_cases h1 : i = 1 <;> simp [h0, h1]
  · intro i hi; rw [hent]; by_cases h0 : i = 0 <;> simp [h0, hi]
  · show ∀ b ∈ [0], Abs.Apart 2 4 (8 * 1) b; simp [Abs.Apart]

/-- The model on literal pools: a pool made by the calls `os`, and its destructor. -/
def spawnDemo (os : List (Op Nat)) : M Nat := do
  let p ← new 2 0
  let r ← runAll 4 os p
  destructorS 4 (fun k => 8 * k) leavesThree (fun _ _ => true) 9 r.1

example : spawnDemo [.allocate 8 7] = .ok 0 := by decide +kernel
example : spawnDemo [.allocate 8 5, .allocate 8 7, .free 0] = .ok 1 := by decide +kernel
example : spawnDemo [.allocate 8 7, .allocate 8 5] = .error .ub := by decide +kernel
example : spawnDemo [.allocate 8 5, .allocate 8 5, .allocate 8 7] = .error .assert := by decide +kernel

end Verif.MemoryPool
