import Verif.MemoryPool.ModelNest
import Verif.MemoryPool.LemmasOwn
import Verif.MemoryPool.Props

/-!
# Properties of memory pools of objects whose constructors use the pool: C126
-/

namespace Verif.MemoryPool
open Verif.Cpp Verif.Bitset

variable {α β : Type}

/-! ### Any calls -/

theorem create_repr {bs S : Nat} {p : Pool α} {a : Abs α} (h : Repr bs S p a) (hbs : 0 < bs) {i : Nat} (hi : a.entries i = some none) (v : α) :
    ∃ q, onSlot p (i / bs) (i % bs) (fun m i => Slots.create m i v) = .ok q ∧ q.blockSize = bs ∧ Repr bs S q (a.set i (some (some v))) :=
  onSlot_repr h hbs (by simp [Abs.isLive, hi]) (fun g hg => Slots.create_mk v (Nat.mod_lt i hbs) (by rw [hg, hi]; rfl))

/-- The calls one after the other, as `Op`s. -/
def Calls.flat (bs : Nat) : Calls α → Abs α → List (Op α)
  | .done, _ => []
  | .call o rest, a => o :: rest.flat bs (o.spec bs a).1
  | .make base body v rest, a =>
    let i := a.firstFree bs
    let a0 := (a.grow bs base).set i (some none)
    let a1 := (body.spec bs a0).1
    match v with
    | none => .allocateDefer base :: (body.flat bs a0 ++ rest.flat bs a1)
    | some v => .allocateDefer base :: (body.flat bs a0 ++ .constructAt i v :: rest.flat bs (a1.set i (some (some v))))

theorem specAll_append {bs : Nat} (os os' : List (Op α)) (a : Abs α) : (specAll bs (os ++ os') a).1 = (specAll bs os' (specAll bs os a).1).1 := by
  induction os generalizing a with
  | nil => rfl
  | cons o os ih => simp only [List.cons_append, specAll, ih]

theorem okAll_append {bs S : Nat} (os os' : List (Op α)) (a : Abs α) : okAll bs S (os ++ os') a ↔ okAll bs S os a ∧ okAll bs S os' (specAll bs os a).1 := by
  induction os generalizing a with
  | nil => simp [okAll, specAll]
  | cons o os ih => simp only [List.cons_append, okAll, specAll, ih, and_assoc]

theorem runAll_append {S : Nat} (os os' : List (Op α)) {p q r : Pool α} {rs rs' : List (Option Nat)} (h : runAll S os p = .ok (q, rs)) (h' : runAll S os' q = .ok (r, rs')) :
    runAll S (os ++ os') p = .ok (r, rs ++ rs') := by
  induction os generalizing p rs with
  | nil => cases h; exact h'
  | cons o os ih =>
    simp only [runAll] at h
    cases ho : o.run S p with
    | error e => rw [ho] at h; cases h
    | ok x =>
      obtain ⟨p1, r1⟩ := x
      simp only [ho, ok_bind] at h
      cases hos : runAll S os p1 with
      | error e => rw [hos] at h; cases h
      | ok y =>
        obtain ⟨p2, r2⟩ := y
        simp only [hos, ok_bind, pure_ok] at h
        cases h
        simp only [List.cons_append, runAll, ho, ok_bind, ih hos, pure_ok]

theorem Calls.flat_spec {bs S : Nat} (cs : Calls α) (a : Abs α) (h : cs.ok bs S a) : okAll bs S (cs.flat bs a) a ∧ (specAll bs (cs.flat bs a) a).1 = (cs.spec bs a).1 := by
  induction cs generalizing a with
  | done => exact ⟨trivial, rfl⟩
  | call o rest ih => exact ⟨⟨h.1, (ih _ h.2).1⟩, (ih _ h.2).2⟩
  | make base body v rest ih1 ih2 =>
    obtain ⟨h1, h2, h3⟩ := h
    obtain ⟨b1, b2⟩ := ih1 _ h2
    cases v with
    | none =>
      obtain ⟨c1, c2⟩ := ih2 _ h3
      refine ⟨⟨h1, (okAll_append _ _ _).mpr ⟨b1, ?_⟩⟩, ?_⟩
      · rw [show (specAll bs (body.flat bs _) ((Op.allocateDefer base).spec bs a).1).1 = _ from b2]; exact c1
      · simp only [Calls.flat, specAll, specAll_append, Calls.spec]
        rw [show (specAll bs (body.flat bs _) ((Op.allocateDefer base).spec bs a).1).1 = _ from b2]; exact c2
    | some v =>
      obtain ⟨c1, c2⟩ := ih2 _ h3.2
      refine ⟨⟨h1, (okAll_append _ _ _).mpr ⟨b1, ?_⟩⟩, ?_⟩
      · rw [show (specAll bs (body.flat bs _) ((Op.allocateDefer base).spec bs a).1).1 = _ from b2]; exact ⟨h3.1, c1⟩
      · simp only [Calls.flat, specAll, specAll_append, Calls.spec]
        rw [show (specAll bs (body.flat bs _) ((Op.allocateDefer base).spec bs a).1).1 = _ from b2]; exact c2

theorem Calls.run_repr {bs S : Nat} (hbs : 0 < bs) (cs : Calls α) {p : Pool α} {a : Abs α} (h : Repr bs S p a) (hok : cs.ok bs S a) :
    ∃ q rs, cs.run S p = .ok (q, (cs.spec bs a).2) ∧ runAll S (cs.flat bs a) p = .ok (q, rs) ∧ Repr bs S q (cs.spec bs a).1 := by
  induction cs generalizing p a with
  | done => exact ⟨p, [], rfl, rfl, h⟩
  | call o rest ih =>
    obtain ⟨p1, e1, r1⟩ := runAll_repr h hbs [o] ⟨hok.1, trivial⟩
    have e1' : o.run S p = .ok (p1, (o.spec bs a).2) := by
      simp only [runAll, specAll] at e1
      cases ho : o.run S p with
      | error e => rw [ho] at e1; cases e1
      | ok x =>
        obtain ⟨x1, x2⟩ := x
        simp only [ho, ok_bind, pure_ok, Except.ok.injEq, Prod.mk.injEq, List.cons.injEq, and_true] at e1
        rw [e1.1, e1.2]
    obtain ⟨q, rs, e2, e3, r2⟩ := ih r1 hok.2
    have e3' : runAll S (rest.flat bs (o.spec bs a).1) p1 = .ok (q, rs) := e3
    refine ⟨q, (o.spec bs a).2 :: rs, ?_, ?_, r2⟩
    · simp only [Calls.run, e1', ok_bind, e2, pure_ok]; rfl
    · simp only [Calls.flat, runAll, e1', ok_bind, e3', pure_ok]
  | make base body v rest ih1 ih2 =>
    obtain ⟨h1, h2, h3⟩ := hok
    obtain ⟨p0, e0, r0⟩ := allocateDefer_repr h hbs h1
    obtain ⟨p1, rs1, e1, f1, r1⟩ := ih1 r0 h2
    cases v with
    | none =>
      obtain ⟨q, rs, e2, f2, r2⟩ := ih2 r1 h3
      refine ⟨q, some (a.firstFree bs) :: (rs1 ++ rs), ?_, ?_, r2⟩
      · simp only [Calls.run, allocateWith, e0, ok_bind, e1, pure_ok, e2]; rfl
      · simp only [Calls.flat, runAll, Op.run, e0, ok_bind, pure_ok, runAll_append _ _ f1 f2]
    | some v =>
      obtain ⟨p2, e2, s2, r2⟩ := create_repr r1 hbs h3.1 v
      obtain ⟨q, rs, e3, f3, r3⟩ := ih2 r2 h3.2
      have ec : constructAt S p1 (a.firstFree bs) v = .ok p2 := by
        have : Abs.isLive (body.spec bs ((a.grow bs base).set (a.firstFree bs) (some none))).1 (a.firstFree bs) = true := by
          simp [Abs.isLive, h3.1]
        simp only [constructAt, retrieve_repr r1 hbs, this, if_true, ok_bind, r1.size, e2]
      refine ⟨q, some (a.firstFree bs) :: (rs1 ++ none :: rs), ?_, ?_, r3⟩
      · simp only [Calls.run, allocateWith, e0, ok_bind, e1, pure_ok, r1.size, e2, e3]; rfl
      · have : runAll S (Op.constructAt (a.firstFree bs) v :: rest.flat bs
            ((body.spec bs ((a.grow bs base).set (a.firstFree bs) (some none))).1.set (a.firstFree bs) (some (some v)))) p1 = .ok (q, none :: rs) := by
          simp only [runAll, Op.run, ec, ok_bind, pure_ok, f3]
        simp only [Calls.flat, runAll, Op.run, e0, ok_bind, pure_ok, runAll_append _ _ f1 this]

/-- A constructor may make any calls on the pool that are allowed at that time: the entry of the object is taken first, then the constructor makes its calls, then the
object is there; the calls return the indices of this meaning, and the pool is one that could be reached without nested calls, so that all the properties of
such pools hold. -/
theorem C126_calls {bs S : Nat} {p : Pool α} {a : Abs α} (h : Reached bs S p a) (cs : Calls α) (hok : cs.ok bs S a) :
    ∃ q, cs.run S p = .ok (q, (cs.spec bs a).2) ∧ Reached bs S q (cs.spec bs a).1 ∧ Shows bs S q (cs.spec bs a).1 := by
  obtain ⟨q, rs, e, f, r⟩ := cs.run_repr h.1 h.repr hok
  obtain ⟨g1, g2⟩ := cs.flat_spec a hok
  refine ⟨q, e, ?_, shows_repr r h.1⟩
  obtain ⟨hbs, base, os, p0, rs0, e0, hok0, e1, rfl⟩ := h
  exact ⟨hbs, base, os ++ cs.flat bs _, p0, _, e0, (okAll_append _ _ _).mpr ⟨hok0, g1⟩, runAll_append _ _ e1 f, by rw [specAll_append, g2]⟩

/-! ### Trees in the objects of a pool -/

section Trees
variable {mk : β → List Nat → α} {owns : α → List Nat}

/-- The objects at the indices of the trees are all that matters. -/
theorem Holds.congr {m m' : Nat → Option α} {t : Trees β} {roots all : List Nat} (h : Holds mk m t roots all) (he : ∀ i ∈ all, m' i = m i) : Holds mk m' t roots all := by
  induction t generalizing roots all with
  | nil => exact h
  | cons x sub rest ih1 ih2 =>
    obtain ⟨i, ks, js, A, B, rfl, rfl, h1, h2, h3, h4⟩ := h
    refine ⟨i, ks, js, A, B, rfl, rfl, ?_, h2, ih1 h3 ?_, ih2 h4 ?_⟩
    · rw [he i (by simp)]; exact h1
    · exact fun j hj => he j (by simp [hj])
    · exact fun j hj => he j (by simp [hj])

theorem Holds.roots {m : Nat → Option α} {t : Trees β} {roots all : List Nat} (h : Holds mk m t roots all) : ∀ i ∈ roots, i ∈ all := by
  induction t generalizing roots all with
  | nil => obtain ⟨rfl, rfl⟩ := h; simp
  | cons x sub rest ih1 ih2 =>
    obtain ⟨i, ks, js, A, B, rfl, rfl, h1, h2, h3, h4⟩ := h
    intro j hj
    rcases List.mem_cons.mp hj with rfl | hj
    · simp
    · have := ih2 h4 j hj
      simp [this]

theorem Holds.length {m : Nat → Option α} {t : Trees β} {roots all : List Nat} (h : Holds mk m t roots all) : roots.length = t.count ∧ all.length = t.size := by
  induction t generalizing roots all with
  | nil => obtain ⟨rfl, rfl⟩ := h; simp [Trees.count, Trees.size]
  | cons x sub rest ih1 ih2 =>
    obtain ⟨i, ks, js, A, B, rfl, rfl, h1, h2, h3, h4⟩ := h
    have := ih1 h3
    have := ih2 h4
    simp only [List.length_cons, List.length_append, Trees.count, Trees.size]
    omega

theorem Holds.object {m : Nat → Option α} {t : Trees β} {roots all : List Nat} (h : Holds mk m t roots all) : ∀ i ∈ all, ∃ v, m i = some v := by
  induction t generalizing roots all with
  | nil => obtain ⟨rfl, rfl⟩ := h; simp
  | cons x sub rest ih1 ih2 =>
    obtain ⟨i, ks, js, A, B, rfl, rfl, h1, h2, h3, h4⟩ := h
    intro j hj
    rcases List.mem_cons.mp hj with rfl | hj
    · exact ⟨_, h1⟩
    · rcases List.mem_append.mp hj with hj | hj
      · exact ih1 h3 j hj
      · exact ih2 h4 j hj

/-- One more tree. -/
theorem Holds.add {m : Nat → Option α} {t : Trees β} {roots all : List Nat} (h : Holds mk m t roots all) {x : β} {sub : Trees β} {roots' all' : List Nat}
    (h' : Holds mk m (.cons x sub .nil) roots' all') : Holds mk m (t.add x sub) (roots ++ roots') (all ++ all') := by
  induction t generalizing roots all with
  | nil => obtain ⟨rfl, rfl⟩ := h; exact h'
  | cons y s rest ih1 ih2 =>
    obtain ⟨i, ks, js, A, B, rfl, rfl, h1, h2, h3, h4⟩ := h
    exact ⟨i, ks, js ++ roots', A, B ++ all', rfl, by simp, h1, h2, h3, ih2 h4⟩

/-- One tree less. -/
theorem Holds.erase {m : Nat → Option α} {t : Trees β} {roots all : List Nat} (h : Holds mk m t roots all) {k : Nat} (hk : k < t.count) :
    ∃ r x sub A B, rd roots k = .ok r ∧ Holds mk m (.cons x sub .nil) [r] A ∧ Holds mk m (t.erase k) (roots.eraseIdx k) B ∧ all.Perm (A ++ B) ∧
      1 + sub.height ≤ t.height := by
  induction t generalizing roots all k with
  | nil => exact absurd hk (by simp [Trees.count])
  | cons y s rest ih1 ih2 =>
    obtain ⟨i, ks, js, A, B, rfl, rfl, h1, h2, h3, h4⟩ := h
    cases k with
    | zero => exact ⟨i, y, s, i :: A, B, rfl, ⟨i, ks, [], A, [], rfl, by simp, h1, h2, h3, rfl, rfl⟩, h4, List.Perm.refl _, by simp only [Trees.height]; omega⟩
    | succ k =>
      obtain ⟨r, x, sub, A', B', e, g1, g2, g3, g4⟩ := ih2 h4 (k := k) (by simp only [Trees.count] at hk; omega)
      refine ⟨r, x, sub, A', i :: (A ++ B'), ?_, g1, ⟨i, ks, _, A, B', rfl, rfl, h1, h2, h3, g2⟩, ?_, by simp only [Trees.height]; omega⟩
      · simpa [rd] using e
      · refine List.Perm.trans ((List.Perm.cons i ((g3.append_left A).trans ?_))) (List.perm_middle.symm)
        rw [← List.append_assoc, ← List.append_assoc]
        exact List.perm_append_comm.append_right B'

theorem Trees.height_add (t : Trees β) (x : β) (sub : Trees β) : (t.add x sub).height = max t.height (1 + sub.height) := by
  induction t with
  | nil => simp [Trees.add, Trees.height]
  | cons y s rest ih1 ih2 => simp only [Trees.add, Trees.height, ih2]; omega

theorem Trees.height_erase (t : Trees β) (k : Nat) : (t.erase k).height ≤ t.height := by
  induction t generalizing k with
  | nil => exact Nat.le_refl _
  | cons y s rest ih1 ih2 =>
    cases k with
    | zero => simp only [Trees.erase, Trees.height]; omega
    | succ k => have := ih2 k; simp only [Trees.erase, Trees.height]; omega

/-- The nodes own nodes with greater indices, which are not roots; a node is owned once. -/
theorem Holds.owned (hmk : ∀ x ks, owns (mk x ks) = ks) {m : Nat → Option α} {t : Trees β} {roots all : List Nat} (h : Holds mk m t roots all) (hn : all.Nodup) :
    roots.Nodup ∧ (∀ i ∈ all, ∀ v, m i = some v → (owns v).Nodup ∧ ∀ j ∈ owns v, j ∈ all ∧ i < j ∧ j ∉ roots) ∧
    (∀ i ∈ all, ∀ j ∈ all, ∀ v w k, m i = some v → m j = some w → k ∈ owns v → k ∈ owns w → i = j) ∧
    ∃ rank : Nat → Nat, (∀ i, i ∉ all → rank i = 0) ∧ (∀ i ∈ all, rank i < t.height) ∧ ∀ i ∈ all, ∀ v, m i = some v → ∀ j ∈ owns v, rank j < rank i := by
  induction t generalizing roots all with
  | nil => obtain ⟨rfl, rfl⟩ := h; exact ⟨List.nodup_nil, by simp, by simp, fun _ => 0, by simp⟩
  | cons x sub rest ih1 ih2 =>
    obtain ⟨i, ks, js, A, B, rfl, rfl, h1, h2, h3, h4⟩ := h
    rw [List.nodup_cons, List.mem_append, not_or, List.nodup_append] at hn
    obtain ⟨⟨hiA, hiB⟩, hA, hB, hAB⟩ := hn
    obtain ⟨a1, a2, a3, ra, a4, a5, a6⟩ := ih1 h3 hA
    obtain ⟨b1, b2, b3, rb, b4, b5, b6⟩ := ih2 h4 hB
    have hks := h3.roots
    have hjs := h4.roots
    have hdisj : ∀ j, j ∈ A → j ∉ B := fun j hj hj' => hAB j hj j hj' rfl
    have hmi : ∀ v, m i = some v → owns v = ks := by
      intro v hv
      rw [h1] at hv
      cases hv
      exact hmk x ks
    refine ⟨List.nodup_cons.mpr ⟨fun hj => hiB (hjs i hj), b1⟩, ?_, ?_, fun j => if j = i then sub.height else if j ∈ A then ra j else rb j, ?_, ?_, ?_⟩
    · intro j hj v hv
      rcases List.mem_cons.mp hj with rfl | hj
      · rw [hmi v hv]
        refine ⟨a1, fun k hk => ⟨by simp [hks k hk], h2 k (hks k hk), ?_⟩⟩
        intro hk'
        rcases List.mem_cons.mp hk' with rfl | hk'
        · exact hiA (hks _ hk)
        · exact hdisj k (hks k hk) (hjs k hk')
      · rcases List.mem_append.mp hj with hj | hj
        · obtain ⟨c1, c2⟩ := a2 j hj v hv
          refine ⟨c1, fun k hk => ⟨by simp [(c2 k hk).1], (c2 k hk).2.1, ?_⟩⟩
          intro hk'
          rcases List.mem_cons.mp hk' with rfl | hk'
          · exact hiA (c2 _ hk).1
          · exact hdisj k (c2 k hk).1 (hjs k hk')
        · obtain ⟨c1, c2⟩ := b2 j hj v hv
          refine ⟨c1, fun k hk => ⟨by simp [(c2 k hk).1], (c2 k hk).2.1, ?_⟩⟩
          intro hk'
          rcases List.mem_cons.mp hk' with rfl | hk'
          · exact hiB (c2 _ hk).1
          · exact (c2 k hk).2.2 hk'
    · -- who owns `k`
      have own : ∀ j ∈ i :: (A ++ B), ∀ v k, m j = some v → k ∈ owns v → (j = i ∧ k ∈ ks) ∨ (j ∈ A ∧ k ∈ A ∧ k ∉ ks) ∨ (j ∈ B ∧ k ∈ B) := by
        intro j hj v k hv hk
        rcases List.mem_cons.mp hj with rfl | hj
        · rw [hmi v hv] at hk; exact .inl ⟨rfl, hk⟩
        · rcases List.mem_append.mp hj with hj | hj
          · obtain ⟨c1, _, c3⟩ := (a2 j hj v hv).2 k hk
            exact .inr (.inl ⟨hj, c1, c3⟩)
          · exact .inr (.inr ⟨hj, ((b2 j hj v hv).2 k hk).1⟩)
      intro j hj j' hj' v w k hv hw hkv hkw
      rcases own j hj v k hv hkv with ⟨c1, c2⟩ | ⟨c1, c2, c3⟩ | ⟨c1, c2⟩ <;> rcases own j' hj' w k hw hkw with ⟨d1, d2⟩ | ⟨d1, d2, d3⟩ | ⟨d1, d2⟩
      · rw [c1, d1]
      · exact absurd c2 d3
      · exact absurd d2 (hdisj k (hks k c2))
      · exact absurd d2 c3
      · exact a3 j c1 j' d1 v w k hv hw hkv hkw
      · exact absurd d2 (hdisj k c2)
      · exact absurd c2 (hdisj k (hks k d2))
      · exact absurd c2 (hdisj k d2)
      · exact b3 j c1 j' d1 v w k hv hw hkv hkw
    · intro j hj
      simp only [List.mem_cons, List.mem_append, not_or] at hj
      show (if j = i then sub.height else if j ∈ A then ra j else rb j) = 0
      rw [if_neg hj.1, if_neg hj.2.1]
      exact b4 j hj.2.2
    · intro j hj
      show (if j = i then sub.height else if j ∈ A then ra j else rb j) < max (1 + sub.height) rest.height
      split
      · omega
      · next hji =>
        split
        · next hA' => have := a5 j hA'; omega
        · next hA' =>
          have := b5 j (by simpa [hji, hA'] using hj)
          omega
    · intro j hj v hv k hk
      show (if k = i then sub.height else if k ∈ A then ra k else rb k) < (if j = i then sub.height else if j ∈ A then ra j else rb j)
      rcases List.mem_cons.mp hj with rfl | hj
      · rw [hmi v hv] at hk
        have hkA := hks k hk
        rw [if_neg (by rintro rfl; exact hiA ‹_ ∈ A›), if_pos hkA, if_pos rfl]
        exact a5 k hkA
      · rcases List.mem_append.mp hj with hj | hj
        · have hkA := ((a2 j hj v hv).2 k hk).1
          rw [if_neg (by rintro rfl; exact hiA ‹_ ∈ A›), if_pos hkA, if_neg (by rintro rfl; exact hiA ‹_ ∈ A›), if_pos hj]
          exact a6 j hj v hv k hk
        · have hkB := ((b2 j hj v hv).2 k hk).1
          rw [if_neg (by rintro rfl; exact hiB ‹_ ∈ B›), if_neg (fun e => hdisj k e hkB), if_neg (by rintro rfl; exact hiB ‹_ ∈ B›), if_neg (fun e => hdisj j e hj)]
          exact b6 j hj v hv k hk

/-! ### The calls on trees -/

theorem Fresh.grow {bs S : Nat} {bases : Nat → Nat} {a : Abs α} (h : Fresh bs S bases a) : Fresh bs S bases (a.grow bs (bases a.bases.length)) := by
  unfold Abs.grow
  split
  · intro k hk
    simp only [List.length_append, List.length_cons, List.length_nil] at hk ⊢
    refine ⟨?_, fun k' hk' hn => (h k (by omega)).2 k' (by omega) hn⟩
    intro x hx
    rcases List.mem_append.mp hx with hx | hx
    · exact (h k (by omega)).1 x hx
    · rw [List.mem_singleton] at hx
      subst hx
      exact (h k (by omega)).2 _ (Nat.le_refl _) (by omega)
  · exact h

theorem firstFree_before {bs : Nat} {a : Abs α} : ∀ j, j < a.firstFree bs → a.isLive j = true := by
  intro j hj
  unfold Abs.firstFree at hj
  cases hf : (List.range (a.capacity bs)).find? (fun i => !a.isLive i) with
  | none =>
    rw [hf] at hj
    have := List.find?_eq_none.mp hf j (List.mem_range.mpr hj)
    simpa using this
  | some i =>
    rw [hf] at hj
    rw [List.find?_range_eq_some] at hf
    have := hf.2.2 j hj
    simpa using this

theorem live_nodup {bs : Nat} (a : Abs α) : (a.live bs).Nodup := List.nodup_range.filter _

theorem grow_entries {bs base : Nat} (a : Abs α) : (a.grow bs base).entries = a.entries := by
  unfold Abs.grow
  split <;> rfl

theorem Abs.grow_prefix {bs : Nat} (a : Abs α) (base : Nat) : a.bases <+: (a.grow bs base).bases := by
  unfold Abs.grow
  split
  · exact List.prefix_append _ _
  · exact List.prefix_refl _

theorem build_repr {bs S : Nat} (hbs : 0 < bs) {bases : Nat → Nat} (t : Trees β) {p : Pool α} {a : Abs α} (h : Repr bs S p a) (hf : Fresh bs S bases a) :
    ∃ q b js all, build S bases mk t p = .ok (q, js) ∧ Repr bs S q b ∧ Fresh bs S bases b ∧ Holds mk b.object t js all ∧ all.Pairwise (· < ·) ∧
      (∀ i ∈ all, a.isLive i = false ∧ ∃ v, b.entries i = some (some v)) ∧ (∀ i, i ∉ all → b.entries i = a.entries i) ∧
      (∀ i ∈ all, ∀ j, j < i → b.isLive j = true) ∧ a.bases <+: b.bases := by
  induction t generalizing p a with
  | nil => exact ⟨p, a, [], [], rfl, h, hf, ⟨rfl, rfl⟩, List.Pairwise.nil, by simp, by simp, by simp, List.prefix_refl _⟩
  | cons x sub rest ih1 ih2 =>
    have hfree := firstFree_free h hbs
    have hbefore := firstFree_before (bs := bs) (a := a)
    obtain ⟨p0, e0, r0⟩ := allocateDefer_repr h hbs (base := bases a.bases.length) (hf _ (Nat.le_refl _)).1
    generalize hi : a.firstFree bs = i at *
    have hlive0 : ∀ j, j < i → ((a.grow bs (bases a.bases.length)).set i (some none)).isLive j = true := by
      intro j hj
      rw [Abs.isLive, Abs.set_other _ _ _ (by omega), grow_entries]
      exact hbefore j hj
    have hf0 : Fresh bs S bases ((a.grow bs (bases a.bases.length)).set i (some none)) := hf.grow
    obtain ⟨p1, b1, ks, A, e1, r1, f1, h1, s1, n1, o1, l1, x1⟩ := ih1 r0 hf0
    have hAi : ∀ j ∈ A, i < j := by
      intro j hj
      have hj' := (n1 j hj).1
      rcases Nat.lt_trichotomy j i with hlt | rfl | hlt
      · rw [hlive0 j hlt] at hj'; cases hj'
      · simp [Abs.isLive, Abs.set] at hj'
      · exact hlt
    have hiA : i ∉ A := fun hiA => Nat.lt_irrefl _ (hAi i hiA)
    have hib : b1.entries i = some none := by rw [o1 i hiA, Abs.set_same]
    obtain ⟨p2, e2, _, r2⟩ := create_repr r1 hbs hib (mk x ks)
    have f2 : Fresh bs S bases (b1.set i (some (some (mk x ks)))) := f1
    obtain ⟨q, b, js, B, e3, r3, f3, h3, s3, n3, o3, l3, x3⟩ := ih2 r2 f2
    have live12 : ∀ j, b1.isLive j = true → (b1.set i (some (some (mk x ks)))).isLive j = true := by
      intro j hj
      by_cases hji : j = i
      · subst hji; simp [Abs.isLive, Abs.set]
      · rw [Abs.isLive, Abs.set_other _ _ _ hji]; exact hj
    have hAB : ∀ j ∈ A, ∀ k ∈ B, j < k := by
      intro j hj k hk
      have hk' := (n3 k hk).1
      rcases Nat.lt_trichotomy j k with hlt | rfl | hlt
      · exact hlt
      · obtain ⟨v, hv⟩ := (n1 j hj).2
        rw [live12 j (by simp [Abs.isLive, hv])] at hk'
        cases hk'
      · rw [live12 k (l1 j hj k hlt)] at hk'; cases hk'
    have hiB : ∀ k ∈ B, i < k := by
      intro k hk
      have hk' := (n3 k hk).1
      rcases Nat.lt_trichotomy i k with hlt | rfl | hlt
      · exact hlt
      · simp [Abs.isLive, Abs.set] at hk'
      · have : b1.isLive k = true := by
          by_cases hkA : k ∈ A
          · obtain ⟨v, hv⟩ := (n1 k hkA).2
            simp [Abs.isLive, hv]
          · rw [Abs.isLive, o1 k hkA]; exact hlive0 k hlt
        rw [live12 k this] at hk'; cases hk'
    have hei : b.entries i = some (some (mk x ks)) := by
      rw [o3 i (fun hh => Nat.lt_irrefl _ (hiB i hh)), Abs.set_same]
    have heA : ∀ j ∈ A, b.entries j = b1.entries j := by
      intro j hj
      rw [o3 j (fun hh => Nat.lt_irrefl _ (hAB j hj j hh)), Abs.set_other _ _ _ (by have := hAi j hj; omega)]
    have hother : ∀ j, j ∉ i :: (A ++ B) → b.entries j = a.entries j := by
      intro j hj
      simp only [List.mem_cons, List.mem_append, not_or] at hj
      rw [o3 j hj.2.2, Abs.set_other _ _ _ hj.1, o1 j hj.2.1, Abs.set_other _ _ _ hj.1, grow_entries]
    have hobj : ∀ j ∈ i :: (A ++ B), ∃ v, b.entries j = some (some v) := by
      intro j hj
      rcases List.mem_cons.mp hj with rfl | hj
      · exact ⟨_, hei⟩
      · rcases List.mem_append.mp hj with hj | hj
        · rw [heA j hj]; exact (n1 j hj).2
        · exact (n3 j hj).2
    have hlivei : ∀ j, j < i → b.isLive j = true := by
      intro j hj
      rw [Abs.isLive, hother j]
      · exact hbefore j hj
      · intro hm
        rcases List.mem_cons.mp hm with rfl | hm
        · omega
        · rcases List.mem_append.mp hm with hm | hm
          · have := hAi j hm; omega
          · have := hiB j hm; omega
    refine ⟨q, b, i :: js, i :: (A ++ B), ?_, r3, f3, ⟨i, ks, js, A, B, rfl, rfl, ?_, hAi, h1.congr ?_, h3⟩, ?_, ?_, hother, ?_, ((Abs.grow_prefix a _).trans x1).trans x3⟩
    · simp only [build, allocateWith, h.len, e0, ok_bind, e1, pure_ok, r1.size, e2, e3]
    · rw [Abs.object, hei]; rfl
    · intro j hj
      simp only [Abs.object, heA j hj]
    · refine List.pairwise_cons.mpr ⟨?_, List.pairwise_append.mpr ⟨s1, s3, hAB⟩⟩
      intro j hj
      rcases List.mem_append.mp hj with hj | hj
      · exact hAi j hj
      · exact hiB j hj
    · intro j hj
      refine ⟨?_, hobj j hj⟩
      rcases List.mem_cons.mp hj with rfl | hj
      · exact hfree
      · rcases List.mem_append.mp hj with hj | hj
        · have := (n1 j hj).1
          rw [Abs.isLive, Abs.set_other _ _ _ (by have := hAi j hj; omega), grow_entries] at this
          exact this
        · have := (n3 j hj).1
          have hji : j ≠ i := by have := hiB j hj; omega
          rw [Abs.isLive, Abs.set_other _ _ _ hji, o1 j (fun hh => Nat.lt_irrefl _ (hAB j hh j hj)), Abs.set_other _ _ _ hji, grow_entries] at this
          exact this
    · intro j hj k hk
      by_cases hm : k ∈ i :: (A ++ B)
      · obtain ⟨v, hv⟩ := hobj k hm
        simp [Abs.isLive, hv]
      · rcases List.mem_cons.mp hj with rfl | hj
        · exact hlivei k hk
        · rcases List.mem_append.mp hj with hj | hj
          · have hl := l1 j hj k hk
            simp only [List.mem_cons, List.mem_append, not_or] at hm
            rw [Abs.isLive, o3 k hm.2.2]
            exact live12 k hl
          · exact l3 j hj k hk

theorem freeAll_holds (hmk : ∀ x ks, owns (mk x ks) = ks) {bs S : Nat} (hbs : 0 < bs) (t : Trees β) {depth : Nat} {p : Pool α} {a : Abs α} {roots all : List Nat}
    (h : Repr bs S p a) (hh : Holds mk a.object t roots all) (hn : all.Nodup) (hd : t.height ≤ depth) :
    ∃ q, roots.foldlM (freeO S owns depth) p = .ok q ∧ Repr bs S q (a.without (· ∈ all)) := by
  induction t generalizing depth p a roots all with
  | nil =>
    obtain ⟨rfl, rfl⟩ := hh
    refine ⟨p, rfl, ?_⟩
    have : a.without (· ∈ ([] : List Nat)) = a := by
      have := Abs.without_congr a (P := (· ∈ ([] : List Nat))) (Q := fun _ => False) (by simp)
      rw [this, Abs.without_none]
    rw [this]; exact h
  | cons x sub rest ih1 ih2 =>
    obtain ⟨i, ks, js, A, B, rfl, rfl, h1, h2, h3, h4⟩ := hh
    simp only [Trees.height] at hd
    obtain ⟨d, rfl⟩ : ∃ d, depth = d + 1 := ⟨depth - 1, by omega⟩
    rw [List.nodup_cons, List.mem_append, not_or, List.nodup_append] at hn
    obtain ⟨⟨hiA, hiB⟩, hA, hB, hAB⟩ := hn
    have hi := object_some.mp h1
    obtain ⟨z, ez⟩ := h.from.pointer (S := S) hbs (i := i) (by simp [Abs.isLive, hi])
    obtain ⟨b, p1, e1, e2, e3, r1'⟩ := h.from.destroy hbs hi
    have r1 : Repr bs S p1 (a.set i (some none)) := r1'.repr h.apart
    obtain ⟨p2, e4, r2⟩ := ih1 (depth := d) r1 (h3.congr (m' := (a.set i (some none)).object) (fun j hj => by
      rw [object_set, if_neg (fun e : j = i => hiA (e ▸ hj))])) hA (by omega)
    have hi2 : ((a.set i (some none)).without (· ∈ A)).entries i = some none := by
      rw [Abs.without_neg _ hiA, Abs.set_same]
    obtain ⟨p3, e5, r3⟩ := release_repr r2 hbs hi2
    have ea : ((a.set i (some none)).without (· ∈ A)).set i none = a.without (fun j => j = i ∨ j ∈ A) := by
      apply Abs.ext'
      · intro j
        by_cases hji : j = i
        · subst hji; rw [Abs.set_same, Abs.without_pos _ (.inl rfl)]
        · rw [Abs.set_other _ _ _ hji]
          by_cases hjA : j ∈ A
          · rw [Abs.without_pos _ hjA, Abs.without_pos _ (.inr hjA)]
          · rw [Abs.without_neg _ hjA, Abs.without_neg _ (by simp [hji, hjA]), Abs.set_other _ _ _ hji]
      · rfl
    rw [ea] at r3
    obtain ⟨q, e6, r4⟩ := ih2 (depth := d + 1) r3 (h4.congr (m' := (a.without (fun j => j = i ∨ j ∈ A)).object) (fun j hj => by
      have : ¬ (j = i ∨ j ∈ A) := by
        rintro (rfl | hjA)
        · exact hiB hj
        · exact hAB j hjA j hj rfl
      simp only [Abs.object, Abs.without_neg a (P := fun j => j = i ∨ j ∈ A) this])) hB (by omega)
    have h0 : (bs != 0) = true := by simp; omega
    refine ⟨q, ?_, ?_⟩
    · have ef : freeO S owns (d + 1) p i = .ok p3 := by
        simp only [freeO, h.size, h0, guardUB_true, ok_bind, ez, destroyWith, e1, e2, e3, hmk, e4, r2.size, e5]
      simp only [List.foldlM_cons, ef, ok_bind, e6]
    · rw [Abs.without_without] at r4
      have : a.without (· ∈ i :: (A ++ B)) = a.without (fun j => (j = i ∨ j ∈ A) ∨ j ∈ B) := Abs.without_congr _ (by simp [or_assoc])
      rw [this]; exact r4

/-- The pool holds the trees `t`, with roots at `roots`, and nothing else. -/
def Garden (mk : β → List Nat → α) (bs S : Nat) (bases : Nat → Nat) (p : Pool α) (roots : List Nat) (t : Trees β) : Prop :=
  ∃ a all, Repr bs S p a ∧ Fresh bs S bases a ∧ Holds mk a.object t roots all ∧ all.Nodup ∧ ∀ i, i ∈ all ↔ a.isLive i = true

theorem nodup_of_lt {l : List Nat} (h : l.Pairwise (· < ·)) : l.Nodup := h.imp (fun h => Nat.ne_of_lt h)

theorem Garden.plant {bs S : Nat} (hbs : 0 < bs) {bases : Nat → Nat} {p : Pool α} {roots : List Nat} {t : Trees β} (h : Garden mk bs S bases p roots t) (x : β) (sub : Trees β) :
    ∃ q js, build S bases mk (.cons x sub .nil) p = .ok (q, js) ∧ Garden mk bs S bases q (roots ++ js) (t.add x sub) := by
  obtain ⟨a, all, r, f, hh, hn, hl⟩ := h
  obtain ⟨q, b, js, new, e, r', f', h', s', n', o', _, _⟩ := build_repr (mk := mk) hbs (.cons x sub .nil) r f
  have hdisj : ∀ i ∈ all, i ∉ new := by
    intro i hi hi'
    have := (n' i hi').1
    rw [(hl i).mp hi] at this
    cases this
  refine ⟨q, js, e, b, all ++ new, r', f', (hh.congr ?_).add h', List.nodup_append.mpr ⟨hn, nodup_of_lt s', ?_⟩, ?_⟩
  · intro i hi
    simp only [Abs.object, o' i (hdisj i hi)]
  · intro i hi j hj e
    subst e
    exact hdisj i hi hj
  · intro i
    rw [List.mem_append]
    by_cases hi : i ∈ new
    · obtain ⟨v, hv⟩ := (n' i hi).2
      simp [hi, Abs.isLive, hv]
    · simp only [hi, or_false, Abs.isLive, o' i hi]
      exact hl i

theorem Garden.fell (hmk : ∀ x ks, owns (mk x ks) = ks) {bs S : Nat} (hbs : 0 < bs) {bases : Nat → Nat} {p : Pool α} {roots : List Nat} {t : Trees β}
    (h : Garden mk bs S bases p roots t) {k : Nat} (hk : k < t.count) {depth : Nat} (hd : t.height ≤ depth) :
    ∃ r q, rd roots k = .ok r ∧ freeO S owns depth p r = .ok q ∧ Garden mk bs S bases q (roots.eraseIdx k) (t.erase k) := by
  obtain ⟨a, all, r, f, hh, hn, hl⟩ := h
  obtain ⟨root, x, sub, A, B, e, h1, h2, hp, hlev⟩ := hh.erase hk
  have hn' := hp.nodup_iff.mp hn
  rw [List.nodup_append] at hn'
  obtain ⟨hA, hB, hAB⟩ := hn'
  obtain ⟨q, eq, rq⟩ := freeAll_holds hmk hbs (.cons x sub .nil) (depth := depth) r h1 hA (by simp only [Trees.height]; omega)
  have hdisj : ∀ j ∈ B, j ∉ A := fun j hj hj' => hAB j hj' j hj rfl
  refine ⟨root, q, e, ?_, a.without (· ∈ A), B, rq, f, h2.congr ?_, hB, ?_⟩
  · simp only [List.foldlM_cons, List.foldlM_nil] at eq
    cases hfr : freeO S owns depth p root with
    | error er => rw [hfr] at eq; cases eq
    | ok y => rw [hfr] at eq; exact eq
  · intro j hj
    simp only [Abs.object, Abs.without_neg a (hdisj j hj)]
  · intro j
    have hj := hl j
    rw [hp.mem_iff, List.mem_append] at hj
    by_cases hjA : j ∈ A
    · simp [Abs.isLive, Abs.without_pos a hjA]
      exact fun hj' => hdisj j hj' hjA
    · rw [Abs.isLive, Abs.without_neg a hjA]
      simpa [hjA, Abs.isLive] using hj

theorem Garden.tend (hmk : ∀ x ks, owns (mk x ks) = ks) {bs S : Nat} (hbs : 0 < bs) {bases : Nat → Nat} {depth : Nat} (acts : List (Act β)) {p : Pool α} {roots : List Nat}
    {t : Trees β} (h : Garden mk bs S bases p roots t) (hd : t.height ≤ depth) (hok : okActs depth acts t) :
    ∃ q roots', MemoryPool.tend S bases mk owns depth acts (p, roots) = .ok (q, roots') ∧ Garden mk bs S bases q roots' (grown acts t) ∧ (grown acts t).height ≤ depth := by
  induction acts generalizing p roots t with
  | nil => exact ⟨p, roots, rfl, h, hd⟩
  | cons act acts ih =>
    cases act with
    | plant x sub =>
      obtain ⟨q, js, e, g⟩ := h.plant hbs x sub
      obtain ⟨q', roots', e', g'⟩ := ih g (by rw [Trees.height_add]; have := hok.1; omega) hok.2
      exact ⟨q', roots', by simp only [MemoryPool.tend, e, ok_bind, e'], g'⟩
    | fell k =>
      obtain ⟨r, q, e1, e2, g⟩ := h.fell hmk hbs hok.1 hd
      obtain ⟨q', roots', e', g'⟩ := ih g (Nat.le_trans (Trees.height_erase t k) hd) hok.2
      exact ⟨q', roots', by simp only [MemoryPool.tend, e1, e2, ok_bind, e'], g'⟩

theorem Garden.start {bs S : Nat} {bases : Nat → Nat} (hb : ∀ j k, j ≠ k → Abs.Apart bs S (bases j) (bases k)) :
    ∃ p : Pool α, new bs (bases 0) = .ok p ∧ Garden mk bs S bases p [] .nil := by
  obtain ⟨p, e, r⟩ := new_repr (α := α) (bs := bs) (S := S) (bases 0)
  refine ⟨p, e, _, [], r, ?_, ⟨rfl, rfl⟩, List.nodup_nil, ?_⟩
  · intro k hk
    have hk' : 1 ≤ k := hk
    refine ⟨?_, fun k' _ hn => hb k k' hn⟩
    intro x hx
    obtain rfl := List.mem_singleton.mp (show x ∈ [bases 0] from hx)
    exact hb k 0 (by omega)
  · intro i
    simp [Abs.isLive, Abs.start]

/-- Making trees whose constructors allocate the subtrees from the pool: afterwards the trees can be read back from the indices of their roots, the nodes have entries that
were free, and the other entries are as before. -/
theorem C126_build {bs S : Nat} {p : Pool α} {a : Abs α} (h : Reached bs S p a) (bases : Nat → Nat) (hf : Fresh bs S bases a) (t : Trees β) :
    ∃ q roots all, build S bases mk t p = .ok (q, roots) ∧ Holds mk (fun i => (readAt S q i).toOption) t roots all ∧ all.Nodup ∧
      (∀ i ∈ all, retrieveFromIndex S p i = .error .assert ∧ ∃ x, retrieveFromIndex S q i = .ok x) ∧
      (∀ i, i ∉ all → retrieveFromIndex S q i = retrieveFromIndex S p i) ∧
      (∀ i v, i ∉ all → a.entries i = some (some v) → readAt S q i = .ok v) ∧
      getAllocatedEntryCount q = getAllocatedEntryCount p + t.size := by
  have hbs := h.1
  obtain ⟨q, b, js, all, e, r, _, hh, hs, hn, ho, hl, hpre⟩ := build_repr (mk := mk) hbs t h.repr hf
  have hbp : ∀ i, a.isLive i = true → i ∉ all := by
    intro i hi hm
    rw [(hn i hm).1] at hi
    cases hi
  refine ⟨q, js, all, e, hh.congr ?_, nodup_of_lt hs, ?_, ?_, ?_, ?_⟩
  · intro i hi
    obtain ⟨v, hv⟩ := (hn i hi).2
    rw [readAt_repr r hbs hv, object_some.mpr hv]; rfl
  · intro i hi
    obtain ⟨h1, v, hv⟩ := hn i hi
    rw [retrieve_repr h.repr hbs, retrieve_repr r hbs, h1]
    simp [Abs.isLive, hv]
  · intro i hi
    rw [retrieve_repr h.repr hbs, retrieve_repr r hbs, Abs.isLive, Abs.isLive, ho i hi]
    split
    · next hlive =>
      have := h.repr.bound i hlive
      have hlt : i / bs < a.bases.length := div_lt_blocks this
      obtain ⟨z, hz⟩ := hpre
      simp only [Abs.address, ← hz, List.getD_eq_getElem?_getD, List.getElem?_append_left hlt]
    · rfl
  · intro i v hi hv
    exact readAt_repr r hbs (by rw [ho i hi]; exact hv)
  · rw [allocated_repr h.repr, allocated_repr r, ← hh.length.2, ← List.length_append]
    apply List.Perm.length_eq
    rw [List.perm_ext_iff_of_nodup (live_nodup _) (List.nodup_append.mpr ⟨live_nodup _, nodup_of_lt hs, ?_⟩)]
    · intro i
      simp only [Abs.live, List.mem_filter, List.mem_append, List.mem_range]
      by_cases hi : i ∈ all
      · obtain ⟨v, hv⟩ := (hn i hi).2
        have hlive : b.isLive i = true := by simp [Abs.isLive, hv]
        simp [hi, hlive, r.bound i hlive]
      · have : b.isLive i = a.isLive i := by simp only [Abs.isLive, ho i hi]
        simp only [hi, or_false, this]
        constructor
        · exact fun hc => ⟨h.repr.bound i hc.2, hc.2⟩
        · exact fun hc => ⟨r.bound i (by rw [this]; exact hc.2), hc.2⟩
    · intro i hi j hj e
      subst e
      exact hbp i (List.mem_filter.mp hi).2 hj

/-- Trees that are made and whose roots are freed leave the pool as it was. -/
theorem C126_return (hmk : ∀ x ks, owns (mk x ks) = ks) {bs S depth : Nat} {p : Pool α} {a : Abs α} (h : Reached bs S p a) (bases : Nat → Nat) (hf : Fresh bs S bases a)
    (t : Trees β) (hd : t.height ≤ depth) :
    ∃ q roots r, build S bases mk t p = .ok (q, roots) ∧ roots.foldlM (freeO S owns depth) q = .ok r ∧
      (∀ i, retrieveFromIndex S r i = retrieveFromIndex S p i) ∧ (∀ i v, a.entries i = some (some v) → readAt S r i = .ok v) ∧
      getAllocatedEntryCount r = getAllocatedEntryCount p := by
  have hbs := h.1
  obtain ⟨q, b, js, all, e, r, _, hh, hs, hn, ho, hl, hpre⟩ := build_repr (mk := mk) hbs t h.repr hf
  obtain ⟨z, ez, rz⟩ := freeAll_holds hmk hbs t r hh (nodup_of_lt hs) hd
  have hent : ∀ i, (b.without (· ∈ all)).entries i = a.entries i := by
    intro i
    by_cases hi : i ∈ all
    · rw [Abs.without_pos _ hi]
      exact (isLive_false (hn i hi).1).symm
    · rw [Abs.without_neg _ hi, ho i hi]
  have hlive : ∀ i, (b.without (· ∈ all)).isLive i = a.isLive i := fun i => by rw [Abs.isLive, hent i]; rfl
  refine ⟨q, js, z, e, ez, ?_, ?_, ?_⟩
  · intro i
    rw [retrieve_repr h.repr hbs, retrieve_repr rz hbs, hlive]
    split
    · next hl' =>
      have := h.repr.bound i hl'
      have hlt : i / bs < a.bases.length := div_lt_blocks this
      obtain ⟨z, hz⟩ := hpre
      simp only [Abs.address, Abs.without, ← hz, List.getD_eq_getElem?_getD, List.getElem?_append_left hlt]
    · rfl
  · intro i v hv
    exact readAt_repr rz hbs (by rw [hent]; exact hv)
  · rw [allocated_repr h.repr, allocated_repr rz]
    apply List.Perm.length_eq
    rw [List.perm_ext_iff_of_nodup (live_nodup _) (live_nodup _)]
    intro i
    simp only [Abs.live, List.mem_filter, List.mem_range, hlive]
    constructor
    · exact fun hc => ⟨h.repr.bound i hc.2, hc.2⟩
    · exact fun hc => ⟨rz.bound i (by rw [hlive]; exact hc.2), hc.2⟩

/-- A program that makes trees and frees roots in any order: the pool holds the trees that are made and not freed, and nothing else. -/
theorem C126_trees (hmk : ∀ x ks, owns (mk x ks) = ks) {bs S depth : Nat} (hbs : 0 < bs) (bases : Nat → Nat) (hb : ∀ j k, j ≠ k → Abs.Apart bs S (bases j) (bases k))
    (acts : List (Act β)) (hok : okActs depth acts .nil) :
    ∃ p0 q roots all, new bs (bases 0) = .ok p0 ∧ tend S bases mk owns depth acts (p0, []) = .ok (q, roots) ∧
      Holds mk (fun i => (readAt S q i).toOption) (grown acts .nil) roots all ∧ all.Nodup ∧ (∀ i, i ∈ all ↔ ∃ x, retrieveFromIndex S q i = .ok x) ∧
      getAllocatedEntryCount q = (grown acts .nil).size := by
  obtain ⟨p0, e0, g0⟩ := Garden.start (mk := mk) hb
  obtain ⟨q, roots, e, ⟨a, all, r, f, hh, hn, hl⟩, _⟩ := g0.tend hmk hbs acts (Nat.zero_le _) hok
  refine ⟨p0, q, roots, all, e0, e, hh.congr ?_, hn, ?_, ?_⟩
  · intro i hi
    obtain ⟨v, hv⟩ := hh.object i hi
    rw [readAt_repr r hbs (object_some.mp hv), hv]; rfl
  · intro i
    rw [hl i, retrieve_repr r hbs]
    cases a.isLive i <;> simp
  · rw [allocated_repr r, ← hh.length.2]
    apply List.Perm.length_eq
    rw [List.perm_ext_iff_of_nodup (live_nodup _) hn]
    intro i
    rw [hl i, Abs.live, List.mem_filter, List.mem_range]
    exact ⟨fun hc => hc.2, fun hc => ⟨r.bound i hc, hc⟩⟩

/-- After such a program the destructor of the pool (and `Clear`) destroys every node once before the storage is released, if blocks have at least two entries. -/
theorem C126_destroy (hmk : ∀ x ks, owns (mk x ks) = ks) {bs S depth : Nat} (hbs : 2 ≤ bs) (bases : Nat → Nat) (hb : ∀ j k, j ≠ k → Abs.Apart bs S (bases j) (bases k))
    (acts : List (Act β)) (hok : okActs depth acts .nil) :
    ∃ p0 q roots, new bs (bases 0) = .ok p0 ∧ tend S bases mk owns depth acts (p0, []) = .ok (q, roots) ∧ destructorO S owns depth q = .ok 0 := by
  obtain ⟨p0, e0, g0⟩ := Garden.start (mk := mk) hb
  obtain ⟨q, roots, e, ⟨a, all, r, f, hh, hn, hl⟩, hd⟩ := g0.tend hmk (by omega) acts (Nat.zero_le _) hok
  refine ⟨p0, q, roots, e0, e, ?_⟩
  obtain ⟨o1, o2, o3, rank, o4, o5, o6⟩ := hh.owned hmk hn
  have hmem : ∀ i v, a.object i = some v → i ∈ all := by
    intro i v hv
    rw [hl i, Abs.isLive, object_some.mp hv]; rfl
  have hlt : ∀ i j, Owns owns a.object i j → i < j := by
    rintro i j ⟨v, hv, hj⟩
    exact ((o2 i (hmem i v hv) v hv).2 j hj).2.1
  refine destructorO_ok (rank := rank) hbs ?_ r.from ⟨⟨?_, ?_, ?_, ?_⟩, ?_, by intro j hj; omega, ?_⟩
  · intro i
    by_cases hi : i ∈ all
    · have := o5 i hi; omega
    · rw [o4 i hi]; exact Nat.zero_le _
  · rintro i j ⟨v, hv, hj⟩
    exact hh.object j ((o2 i (hmem i v hv) v hv).2 j hj).1
  · rintro i j k ⟨v, hv, hkv⟩ ⟨w, hw, hkw⟩
    exact o3 i (hmem i v hv) j (hmem j w hw) v w k hv hw hkv hkw
  · intro i v hv
    exact (o2 i (hmem i v hv) v hv).1
  · rintro i j ⟨v, hv, hj⟩
    exact o6 i (hmem i v hv) v hv j hj
  · intro i _ j hj
    induction hj with
    | refl => exact Nat.le_refl _
    | step _ h2 ih => have := hlt _ _ h2; omega
  · intro j _ hj
    have : j ∈ all := by rw [hl j, Abs.isLive, hj]; rfl
    obtain ⟨v, hv⟩ := hh.object j this
    rw [object_some.mp hv] at hj
    cases hj

end Trees

/-! ### Examples -/

/-- A root whose constructor makes two children, the first of which has a child. -/
def family : Trees Nat := .cons 7 (.cons 8 (.cons 9 .nil .nil) (.cons 10 .nil .nil)) .nil

def families : List (Act Nat) := [.plant 1 (.cons 2 .nil .nil), .plant 7 (.cons 8 (.cons 9 .nil .nil) (.cons 10 .nil .nil)), .fell 0, .plant 3 (.cons 4 .nil .nil)]

/-- The hypotheses of `C126_trees` and `C126_destroy`: blocks of 2 entries of 4 bytes, 8 bytes apart. -/
example : (∀ j k, j ≠ k → Abs.Apart 2 4 (8 * j) (8 * k)) ∧ okActs 3 families .nil ∧ (grown families .nil).size = 6 ∧
    ∀ (x : Nat) (ks : List Nat), (Prod.snd (x, ks)) = ks := by
  refine ⟨?_, ?_, rfl, fun _ _ => rfl⟩
  · intro j k h
    unfold Abs.Apart
    omega
  · simp [okActs, families, Trees.height, Trees.count, Trees.add]

/-- The hypotheses of `C126_build` and `C126_return`, in a pool with a hole. -/
example : ∃ p a, Reached (α := Nat × List Nat) 2 4 p a ∧ Fresh 2 4 (fun k => 8 * k) a ∧ a.isLive 0 = false ∧ a.isLive 1 = true ∧ family.height = 3 := by
  have hok : okAll (α := Nat × List Nat) 2 4 [.allocate 8 (1, []), .allocate 8 (2, []), .free 0] (.start 0) := by
    refine ⟨?_, ?_, ⟨(1, []), rfl⟩, trivial⟩
    all_goals (simp only [Op.ok]; show ∀ b ∈ [0], _; simp [Abs.Apart])
  obtain ⟨p0, p, e0, e, _⟩ := C32_history 2 4 0 (by omega) _ hok
  refine ⟨p, _, ⟨by omega, 0, _, p0, _, e0, hok, e, rfl⟩, ?_, rfl, rfl, rfl⟩
  intro k hk
  have hk' : 1 ≤ k := hk
  refine ⟨?_, fun k' _ hn => by simp only [Abs.Apart]; omega⟩
  intro x hx
  obtain rfl := List.mem_singleton.mp (show x ∈ [0] from hx)
  simp only [Abs.Apart]
  omega

/-- The hypotheses of `C126_calls`: a constructor that allocates two entries and frees one of them, and one that ends by an exception after allocating. -/
example : Calls.ok 4 4 (.make 9 (.call (.allocate 9 5) (.call (.allocate 9 6) (.call (.free 1) .done))) (some 3)
    (.make 9 (.call (.allocate 100 8) .done) none .done)) (.start (α := Nat) 1000) := by
  refine ⟨?_, ⟨?_, ?_, ⟨5, rfl⟩, trivial⟩, rfl, ?_, ⟨?_, trivial⟩, trivial⟩
  all_goals first
    | (simp only [Op.ok]; show ∀ b ∈ [1000], _; simp [Abs.Apart])
    | (show ∀ b ∈ [1000], _; simp [Abs.Apart])

end Verif.MemoryPool
