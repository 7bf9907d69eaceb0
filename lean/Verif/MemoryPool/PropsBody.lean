import Verif.MemoryPool.ModelBody
import Verif.MemoryPool.Props

/-!
# Properties of loops over a memory pool that change the pool: C120
-/

namespace Verif.MemoryPool
open Verif.Cpp Verif.Bitset

variable {α : Type}

theorem nextLive_some {bs S : Nat} {p : Pool α} {a : Abs α} (h : Repr bs S p a) {lo i : Nat} (h1 : lo ≤ i) (h2 : a.isLive i = true)
    (h3 : ∀ j, lo ≤ j → j < i → a.isLive j = false) : a.nextLive bs lo = some i := by
  unfold Abs.nextLive Abs.live
  rw [List.find?_filter, List.find?_range_eq_some]
  refine ⟨by simp [h1, h2], List.mem_range.mpr (h.bound i h2), ?_⟩
  intro j hj
  by_cases hl : lo ≤ j
  · simp [h3 j hl hj]
  · simp [hl]

theorem nextLive_none {bs : Nat} {a : Abs α} {lo : Nat} (h : ∀ j, lo ≤ j → a.isLive j = false) : a.nextLive bs lo = none := by
  unfold Abs.nextLive
  rw [List.find?_eq_none]
  intro j hj
  rw [Abs.live, List.mem_filter] at hj
  intro hl
  have := h j (by simpa using hl)
  rw [hj.2] at this
  cases this

theorem nextLive_inv {bs : Nat} {a : Abs α} {lo i : Nat} (h : a.nextLive bs lo = some i) :
    lo ≤ i ∧ a.isLive i = true ∧ i < a.capacity bs ∧ ∀ j, lo ≤ j → j < i → a.isLive j = false := by
  unfold Abs.nextLive Abs.live at h
  rw [List.find?_filter, List.find?_range_eq_some] at h
  obtain ⟨h1, h2, h3⟩ := h
  simp only [decide_eq_true_eq] at h1
  refine ⟨h1.2, h1.1, List.mem_range.mp h2, ?_⟩
  intro j hl hj
  have := h3 j hj
  simpa [hl] using this

theorem spec_bases {bs : Nat} (o : Op α) (a : Abs α) (h : o ≠ .clear) : a.bases.length ≤ (o.spec bs a).1.bases.length := by
  cases o <;> simp only [Op.spec, Abs.set, Abs.grow] <;> (try split) <;> simp_all

theorem specAll_bases {bs : Nat} (os : List (Op α)) (a : Abs α) (h : Op.clear ∉ os) : a.bases.length ≤ (specAll bs os a).1.bases.length := by
  induction os generalizing a with
  | nil => exact Nat.le_refl _
  | cons o os ih =>
    rw [List.mem_cons, not_or] at h
    exact Nat.le_trans (spec_bases o a (Ne.symm h.1)) (ih _ h.2)

theorem walkBody_repr {bs S : Nat} (hbs : 0 < bs) (body : List Nat → List (Op α)) (n : Nat) {p : Pool α} {a : Abs α} (h : Repr bs S p a) (seen : List Nat)
    (lo : Nat) (cur : Option (Nat × Nat))
    (hsome : ∀ b l, cur = some (b, l) → l < bs ∧ a.nextLive bs lo = some (b * bs + l)) (hnone : cur = none → a.nextLive bs lo = none)
    (hok : okVisits bs S body n seen lo a) :
    ∃ q, walkBody S body n cur seen p = .ok (q, (visits bs body n seen lo a).2) ∧ Repr bs S q (visits bs body n seen lo a).1 := by
  induction n generalizing p a seen lo cur with
  | zero => exact ⟨p, rfl, h⟩
  | succ n ih =>
    cases cur with
    | none =>
      have hn := hnone rfl
      refine ⟨p, ?_, ?_⟩
      · simp only [walkBody, visits, hn]
      · simp only [visits, hn]; exact h
    | some c =>
      obtain ⟨b, l⟩ := c
      obtain ⟨hl, hi⟩ := hsome b l rfl
      obtain ⟨_, hlive, _, _⟩ := nextLive_inv hi
      simp only [okVisits, hi] at hok
      obtain ⟨hc, hok1, hok2⟩ := hok
      obtain ⟨p1, e1, r1⟩ := runAll_repr h hbs _ hok1
      have hb1 := specAll_bases (bs := bs) _ a hc
      have hk1 : b < p1.blocks.length := by
        have := block_lt h hl hlive
        rw [h.len] at this
        rw [r1.len]
        omega
      obtain ⟨r, e, n1, n2⟩ := next_repr r1 hbs hl hk1
      obtain ⟨q, eq, rq⟩ := ih r1 (seen ++ [b * bs + l]) (b * bs + l + 1) r (by
          intro b' l' hr
          obtain ⟨c1, c2, c3, c4⟩ := n1 b' l' hr
          exact ⟨c2, nextLive_some r1 c1 c3 c4⟩) (by
          intro hr
          exact nextLive_none (n2 hr)) hok2
      refine ⟨q, ?_, ?_⟩
      · simp only [walkBody, pointer_repr h hl, hlive, if_true, ok_bind, h.size, e1, e, eq, visits, hi]
      · simp only [visits, hi]; exact rq

theorem iterateBody_repr {bs S : Nat} (hbs : 0 < bs) (body : List Nat → List (Op α)) (n : Nat) {p : Pool α} {a : Abs α} (h : Repr bs S p a)
    (hok : okVisits bs S body n [] 0 a) :
    ∃ q, iterateBody S body p n = .ok (q, (visits bs body n [] 0 a).2) ∧ Repr bs S q (visits bs body n [] 0 a).1 := by
  obtain ⟨r, e, h1, h2⟩ := firstFrom_repr h hbs 0
  obtain ⟨q, eq, rq⟩ := walkBody_repr hbs body n h [] 0 r (by
      intro b l hr
      obtain ⟨_, c2, c3, c4⟩ := h1 b l hr
      exact ⟨c2, nextLive_some h (Nat.zero_le _) c3 (fun j _ hj => c4 j (by omega) hj)⟩) (by
      intro hr
      exact nextLive_none (fun j _ => h2 hr j (by omega))) hok
  exact ⟨q, by simp only [iterateBody, e, ok_bind, eq], rq⟩

/-! ### The visits -/

theorem visits_prefix {bs : Nat} (body : List Nat → List (Op α)) (n : Nat) (seen : List Nat) (lo : Nat) (a : Abs α) :
    seen <+: (visits bs body n seen lo a).2.1 := by
  induction n generalizing seen lo a with
  | zero => exact List.prefix_refl _
  | succ n ih =>
    simp only [visits]
    cases hn : a.nextLive bs lo with
    | none => exact List.prefix_refl _
    | some i => exact List.IsPrefix.trans (List.prefix_append _ _) (ih _ _ _)

theorem visits_sorted {bs : Nat} (body : List Nat → List (Op α)) (n : Nat) (seen : List Nat) (lo : Nat) (a : Abs α) (hs : seen.Pairwise (· < ·))
    (hlo : ∀ i ∈ seen, i < lo) : (visits bs body n seen lo a).2.1.Pairwise (· < ·) := by
  induction n generalizing seen lo a with
  | zero => exact hs
  | succ n ih =>
    simp only [visits]
    cases hn : a.nextLive bs lo with
    | none => exact hs
    | some i =>
      obtain ⟨h1, _⟩ := nextLive_inv hn
      refine ih _ _ _ ?_ ?_
      · rw [List.pairwise_append]
        refine ⟨hs, List.pairwise_singleton _ _, ?_⟩
        intro x hx y hy
        rw [List.mem_singleton] at hy
        subst hy
        have := hlo x hx
        omega
      · intro x hx
        rw [List.mem_append, List.mem_singleton] at hx
        cases hx with
        | inl hx => have := hlo x hx; omega
        | inr hx => omega

theorem visits_bound {bs S : Nat} (body : List Nat → List (Op α)) (n : Nat) (seen : List Nat) (lo : Nat) (a : Abs α) (hok : okVisits bs S body n seen lo a) :
    a.bases.length ≤ (visits bs body n seen lo a).1.bases.length ∧
      ((∀ i ∈ seen, i < a.capacity bs) → ∀ i ∈ (visits bs body n seen lo a).2.1, i < (visits bs body n seen lo a).1.capacity bs) := by
  induction n generalizing seen lo a with
  | zero => exact ⟨Nat.le_refl _, fun h => h⟩
  | succ n ih =>
    simp only [visits, okVisits] at hok ⊢
    cases hn : a.nextLive bs lo with
    | none => exact ⟨Nat.le_refl _, fun h => h⟩
    | some i =>
      rw [hn] at hok
      obtain ⟨hc, _, hok2⟩ := hok
      obtain ⟨_, _, h3, _⟩ := nextLive_inv hn
      have hb := specAll_bases (bs := bs) _ a hc
      obtain ⟨i1, i2⟩ := ih _ _ _ hok2
      refine ⟨Nat.le_trans hb i1, fun hs => i2 ?_⟩
      have hm := Nat.mul_le_mul_right bs hb
      intro x hx
      rw [List.mem_append, List.mem_singleton] at hx
      simp only [Abs.capacity] at hs h3 ⊢
      cases hx with
      | inl hx => have := hs x hx; omega
      | inr hx => omega

theorem visits_unfinished {bs : Nat} (body : List Nat → List (Op α)) (n : Nat) (seen : List Nat) (lo : Nat) (a : Abs α)
    (hf : (visits bs body n seen lo a).2.2 = false) : (visits bs body n seen lo a).2.1.length = seen.length + n := by
  induction n generalizing seen lo a with
  | zero => rfl
  | succ n ih =>
    simp only [visits] at hf ⊢
    cases hn : a.nextLive bs lo with
    | none => rw [hn] at hf; cases hf
    | some i =>
      rw [hn] at hf
      simp only at hf ⊢
      rw [ih _ _ _ hf, List.length_append, List.length_singleton]
      omega

theorem spec_keeps {bs S : Nat} (o : Op α) (a : Abs α) (hok : o.ok bs S a) {i : Nat} (hi : a.isLive i = true) (hf : ¬ o.Frees i) :
    (o.spec bs a).1.isLive i = true := by
  have hg : ∀ base, (a.grow bs base).entries = a.entries := by intro base; unfold Abs.grow; split <;> rfl
  cases o with
  | allocate base v =>
    simp only [Op.spec, Abs.isLive, Abs.set, hg]; split
    · rfl
    · exact hi
  | allocateDefer base =>
    simp only [Op.spec, Abs.isLive, Abs.set, hg]; split
    · rfl
    · exact hi
  | constructAt j v =>
    simp only [Op.spec, Abs.isLive, Abs.set]; split
    · rfl
    · exact hi
  | destroyAt j =>
    simp only [Op.spec, Abs.isLive, Abs.set]; split
    · rfl
    · exact hi
  | assignAt j v =>
    simp only [Op.spec, Abs.isLive, Abs.set]; split
    · rfl
    · exact hi
  | free j =>
    have : i ≠ j := fun e => hf e.symm
    simp only [Op.spec, Abs.isLive, Abs.set, this, if_false]; exact hi
  | freeNoDestruction j =>
    have : i ≠ j := fun e => hf e.symm
    simp only [Op.spec, Abs.isLive, Abs.set, this, if_false]; exact hi
  | clear => exact absurd trivial hf

theorem specAll_keeps {bs S : Nat} (os : List (Op α)) (a : Abs α) (hok : okAll bs S os a) {i : Nat} (hi : a.isLive i = true) (hf : ∀ o ∈ os, ¬ o.Frees i) :
    (specAll bs os a).1.isLive i = true := by
  induction os generalizing a with
  | nil => exact hi
  | cons o os ih =>
    exact ih _ hok.2 (spec_keeps o a hok.1 hi (hf o List.mem_cons_self)) (fun o' ho' => hf o' (List.mem_cons_of_mem _ ho'))

theorem madeCalls_mem {body : List Nat → List (Op α)} {seen full : List Nat} {i : Nat} (h : seen ++ [i] <+: full) {o : Op α} (ho : o ∈ body (seen ++ [i])) :
    o ∈ madeCalls body full := by
  obtain ⟨t, rfl⟩ := h
  rw [madeCalls, List.mem_flatMap]
  refine ⟨seen.length, ?_, ?_⟩
  · rw [List.mem_range]; simp
  · rw [List.take_append_of_le_length (by simp), List.take_of_length_le (by simp)]; exact ho

theorem visits_all {bs S : Nat} (hbs : 0 < bs) (body : List Nat → List (Op α)) (n : Nat) (seen : List Nat) (lo : Nat) {p : Pool α} {a : Abs α}
    (h : Repr bs S p a) (hok : okVisits bs S body n seen lo a)
    (hf : (visits bs body n seen lo a).2.2 = true) {i : Nat} (hi : a.isLive i = true) (hlo : lo ≤ i)
    (hkeep : ∀ o ∈ madeCalls body (visits bs body n seen lo a).2.1, ¬ o.Frees i) : i ∈ (visits bs body n seen lo a).2.1 := by
  induction n generalizing seen lo p a with
  | zero => cases hf
  | succ n ih =>
    simp only [visits, okVisits] at hok hf hkeep ⊢
    cases hn : a.nextLive bs lo with
    | none =>
      unfold Abs.nextLive at hn
      rw [List.find?_eq_none] at hn
      have := hn i (List.mem_filter.mpr ⟨List.mem_range.mpr (h.bound i hi), hi⟩)
      exact absurd (by simpa using hlo) this
    | some k =>
      rw [hn] at hok hf hkeep
      simp only at hok hf hkeep ⊢
      obtain ⟨hc, hok1, hok2⟩ := hok
      obtain ⟨_, _, _, h4⟩ := nextLive_inv hn
      obtain ⟨q, _, r⟩ := runAll_repr h hbs _ hok1
      have hpre := visits_prefix (bs := bs) body n (seen ++ [k]) (k + 1) (specAll bs (body (seen ++ [k])) a).1
      by_cases hik : i = k
      · subst hik
        exact hpre.subset (by simp)
      · have hki : k + 1 ≤ i := by
          by_cases hlt : i < k
          · have := h4 i hlo hlt
            rw [hi] at this
            cases this
          · omega
        exact ih _ _ r hok2 hf (specAll_keeps _ a hok1 hi (fun o ho => hkeep o (madeCalls_mem hpre ho))) hki hkeep

/-! ## C120 -/

/-- A loop over a pool whose body makes any allowed calls on the pool (other than `Clear`) meets no failed assertion and no undefined behaviour.  It goes
from each entry to the entry in use with the least greater index, in the pool as the body leaves it; and the pool then has the contents that the calls of
the bodies give it. -/
theorem C120_loop {bs S : Nat} {p : Pool α} {a : Abs α} (h : Reached bs S p a) (body : List Nat → List (Op α)) (n : Nat)
    (hok : okVisits bs S body n [] 0 a) :
    ∃ q, iterateBody S body p n = .ok (q, (visits bs body n [] 0 a).2) ∧ Shows bs S q (visits bs body n [] 0 a).1 := by
  obtain ⟨q, e, r⟩ := iterateBody_repr h.1 body n h.repr hok
  exact ⟨q, e, shows_repr r h.1⟩

/-- No entry is visited twice, and every entry in use when the loop begins that the bodies do not free is visited once the loop has ended.  A loop that has
not ended after `n` visits has a pool with at least `n` entries. -/
theorem C120_visits {bs S : Nat} {p : Pool α} {a : Abs α} (h : Reached bs S p a) (body : List Nat → List (Op α)) (n : Nat)
    (hok : okVisits bs S body n [] 0 a) {q : Pool α} {seen : List Nat} {ended : Bool} (e : iterateBody S body p n = .ok (q, seen, ended)) :
    seen.Pairwise (· < ·) ∧
      (ended = true → ∀ i addr, retrieveFromIndex S p i = .ok addr → (∀ o ∈ madeCalls body seen, ¬ o.Frees i) → i ∈ seen) ∧
      (ended = false → seen.length = n ∧ n ≤ getBlockCount q * getBlockSize q) := by
  obtain ⟨q', e', r⟩ := iterateBody_repr h.1 body n h.repr hok
  rw [e] at e'
  cases hv : visits bs body n [] 0 a with
  | mk a' t =>
    rw [hv] at e' r
    cases e'
    have hsorted := visits_sorted (bs := bs) body n [] 0 a List.Pairwise.nil (by simp)
    have hb := (visits_bound body n [] 0 a hok).2 (by simp)
    have hun := visits_unfinished (bs := bs) body n [] 0 a
    have hall := fun hf => @visits_all α bs S h.1 body n [] 0 p a h.repr hok hf
    rw [hv] at hsorted hb hun hall
    refine ⟨hsorted, ?_, ?_⟩
    · intro hend i addr hi hk
      rw [retrieve_repr h.repr h.1] at hi
      refine hall hend ?_ (Nat.zero_le _) hk
      cases hl : a.isLive i with
      | true => rfl
      | false => rw [hl] at hi; cases hi
    · intro hend
      have hlen : seen.length = n := by simpa using hun hend
      refine ⟨hlen, ?_⟩
      have hc : getBlockCount q * getBlockSize q = a'.capacity bs := by
        simp only [getBlockCount, getBlockSize, r.len, r.size, Abs.capacity]
      rw [hc, ← hlen]
      have hn : seen.Nodup := hsorted.imp (fun h => Nat.ne_of_lt h)
      have := List.Nodup.length_le_of_subset hn (l₂ := List.range (a'.capacity bs)) (fun i hi => List.mem_range.mpr (hb i hi))
      simpa using this

theorem spec_same {bs : Nat} (o : Op α) (a : Abs α) (h : ¬ o.Adds) (hc : o ≠ .clear) : (o.spec bs a).1.bases = a.bases := by
  cases o <;> simp_all [Op.spec, Abs.set, Op.Adds]

theorem specAll_same {bs : Nat} (os : List (Op α)) (a : Abs α) (h : ∀ o ∈ os, ¬ o.Adds) (hc : Op.clear ∉ os) : (specAll bs os a).1.bases = a.bases := by
  induction os generalizing a with
  | nil => rfl
  | cons o os ih =>
    rw [List.mem_cons, not_or] at hc
    simp only [specAll]
    rw [ih _ (fun o' ho' => h o' (List.mem_cons_of_mem _ ho')) hc.2, spec_same o a (h o List.mem_cons_self) (Ne.symm hc.1)]

theorem visits_same {bs S : Nat} (body : List Nat → List (Op α)) (hadd : ∀ l, ∀ o ∈ body l, ¬ o.Adds) (n : Nat) (seen : List Nat) (lo : Nat) (a : Abs α)
    (hok : okVisits bs S body n seen lo a) : (visits bs body n seen lo a).1.bases = a.bases := by
  induction n generalizing seen lo a with
  | zero => rfl
  | succ n ih =>
    simp only [visits, okVisits] at hok ⊢
    cases hn : a.nextLive bs lo with
    | none => rfl
    | some i =>
      rw [hn] at hok
      simp only at hok ⊢
      rw [ih _ _ _ hok.2.2, specAll_same _ a (hadd _) hok.1]

/-- A loop whose bodies allocate nothing ends. -/
theorem C120_ends {bs S : Nat} {p : Pool α} {a : Abs α} (h : Reached bs S p a) (body : List Nat → List (Op α)) (hadd : ∀ l, ∀ o ∈ body l, ¬ o.Adds)
    (n : Nat) (hn : getBlockCount p * getBlockSize p < n) (hok : okVisits bs S body n [] 0 a) :
    ∃ q seen, iterateBody S body p n = .ok (q, seen, true) := by
  obtain ⟨q, e, r⟩ := iterateBody_repr h.1 body n h.repr hok
  have hv := visits_same body hadd n [] 0 a hok
  cases hb : (visits bs body n [] 0 a).2.2 with
  | true => exact ⟨q, (visits bs body n [] 0 a).2.1, by rw [e, ← hb]⟩
  | false =>
    have := (C120_visits h body n hok e).2.2 hb
    have hc : getBlockCount q * getBlockSize q = getBlockCount p * getBlockSize p := by
      simp only [getBlockCount, getBlockSize, r.len, r.size, h.repr.len, h.repr.size, hv]
    omega

/-- A body that calls `Clear` makes the loop fail: the iterator refers to a block that does not exist any more. -/
theorem C120_clear_violated {bs S : Nat} {p : Pool α} {a : Abs α} (h : Reached bs S p a) (hobj : ∀ i, a.entries i ≠ some none) (h2 : 2 ≤ bs)
    (hlive : ∃ i, a.isLive i = true) (n : Nat) : iterateBody S (fun _ => [.clear]) p (n + 1) = .error .assert := by
  have r := h.repr
  obtain ⟨r0, e, h1, h3⟩ := firstFrom_repr r h.1 0
  obtain ⟨i, hi⟩ := hlive
  cases r0 with
  | none =>
    have := h3 rfl i (by omega)
    rw [hi] at this
    cases this
  | some c =>
    obtain ⟨b, l⟩ := c
    obtain ⟨_, hl, hb, _⟩ := h1 b l rfl
    have hc := (clear_repr r hobj (by omega)).1
    simp only [iterateBody, e, ok_bind, walkBody, pointer_repr r hl, hb, if_true, runAll, Op.run, hc, pure_ok, getNextAllocatedEntry, List.length_nil,
      Nat.not_lt_zero, decide_false]
    rfl

/-- A body for the four entries of `sample` (blocks of two entries): at entry 0 it frees entry 2 and allocates an entry, which is entry 2 again; at entry 1 it
frees entry 0, which is behind; at entry 2 it frees entry 3, which is ahead, and allocates entry 0. -/
def sampleBody : List Nat → List (Op Nat)
  | [0] => [.free 2, .allocate 9 60]
  | [0, 1] => [.free 0]
  | [0, 1, 2] => [.free 3, .allocate 9 70]
  | _ => []

/-- Entries 0, 1 and 2 are visited. -/
theorem sampleBody_visits : (visits 2 sampleBody 9 [] 0 (specAll 2 sample (.start 1000)).1).2 = ([0, 1, 2], true) := rfl

theorem sampleBody_ok : okVisits 2 4 sampleBody 9 [] 0 (specAll 2 sample (.start 1000)).1 := by
  have step : ∀ (n : Nat) (seen : List Nat) (lo i : Nat) (a : Abs Nat), a.nextLive 2 lo = some i → Op.clear ∉ sampleBody (seen ++ [i]) →
      okAll 2 4 (sampleBody (seen ++ [i])) a → okVisits 2 4 sampleBody n (seen ++ [i]) (i + 1) (specAll 2 (sampleBody (seen ++ [i])) a).1 →
      okVisits 2 4 sampleBody (n + 1) seen lo a := by
    intro n seen lo i a h1 h2 h3 h4
    simp only [okVisits, h1]
    exact ⟨h2, h3, h4⟩
  refine step 8 [] 0 0 _ rfl (by simp [sampleBody]) ⟨⟨30, rfl⟩, ?_, trivial⟩ ?_
  · show ∀ b ∈ [1000, 100], _; simp [Abs.Apart]
  refine step 7 [0] 1 1 _ rfl (by simp [sampleBody]) ⟨⟨11, rfl⟩, trivial⟩ ?_
  refine step 6 [0, 1] 2 2 _ rfl (by simp [sampleBody]) ⟨⟨50, rfl⟩, ?_, trivial⟩ ?_
  · show ∀ b ∈ [1000, 100], _; simp [Abs.Apart]
  exact trivial

/-- The hypotheses of `C120_loop` and `C120_visits`. -/
example : ∃ p a, Reached 2 4 (α := Nat) p a ∧ okVisits 2 4 sampleBody 9 [] 0 a ∧ ∃ q, iterateBody 4 sampleBody p 9 = .ok (q, [0, 1, 2], true) := by
  obtain ⟨p0, p, e0, e, _⟩ := C32_history 2 4 1000 (by omega) sample sample_ok
  have hr : Reached 2 4 p (specAll 2 sample (.start 1000)).1 := ⟨by omega, 1000, sample, p0, _, e0, sample_ok, e, rfl⟩
  obtain ⟨q, eq, _⟩ := C120_loop hr sampleBody 9 sampleBody_ok
  rw [sampleBody_visits] at eq
  exact ⟨p, _, hr, sampleBody_ok, q, eq⟩

theorem nothing_ok {bs S : Nat} (n : Nat) (seen : List Nat) (lo : Nat) (a : Abs α) : okVisits bs S (fun _ => []) n seen lo a := by
  induction n generalizing seen lo with
  | zero => trivial
  | succ n ih =>
    simp only [okVisits]
    split
    · trivial
    · exact ⟨by simp, trivial, ih _ _⟩

/-- The hypotheses of `C120_ends`, and those of `C120_clear_violated`. -/
example : ∃ p a, Reached 2 4 (α := Nat) p a ∧ (∀ l, ∀ o ∈ (fun _ => [] : List Nat → List (Op Nat)) l, ¬ o.Adds) ∧
    okVisits 2 4 (fun _ => []) 9 [] 0 a ∧ (∀ i, a.entries i ≠ some none) ∧ ∃ i, a.isLive i = true := by
  obtain ⟨p, a, h, h0, _, _, _, _, h5⟩ := sample_reached
  exact ⟨p, a, h, by simp, nothing_ok _ _ _ _, h5, 0, by simp [Abs.isLive, h0]⟩

end Verif.MemoryPool
