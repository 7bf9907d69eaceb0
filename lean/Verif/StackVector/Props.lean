import Verif.StackVector.Model

/-!
# C29-C31, C63, C64: `StackVector` and `StackArray`
-/

namespace Verif.StackVector
open Verif.Cpp
open Verif.FixedVector (St Vec Arg Cfg onData ofData mSize setSize construct tick living inl Repr)

variable {α : Type}

/-! ## Specification -/

/-- Mutating calls. -/
inductive Op (α : Type) where
  | pushBack (v : α)
  | emplace (index : Nat) (v : α)
  | erase (index : Nat)
  | eraseRange (first last : Nat)
  | popBack
  | resize (count : Nat) (v : α)
  | assignAt (index : Nat) (v : α)
  | clear

/-- The effect of a call on the sequence, and the index it returns. -/
def Op.spec : Op α → List α → List α × Option Nat
  | .pushBack v, l => (l ++ [v], some l.length)
  | .emplace i v, l => (l.take i ++ v :: l.drop i, some i)
  | .erase i, l => (l.take i ++ l.drop (i + 1), some i)
  | .eraseRange f t, l => (l.take f ++ l.drop t, some f)
  | .popBack, l => (l.take (l.length - 1), none)
  | .resize n v, l => (l.take n ++ List.replicate (n - l.length) v, none)
  | .assignAt i v, l => (l.set i v, none)
  | .clear, _ => ([], none)

/-- The calls allowed on a sequence of a vector of capacity `C`. -/
def Op.ok (C : Nat) : Op α → List α → Prop
  | .pushBack _, l => l.length < C
  | .emplace i _, l => i ≤ l.length ∧ l.length < C
  | .erase i, l => i < l.length
  | .eraseRange f t, l => f ≤ t ∧ t ≤ l.length
  | .popBack, l => l ≠ []
  | .resize n _, _ => n ≤ C
  | .assignAt i _, l => i < l.length
  | .clear, _ => True

/-- The call of the model (`dflt`: a default constructed element, `mv`: the value of a moved-from element). -/
def Op.run (C : Nat) (dflt : α) (mv : α → α) : Op α → X (St α) (Option Nat)
  | .pushBack v => do let r ← StackVector.emplaceBack C (.value v); pure (some r)
  | .emplace i v => do let r ← StackVector.emplace C mv i (.value v); pure (some r)
  | .erase i => do let r ← StackVector.erase mv i; pure (some r)
  | .eraseRange f t => do let r ← StackVector.eraseRange C mv dflt f t; pure (some r)
  | .popBack => do StackVector.popBack; pure none
  | .resize n v => do StackVector.resize C n (.value v); pure none
  | .assignAt i v => do StackVector.assignAt i v; pure none
  | .clear => do StackVector.clear C dflt; pure none

def runAll (C : Nat) (dflt : α) (mv : α → α) : List (Op α) → X (St α) (List (Option Nat))
  | [] => pure []
  | o :: os => do
    let r ← o.run C dflt mv
    let rs ← runAll C dflt mv os
    pure (r :: rs)

def specAll : List (Op α) → List α → List α × List (Option Nat)
  | [], l => (l, [])
  | o :: os, l => ((specAll os (o.spec l).1).1, (o.spec l).2 :: (specAll os (o.spec l).1).2)

def okAll (C : Nat) : List (Op α) → List α → Prop
  | [], _ => True
  | o :: os, l => o.ok C l ∧ okAll C os (o.spec l).1

/-- The observers show the sequence `l`. -/
structure Shows (s : St α) (l : List α) : Prop where
  size : StackVector.size s = .done s l.length
  empty : isEmpty s = .done s l.isEmpty
  at_lt : ∀ (i : Nat) (h : i < l.length), at' i s = .done s l[i]
  at_ge : ∀ (i : Nat), l.length ≤ i → at' i s = .fail .assert
  front : ∀ (h : l ≠ []), StackVector.front s = .done s (l.head h)
  back : ∀ (h : l ≠ []), StackVector.back s = .done s (l.getLast h)

/-! ## Relation to the model of `FixedVector` -/

section
variable {K : Cfg α} (hF : K.hasFallback = false)
include hF

theorem usingF : FixedVector.isUsingFallback K = pure false := by
  funext s; simp [FixedVector.isUsingFallback, hF]

theorem checkF : FixedVector.checkFallbackOnGrow K = pure false := by
  funext s; simp [FixedVector.checkFallbackOnGrow, hF]

theorem sizeF : FixedVector.size K = mSize := by
  simp [FixedVector.size, usingF hF, X.pure_bind']

theorem isEmptyF : FixedVector.isEmpty K = isEmpty := by
  simp [FixedVector.isEmpty, isEmpty, sizeF hF]

theorem readAtF (i : Nat) : FixedVector.readAt K i = ofData (Slots.read · i) := by
  simp [FixedVector.readAt, usingF hF, X.pure_bind']

theorem atF (i : Nat) : FixedVector.at' K i = at' i := by
  simp [FixedVector.at', at', sizeF hF, readAtF hF]

theorem assignAtF (i : Nat) (v : α) : FixedVector.assignAt K i v = assignAt i v := by
  simp [FixedVector.assignAt, assignAt, sizeF hF, usingF hF, X.pure_bind']

theorem frontF : FixedVector.front K = front := by
  simp [FixedVector.front, front, isEmptyF hF, readAtF hF]

theorem backF : FixedVector.back K = back := by
  simp [FixedVector.back, back, isEmptyF hF, sizeF hF, readAtF hF]

theorem emplaceBackF (a : Arg α) : FixedVector.emplaceBack K a = emplaceBack K.capacity a := by
  simp [FixedVector.emplaceBack, emplaceBack, checkF hF, X.pure_bind']

theorem emplaceF (i : Nat) (a : Arg α) : FixedVector.emplace K i a = emplace K.capacity K.mv i a := by
  funext s
  simp only [FixedVector.emplace, emplace, checkF hF, X.pure_bind', sizeF hF, X.bind_run]
  cases h : mSize s with
  | thrown _ => rfl
  | fail _ => rfl
  | done s' n =>
    have hs : s' = s := by
      unfold mSize at h
      split at h <;> simp at h
      exact h.1.symm
    subst hs
    simp only [Bool.false_eq_true, if_false]
    by_cases h1 : i ≤ n <;> by_cases h2 : n < K.capacity <;> simp [h1, h2, h, X.bind_run, FixedVector.emplaceShift, emplaceShift]

theorem popBackF : FixedVector.popBack K = popBack := by
  simp [FixedVector.popBack, popBack, usingF hF, X.pure_bind', isEmptyF hF]

theorem resizeF (n : Nat) (a : Arg α) : FixedVector.resize K n a = resize K.capacity n a := by
  simp [FixedVector.resize, FixedVector.resizeInline, resize, usingF hF, X.pure_bind', hF]

theorem eraseF (i : Nat) : FixedVector.erase K i = erase K.mv i := by
  simp [FixedVector.erase, erase, sizeF hF, usingF hF, X.pure_bind', popBackF hF]

theorem eraseRangeF (i j : Nat) : FixedVector.eraseRange K i j = eraseRange K.capacity K.mv K.dflt i j := by
  simp [FixedVector.eraseRange, eraseRange, sizeF hF, usingF hF, X.pure_bind', resizeF hF]

end

/-- The call of `FixedVector` with the same effect. -/
def Op.toFixed (dflt : α) : Op α → FixedVector.Op α
  | .pushBack v => .pushBack v
  | .emplace i v => .emplace i v
  | .erase i => .erase i
  | .eraseRange f t => .eraseRange f t
  | .popBack => .popBack
  | .resize n v => .resize n v
  | .assignAt i v => .assignAt i v
  | .clear => .resize 0 dflt

/-- The configuration of `FixedVector` that corresponds. -/
def cfg (C : Nat) (dflt : α) (mv : α → α) : Cfg α := ⟨C, false, dflt, mv⟩

theorem Op.run_eq (C : Nat) (dflt : α) (mv : α → α) (o : Op α) : o.run C dflt mv = (o.toFixed dflt).run (cfg C dflt mv) := by
  have hF : (cfg C dflt mv).hasFallback = false := rfl
  cases o <;> simp only [Op.run, Op.toFixed, FixedVector.Op.run, emplaceBackF hF, emplaceF hF, eraseF hF, eraseRangeF hF, popBackF hF,
    resizeF hF, assignAtF hF] <;> rfl

theorem Op.spec_eq (dflt : α) (o : Op α) (l : List α) : (o.toFixed dflt).spec l = o.spec l := by
  cases o <;> simp [Op.spec, Op.toFixed, FixedVector.Op.spec]

theorem Op.ok_fixed {C : Nat} (dflt : α) {o : Op α} {l : List α} (h : o.ok C l) : (o.toFixed dflt).ok C false l := by
  cases o <;> simp_all [Op.ok, Op.toFixed, FixedVector.Op.ok]

theorem shows_of {C : Nat} {dflt : α} {mv : α → α} {s : St α} {l : List α} (h : FixedVector.Shows (cfg C dflt mv) s l) : Shows s l := by
  have hF : (cfg C dflt mv).hasFallback = false := rfl
  have h1 := h.size; have h2 := h.empty; have h3 := h.at_lt; have h4 := h.at_ge; have h5 := h.front; have h6 := h.back
  rw [sizeF hF] at h1
  rw [isEmptyF hF] at h2
  rw [frontF hF] at h5
  rw [backF hF] at h6
  exact ⟨h1, h2, fun i hi => by rw [← atF hF]; exact h3 i hi, fun i hi => by rw [← atF hF]; exact h4 i hi, h5, h6⟩

theorem runAll_repr {C : Nat} {dflt : α} {mv : α → α} {s : St α} {l : List α} (os : List (Op α)) (h : Repr (cfg C dflt mv) s l none)
    (hok : okAll C os l) :
    ∃ s', runAll C dflt mv os s = .done s' (specAll os l).2 ∧ Repr (cfg C dflt mv) s' (specAll os l).1 none := by
  induction os generalizing s l with
  | nil => exact ⟨s, rfl, h⟩
  | cons o os ih =>
    obtain ⟨s1, e1, r1⟩ := FixedVector.run_repr (o.toFixed dflt) h (Op.ok_fixed dflt hok.1)
    rw [Op.spec_eq] at e1 r1
    rw [← Op.run_eq] at e1
    obtain ⟨s2, e2, r2⟩ := ih r1 hok.2
    refine ⟨s2, ?_, r2⟩
    rw [runAll, X.bind_done e1, X.bind_done e2]
    rfl

theorem repr_inl {C : Nat} {dflt : α} {mv : α → α} {s : St α} {l : List α} {fu : Option Nat} (h : Repr (cfg C dflt mv) s l fu) :
    s = inl (cfg C dflt mv) l fu ∧ l.length ≤ C := by
  rcases h with h | ⟨_, h⟩
  · exact h
  · simp [cfg] at h

theorem repr_new (C : Nat) (dflt : α) (mv : α → α) : Repr (cfg C dflt mv) (new C) [] none := FixedVector.repr_empty (cfg C dflt mv) none

/-- The vectors made from a new one by allowed calls, with their sequence. -/
def Reachable (C : Nat) (dflt : α) (mv : α → α) (s : St α) (l : List α) : Prop :=
  ∃ ops, okAll C ops [] ∧ runAll C dflt mv ops (new C) = .done s (specAll ops []).2 ∧ l = (specAll ops []).1

theorem Reachable.repr {C : Nat} {dflt : α} {mv : α → α} {s : St α} {l : List α} (h : Reachable C dflt mv s l) :
    Repr (cfg C dflt mv) s l none := by
  obtain ⟨ops, hok, e, rfl⟩ := h
  obtain ⟨s', e', r⟩ := runAll_repr ops (repr_new C dflt mv) hok
  rw [e'] at e; cases e; exact r

/-! ### C29 -/

/-- C29: every allowed history runs without failure, returns the right indices, and the observers then show the sequence. -/
theorem C29_history (C : Nat) (dflt : α) (mv : α → α) (ops : List (Op α)) (h : okAll C ops []) :
    ∃ s, runAll C dflt mv ops (new C) = .done s (specAll ops []).2 ∧ Shows s (specAll ops []).1 := by
  obtain ⟨s, e, r⟩ := runAll_repr ops (repr_new C dflt mv) h
  exact ⟨s, e, shows_of (FixedVector.shows_repr r)⟩

example : okAll 4 [.pushBack 1, .pushBack 2, .emplace 1 3, .emplace 0 4, .erase 2, .resize 4 9, .eraseRange 1 3, .popBack, .assignAt 0 5, .clear,
    .pushBack 6] [] := by
  simp only [okAll, Op.ok, Op.spec]
  decide

/-- C29: exactly `size()` elements are alive after any allowed history, and the destructor (`clear`) destroys them all. -/
theorem C29_lifetimes (C : Nat) (dflt : α) (mv : α → α) (ops : List (Op α)) (h : okAll C ops []) :
    ∃ s s', runAll C dflt mv ops (new C) = .done s (specAll ops []).2 ∧ size s = .done s (living s) ∧
      clear C dflt s = .done s' () ∧ living s' = 0 := by
  obtain ⟨s, e, r⟩ := runAll_repr ops (repr_new C dflt mv) h
  have hF : (cfg C dflt mv).hasFallback = false := rfl
  obtain ⟨s', e', r'⟩ := FixedVector.resize_repr 0 dflt r (.inr (Nat.zero_le _))
  rw [resizeF hF] at e'
  refine ⟨s, s', e, ?_, e', ?_⟩
  · have := FixedVector.size_repr r
    rw [sizeF hF] at this
    rw [FixedVector.living_repr r]; exact this
  · rw [FixedVector.living_repr r']; simp

/-- C29: calls that exceed the capacity or use a position out of range fail their assertion. -/
theorem C29_out_of_range {C : Nat} {dflt : α} {mv : α → α} {s : St α} {l : List α} (hs : Reachable C dflt mv s l) (v : α) (i : Nat) :
    (l.length = C → emplaceBack C (.value v) s = .fail .assert ∧ emplace C mv i (.value v) s = .fail .assert) ∧
    (l.length < i → emplace C mv i (.value v) s = .fail .assert) ∧ (l.length ≤ i → erase mv i s = .fail .assert) ∧
    (l = [] → popBack s = .fail .assert) ∧ (C < i → resize C i (.value v) s = .fail .assert) := by
  obtain ⟨rfl, hl⟩ := repr_inl hs.repr
  have hm : mSize (inl (cfg C dflt mv) l none) = .done (inl (cfg C dflt mv) l none) l.length := rfl
  refine ⟨?_, ?_, ?_, ?_, ?_⟩
  · intro h
    have : ¬ l.length < C := by omega
    constructor
    · rw [emplaceBack, X.bind_done hm]; simp [this, X.bind_run]
    · rw [emplace, X.bind_done hm]; simp [this, X.bind_run]
  · intro h
    rw [emplace, X.bind_done hm]
    by_cases h1 : l.length < C
    · simp [h1, Nat.not_le.mpr h, X.bind_run]
    · simp [h1, X.bind_run]
  · intro h
    rw [erase, X.bind_done hm]; simp [Nat.not_lt.mpr h, X.bind_run]
  · rintro rfl
    simp [popBack, isEmpty, X.bind_run]
  · intro h
    rw [resize]; simp [Nat.not_le.mpr h, X.bind_run]

/-! ### C64 -/

/-- C64 is false of `emplace_back`, `push_back` and `emplace`: the element that was not constructed is counted in the size, and the destructor destroys
it. -/
theorem C64_vector_violated {C : Nat} {dflt : α} {mv : α → α} {s : St α} {l : List α} (hs : Reachable C dflt mv s l) (hroom : l.length < C)
    (v : α) (i : Nat) (hi : i ≤ l.length) :
    (∃ s', emplaceBack C (.value v) (FixedVector.throwing s 0) = .thrown s' ∧ size s' = .done s' (l.length + 1) ∧
      clear C dflt s' = .fail .ub) ∧
    ∃ s', emplace C mv i (.value v) (FixedVector.throwing s 0) = .thrown s' ∧ size s' = .done s' (l.length + 1) ∧
      clear C dflt s' = .fail .ub := by
  have hF : (cfg C dflt mv).hasFallback = false := rfl
  obtain ⟨rfl, hl⟩ := repr_inl hs.repr
  have hclear : ∀ j, j ≤ l.length → clear C dflt (FixedVector.hole (cfg C dflt mv) l j none) = .fail .ub := by
    intro j hj
    have := FixedVector.hole_destructor (K := cfg C dflt mv) hroom hj
    have e0 : ¬ 0 > l.length + 1 := by omega
    have e1 : 0 < l.length + 1 := by omega
    simp only [FixedVector.destructor, FixedVector.clear, usingF hF, X.pure_bind', Bool.false_eq_true, if_false, X.bind_run] at this
    simp only [clear, resize, Nat.zero_le, decide_true, X.assert_true, X.bind_run, X.pure_run]
    simp only [FixedVector.hole, mSize, e0, if_false, e1, if_true, X.bind_run, Nat.sub_zero] at this ⊢
    split at this
    · rename_i h; split at h
      · rename_i h'; simp [FixedVector.setFallback] at this
      · simp at h
      · simp at h
    · simp at this
    · rename_i e h
      split at h
      · simp [setSize] at h
      · simp at h
      · rename_i h'; simp only [Out.fail.injEq] at h this ⊢; rw [h, this]
  refine ⟨⟨FixedVector.hole (cfg C dflt mv) l l.length none, ?_, rfl, hclear _ (Nat.le_refl _)⟩,
    ⟨FixedVector.hole (cfg C dflt mv) l i none, ?_, rfl, hclear _ hi⟩⟩
  · have := FixedVector.emplaceBack_pre (K := cfg C dflt mv) (l := l) (a := .value v) (fu := some 0) hroom
    rw [emplaceBackF hF] at this
    exact this.trans (X.bind_thrown FixedVector.construct_throw)
  · have := FixedVector.emplace_pre (K := cfg C dflt mv) (l := l) (i := i) (a := .value v) (fu := some 0) hroom hi
    rw [emplaceF hF] at this
    exact this.trans (X.bind_thrown FixedVector.construct_throw)

/-- C64 for `resize`, except for the `k` elements already constructed, which are lost: the vector shows its former contents and can be destroyed. -/
theorem C64_resize_partial {C : Nat} {dflt : α} {mv : α → α} {s : St α} {l : List α} (hs : Reachable C dflt mv s l) (n : Nat) (hn : n ≤ C)
    (v : α) (k : Nat) (hk : k < n - l.length) :
    ∃ s' d, resize C n (.value v) (FixedVector.throwing s k) = .thrown s' ∧ Shows s' l ∧ clear C dflt s' = .done d () ∧ living d = k := by
  have hF : (cfg C dflt mv).hasFallback = false := rfl
  obtain ⟨rfl, hl⟩ := repr_inl hs.repr
  have hcap : (l ++ List.replicate k v).length ≤ (cfg C dflt mv).capacity := by simp [cfg]; omega
  obtain ⟨d, e, hd⟩ := FixedVector.overfull_destructor hcap
  have h1 := FixedVector.resize_throw_inl (K := cfg C dflt mv) (l := l) (n := n) (v := v) hn hk
  rw [resizeF hF] at h1
  have hlen : l.length + k ≤ C := by simpa [cfg] using hcap
  refine ⟨_, ⟨⟨some 0, Slots.mk C (fun p => if p < l.length then none else (l ++ List.replicate k v)[p]?), []⟩, none⟩, h1,
    shows_of (FixedVector.overfull_shows hcap), ?_, ?_⟩
  · simp only [clear, resize, Nat.zero_le, decide_true, X.assert_true, X.bind_run, X.pure_run, FixedVector.overfull, mSize, Nat.not_lt_zero, gt_iff_lt,
      if_false, Slots.ofList, Nat.sub_zero, cfg]
    by_cases h0 : 0 < l.length
    · simp only [h0, if_true, X.bind_run]
      rw [FixedVector.destroy_range (by omega) (by
        intro p _ hp
        exact ⟨(l ++ List.replicate k v)[p]'(by simp; omega), List.getElem?_eq_getElem (by simp; omega)⟩)]
      simp only [setSize, X.modify_run]
      congr 3
      apply Slots.mk_congr
      intro p _
      simp
    · have : l = [] := List.eq_nil_of_length_eq_zero (by omega)
      subst this
      simp
  · simp only [living, List.length_nil, Nat.add_zero]
    rw [FixedVector.alive_shift (by simpa [cfg] using hcap)]
    simp

/-! ### C30 -/

/-- The vector `v` has its elements `l` in buffer `b`. -/
structure Owns (h : Heap α) (v : Handle) (b : Nat) (l : List α) : Prop where
  ptr : v.ptr = some b
  size : v.size = l.length
  le : l.length ≤ v.capacity
  buffer : h[b]? = some (Slots.ofList v.capacity l)

/-- Such a vector shows `l`. -/
theorem Owns.read {h : Heap α} {v : Handle} {b : Nat} {l : List α} (o : Owns h v b l) (i : Nat) :
    (∀ (hi : i < l.length), v.read h i = .ok l[i]) ∧ (l.length ≤ i → v.read h i = .error .assert) := by
  constructor
  · intro hi
    simp only [Handle.read, o.size, hi, decide_true, Cpp.assert_true, Cpp.ok_bind, o.ptr, o.buffer]
    exact FixedVector.read_ofList hi o.le
  · intro hi
    simp [Handle.read, o.size, Nat.not_lt.mpr hi]

theorem destroy_elements {h : Heap α} {b n C : Nat} {l : List α} (hb : h[b]? = some (Slots.ofList C l)) (hl : l.length ≤ C) (hn : n ≤ l.length) :
    forUp 0 n (fun i h => destroyAt (some b) i h) h = .ok (h.set b (Slots.mk C (fun p => if p < n then none else l[p]?))) := by
  have hbl : b < h.length := by
    have := List.getElem?_eq_some_iff.mp hb
    exact this.1
  obtain ⟨h', e, rfl⟩ := forUp_ok (lo := 0) (n := n) (f := fun i h => destroyAt (some b) i h) (s := h)
    (fun k h' => h' = h.set b (Slots.mk C (fun p => if p < k then none else l[p]?)))
    (by
      have : Slots.mk C (fun p => if p < 0 then none else l[p]?) = Slots.ofList C l := by
        apply Slots.mk_congr; intro p _; simp
      rw [this]
      apply List.ext_getElem?
      intro q
      rw [List.getElem?_set]
      by_cases hq : b = q
      · subst hq; rw [hb]; simp [hbl]
      · simp [hq]) (by
      rintro k h' hk rfl
      refine ⟨_, ?_, rfl⟩
      simp only [Nat.zero_add, destroyAt, List.getElem?_set, hbl, if_true]
      rw [Slots.destroy_mk (v := l[k]'(by omega)) (by omega) (by
        simp only [Nat.lt_irrefl, if_false]
        exact List.getElem?_eq_getElem (by omega))]
      simp only [Cpp.ok_bind, List.set_set]
      congr 2
      apply Slots.mk_congr
      intro p _
      simp only [Slots.upd]
      by_cases hp : p = k
      · simp [hp]
      · have : p < k ↔ p < k + 1 := by omega
        simp [hp, this])
  exact e

/-- Destroying more elements than there are is an error. -/
theorem destroy_too_many {h : Heap α} {b n C : Nat} {l : List α} (hb : h[b]? = some (Slots.ofList C l)) (hl : l.length ≤ C) (hn : l.length < n) :
    forUp 0 n (fun i h => destroyAt (some b) i h) h = .error .ub := by
  have hbl : b < h.length := (List.getElem?_eq_some_iff.mp hb).1
  have hsplit : ∀ (m lo : Nat) (h1 h2 : Heap α) (k : Nat), forUp lo m (fun i h => destroyAt (some b) i h) h1 = .ok h2 →
      forUp lo (m + (k + 1)) (fun i h => destroyAt (some b) i h) h1 = forUp (lo + m) (k + 1) (fun i h => destroyAt (some b) i h) h2 := by
    intro m
    induction m with
    | zero => intro lo h1 h2 k e; simp only [forUp, Except.ok.injEq] at e; subst e; simp
    | succ m ih =>
      intro lo h1 h2 k e
      simp only [forUp] at e
      rw [show m + 1 + (k + 1) = (m + (k + 1)) + 1 by omega]
      rw [forUp]
      cases hd : destroyAt (some b) lo h1 with
      | error x => simp [hd] at e
      | ok h3 =>
        simp only [hd] at e ⊢
        rw [ih (lo + 1) h3 h2 k e, show lo + 1 + m = lo + (m + 1) by omega]
  obtain ⟨k, rfl⟩ : ∃ k, n = l.length + (k + 1) := ⟨n - l.length - 1, by omega⟩
  rw [hsplit l.length 0 h _ k (destroy_elements hb hl (Nat.le_refl _))]
  simp only [forUp, Nat.zero_add, destroyAt, List.getElem?_set, hbl, if_true]
  have : Slots.destroy (Slots.mk C (fun p => if p < l.length then none else l[p]?)) l.length = .error .ub := by
    by_cases hc : l.length < C
    · exact Slots.destroy_raw hc (by simp)
    · simp [Slots.destroy, Slots.mk, hc]
  rw [this]
  rfl

/-- Number of living elements in a buffer. -/
def livingIn (h : Heap α) (b : Nat) : Nat := match h[b]? with
  | some l => l.alive
  | none => 0

theorem alive_tail {C n : Nat} {l : List α} (hl : l.length ≤ C) (hn : n ≤ l.length) :
    Slots.alive (Slots.mk C (fun p => if p < n then none else l[p]?)) = l.length - n := by
  have := FixedVector.alive_shift (n := C) (l := l.take n) (extra := l.drop n) (by simpa using hl)
  simp only [List.take_append_drop, List.length_take, List.length_drop, Nat.min_eq_left hn] at this
  exact this

/-- C30: the target of a move holds the elements. -/
theorem C30_target {h : Heap α} {this v : Handle} {b : Nat} {l : List α} (o : Owns h v b l) :
    Owns h v.moveConstruct.1 b l ∧ Owns h (this.moveAssign v).1 b l := ⟨o, o⟩

/-- C30 for move construction from a vector of at most one element: destroying both vectors destroys each element once.
Missing: more elements. -/
theorem C30_moveConstruct_partial {h : Heap α} {v : Handle} {b : Nat} {l : List α} (o : Owns h v b l) (hl : l.length ≤ 1) :
    ∃ h1 h2, v.moveConstruct.2.destroy h = .ok h1 ∧ v.moveConstruct.1.destroy h1 = .ok h2 ∧ livingIn h2 b = 0 := by
  refine ⟨h, h.set b (Slots.mk v.capacity (fun p => if p < l.length then none else l[p]?)), ?_, ?_, ?_⟩
  · simp only [Handle.destroy, Handle.moveConstruct, o.size]
    rcases Nat.lt_or_ge l.length 1 with h0 | h0
    · have : l.length = 0 := by omega
      simp [this, forUp]
    · have : l.length = 1 := by omega
      simp [this, forUp, destroyAt]
  · simp only [Handle.destroy, Handle.moveConstruct, o.ptr, o.size]
    exact destroy_elements o.buffer o.le (Nat.le_refl _)
  · have hb : b < h.length := (List.getElem?_eq_some_iff.mp o.buffer).1
    simp only [livingIn, List.getElem?_set, hb, if_true]
    rw [alive_tail o.le (Nat.le_refl _)]; simp

/-- C30 is false of move construction from a vector of two or more elements: the destructor of the source is undefined. -/
theorem C30_moveConstruct_violated {h : Heap α} {v : Handle} {b : Nat} {l : List α} (o : Owns h v b l) (hl : 2 ≤ l.length) (h' : Heap α) :
    v.moveConstruct.2.destroy h' = .error .ub := by
  obtain ⟨k, hk⟩ : ∃ k, l.length = k + 2 := ⟨l.length - 2, by omega⟩
  simp [Handle.destroy, Handle.moveConstruct, o.size, hk, forUp, destroyAt]

/-- C30 for move assignment between vectors of the same size.  Missing: different sizes. -/
theorem C30_moveAssign_partial {h : Heap α} {this v : Handle} {a b : Nat} {l m : List α} (ot : Owns h this a l) (ov : Owns h v b m) (hab : a ≠ b)
    (hlen : l.length = m.length) :
    ∃ h1 h2, (this.moveAssign v).2.destroy h = .ok h1 ∧ (this.moveAssign v).1.destroy h1 = .ok h2 ∧ livingIn h2 a = 0 ∧ livingIn h2 b = 0 := by
  have ha : a < h.length := (List.getElem?_eq_some_iff.mp ot.buffer).1
  have hb : b < h.length := (List.getElem?_eq_some_iff.mp ov.buffer).1
  have e1 := destroy_elements ot.buffer ot.le (n := l.length) (Nat.le_refl _)
  have hbuf : (h.set a (Slots.mk this.capacity (fun p => if p < l.length then none else l[p]?)))[b]? = some (Slots.ofList v.capacity m) := by
    rw [List.getElem?_set_ne hab, ov.buffer]
  have e2 := destroy_elements hbuf ov.le (n := m.length) (Nat.le_refl _)
  refine ⟨_, _, by simp only [Handle.destroy, Handle.moveAssign, ot.ptr, ov.size, ← hlen]; exact e1,
    by simp only [Handle.destroy, Handle.moveAssign, ov.ptr, ov.size]; exact e2, ?_, ?_⟩
  · simp only [livingIn, List.getElem?_set_ne hab.symm]
    rw [List.getElem?_set]
    simp only [ha, if_true]
    rw [alive_tail ot.le (Nat.le_refl _)]; simp
  · simp only [livingIn]
    rw [List.getElem?_set]
    simp only [List.length_set, hb, if_true]
    rw [alive_tail ov.le (Nat.le_refl _)]; simp

/-- C30 is false of move assignment between vectors of different sizes: the source then has the target's old buffer with its own size, so that
elements leak or memory without elements is destroyed. -/
theorem C30_moveAssign_violated {h : Heap α} {this v : Handle} {a b : Nat} {l m : List α} (ot : Owns h this a l) (ov : Owns h v b m) :
    (l.length < m.length → (this.moveAssign v).2.destroy h = .error .ub) ∧
    (m.length < l.length → ∃ h1, (this.moveAssign v).2.destroy h = .ok h1 ∧ livingIn h1 a = l.length - m.length) := by
  constructor
  · intro hlt
    simp only [Handle.destroy, Handle.moveAssign, ot.ptr, ov.size]
    exact destroy_too_many ot.buffer ot.le hlt
  · intro hlt
    have ha : a < h.length := (List.getElem?_eq_some_iff.mp ot.buffer).1
    refine ⟨_, by simp only [Handle.destroy, Handle.moveAssign, ot.ptr, ov.size]; exact destroy_elements ot.buffer ot.le (by omega), ?_⟩
    simp only [livingIn, List.getElem?_set, ha, if_true]
    exact alive_tail ot.le (by omega)

/-- Two vectors of sizes 2 and 1 in different buffers. -/
example : Owns [[some 1, some 2, none], [some 3, none]] ⟨3, 2, some 0⟩ 0 [1, 2] ∧ Owns [[some 1, some 2, none], [some 3, none]] ⟨2, 1, some 1⟩ 1 [3] :=
  ⟨⟨rfl, rfl, by decide, by decide⟩, ⟨rfl, rfl, by decide, by decide⟩⟩

/-! ### C31, C63: `StackArray` -/

namespace Arr

/-- A raw buffer of `n` elements. -/
def raw (n : Nat) : St α := ⟨⟨none, List.replicate n none, []⟩, none⟩

/-- An array with elements `l` in a buffer that fits. -/
def holding (l : List α) : St α := ⟨⟨some l.length, Slots.ofList l.length l, []⟩, none⟩

theorem raw_eq (n : Nat) : (raw n : St α) = ⟨⟨none, Slots.ofList n [], []⟩, none⟩ := by
  simp only [raw, Slots.ofList, Slots.mk]
  congr 2
  apply List.ext_getElem (by simp)
  intro i h1 h2
  simp

theorem construct_run (n : Nat) (dflt : α) : construct n dflt (raw n) = .done (holding (List.replicate n dflt)) () := by
  have := X.forUp_done (lo := 0) (n := n) (f := constructOne dflt)
    (fun k => (⟨⟨some n, Slots.ofList n (List.replicate k dflt), []⟩, none⟩ : St α)) (by
      intro k hk
      rw [Nat.zero_add]
      refine FixedVector.construct_run ?_
      have := FixedVector.ofList_replicate (l := ([] : List α)) (n := n) (k := k) (v := dflt) (by simpa using hk)
      simpa using this)
  simp only [construct, raw_eq, X.bind_run, setSize, X.modify_run]
  simp only [List.replicate_zero] at this
  rw [this]
  simp [holding]

theorem at_run {l : List α} (i : Nat) :
    (∀ (hi : i < l.length), at' i (holding l) = .done (holding l) l[i]) ∧ (l.length ≤ i → at' i (holding l) = .fail .assert) := by
  have hm : mSize (holding l) = .done (holding l) l.length := rfl
  constructor
  · intro hi
    rw [at', X.bind_done hm]
    simp only [hi, decide_true, X.assert_true, X.pure_bind']
    exact FixedVector.ofData_run (f := (Slots.read · i)) (FixedVector.read_ofList hi (Nat.le_refl _))
  · intro hi
    rw [at', X.bind_done hm]
    simp [Nat.not_lt.mpr hi, X.bind_run]

theorem front_run {l : List α} {x : α} (h : l.head? = some x) : front (holding l) = .done (holding l) x := by
  cases l with
  | nil => simp at h
  | cons y l =>
    simp only [List.head?_cons, Option.some.injEq] at h; subst h
    exact FixedVector.ofData_run (f := (Slots.read · 0)) (s := holding (y :: l)) (FixedVector.read_ofList (i := 0) (l := y :: l) (by simp) (Nat.le_refl _))

theorem back_run (l : List α) : (∀ x, l.getLast? = some x → back (holding l) = .done (holding l) x) ∧ (l = [] → back (holding l) = .fail .assert) := by
  have hm : mSize (holding l) = .done (holding l) l.length := rfl
  constructor
  · intro x hx
    have h0 : 0 < l.length := by cases l with | nil => simp at hx | cons => simp
    have hb : (l.length != 0) = true := by simp; rintro rfl; simp at h0
    rw [back, X.bind_done hm, hb, X.assert_true, X.pure_bind']
    rw [List.getLast?_eq_getElem?, List.getElem?_eq_getElem (by omega), Option.some.injEq] at hx
    rw [← hx]
    exact FixedVector.ofData_run (f := (Slots.read · (l.length - 1))) (FixedVector.read_ofList (by omega) (Nat.le_refl _))
  · rintro rfl
    rw [back, X.bind_done hm]
    rfl

theorem destructor_run (l : List α) : ∃ s', destructor (holding l) = .done s' () ∧ living s' = 0 := by
  have hm : mSize (holding l) = .done (holding l) l.length := rfl
  have := FixedVector.destroy_range (N := some l.length) (n := l.length) (lo := 0) (m := l.length) (f := fun p => l[p]?) (b := []) (fu := none)
    (by omega) (fun p _ hp => ⟨l[p]'(by omega), List.getElem?_eq_getElem (by omega)⟩)
  refine ⟨_, by rw [destructor, X.bind_done hm]; exact this, ?_⟩
  have h2 := alive_tail (C := l.length) (n := l.length) (l := l) (Nat.le_refl _) (Nat.le_refl _)
  simp only [living, List.length_nil, Nat.add_zero]
  rw [Nat.sub_self] at h2
  refine Eq.trans (congrArg Slots.alive ?_) h2
  apply Slots.mk_congr
  intro p hp
  simp [hp]

theorem fill_run (l : List α) (v : α) : fill v (holding l) = .done (holding (List.replicate l.length v)) () := by
  have hm : mSize (holding l) = .done (holding l) l.length := rfl
  have := X.forUp_done (lo := 0) (n := l.length) (f := fun i => onData (Slots.assign · i v))
    (fun k => (⟨⟨some l.length, Slots.mk l.length (fun p => if p < k then some v else l[p]?), []⟩, none⟩ : St α)) (by
      intro k hk
      rw [Nat.zero_add]
      apply FixedVector.onData_run
      rw [Slots.assign_mk v (u := l[k]) hk (by simp [hk])]
      congr 1
      apply Slots.mk_congr
      intro p _
      simp only [Slots.upd]
      by_cases hp : p = k
      · simp [hp]
      · have : p < k ↔ p < k + 1 := by omega
        simp [hp, this])
  rw [fill, X.bind_done hm]
  simp only [Nat.not_lt_zero, if_false] at this
  rw [show holding l = (⟨⟨some l.length, Slots.mk l.length (fun p => l[p]?), []⟩, none⟩ : St α) from rfl, this]
  simp only [holding, List.length_replicate]
  congr 3
  apply Slots.mk_congr
  intro p hp
  rw [if_pos hp, List.getElem?_replicate, if_pos hp]

theorem assignAt_run {l : List α} {i : Nat} (hi : i < l.length) (v : α) : assignAt i v (holding l) = .done (holding (l.set i v)) () := by
  have hm : mSize (holding l) = .done (holding l) l.length := rfl
  rw [assignAt, X.bind_done hm]
  simp only [hi, decide_true, X.assert_true, X.pure_bind', holding, List.length_set]
  exact FixedVector.onData_run (FixedVector.assign_ofList hi (Nat.le_refl _))

/-- Writes to an array. -/
inductive Write (α : Type) where
  | fill (v : α)
  | set (i : Nat) (v : α)

def Write.run : Write α → X (St α) Unit
  | .fill v => Arr.fill v
  | .set i v => assignAt i v

/-- The effect of a write on the list of elements. -/
def Write.spec : Write α → List α → List α
  | .fill v, l => l.map (fun _ => v)
  | .set i v, l => l.set i v

/-- A write is in range of an array of `n` elements. -/
def Write.ok (n : Nat) : Write α → Prop
  | .fill _ => True
  | .set i _ => i < n

def runWrites : List (Write α) → X (St α) Unit
  | [] => pure ()
  | w :: ws => do
    w.run
    runWrites ws

end Arr

open Arr in
/-- C31: `StackArray(n)` constructs `n` default elements; after any writes in range, indexing, `front` and `back` show the written values (indexing out of range and
`back` of an empty array fail their assertion), exactly `n` elements are alive, and the destructor destroys these `n`. -/
theorem C31_stackArray (n : Nat) (dflt : α) (ws : List (Write α)) (hw : ∀ w ∈ ws, w.ok n) :
    ∃ s s' : St α, ∃ d, Arr.construct n dflt (raw n) = .done s () ∧ runWrites ws s = .done s' () ∧ living s = n ∧ living s' = n ∧
      (∀ (i : Nat) (x : α), (ws.foldl (fun l w => w.spec l) (List.replicate n dflt))[i]? = some x → Arr.at' i s' = .done s' x) ∧
      (∀ i, n ≤ i → Arr.at' i s' = .fail .assert) ∧
      (∀ x, (ws.foldl (fun l w => w.spec l) (List.replicate n dflt)).head? = some x → Arr.front s' = .done s' x) ∧
      (∀ x, (ws.foldl (fun l w => w.spec l) (List.replicate n dflt)).getLast? = some x → Arr.back s' = .done s' x) ∧
      (n = 0 → Arr.back s' = .fail .assert) ∧
      Arr.destructor s' = .done d () ∧ living d = 0 := by
  have key : ∀ (ws : List (Write α)) (l : List α), (∀ w ∈ ws, w.ok l.length) →
      runWrites ws (holding l) = .done (holding (ws.foldl (fun l w => w.spec l) l)) () ∧
        (ws.foldl (fun l w => w.spec l) l).length = l.length := by
    intro ws
    induction ws with
    | nil => intro l _; exact ⟨rfl, rfl⟩
    | cons w ws ih =>
      intro l h
      have hone : w.run (holding l) = .done (holding (w.spec l)) () ∧ (w.spec l).length = l.length := by
        have hok := h w (by simp)
        cases w with
        | fill v =>
          refine ⟨?_, by simp [Write.spec]⟩
          have := fill_run l v
          rw [← List.map_const'] at this
          exact this
        | set i v => exact ⟨assignAt_run hok v, by simp [Write.spec]⟩
      obtain ⟨e, hl⟩ := ih (w.spec l) (fun w' hw' => by rw [hone.2]; exact h w' (by simp [hw']))
      refine ⟨?_, by rw [List.foldl_cons, hl, hone.2]⟩
      rw [runWrites, X.bind_done hone.1]
      exact e
  obtain ⟨e, hl⟩ := key ws (List.replicate n dflt) (by simpa using hw)
  simp only [List.length_replicate] at hl
  obtain ⟨d, hd, hd0⟩ := destructor_run (ws.foldl (fun l w => w.spec l) (List.replicate n dflt))
  refine ⟨_, _, d, construct_run n dflt, e, ?_, ?_, ?_, ?_, fun _ => front_run, (back_run _).1, ?_, hd, hd0⟩
  · simp [living, holding, Slots.alive_ofList]
  · simp only [living, holding, List.length_nil, Nat.add_zero]
    rw [Slots.alive_ofList (Nat.le_refl _), hl]
  · intro i x hx
    obtain ⟨hi, rfl⟩ := List.getElem?_eq_some_iff.mp hx
    exact (at_run i).1 hi
  · intro i hi
    exact (at_run i).2 (by omega)
  · intro h0
    exact (back_run _).2 (List.eq_nil_of_length_eq_zero (by omega))

example : ∀ w ∈ [Arr.Write.set 1 5, .fill 3, .set 0 4], w.ok 2 := by simp [Arr.Write.ok]

open Arr in
/-- C31: the constructor without initialisation takes over `n` elements constructed by the caller, and the destructor destroys them; if they
were not constructed, its behaviour is undefined. -/
theorem C31_noInit (l : List α) :
    (∃ d, (do Arr.constructNoInit l.length; Arr.destructor) ⟨⟨none, Slots.ofList l.length l, []⟩, none⟩ = .done d () ∧ living d = 0) ∧
    ∀ n, 0 < n → (do Arr.constructNoInit n; Arr.destructor) (raw n : St α) = .fail .ub := by
  constructor
  · obtain ⟨d, e, h⟩ := destructor_run l
    exact ⟨d, e, h⟩
  · intro n hn
    obtain ⟨k, rfl⟩ : ∃ k, n = k + 1 := ⟨n - 1, by omega⟩
    simp [constructNoInit, destructor, raw, X.bind_run, setSize, mSize, X.forUp, onData, Slots.destroy, List.replicate_succ]

/-- C64 is false of the constructor of `StackArray`: if the construction of element `k` throws, the `k` elements before it are never destroyed (the destructor of an
object whose constructor threw is not called). -/
theorem C64_array_violated (n k : Nat) (hk : k < n) (dflt : α) :
    ∃ s', Arr.construct n dflt ⟨(Arr.raw n).vec, some k⟩ = .thrown s' ∧ living s' = k := by
  have := X.forUp_thrown (lo := 0) (n := n) (f := Arr.constructOne dflt)
    (fun j => (⟨⟨some n, Slots.ofList n (List.replicate j dflt), []⟩, some (k - j)⟩ : St α)) k hk
    (s' := ⟨⟨some n, Slots.ofList n (List.replicate k dflt), []⟩, none⟩) (by
      intro j hj
      obtain ⟨q, hq⟩ : ∃ q, k - j = q + 1 := ⟨k - j - 1, by omega⟩
      have hq' : k - (j + 1) = q := by omega
      simp only [Nat.zero_add, Arr.constructOne, construct, Arg.read, X.bind_run, X.pure_run, tick, hq, hq']
      refine FixedVector.onData_run ?_
      have := FixedVector.ofList_replicate (l := ([] : List α)) (n := n) (k := j) (v := dflt) (by simp; omega)
      simpa using this) (by
      rw [Nat.sub_self]
      exact FixedVector.construct_throw)
  refine ⟨⟨⟨some n, Slots.ofList n (List.replicate k dflt), []⟩, none⟩, ?_, ?_⟩
  · simp only [List.replicate_zero, Nat.sub_zero] at this
    have hr : (Arr.raw n : St α).vec = ⟨none, Slots.ofList n [], []⟩ := by rw [Arr.raw_eq]
    simp only [Arr.construct, hr, X.bind_run, setSize, X.modify_run]
    exact this
  · simp only [living, List.length_nil, Nat.add_zero]
    rw [Slots.alive_ofList (by simp; omega)]; simp

/-- A `StackArray` is moved as a `StackVector` (the same members but for the capacity: StackArray.hpp:46,92,95-96), so C63 holds and fails as C30 does. -/
theorem C63_moveConstruct_partial {h : Heap α} {v : Handle} {b : Nat} {l : List α} (o : Owns h v b l) (hl : l.length ≤ 1) :
    ∃ h1 h2, v.moveConstruct.2.destroy h = .ok h1 ∧ v.moveConstruct.1.destroy h1 = .ok h2 ∧ livingIn h2 b = 0 :=
  C30_moveConstruct_partial o hl

theorem C63_moveAssign_partial {h : Heap α} {this v : Handle} {a b : Nat} {l m : List α} (ot : Owns h this a l) (ov : Owns h v b m) (hab : a ≠ b)
    (hlen : l.length = m.length) :
    ∃ h1 h2, (this.moveAssign v).2.destroy h = .ok h1 ∧ (this.moveAssign v).1.destroy h1 = .ok h2 ∧ livingIn h2 a = 0 ∧ livingIn h2 b = 0 :=
  C30_moveAssign_partial ot ov hab hlen

theorem C63_moves_violated {h : Heap α} {this v : Handle} {a b : Nat} {l m : List α} (ot : Owns h this a l) (ov : Owns h v b m) :
    (2 ≤ m.length → ∀ h', v.moveConstruct.2.destroy (α := α) h' = .error .ub) ∧
    (l.length < m.length → (this.moveAssign v).2.destroy h = .error .ub) ∧
    (m.length < l.length → ∃ h1, (this.moveAssign v).2.destroy h = .ok h1 ∧ livingIn h1 a = l.length - m.length) :=
  ⟨fun hl h' => C30_moveConstruct_violated ov hl h', (C30_moveAssign_violated ot ov).1, (C30_moveAssign_violated ot ov).2⟩

end Verif.StackVector
