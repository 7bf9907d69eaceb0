import Verif.FixedVector.ModelIter
import Verif.FixedVector.Props

/-!
# C108, C109: iterators of and references into a `FixedVector`
-/

namespace Verif.FixedVector
open Verif.Cpp

variable {α β : Type} {K : Cfg α}

/-! ### The pointers of a vector -/

theorem dataAt_inl (l : List α) (fu : Option Nat) (n : Nat) : dataAt K n (inl K l fu) = .done (inl K l fu) ⟨false, n⟩ := by
  simp [dataAt, X.bind_run, isUsingFallback, inl]

theorem dataAt_fb (hF : K.hasFallback = true) (l : List α) (fu : Option Nat) (n : Nat) : dataAt K n (fb K l fu) = .done (fb K l fu) ⟨true, n⟩ := by
  simp [dataAt, X.bind_run, isUsingFallback, fb, hF]

theorem dataAt_reprU {u : Bool} {s : St α} {l : List α} {fu : Option Nat} (h : ReprU K u s l fu) (n : Nat) : dataAt K n s = .done s ⟨u, n⟩ := by
  rcases h with ⟨rfl, rfl, _⟩ | ⟨rfl, rfl, hF⟩
  · exact dataAt_inl l fu n
  · exact dataAt_fb hF l fu n

theorem end_reprU {u : Bool} {s : St α} {l : List α} {fu : Option Nat} (h : ReprU K u s l fu) : end' K s = .done s ⟨u, l.length⟩ := by
  rw [end', X.bind_done (size_repr h.repr)]
  exact dataAt_reprU h _

theorem deref_reprU {u : Bool} {s : St α} {l : List α} {fu : Option Nat} (h : ReprU K u s l fu) (i : Nat) :
    deref ⟨u, i⟩ s = match l[i]? with | some x => .done s x | none => .fail .ub := by
  rcases h with ⟨rfl, rfl, hl⟩ | ⟨rfl, rfl, hF⟩
  · simp only [deref, Bool.false_eq_true, if_false, ofData, inl]
    by_cases hi : i < l.length
    · rw [read_ofList hi hl, List.getElem?_eq_getElem hi]
    · rw [List.getElem?_eq_none (by omega)]
      have : Slots.read (Slots.ofList K.capacity l) i = .error .ub := by
        simp only [Slots.read, Slots.ofList]
        by_cases hc : i < K.capacity
        · rw [Slots.mk_get hc, List.getElem?_eq_none (by omega)]
        · rw [List.getElem?_eq_none (by simpa using hc)]
      rw [this]
  · simp only [deref, if_true, X.bind_run, getFallback, fb]
    cases h : l[i]? <;> rfl

theorem store_reprU {u : Bool} {s : St α} {l : List α} {fu : Option Nat} (h : ReprU K u s l fu) (i : Nat) (v : α) (hi : i < l.length) :
    ∃ s', store ⟨u, i⟩ v s = .done s' () ∧ ReprU K u s' (l.set i v) fu := by
  rcases h with ⟨rfl, rfl, hl⟩ | ⟨rfl, rfl, hF⟩
  · refine ⟨inl K (l.set i v) fu, ?_, .inl ⟨rfl, rfl, by simpa using hl⟩⟩
    simp only [store, Bool.false_eq_true, if_false, inl, List.length_set]
    exact onData_run (assign_ofList hi hl)
  · refine ⟨fb K (l.set i v) fu, ?_, .inr ⟨rfl, rfl, hF⟩⟩
    simp [store, X.bind_run, getFallback, fb, hi, setFallback]

/-- A loop over a range whose body, at the `k`-th element, goes from the `k`-th to the next state. -/
theorem forRange_run {body : Ptr → X (St α) β} (u : Bool) (xs : List β) (b : Nat) (I : Nat → St α → Prop)
    (hb : ∀ (k : Nat) (s : St α) (hk : k < xs.length), I k s → ∃ s', body ⟨u, b + k⟩ s = .done s' xs[k] ∧ I (k + 1) s')
    {fuel : Nat} (hf : xs.length ≤ fuel) {s : St α} (h0 : I 0 s) :
    ∃ s', forRange body fuel ⟨u, b⟩ ⟨u, b + xs.length⟩ s = .done s' xs ∧ I xs.length s' := by
  induction xs generalizing b fuel I s with
  | nil => cases fuel <;> exact ⟨s, by simp [forRange], h0⟩
  | cons x xs ih =>
    obtain ⟨fuel, rfl⟩ : ∃ f, fuel = f + 1 := ⟨fuel - 1, by simp at hf; omega⟩
    obtain ⟨s1, e1, i1⟩ := hb 0 s (by simp) h0
    obtain ⟨s2, e2, i2⟩ := ih (b + 1) (fun k => I (k + 1)) (fun k s hk hI => by
      have := hb (k + 1) s (by simpa using hk) hI
      rwa [show b + (k + 1) = b + 1 + k by omega] at this) (fuel := fuel) (by simpa using hf) i1
    refine ⟨s2, ?_, i2⟩
    have hne : ¬ (⟨u, b⟩ : Ptr) = ⟨u, b + (x :: xs).length⟩ := by simp
    rw [Nat.add_zero] at e1
    rw [forRange, if_neg hne, X.bind_done e1]
    simp only [Ptr.next]
    rw [show b + (x :: xs).length = b + 1 + xs.length by simp; omega, X.bind_done e2]
    rfl

/-- The same for a loop over a reversed range. -/
theorem forRangeRev_run {body : Ptr → X (St α) β} (u : Bool) (xs : List β) (b : Nat) (I : Nat → St α → Prop)
    (hb : ∀ (k : Nat) (s : St α) (hk : k < xs.length), I k s → ∃ s', body ⟨u, b + (xs.length - 1 - k)⟩ s = .done s' xs[k] ∧ I (k + 1) s')
    {fuel : Nat} (hf : xs.length ≤ fuel) {s : St α} (h0 : I 0 s) :
    ∃ s', forRangeRev body fuel ⟨u, b + xs.length⟩ ⟨u, b⟩ s = .done s' xs ∧ I xs.length s' := by
  induction xs generalizing fuel I s with
  | nil => cases fuel <;> exact ⟨s, by simp [forRangeRev], h0⟩
  | cons x xs ih =>
    obtain ⟨fuel, rfl⟩ : ∃ f, fuel = f + 1 := ⟨fuel - 1, by simp at hf; omega⟩
    obtain ⟨s1, e1, i1⟩ := hb 0 s (by simp) h0
    obtain ⟨s2, e2, i2⟩ := ih (fun k => I (k + 1)) (fun k s hk hI => by
      have := hb (k + 1) s (by simpa using hk) hI
      rwa [show (x :: xs).length - 1 - (k + 1) = xs.length - 1 - k by simp; omega] at this) (fuel := fuel) (by simpa using hf) i1
    refine ⟨s2, ?_, i2⟩
    have hne : ¬ (⟨u, b + (x :: xs).length⟩ : Ptr) = ⟨u, b⟩ := by simp
    rw [forRangeRev, if_neg hne]
    simp only [List.length_cons, Nat.add_sub_cancel, Nat.sub_zero, List.getElem_cons_zero] at e1
    simp only [List.length_cons, show 0 < b + (xs.length + 1) by omega, decide_true, X.guardUB_true, X.pure_bind',
      show b + (xs.length + 1) - 1 = b + xs.length by omega]
    rw [X.bind_done e1, X.bind_done e2]
    rfl

/-! ### C108: loops -/

/-- C108: `for (x : v)` visits the elements of the sequence, each once, in order; the loop from `rbegin` to `rend` visits them in the opposite order.  The vector is
unchanged.  (The loops end: any number of iterations from the length on is enough.) -/
theorem C108_visit {s : St α} {l : List α} (hs : Reachable K s l) :
    ∃ b e rb re, begin' K s = .done s b ∧ end' K s = .done s e ∧ rbegin K s = .done s rb ∧ rend K s = .done s re ∧
      ∀ fuel, l.length ≤ fuel → forRange deref fuel b e s = .done s l ∧ forRangeRev deref fuel rb re s = .done s l.reverse := by
  obtain ⟨u, h⟩ := hs.repr.withU
  refine ⟨⟨u, 0⟩, ⟨u, l.length⟩, ⟨u, l.length⟩, ⟨u, 0⟩, dataAt_reprU h 0, end_reprU h, end_reprU h, dataAt_reprU h 0, fun fuel hf => ⟨?_, ?_⟩⟩
  · obtain ⟨s', e, rfl⟩ := forRange_run (body := deref) u l 0 (fun _ t => t = s) (fun k t hk ht => by
      subst ht
      exact ⟨t, by rw [Nat.zero_add, deref_reprU h, List.getElem?_eq_getElem hk], rfl⟩) hf rfl
    rwa [Nat.zero_add] at e
  · obtain ⟨s', e, rfl⟩ := forRangeRev_run (body := deref) u l.reverse 0 (fun _ t => t = s) (fun k t hk ht => by
      subst ht
      rw [List.length_reverse] at hk
      exact ⟨t, by rw [Nat.zero_add, deref_reprU h, List.length_reverse, List.getElem?_eq_getElem (by omega), List.getElem_reverse], rfl⟩)
      (by simpa using hf) rfl
    rwa [Nat.zero_add, List.length_reverse] at e

/-- `x = f(x)` in the body of a loop. -/
def updateBody (f : α → α) (p : Ptr) : X (St α) Unit := do
  let x ← deref p
  store p (f x)

theorem mapPart_set {l : List α} {f : α → α} {k : Nat} (hk : k < l.length) :
    (movedPart f l k).set k (f l[k]) = movedPart f l (k + 1) := by
  apply List.ext_getElem?
  intro p
  rw [List.getElem?_set, movedPart_length, movedPart_get, movedPart_get]
  rcases Nat.lt_trichotomy p k with h | rfl | h
  · rw [if_neg (by omega), if_pos h, if_pos (by omega)]
  · simp [hk]
  · rw [if_neg (by omega), if_neg (by omega), if_neg (by omega)]

/-- C108: `for (T& x : v) x = f(x)` applies `f` to every element, once. -/
theorem C108_update {s : St α} {l : List α} (hs : Reachable K s l) (f : α → α) :
    ∃ b e, begin' K s = .done s b ∧ end' K s = .done s e ∧
      ∀ fuel, l.length ≤ fuel → ∃ s' us, forRange (updateBody f) fuel b e s = .done s' us ∧ Shows K s' (l.map f) := by
  obtain ⟨u, h⟩ := hs.repr.withU
  refine ⟨⟨u, 0⟩, ⟨u, l.length⟩, dataAt_reprU h 0, end_reprU h, fun fuel hf => ?_⟩
  obtain ⟨s', e, i⟩ := forRange_run (body := updateBody f) u (List.replicate l.length ()) 0
    (fun k t => ReprU K u t (movedPart f l k) none) (fun k t hk ht => by
      rw [List.length_replicate] at hk
      have hg : (movedPart f l k)[k]? = some l[k] := by rw [movedPart_get, if_neg (by omega), List.getElem?_eq_getElem hk]
      obtain ⟨t', e', r'⟩ := store_reprU ht k (f l[k]) (by rw [movedPart_length]; exact hk)
      refine ⟨t', ?_, by rwa [mapPart_set hk] at r'⟩
      have hd := deref_reprU ht k
      rw [hg] at hd
      rw [Nat.zero_add, updateBody, X.bind_done hd, e']) (by simpa using hf) (s := s) (by simpa [movedPart] using h)
  rw [List.length_replicate] at e i
  refine ⟨s', List.replicate l.length (), by rwa [Nat.zero_add] at e, ?_⟩
  have := shows_repr i.repr
  simpa [movedPart] using this

theorem indexOf_reprU {u : Bool} {s : St α} {l : List α} {fu : Option Nat} (h : ReprU K u s l fu) (i : Nat) :
    indexOf K ⟨u, i⟩ s = .done s i := by
  have hb : begin' K s = .done s ⟨u, 0⟩ := dataAt_reprU h 0
  rw [indexOf, X.bind_done hb]
  simp [X.pure_bind']

theorem eraseIt_reprU {u : Bool} {s : St α} {l : List α} (i : Nat) (h : ReprU K u s l none) (hi : i < l.length) :
    ∃ s', eraseIt K ⟨u, i⟩ s = .done s' ⟨u, i⟩ ∧ ReprU K u s' (l.take i ++ l.drop (i + 1)) none := by
  obtain ⟨s', e, r⟩ := erase_reprU i h hi
  exact ⟨s', by rw [eraseIt, X.bind_done (indexOf_reprU h i), X.bind_done e]; exact dataAt_reprU r i, r⟩

theorem insertIt_repr {u : Bool} {s : St α} {l : List α} (i : Nat) (v : α) (h : ReprU K u s l none) (hi : i ≤ l.length)
    (hok : K.hasFallback = true ∨ l.length < K.capacity) :
    ∃ u' s', insertIt K ⟨u, i⟩ v s = .done s' ⟨u', i⟩ ∧ ReprU K u' s' (l.take i ++ v :: l.drop i) none := by
  obtain ⟨s', e, r⟩ := emplace_repr i v h.repr hi hok
  rw [insertIdx_eq hi] at r
  obtain ⟨u', r'⟩ := r.withU
  exact ⟨u', s', by rw [insertIt, X.bind_done (indexOf_reprU h i), X.bind_done e]; exact dataAt_reprU r' i, r'⟩

theorem eraseLoop_run {u : Bool} (pred : α → Bool) (pre rest : List α) {s : St α} (h : ReprU K u s (pre ++ rest) none) {fuel : Nat} (hf : rest.length ≤ fuel) :
    ∃ s', eraseLoop K pred fuel ⟨u, pre.length⟩ s = .done s' () ∧ ReprU K u s' (pre ++ rest.filter (fun x => !pred x)) none := by
  induction rest generalizing pre s fuel with
  | nil =>
    have he := end_reprU h
    rw [List.append_nil] at he
    refine ⟨s, ?_, by simpa using h⟩
    cases fuel <;> simp [eraseLoop, X.bind_run, he]
  | cons x rest ih =>
    obtain ⟨fuel, rfl⟩ : ∃ f, fuel = f + 1 := ⟨fuel - 1, by simp at hf; omega⟩
    have hf' : rest.length ≤ fuel := by simpa using hf
    have hd := deref_reprU h pre.length
    simp only [List.getElem?_append_right (Nat.le_refl _), Nat.sub_self, List.getElem?_cons_zero] at hd
    have hne : ¬ (⟨u, pre.length⟩ : Ptr) = ⟨u, (pre ++ x :: rest).length⟩ := by simp
    rw [eraseLoop, X.bind_done (end_reprU h), if_neg hne, X.bind_done hd]
    by_cases hp : pred x = true
    · obtain ⟨s1, e1, r1⟩ := eraseIt_reprU pre.length h (by simp)
      rw [if_pos hp, X.bind_done e1]
      rw [List.take_left' rfl, show List.drop (pre.length + 1) (pre ++ x :: rest) = rest by
        rw [List.drop_append]; simp] at r1
      obtain ⟨s2, e2, r2⟩ := ih pre r1 hf'
      exact ⟨s2, e2, by simpa [List.filter_cons, hp] using r2⟩
    · rw [if_neg hp]
      obtain ⟨s2, e2, r2⟩ := ih (pre ++ [x]) (by simpa using h) hf'
      refine ⟨s2, ?_, by simpa [List.filter_cons, hp] using r2⟩
      simpa [Ptr.next] using e2

/-- C108: the loop that erases, through the iterators returned by `erase`, the elements that satisfy a predicate leaves exactly the others, in order. -/
theorem C108_erase {s : St α} {l : List α} (hs : Reachable K s l) (pred : α → Bool) :
    ∃ b, begin' K s = .done s b ∧
      ∀ fuel, l.length ≤ fuel → ∃ s', eraseLoop K pred fuel b s = .done s' () ∧ Shows K s' (l.filter (fun x => !pred x)) := by
  obtain ⟨u, h⟩ := hs.repr.withU
  refine ⟨⟨u, 0⟩, dataAt_reprU h 0, fun fuel hf => ?_⟩
  obtain ⟨s', e, r⟩ := eraseLoop_run pred [] l h hf
  exact ⟨s', e, shows_repr r.repr⟩

theorem insertLoop_run {u : Bool} (g : α → α) (pre rest : List α) {s : St α} (h : ReprU K u s (pre ++ rest) none) {fuel : Nat} (hf : rest.length ≤ fuel)
    (hok : K.hasFallback = true ∨ pre.length + 2 * rest.length ≤ K.capacity) :
    ∃ s', insertLoop K g fuel ⟨u, pre.length⟩ s = .done s' () ∧ Repr K s' (pre ++ rest.flatMap (fun x => [g x, x])) none := by
  induction rest generalizing pre s fuel u with
  | nil =>
    have he := end_reprU h
    rw [List.append_nil] at he
    refine ⟨s, ?_, by simpa using h.repr⟩
    cases fuel <;> simp [insertLoop, X.bind_run, he]
  | cons x rest ih =>
    obtain ⟨fuel, rfl⟩ : ∃ f, fuel = f + 1 := ⟨fuel - 1, by simp at hf; omega⟩
    have hf' : rest.length ≤ fuel := by simpa using hf
    have hd := deref_reprU h pre.length
    simp only [List.getElem?_append_right (Nat.le_refl _), Nat.sub_self, List.getElem?_cons_zero] at hd
    have hne : ¬ (⟨u, pre.length⟩ : Ptr) = ⟨u, (pre ++ x :: rest).length⟩ := by simp
    rw [insertLoop, X.bind_done (end_reprU h), if_neg hne, X.bind_done hd]
    obtain ⟨u', s1, e1, r1⟩ := insertIt_repr pre.length (g x) h (by simp) (by
      rcases hok with h | h
      · exact .inl h
      · exact .inr (by simp only [List.length_append, List.length_cons] at h ⊢; omega))
    rw [X.bind_done e1]
    rw [List.take_left' rfl, List.drop_left' rfl] at r1
    obtain ⟨s2, e2, r2⟩ := ih (pre ++ [g x, x]) (by simpa using r1) hf' (by
      rcases hok with h | h
      · exact .inl h
      · exact .inr (by simp only [List.length_append, List.length_cons, List.length_nil] at h ⊢; omega))
    refine ⟨s2, ?_, by simpa using r2⟩
    simpa [Ptr.add] using e2

/-- C108: the loop that inserts an element before every element, through the iterators returned by `insert`, does so, whether or not the vector moves to its fallback on the
way. -/
theorem C108_insert {s : St α} {l : List α} (hs : Reachable K s l) (g : α → α) (hok : K.hasFallback = true ∨ 2 * l.length ≤ K.capacity) :
    ∃ b, begin' K s = .done s b ∧
      ∀ fuel, l.length ≤ fuel → ∃ s', insertLoop K g fuel b s = .done s' () ∧ Shows K s' (l.flatMap (fun x => [g x, x])) := by
  obtain ⟨u, h⟩ := hs.repr.withU
  refine ⟨⟨u, 0⟩, dataAt_reprU h 0, fun fuel hf => ?_⟩
  obtain ⟨s', e, r⟩ := insertLoop_run g [] l h hf (by simpa using hok)
  exact ⟨s', e, shows_repr r⟩

/-- A vector with elements 1, 2 and a capacity of 3: doubling it goes to the fallback. -/
example : ∃ s : St Nat, Reachable exK s [1, 2] ∧ insertLoop exK (· + 10) 2 ⟨false, 0⟩ s = .done (fb exK [11, 1, 12, 2] none) () ∧
    eraseLoop exK (· == 1) 2 ⟨false, 0⟩ s = .done (inl exK [2] none) () :=
  ⟨inl exK [1, 2] none,
    (((Reachable.new (K := exK)).call (o := .pushBack 1) (.inl rfl) rfl).call (o := .pushBack 2) (.inl rfl) rfl :), by decide +kernel, by decide +kernel⟩

/-! ### C109: references -/

/-- The call does not exceed the capacity: a vector with inline storage keeps its elements there. -/
def Op.fits (capacity : Nat) : Op α → List α → Prop
  | .pushBack _, l => l.length < capacity
  | .emplace _ _, l => l.length < capacity
  | .resize n _, _ => n ≤ capacity
  | .reserve n, _ => n ≤ capacity
  | _, _ => True

/-- Every call of the history fits. -/
def fitsAll (capacity : Nat) : List (Op α) → List α → Prop
  | [], _ => True
  | o :: os, l => o.fits capacity l ∧ fitsAll capacity os (o.spec l).1

/-- The element at position `i` stays at its position: what is inserted or removed is behind it. -/
def Op.keeps (i : Nat) : Op α → List α → Prop
  | .pushBack _, _ => True
  | .emplace j _, _ => i < j
  | .erase j, _ => i < j
  | .eraseRange f t, _ => i < f ∨ f = t
  | .popBack, l => i + 1 < l.length
  | .resize n _, _ => i < n
  | .reserve _, _ => True
  | .assignAt j _, _ => i ≠ j
  | .clear, _ => False

theorem run_inl {l : List α} (o : Op α) (hl : l.length ≤ K.capacity) (hok : o.ok K.capacity K.hasFallback l) (hfit : o.fits K.capacity l) :
    o.run K (inl K l none) = .done (inl K (o.spec l).1 none) (o.spec l).2 ∧ (o.spec l).1.length ≤ K.capacity := by
  have hu : ReprU K false (inl K l none) l none := .inl ⟨rfl, rfl, hl⟩
  have fin {s' : St α} {m : List α} (r : ReprU K false s' m none) : s' = inl K m none ∧ m.length ≤ K.capacity := by
    rcases r with ⟨_, r⟩ | ⟨h, _⟩
    · exact r
    · simp at h
  cases o with
  | pushBack v =>
    refine ⟨?_, by simp only [Op.fits] at hfit; simp only [Op.spec, List.length_append, List.length_singleton]; omega⟩
    rw [Op.run, X.bind_done (emplaceBack_inl hfit)]; rfl
  | emplace i v =>
    refine ⟨?_, ?_⟩
    · rw [Op.run, X.bind_done (emplace_inl hok.1 hfit)]
      simp [Op.spec, insertIdx_eq hok.1]
    · have h1 := hok.1
      simp only [Op.fits] at hfit
      simp only [Op.spec, List.length_append, List.length_take, List.length_cons, List.length_drop]
      omega
  | erase i =>
    obtain ⟨s', e, r⟩ := erase_reprU i hu hok
    obtain ⟨rfl, hc⟩ := fin r
    exact ⟨by rw [Op.run, X.bind_done e]; rfl, hc⟩
  | eraseRange f t =>
    obtain ⟨s', e, r⟩ := eraseRange_reprU f t hu hok.1 hok.2
    obtain ⟨rfl, hc⟩ := fin r
    exact ⟨by rw [Op.run, X.bind_done e]; rfl, hc⟩
  | popBack =>
    obtain ⟨s', e, r⟩ := popBack_reprU hu hok
    rw [List.dropLast_eq_take] at r
    obtain ⟨rfl, hc⟩ := fin r
    exact ⟨by rw [Op.run, X.bind_done e]; rfl, hc⟩
  | resize n v =>
    refine ⟨by rw [Op.run, X.bind_done (resize_inl hl hfit)]; rfl, ?_⟩
    simp only [Op.fits] at hfit
    simp only [Op.spec, List.length_append, List.length_take, List.length_replicate]
    omega
  | reserve n =>
    refine ⟨?_, hl⟩
    simp only [Op.fits] at hfit
    by_cases hF : K.hasFallback = true <;> simp [Op.run, reserve, hF, hfit, X.bind_run, Op.spec]
  | assignAt i v =>
    obtain ⟨s', e, r⟩ := assignAt_reprU i v hu hok
    obtain ⟨rfl, hc⟩ := fin r
    exact ⟨by rw [Op.run, X.bind_done e]; rfl, hc⟩
  | clear =>
    refine ⟨by rw [Op.run, X.bind_done (clear_inl hl)]; rfl, by simp [Op.spec]⟩

theorem runAll_inl {l : List α} (os : List (Op α)) (hl : l.length ≤ K.capacity) (hok : okAll K.capacity K.hasFallback os l)
    (hfit : fitsAll K.capacity os l) :
    runAll K os (inl K l none) = .done (inl K (specAll os l).1 none) (specAll os l).2 ∧ (specAll os l).1.length ≤ K.capacity := by
  induction os generalizing l with
  | nil => exact ⟨rfl, hl⟩
  | cons o os ih =>
    obtain ⟨e1, h1⟩ := run_inl o hl hok.1 hfit.1
    obtain ⟨e2, h2⟩ := ih h1 hok.2 hfit.2
    refine ⟨?_, h2⟩
    rw [runAll, X.bind_done e1, X.bind_done e2]
    rfl

theorem repr_of_inline {s : St α} {l : List α} {fu : Option Nat} (h : Repr K s l fu) (hi : s.vec.usesFallback K = false) :
    s = inl K l fu ∧ l.length ≤ K.capacity := by
  rcases h with h | ⟨rfl, hF⟩
  · exact h
  · simp [usesFallback_fb hF] at hi

/-- C109: as long as a vector does not outgrow its inline storage, a pointer (or reference) `&v[i]` designates whatever element is at position `i`: after any calls
it reads the element that is now there, writing through it is writing `v[i]`, and it dangles if the sequence has become too short. -/
theorem C109_position {s : St α} {l : List α} (hs : Reachable K s l) (hin : s.vec.usesFallback K = false) (ops : List (Op α))
    (hok : okAll K.capacity K.hasFallback ops l) (hfit : fitsAll K.capacity ops l) (i : Nat) (hi : i < l.length) :
    ∃ p s' rs, dataAt K i s = .done s p ∧ deref p s = .done s l[i] ∧ runAll K ops s = .done s' rs ∧ Shows K s' (specAll ops l).1 ∧
      (∀ x, (specAll ops l).1[i]? = some x → deref p s' = .done s' x) ∧
      (∀ v, i < (specAll ops l).1.length → ∃ s'', store p v s' = .done s'' () ∧ Shows K s'' ((specAll ops l).1.set i v)) ∧
      ((specAll ops l).1.length ≤ i → deref p s' = .fail .ub) := by
  obtain ⟨rfl, hl⟩ := repr_of_inline hs.repr hin
  obtain ⟨e, hl'⟩ := runAll_inl ops hl hok hfit
  have hu : ReprU K false (inl K l none) l none := .inl ⟨rfl, rfl, hl⟩
  have hu' : ReprU K false (inl K (specAll ops l).1 none) (specAll ops l).1 none := .inl ⟨rfl, rfl, hl'⟩
  refine ⟨⟨false, i⟩, _, _, dataAt_inl l none i, ?_, e, shows_repr hu'.repr, ?_, ?_, ?_⟩
  · rw [deref_reprU hu, List.getElem?_eq_getElem hi]
  · intro x hx
    rw [deref_reprU hu', hx]
  · intro v hv
    obtain ⟨s'', e'', r''⟩ := store_reprU hu' i v hv
    exact ⟨s'', e'', shows_repr r''.repr⟩
  · intro hge
    rw [deref_reprU hu', List.getElem?_eq_none hge]

theorem keeps_get {l : List α} {o : Op α} {i : Nat} {c : Nat} {b : Bool} (hok : o.ok c b l) (hi : i < l.length) (hk : o.keeps i l) :
    (o.spec l).1[i]? = some l[i] := by
  cases o with
  | pushBack v => simp [Op.spec, List.getElem?_append_left hi, hi]
  | emplace j v =>
    simp only [Op.keeps] at hk
    rw [Op.spec, List.getElem?_append_left (by simp; omega), List.getElem?_take, if_pos hk, List.getElem?_eq_getElem hi]
  | erase j =>
    simp only [Op.keeps] at hk
    rw [Op.spec, List.getElem?_append_left (by simp; omega), List.getElem?_take, if_pos hk, List.getElem?_eq_getElem hi]
  | eraseRange f t =>
    rcases hk with hk | rfl
    · rw [Op.spec, List.getElem?_append_left (by simp; omega), List.getElem?_take, if_pos hk, List.getElem?_eq_getElem hi]
    · simp [Op.spec, hi]
  | popBack =>
    simp only [Op.keeps] at hk
    rw [Op.spec, List.getElem?_take, if_pos (by omega), List.getElem?_eq_getElem hi]
  | resize n v =>
    simp only [Op.keeps] at hk
    rw [Op.spec, List.getElem?_append_left (by simp; omega), List.getElem?_take, if_pos hk, List.getElem?_eq_getElem hi]
  | reserve n => simp [Op.spec, hi]
  | assignAt j v =>
    simp only [Op.keeps] at hk
    rw [Op.spec, List.getElem?_set_ne (Ne.symm hk), List.getElem?_eq_getElem hi]
  | clear => exact absurd hk id

/-- C109: so a reference to an element survives every call that fits the inline storage and inserts and removes only behind the element. -/
theorem C109_stable {s : St α} {l : List α} (hs : Reachable K s l) (hin : s.vec.usesFallback K = false) (o : Op α)
    (hok : o.ok K.capacity K.hasFallback l) (hfit : o.fits K.capacity l) (i : Nat) (hi : i < l.length) (hk : o.keeps i l) :
    ∃ p s' r, dataAt K i s = .done s p ∧ o.run K s = .done s' r ∧ deref p s' = .done s' l[i] ∧ dataAt K i s' = .done s' p := by
  obtain ⟨rfl, hl⟩ := repr_of_inline hs.repr hin
  obtain ⟨e, hl'⟩ := run_inl o hl hok hfit
  have hu' : ReprU K false (inl K (o.spec l).1 none) (o.spec l).1 none := .inl ⟨rfl, rfl, hl'⟩
  refine ⟨⟨false, i⟩, _, _, dataAt_inl l none i, e, ?_, dataAt_inl _ none i⟩
  rw [deref_reprU hu', keeps_get hok hi hk]

/-- Without a fallback every allowed call fits: references are never invalidated by growth. -/
theorem fits_of_noFallback {c : Nat} {o : Op α} {l : List α} (h : o.ok c false l) : o.fits c l := by
  cases o <;> simp_all [Op.ok, Op.fits]

/-- C109: the call by which a vector outgrows its inline storage (also `reserve`) leaves every earlier reference dangling: it designates an element that has been
destroyed, and may not be passed to `erase` and `insert` either. -/
theorem C109_outgrown {s : St α} {l : List α} (hs : Reachable K s l) (hin : s.vec.usesFallback K = false) (hF : K.hasFallback = true) (o : Op α)
    (hok : o.ok K.capacity K.hasFallback l) (hfit : ¬ o.fits K.capacity l) (i : Nat) (hi : i < l.length) :
    ∃ p s' r, dataAt K i s = .done s p ∧ deref p s = .done s l[i] ∧ o.run K s = .done s' r ∧ Shows K s' (o.spec l).1 ∧ deref p s' = .fail .ub ∧
      ∀ v, store p v s' = .fail .ub ∧ eraseIt K p s' = .fail .ub ∧ insertIt K p v s' = .fail .ub := by
  obtain ⟨rfl, hl⟩ := repr_of_inline hs.repr hin
  obtain ⟨s', e, r⟩ := run_repr o hs.repr hok
  have hu : ReprU K false (inl K l none) l none := .inl ⟨rfl, rfl, hl⟩
  refine ⟨⟨false, i⟩, s', _, dataAt_inl l none i, by rw [deref_reprU hu, List.getElem?_eq_getElem hi], e, shows_repr r, ?_⟩
  have key : s' = fb K (o.spec l).1 none := by
    cases o with
    | reserve n =>
      simp only [Op.fits, Nat.not_le] at hfit
      rw [Op.run, reserve, if_pos hF] at e
      simp only [show ¬ n ≤ K.capacity by omega, if_false, X.bind_run] at e
      rw [show isUsingFallback K (inl K l none) = .done (inl K l none) false by simp [isUsingFallback, inl]] at e
      simp only [Bool.false_eq_true, if_false, moveStorage_inl hl] at e
      simp only [X.pure_run, Out.done.injEq] at e
      exact e.1.symm
    | pushBack v =>
      rcases r with ⟨_, h⟩ | ⟨rfl, _⟩
      · simp only [Op.fits] at hfit
        simp [Op.spec] at h; omega
      · rfl
    | emplace j v =>
      rcases r with ⟨_, h⟩ | ⟨rfl, _⟩
      · simp only [Op.fits] at hfit
        have := hok.1
        simp only [Op.spec, List.length_append, List.length_take, List.length_cons, List.length_drop] at h; omega
      · rfl
    | resize n v =>
      rcases r with ⟨_, h⟩ | ⟨rfl, _⟩
      · simp only [Op.fits] at hfit
        simp only [Op.spec, List.length_append, List.length_take, List.length_replicate] at h; omega
      · rfl
    | erase => exact absurd trivial hfit
    | eraseRange => exact absurd trivial hfit
    | popBack => exact absurd trivial hfit
    | assignAt => exact absurd trivial hfit
    | clear => exact absurd trivial hfit
  subst key
  have hread : Slots.read (Slots.ofList K.capacity ([] : List α)) i = .error .ub := by
    simp only [Slots.read, Slots.ofList]
    rw [Slots.mk_get (by omega)]
    simp
  have hassign : ∀ v, Slots.assign (Slots.ofList K.capacity ([] : List α)) i v = .error .ub := by
    intro v
    simp only [Slots.assign, Slots.ofList]
    rw [Slots.mk_get (by omega)]
    simp
  have hb : begin' K (fb K (o.spec l).1 none) = .done (fb K (o.spec l).1 none) ⟨true, 0⟩ := dataAt_fb hF _ none 0
  have hix : indexOf K ⟨false, i⟩ (fb K (o.spec l).1 none) = .fail .ub := by
    rw [indexOf, X.bind_done hb]
    rfl
  refine ⟨?_, fun v => ⟨?_, ?_, ?_⟩⟩
  · simp only [deref, Bool.false_eq_true, if_false, ofData, fb, hread]
  · simp only [store, Bool.false_eq_true, if_false, onData, fb, hassign]
  · simp only [eraseIt, X.bind_run, hix]
  · simp only [insertIt, X.bind_run, hix]

/-- A full vector of capacity 3: the next insertion moves its elements. -/
example : ∃ s : St Nat, Reachable exK s [1, 2, 3] ∧ s.vec.usesFallback exK = false ∧ (Op.pushBack 4).ok exK.capacity exK.hasFallback [1, 2, 3] ∧
    ¬ (Op.pushBack 4).fits exK.capacity [1, 2, 3] ∧
    fitsAll exK.capacity [Op.erase 1, .pushBack 5, .emplace 1 6, .popBack, .assignAt 0 7] [1, 2] ∧ (Op.erase 2).keeps 1 [1, 2, 3] :=
  ⟨inl exK [1, 2, 3] none,
    ((((Reachable.new (K := exK)).call (o := .pushBack 1) (.inl rfl) rfl).call (o := .pushBack 2) (.inl rfl) rfl).call (o := .pushBack 3) (.inl rfl) rfl :), rfl, .inl rfl,
    by simp [Op.fits, exK], by simp [fitsAll, Op.fits, exK, Op.spec], by simp [Op.keeps]⟩

end Verif.FixedVector
