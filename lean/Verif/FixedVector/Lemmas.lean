import Verif.FixedVector.Spec

/-!
# Canonical states of a `FixedVector` and the effect of each operation on them
-/

namespace Verif.FixedVector
open Verif.Cpp

variable {α : Type} {K : Cfg α}

/-- The inline storage holds the elements of `l`. -/
def inl (K : Cfg α) (l : List α) (fu : Option Nat) : St α := ⟨⟨some l.length, Slots.ofList K.capacity l, []⟩, fu⟩

/-- The fallback holds the elements of `l`. -/
def fb (K : Cfg α) (l : List α) (fu : Option Nat) : St α := ⟨⟨none, Slots.ofList K.capacity [], l⟩, fu⟩

/-- `s` represents `l` (with a state of the oracle). -/
def Repr (K : Cfg α) (s : St α) (l : List α) (fu : Option Nat) : Prop :=
  (s = inl K l fu ∧ l.length ≤ K.capacity) ∨ (s = fb K l fu ∧ K.hasFallback = true)

/-- `s` represents `l`, in the fallback or not as `u` says. -/
def ReprU (K : Cfg α) (u : Bool) (s : St α) (l : List α) (fu : Option Nat) : Prop :=
  (u = false ∧ s = inl K l fu ∧ l.length ≤ K.capacity) ∨ (u = true ∧ s = fb K l fu ∧ K.hasFallback = true)

theorem ReprU.repr {u : Bool} {s : St α} {l : List α} {fu : Option Nat} (h : ReprU K u s l fu) : Repr K s l fu := by
  rcases h with ⟨_, h⟩ | ⟨_, h⟩
  · exact .inl h
  · exact .inr h

theorem Repr.withU {s : St α} {l : List α} {fu : Option Nat} (h : Repr K s l fu) : ∃ u, ReprU K u s l fu := by
  rcases h with h | h
  · exact ⟨false, .inl ⟨rfl, h⟩⟩
  · exact ⟨true, .inr ⟨rfl, h⟩⟩

theorem empty_eq (K : Cfg α) (fu : Option Nat) : (⟨empty K, fu⟩ : St α) = inl K [] fu := by
  simp only [empty, inl, Slots.ofList, Slots.mk, List.length_nil]
  congr 2
  apply List.ext_getElem (by simp)
  intro i h1 h2
  simp

theorem repr_empty (K : Cfg α) (fu : Option Nat) : Repr K ⟨empty K, fu⟩ [] fu :=
  .inl ⟨empty_eq K fu, by simp⟩

/-! ## Primitives -/

theorem onData_run {f : Slots α → M (Slots α)} {n : Option Nat} {d d' : Slots α} {b : List α} {fu : Option Nat} (h : f d = .ok d') :
    onData f ⟨⟨n, d, b⟩, fu⟩ = .done ⟨⟨n, d', b⟩, fu⟩ () := by simp [onData, h]

theorem ofData_run {β : Type} {f : Slots α → M β} {s : St α} {x : β} (h : f s.vec.data = .ok x) : ofData f s = .done s x := by
  simp [ofData, h]

theorem construct_run {i : Nat} {v : α} {n : Option Nat} {d d' : Slots α} {b : List α} (h : Slots.create d i v = .ok d') :
    construct i (.value v) ⟨⟨n, d, b⟩, none⟩ = .done ⟨⟨n, d', b⟩, none⟩ () := by
  simp only [construct, Arg.read, tick, X.bind_run]
  exact onData_run h

@[simp] theorem using_inl (l : List α) (fu : Option Nat) : isUsingFallback K (inl K l fu) = .done (inl K l fu) false := by
  simp [isUsingFallback, inl]
@[simp] theorem using_fb (h : K.hasFallback = true) (l : List α) (fu : Option Nat) :
    isUsingFallback K (fb K l fu) = .done (fb K l fu) true := by
  simp [isUsingFallback, fb, h]
@[simp] theorem mSize_inl (l : List α) (fu : Option Nat) : mSize (inl K l fu) = .done (inl K l fu) l.length := rfl
@[simp] theorem getFallback_fb (l : List α) (fu : Option Nat) : getFallback (fb K l fu) = .done (fb K l fu) l := rfl
@[simp] theorem setFallback_fb (l l' : List α) (fu : Option Nat) : setFallback l' (fb K l fu) = .done (fb K l' fu) () := rfl

theorem size_inl (l : List α) (fu : Option Nat) : size K (inl K l fu) = .done (inl K l fu) l.length := by
  simp [size, X.bind_run]
theorem size_fb (h : K.hasFallback = true) (l : List α) (fu : Option Nat) : size K (fb K l fu) = .done (fb K l fu) l.length := by
  simp [size, X.bind_run, h]

theorem size_repr {s : St α} {l : List α} {fu : Option Nat} (h : Repr K s l fu) : size K s = .done s l.length := by
  rcases h with ⟨rfl, _⟩ | ⟨rfl, h⟩
  · exact size_inl l fu
  · exact size_fb h l fu

theorem isEmpty_repr {s : St α} {l : List α} {fu : Option Nat} (h : Repr K s l fu) : isEmpty K s = .done s l.isEmpty := by
  rw [isEmpty, X.bind_done (size_repr h)]
  cases l <;> simp

theorem read_ofList {n : Nat} {l : List α} {i : Nat} (h : i < l.length) (hn : l.length ≤ n) :
    Slots.read (Slots.ofList n l) i = .ok l[i] :=
  Slots.read_mk (by omega) (List.getElem?_eq_getElem h)

theorem readAt_repr {s : St α} {l : List α} {fu : Option Nat} (h : Repr K s l fu) {i : Nat} (hi : i < l.length) :
    readAt K i s = .done s l[i] := by
  rcases h with ⟨rfl, hl⟩ | ⟨rfl, h⟩
  · rw [readAt, X.bind_done (using_inl _ _)]
    exact ofData_run (f := (Slots.read · i)) (s := inl K l fu) (read_ofList hi hl)
  · rw [readAt, X.bind_done (using_fb h _ _)]
    simp [X.bind_run, hi]

theorem shows_repr {s : St α} {l : List α} {fu : Option Nat} (h : Repr K s l fu) : Shows K s l where
  size := size_repr h
  empty := isEmpty_repr h
  at_lt := by
    intro i hi
    rw [at', X.bind_done (size_repr h)]
    simp only [hi, decide_true, X.assert_true, X.pure_bind']
    exact readAt_repr h hi
  at_ge := by
    intro i hi
    rw [at', X.bind_done (size_repr h)]
    simp [Nat.not_lt.mpr hi, X.bind_run]
  front := by
    intro hl
    rw [FixedVector.front, X.bind_done (isEmpty_repr h)]
    have hp := List.length_pos_iff.mpr hl
    simp only [List.isEmpty_eq_false_iff.mpr hl, Bool.not_false, X.assert_true, X.pure_bind']
    rw [readAt_repr h hp, List.head_eq_getElem]
  back := by
    intro hl
    have hp := List.length_pos_iff.mpr hl
    rw [FixedVector.back, X.bind_done (isEmpty_repr h)]
    simp only [List.isEmpty_eq_false_iff.mpr hl, Bool.not_false, X.assert_true, X.pure_bind']
    rw [X.bind_done (size_repr h), readAt_repr h (by omega), List.getLast_eq_getElem]
  front_nil := by
    rintro rfl
    rw [FixedVector.front, X.bind_done (isEmpty_repr h)]
    simp [X.bind_run]
  back_nil := by
    rintro rfl
    rw [FixedVector.back, X.bind_done (isEmpty_repr h)]
    simp [X.bind_run]

/-! ## Destroying a range of elements -/

/-- Destroying the elements from `lo` on. -/
theorem destroy_range {N : Option Nat} {n lo m : Nat} {f : Nat → Option α} {b : List α} {fu : Option Nat} (hlo : lo + m ≤ n)
    (hf : ∀ p, lo ≤ p → p < lo + m → ∃ v, f p = some v) :
    X.forUp lo m (fun i => onData (Slots.destroy · i)) ⟨⟨N, Slots.mk n f, b⟩, fu⟩ =
      .done ⟨⟨N, Slots.mk n (fun p => if lo ≤ p ∧ p < lo + m then none else f p), b⟩, fu⟩ () := by
  have := X.forUp_done (lo := lo) (n := m) (f := fun i => onData (Slots.destroy · i))
    (fun k => (⟨⟨N, Slots.mk n (fun p => if lo ≤ p ∧ p < lo + k then none else f p), b⟩, fu⟩ : St α)) (by
      intro k hk
      obtain ⟨v, hv⟩ := hf (lo + k) (by omega) (by omega)
      apply onData_run
      rw [Slots.destroy_mk (v := v) (by omega) (by simp [hv])]
      congr 1
      apply Slots.mk_congr
      intro p hp
      simp only [Slots.upd]
      by_cases h : p = lo + k
      · simp [h]
      · simp only [h, if_false]
        have : (lo ≤ p ∧ p < lo + k) ↔ (lo ≤ p ∧ p < lo + (k + 1)) := by omega
        simp only [this])
  refine Eq.trans ?_ this
  congr 4
  funext p
  have : ¬ (lo ≤ p ∧ p < lo + 0) := by omega
  simp only [this, if_false]

theorem clear_reprU {u : Bool} {s : St α} {l : List α} {fu : Option Nat} (h : ReprU K u s l fu) :
    ∃ s', clear K s = .done s' () ∧ ReprU K u s' [] fu := by
  rcases h with ⟨rfl, rfl, hl⟩ | ⟨rfl, rfl, h⟩
  · refine ⟨inl K [] fu, ?_, .inl ⟨rfl, rfl, by simp⟩⟩
    rw [clear, X.bind_done (using_inl _ _)]
    simp only [Bool.false_eq_true, if_false]
    rw [X.bind_done (mSize_inl _ _), inl, Slots.ofList]
    rw [X.bind_done (destroy_range (by omega) (by
      intro p _ hp
      exact ⟨l[p], List.getElem?_eq_getElem (by omega)⟩))]
    simp only [setSize, X.modify_run, inl]
    congr 3
    apply Slots.mk_congr
    intro p hp
    by_cases h : p < l.length
    · simp [h]
    · simp [h]
  · refine ⟨fb K [] fu, ?_, .inr ⟨rfl, rfl, h⟩⟩
    rw [clear, X.bind_done (using_fb h _ _)]
    rfl

theorem clear_repr {s : St α} {l : List α} {fu : Option Nat} (h : Repr K s l fu) :
    ∃ s', clear K s = .done s' () ∧ Repr K s' [] fu := by
  obtain ⟨u, h⟩ := h.withU
  obtain ⟨s', e, r⟩ := clear_reprU h
  exact ⟨s', e, r.repr⟩

theorem clear_inl {l : List α} {fu : Option Nat} (hl : l.length ≤ K.capacity) : clear K (inl K l fu) = .done (inl K [] fu) () := by
  obtain ⟨s', e, hs⟩ := clear_repr (.inl ⟨rfl, hl⟩ : Repr K (inl K l fu) l fu)
  rcases hs with ⟨rfl, _⟩ | ⟨rfl, _⟩
  · exact e
  · exfalso
    rw [clear, X.bind_done (using_inl _ _)] at e
    simp only [Bool.false_eq_true, if_false, X.bind_run] at e
    split at e
    · split at e
      · simp [setSize, fb] at e
      · simp at e
      · simp at e
    · simp at e
    · simp at e

/-! ## Moving to the fallback -/

theorem moveStorage_inl {l : List α} {fu : Option Nat} (hl : l.length ≤ K.capacity) :
    moveStorageToFallback K (inl K l fu) = .done (fb K l fu) () := by
  rw [moveStorageToFallback, X.bind_done (using_inl _ _)]
  simp only [Bool.not_false, X.assert_true, X.pure_bind']
  rw [X.bind_done (mSize_inl _ _)]
  have := X.forUp_done (lo := 0) (n := l.length) (f := moveOneToFallback K)
    (fun k => (⟨⟨some l.length, Slots.mk K.capacity (fun p => if p < k then none else l[p]?), l.take k⟩, fu⟩ : St α)) (by
      intro k hk
      rw [Nat.zero_add, moveOneToFallback]
      rw [X.bind_done (ofData_run (x := l[k]) (Slots.read_mk (by omega) (by simp [hk])))]
      simp only [getFallback, setFallback, X.bind_run, X.modify_run]
      rw [onData_run (Slots.assign_mk (u := l[k]) (K.mv l[k]) (by omega) (by simp [hk]))]
      simp only
      rw [onData_run (Slots.destroy_mk (v := K.mv l[k]) (by omega) (by simp [Slots.upd]))]
      congr 3
      · apply Slots.mk_congr
        intro p hp
        simp only [Slots.upd]
        by_cases h : p = k
        · simp [h]
        · have : p < k ↔ p < k + 1 := by omega
          simp [h, this]
      · rw [List.take_succ_eq_append_getElem hk])
  rw [show inl K l fu = (⟨⟨some l.length, Slots.mk K.capacity (fun p => if p < 0 then none else l[p]?), l.take 0⟩, fu⟩ : St α) by
    simp [inl, Slots.ofList]]
  rw [X.bind_done this]
  simp only [setSize, X.modify_run, fb, List.take_length]
  congr 3
  apply Slots.mk_congr
  intro p hp
  simp only [List.getElem?_nil, ite_eq_left_iff, Nat.not_lt]
  intro h
  exact List.getElem?_eq_none h

/-- `CheckFallbackOnGrow` on a state for `l`. -/
theorem check_repr {s : St α} {l : List α} {fu : Option Nat} (h : Repr K s l fu) :
    (checkFallbackOnGrow K s = .done (inl K l fu) false ∧ s = inl K l fu ∧ (l.length < K.capacity ∨ K.hasFallback = false)) ∨
    (checkFallbackOnGrow K s = .done (fb K l fu) true ∧ K.hasFallback = true) := by
  rcases h with ⟨rfl, hl⟩ | ⟨rfl, h⟩
  · unfold checkFallbackOnGrow
    cases hF : K.hasFallback with
    | false => left; simp
    | true =>
      simp only [if_true]
      rw [X.bind_done (using_inl _ _)]
      simp only [Bool.false_eq_true, if_false]
      rw [X.bind_done (mSize_inl _ _)]
      by_cases hc : l.length ≥ K.capacity
      · right
        simp only [hc, if_true]
        rw [X.bind_done (moveStorage_inl hl)]
        simp
      · left
        simp only [hc, if_false]
        simp; omega
  · right
    unfold checkFallbackOnGrow
    simp only [h, if_true]
    rw [X.bind_done (using_fb h _ _)]
    simp

theorem check_room {l : List α} {fu : Option Nat} (hl : l.length < K.capacity) :
    checkFallbackOnGrow K (inl K l fu) = .done (inl K l fu) false := by
  unfold checkFallbackOnGrow
  cases hF : K.hasFallback with
  | false => simp
  | true =>
    simp only [if_true]
    rw [X.bind_done (using_inl _ _)]
    simp only [Bool.false_eq_true, if_false]
    rw [X.bind_done (mSize_inl _ _)]
    simp [Nat.not_le.mpr hl]

/-! ## Constructions at the end -/

theorem create_ofList {n : Nat} {l : List α} (v : α) (h : l.length < n) :
    Slots.create (Slots.ofList n l) l.length v = .ok (Slots.ofList n (l ++ [v])) := by
  rw [Slots.ofList, Slots.create_mk v h (by simp)]
  congr 1
  apply Slots.mk_congr
  intro p hp
  simp only [Slots.upd, List.getElem?_append]
  by_cases h1 : p < l.length
  · simp [h1, Nat.ne_of_lt h1]
  · by_cases h2 : p = l.length
    · simp [h2]
    · rw [if_neg h2, if_neg h1, List.getElem?_eq_none (by omega), List.getElem?_eq_none (by simp; omega)]

theorem emplaceInFallback_fb {l : List α} {i : Nat} {v : α} (hi : i ≤ l.length) :
    emplaceInFallback i (.value v) (fb K l none) = .done (fb K (l.insertIdx i v) none) () := by
  rw [emplaceInFallback, X.bind_done (getFallback_fb _ _)]
  simp only [hi, decide_true, X.guardUB_true, X.pure_bind', Arg.read, X.bind_run, tick, fb]
  rfl

theorem emplaceBack_inl {l : List α} {v : α} (hl : l.length < K.capacity) :
    emplaceBack K (.value v) (inl K l none) = .done (inl K (l ++ [v]) none) l.length := by
  rcases check_repr (.inl ⟨rfl, by omega⟩ : Repr K (inl K l none) l none) with ⟨e, _, _⟩ | ⟨e, hF⟩
  · rw [emplaceBack, X.bind_done e]
    simp only [Bool.false_eq_true, if_false]
    rw [X.bind_done (mSize_inl _ _)]
    simp only [hl, decide_true, X.assert_true, X.pure_run, setSize, inl, X.bind_run, X.modify_run]
    rw [construct_run (create_ofList v hl)]
    simp
  · exfalso
    unfold checkFallbackOnGrow at e
    simp only [hF, if_true] at e
    rw [X.bind_done (using_inl _ _)] at e
    simp only [Bool.false_eq_true, if_false] at e
    rw [X.bind_done (mSize_inl _ _)] at e
    simp only [ge_iff_le, Nat.not_le.mpr hl, if_false, X.pure_run] at e
    simp at e

theorem emplaceBack_repr {s : St α} {l : List α} (v : α) (h : Repr K s l none) (hok : K.hasFallback = true ∨ l.length < K.capacity) :
    ∃ s', emplaceBack K (.value v) s = .done s' l.length ∧ Repr K s' (l ++ [v]) none := by
  rcases check_repr h with ⟨e, rfl, hc⟩ | ⟨e, hF⟩
  · have hl : l.length < K.capacity := by
      rcases hok with h | h
      · rcases hc with h' | h'
        · exact h'
        · rw [h] at h'; exact absurd h' (by simp)
      · exact h
    exact ⟨_, emplaceBack_inl hl, .inl ⟨rfl, by simp; omega⟩⟩
  · refine ⟨fb K (l ++ [v]) none, ?_, .inr ⟨rfl, hF⟩⟩
    rw [emplaceBack, X.bind_done e]
    simp only [if_true]
    rw [X.bind_done (getFallback_fb _ _), X.bind_done (emplaceInFallback_fb (Nat.le_refl _))]
    simp [List.insertIdx_length_self]

/-! ## Emplacement -/

/-- Moving the elements from `index` on up by one. -/
theorem emplaceShift_run {l : List α} {index : Nat} {b : List α} {fu N : Option Nat} (hi : index < l.length) (hl : l.length < K.capacity) :
    emplaceShift K index l.length ⟨⟨N, Slots.ofList K.capacity l, b⟩, fu⟩ =
      .done ⟨⟨N, Slots.mk K.capacity (fun p => if p < index then l[p]? else if p = index then none else l[p - 1]?), b⟩, fu⟩ () := by
  have hn : l.length - 1 < l.length := by omega
  have hlast : l[l.length - 1]? = some l[l.length - 1] := List.getElem?_eq_getElem hn
  rw [emplaceShift, Slots.ofList]
  rw [X.bind_done (onData_run (Slots.moveCreate_mk (v := l[l.length - 1]) hl (by omega) (by simp) hlast))]
  have := X.forDown_done (lo := index) (n := l.length - 1 - index) (f := fun i => onData (Slots.moveAssign K.mv · i (i - 1)))
    (fun k => (⟨⟨N, Slots.mk K.capacity (fun p => if p < l.length - 1 - k then l[p]? else if p = l.length - 1 - k then (l[p]?).map K.mv
      else l[p - 1]?), b⟩, fu⟩ : St α)) (by
      intro k hk
      have e0 : index + (l.length - 1 - index) - k = l.length - 1 - k := by omega
      have h1 : l.length - 1 - k < l.length := by omega
      have h2 : l.length - 1 - k - 1 < l.length := by omega
      simp only [e0]
      apply onData_run
      rw [Slots.moveAssign_mk (u := K.mv l[l.length - 1 - k]) (v := l[l.length - 1 - k - 1]) (by omega) (by omega)
        (by simp [List.getElem?_eq_getElem h1]) (by
          have : l.length - 1 - k - 1 < l.length - 1 - k := by omega
          simp [this, List.getElem?_eq_getElem h2]) (by omega)]
      congr 1
      apply Slots.mk_congr
      intro p hp
      simp only [Slots.upd]
      have e1 : l.length - 1 - (k + 1) = l.length - 1 - k - 1 := by omega
      rw [e1]
      by_cases hp1 : p = l.length - 1 - k - 1
      · subst hp1
        simp [List.getElem?_eq_getElem h2]
      · by_cases hp2 : p = l.length - 1 - k
        · have : ¬ p < l.length - 1 - k - 1 := by omega
          rw [if_neg hp1, if_pos hp2, if_neg this, if_neg hp1]
          rw [hp2, List.getElem?_eq_getElem h2]
        · rw [if_neg hp1, if_neg hp2, if_neg hp1]
          by_cases hp3 : p < l.length - 1 - k
          · have : p < l.length - 1 - k - 1 := by omega
            rw [if_pos hp3, if_pos this]
          · have : ¬ p < l.length - 1 - k - 1 := by omega
            rw [if_neg hp3, if_neg hp2, if_neg this])
  have hstart : (Slots.mk K.capacity (Slots.upd (Slots.upd (fun p => l[p]?) l.length (some l[l.length - 1])) (l.length - 1)
      (some (K.mv l[l.length - 1])))) = Slots.mk K.capacity (fun p => if p < l.length - 1 - 0 then l[p]? else
        if p = l.length - 1 - 0 then (l[p]?).map K.mv else l[p - 1]?) := by
    apply Slots.mk_congr
    intro p hp
    simp only [Slots.upd, Nat.sub_zero]
    by_cases h1 : p = l.length - 1
    · subst h1; simp [hlast]
    · by_cases h2 : p = l.length
      · have : ¬ p < l.length - 1 := by omega
        rw [if_neg h1, if_pos h2, if_neg this, if_neg h1, h2, hlast]
      · rw [if_neg h1, if_neg h2, if_neg h1]
        by_cases h3 : p < l.length - 1
        · rw [if_pos h3]
        · rw [if_neg h3, List.getElem?_eq_none (by omega), List.getElem?_eq_none (by omega)]
  rw [hstart, X.bind_done this]
  rw [onData_run (Slots.destroy_mk (v := K.mv l[index]) (by omega) (by
    have : l.length - 1 - (l.length - 1 - index) = index := by omega
    simp [this, List.getElem?_eq_getElem hi]))]
  congr 3
  apply Slots.mk_congr
  intro p hp
  have e1 : l.length - 1 - (l.length - 1 - index) = index := by omega
  simp only [Slots.upd, e1]
  by_cases h1 : p = index
  · have : ¬ p < index := by omega
    rw [if_pos h1, if_neg this, if_pos h1]
  · rw [if_neg h1, if_neg h1, if_neg h1]

theorem insertIdx_get {l : List α} {i : Nat} {v : α} (hi : i ≤ l.length) (p : Nat) :
    (l.insertIdx i v)[p]? = if p < i then l[p]? else if p = i then some v else l[p - 1]? := by
  rw [List.getElem?_insertIdx]
  by_cases h1 : p < i
  · simp [h1]
  · by_cases h2 : p = i
    · subst h2; simp [hi]
    · simp [h1, h2]

theorem insertIdx_eq {l : List α} {i : Nat} {v : α} (hi : i ≤ l.length) : l.insertIdx i v = l.take i ++ v :: l.drop i := by
  apply List.ext_getElem?
  intro p
  rw [insertIdx_get hi, List.getElem?_append]
  have : (l.take i).length = i := by simp; omega
  rw [this]
  by_cases h1 : p < i
  · simp [h1]
  · by_cases h2 : p = i
    · simp [h2]
    · obtain ⟨q, rfl⟩ : ∃ q, p = i + (q + 1) := ⟨p - i - 1, by omega⟩
      simp only [h1, h2, if_false, Nat.add_sub_cancel_left, List.getElem?_cons_succ, List.getElem?_drop]
      congr 1

theorem emplace_inl {l : List α} {i : Nat} {v : α} (hi : i ≤ l.length) (hl : l.length < K.capacity) :
    emplace K i (.value v) (inl K l none) = .done (inl K (l.insertIdx i v) none) i := by
  have hsz := size_inl (K := K) l none
  have e : checkFallbackOnGrow K (inl K l none) = .done (inl K l none) false := check_room hl
  rw [emplace, X.bind_done hsz]
  simp only [hi, decide_true, X.assert_true, X.pure_bind']
  rw [X.bind_done e]
  simp only [Bool.false_eq_true, if_false]
  rw [X.bind_done (mSize_inl _ _)]
  simp only [hl, decide_true, X.assert_true, X.pure_bind']
  have hfin : ∀ f : Nat → Option α, (∀ p, p < K.capacity → f p = if p < i then l[p]? else if p = i then none else l[p - 1]?) →
      (construct i (.value v) >>= fun _ => pure i) ⟨⟨some (l.length + 1), Slots.mk K.capacity f, []⟩, none⟩ =
        .done (inl K (l.insertIdx i v) none) i := by
    intro f hf
    rw [X.bind_done (construct_run (Slots.create_mk v (by omega) (by rw [hf i (by omega)]; simp)))]
    simp only [X.pure_run, inl, Slots.ofList, List.length_insertIdx_of_le_length hi]
    congr 3
    apply Slots.mk_congr
    intro p hp
    rw [insertIdx_get hi]
    simp only [Slots.upd]
    by_cases h1 : p = i
    · subst h1; simp
    · rw [if_neg h1, hf p hp, if_neg h1, if_neg h1]
  by_cases hlt : i < l.length
  · simp only [hlt, if_true, inl]
    rw [X.bind_done (emplaceShift_run hlt hl)]
    simp only [setSize, X.bind_run, X.modify_run]
    exact hfin _ (fun p _ => rfl)
  · simp only [hlt, if_false, setSize, inl]
    simp only [X.bind_run, X.modify_run]
    refine hfin _ (fun p _ => ?_)
    have : i = l.length := by omega
    subst this
    by_cases h1 : p < l.length
    · simp [h1]
    · by_cases h2 : p = l.length
      · simp [h2]
      · rw [if_neg h1, if_neg h2, List.getElem?_eq_none (by omega), List.getElem?_eq_none (by omega)]

theorem emplace_repr {s : St α} {l : List α} (i : Nat) (v : α) (h : Repr K s l none) (hi : i ≤ l.length)
    (hok : K.hasFallback = true ∨ l.length < K.capacity) :
    ∃ s', emplace K i (.value v) s = .done s' i ∧ Repr K s' (l.insertIdx i v) none := by
  have hsz := size_repr h
  rcases check_repr h with ⟨e, rfl, hc⟩ | ⟨e, hF⟩
  · have hl : l.length < K.capacity := by
      rcases hok with h | h
      · rcases hc with h' | h'
        · exact h'
        · rw [h] at h'; exact absurd h' (by simp)
      · exact h
    refine ⟨inl K (l.insertIdx i v) none, ?_, .inl ⟨rfl, by rw [List.length_insertIdx_of_le_length hi]; omega⟩⟩
    exact emplace_inl hi hl
  · refine ⟨fb K (l.insertIdx i v) none, ?_, .inr ⟨rfl, hF⟩⟩
    rw [emplace, X.bind_done hsz]
    simp only [hi, decide_true, X.assert_true, X.pure_bind']
    rw [X.bind_done e]
    simp only [if_true]
    rw [X.bind_done (emplaceInFallback_fb hi)]
    rfl

/-! ## Removal -/

/-- Removing the elements from `m` on, by destruction. -/
theorem truncate_run {n : Nat} {f : Nat → Option α} {l : List α}
    (hf : ∀ p, p < l.length → f p = l[p]?) :
    Slots.mk n (fun p => if l.length ≤ p then none else f p) = Slots.ofList n l := by
  apply Slots.mk_congr
  intro p hp
  by_cases h : l.length ≤ p
  · simp [h]
  · simp only [h, if_false]
    exact hf p (by omega)

/-- Moving the elements from `first + c` on down by `c`. -/
theorem shiftDown_run {l : List α} {first c : Nat} {b : List α} {fu N : Option Nat} (hc : 0 < c) (hi : first + c ≤ l.length)
    (hl : l.length ≤ K.capacity) :
    ∃ f : Nat → Option α, X.forUp (first + c) (l.length - (first + c)) (fun i => onData (Slots.moveAssign K.mv · (i - c) i))
      ⟨⟨N, Slots.ofList K.capacity l, b⟩, fu⟩ = .done ⟨⟨N, Slots.mk K.capacity f, b⟩, fu⟩ () ∧
      (∀ p, p < l.length - c → f p = if p < first then l[p]? else l[p + c]?) ∧
      (∀ p, p < l.length → ∃ v, f p = some v) ∧ ∀ p, l.length ≤ p → f p = none := by
  let g : Nat → Nat → Option α := fun k p => if p < first then l[p]? else if p < first + k then l[p + c]?
    else if first + c ≤ p ∧ p < first + c + k then (l[p]?).map K.mv else l[p]?
  have := X.forUp_done (lo := first + c) (n := l.length - (first + c)) (f := fun i => onData (Slots.moveAssign K.mv · (i - c) i))
    (fun k => (⟨⟨N, Slots.mk K.capacity (g k), b⟩, fu⟩ : St α)) (by
      intro k hk
      have e0 : first + c + k - c = first + k := by omega
      simp only [e0]
      have h1 : first + c + k < l.length := by omega
      have h2 : first + k < l.length := by omega
      apply onData_run
      obtain ⟨u, hu⟩ : ∃ u, g k (first + k) = some u := by
        simp only [g]
        have a1 : ¬ first + k < first := by omega
        have a2 : ¬ first + k < first + k := by omega
        rw [if_neg a1, if_neg a2]
        split
        · exact ⟨K.mv l[first + k], by rw [List.getElem?_eq_getElem h2]; rfl⟩
        · exact ⟨l[first + k], List.getElem?_eq_getElem h2⟩
      have hv : g k (first + c + k) = some l[first + c + k] := by
        simp only [g]
        have a1 : ¬ first + c + k < first := by omega
        have a2 : ¬ first + c + k < first + k := by omega
        have a3 : ¬ (first + c ≤ first + c + k ∧ first + c + k < first + c + k) := by omega
        rw [if_neg a1, if_neg a2, if_neg a3, List.getElem?_eq_getElem h1]
      rw [Slots.moveAssign_mk (u := u) (v := l[first + c + k]) (by omega) (by omega) hu hv (by omega)]
      congr 1
      apply Slots.mk_congr
      intro p hp
      simp only [Slots.upd, g]
      by_cases c1 : p = first + c + k
      · have a1 : ¬ p < first := by omega
        have a2 : ¬ p < first + (k + 1) := by omega
        have a3 : first + c ≤ p ∧ p < first + c + (k + 1) := by omega
        rw [if_pos c1, if_neg a1, if_neg a2, if_pos a3, c1, List.getElem?_eq_getElem h1]; rfl
      · rw [if_neg c1]
        by_cases c2 : p = first + k
        · have a1 : ¬ p < first := by omega
          have a2 : p < first + (k + 1) := by omega
          rw [if_pos c2, if_neg a1, if_pos a2, c2, show first + k + c = first + c + k by omega, List.getElem?_eq_getElem h1]
        · rw [if_neg c2]
          have a1 : p < first + k ↔ p < first + (k + 1) ∨ (p < first ∧ p < first + k) := by omega
          by_cases c3 : p < first
          · simp [c3]
          · have a2 : p < first + k ↔ p < first + (k + 1) := by omega
            have a3 : (first + c ≤ p ∧ p < first + c + k) ↔ (first + c ≤ p ∧ p < first + c + (k + 1)) := by omega
            simp only [c3, if_false, a2, a3])
  refine ⟨g (l.length - (first + c)), ?_, ?_, ?_, ?_⟩
  · rw [← this]
    congr 3
    apply Slots.mk_congr
    intro p hp
    simp only [g]
    by_cases c3 : p < first
    · simp [c3]
    · have a2 : ¬ p < first + 0 := by omega
      have a3 : ¬ (first + c ≤ p ∧ p < first + c + 0) := by omega
      rw [if_neg c3, if_neg a2, if_neg a3]
  · intro p hp
    simp only [g]
    by_cases c3 : p < first
    · simp [c3]
    · have a2 : p < first + (l.length - (first + c)) := by omega
      rw [if_neg c3, if_neg c3, if_pos a2]
  · intro p hp
    simp only [g]
    split
    · exact ⟨l[p], List.getElem?_eq_getElem hp⟩
    · split
      · exact ⟨l[p + c], List.getElem?_eq_getElem (by omega)⟩
      · split
        · exact ⟨K.mv l[p], by rw [List.getElem?_eq_getElem hp]; rfl⟩
        · exact ⟨l[p], List.getElem?_eq_getElem hp⟩
  · intro p hp
    have c3 : ¬ p < first := by omega
    have a2 : ¬ p < first + (l.length - (first + c)) := by omega
    simp only [g]
    rw [if_neg c3, if_neg a2, List.getElem?_eq_none hp]
    split <;> rfl

theorem eraseRange_get {l : List α} {first last : Nat} (h : first ≤ last) (hl : last ≤ l.length) (p : Nat) :
    (l.take first ++ l.drop last)[p]? = if p < first then l[p]? else l[p + (last - first)]? := by
  rw [List.getElem?_append]
  have : (l.take first).length = first := by simp; omega
  rw [this]
  by_cases h1 : p < first
  · simp [h1]
  · simp only [h1, if_false, List.getElem?_drop]
    congr 1
    omega

theorem popBack_mk {l : List α} {f : Nat → Option α} {v : α} {n : Nat} (hl : l.length = n) (hC : n < K.capacity)
    (hf : ∀ p, p < n → f p = l[p]?) (hn : f n = some v) (hraw : ∀ p, n < p → f p = none) :
    popBack K ⟨⟨some (n + 1), Slots.mk K.capacity f, []⟩, none⟩ = .done (inl K l none) () := by
  subst hl
  simp only [popBack, isUsingFallback, isEmpty, size, mSize, X.bind_run, Option.isNone_some, Bool.and_false, Bool.false_eq_true, if_false,
    X.pure_run, setSize, X.modify_run]
  have : (!(l.length + 1 == 0)) = true := by simp
  simp only [this, X.assert_true, X.pure_run, Nat.add_sub_cancel]
  rw [onData_run (Slots.destroy_mk (v := v) hC hn), inl, Slots.ofList]
  congr 3
  apply Slots.mk_congr
  intro p hp
  simp only [Slots.upd]
  by_cases h1 : p = l.length
  · simp [h1]
  · rw [if_neg h1]
    by_cases h2 : p < l.length
    · exact hf p h2
    · rw [hraw p (by omega), List.getElem?_eq_none (by omega)]

theorem popBack_reprU {u : Bool} {s : St α} {l : List α} (h : ReprU K u s l none) (hne : l ≠ []) :
    ∃ s', popBack K s = .done s' () ∧ ReprU K u s' l.dropLast none := by
  have hp := List.length_pos_iff.mpr hne
  rcases h with ⟨rfl, rfl, hl⟩ | ⟨rfl, rfl, hF⟩
  · refine ⟨inl K l.dropLast none, ?_, .inl ⟨rfl, rfl, by simp; omega⟩⟩
    have := popBack_mk (K := K) (l := l.dropLast) (f := fun p => l[p]?) (v := l[l.length - 1]) (n := l.length - 1) (by simp)
      (by omega) (fun p hp => by rw [List.getElem?_dropLast]; simp [hp])
      (List.getElem?_eq_getElem (by omega)) (fun p hp => List.getElem?_eq_none (by omega))
    rwa [show l.length - 1 + 1 = l.length by omega] at this
  · refine ⟨fb K l.dropLast none, ?_, .inr ⟨rfl, rfl, hF⟩⟩
    rw [popBack, X.bind_done (using_fb hF _ _)]
    simp only [if_true]
    rw [X.bind_done (getFallback_fb _ _)]
    simp only [hp, decide_true, X.guardUB_true, X.pure_bind', setFallback_fb]

theorem popBack_repr {s : St α} {l : List α} (h : Repr K s l none) (hne : l ≠ []) :
    ∃ s', popBack K s = .done s' () ∧ Repr K s' l.dropLast none := by
  obtain ⟨u, h⟩ := h.withU
  obtain ⟨s', e, r⟩ := popBack_reprU h hne
  exact ⟨s', e, r.repr⟩

theorem erase_reprU {u : Bool} {s : St α} {l : List α} (i : Nat) (h : ReprU K u s l none) (hi : i < l.length) :
    ∃ s', erase K i s = .done s' i ∧ ReprU K u s' (l.take i ++ l.drop (i + 1)) none := by
  have hsz := size_repr h.repr
  rcases h with ⟨rfl, rfl, hl⟩ | ⟨rfl, rfl, hF⟩
  · have hlen : (l.take i ++ l.drop (i + 1)).length = l.length - 1 := by simp; omega
    refine ⟨inl K (l.take i ++ l.drop (i + 1)) none, ?_, .inl ⟨rfl, rfl, by omega⟩⟩
    rw [erase, X.bind_done hsz]
    simp only [hi, decide_true, X.assert_true, X.pure_bind']
    rw [X.bind_done (using_inl _ _)]
    simp only [Bool.false_eq_true, if_false]
    obtain ⟨f, e, h1, h2, h3⟩ := shiftDown_run (K := K) (l := l) (first := i) (c := 1) (b := []) (fu := none) (N := some l.length)
      (by omega) (by omega) hl
    rw [inl, X.bind_done e]
    obtain ⟨v, hv⟩ := h2 (l.length - 1) (by omega)
    have hpop := popBack_mk (K := K) (f := f) (v := v) (n := l.length - 1) hlen (by omega)
      (fun p hp => by rw [h1 p hp, eraseRange_get (by omega) (by omega)]; simp) hv (fun p hp => h3 p (by omega))
    rw [show l.length - 1 + 1 = l.length by omega] at hpop
    rw [X.bind_done hpop]
    rfl
  · refine ⟨fb K (l.take i ++ l.drop (i + 1)) none, ?_, .inr ⟨rfl, rfl, hF⟩⟩
    rw [erase, X.bind_done hsz]
    simp only [hi, decide_true, X.assert_true, X.pure_bind']
    rw [X.bind_done (using_fb hF _ _)]
    simp only [if_true]
    rw [X.bind_done (getFallback_fb _ _), X.bind_done (setFallback_fb _ _ _)]
    simp [List.eraseIdx_eq_take_drop_succ]

theorem erase_repr {s : St α} {l : List α} (i : Nat) (h : Repr K s l none) (hi : i < l.length) :
    ∃ s', erase K i s = .done s' i ∧ Repr K s' (l.take i ++ l.drop (i + 1)) none := by
  obtain ⟨u, h⟩ := h.withU
  obtain ⟨s', e, r⟩ := erase_reprU i h hi
  exact ⟨s', e, r.repr⟩

/-- `resize` to fewer elements, whatever the values of the elements that go. -/
theorem resize_shrink_mk {l : List α} {f : Nat → Option α} {n : Nat} {a : Arg α} (hl : l.length < n) (hC : n ≤ K.capacity)
    (hf : ∀ p, p < l.length → f p = l[p]?) (hlive : ∀ p, p < n → ∃ v, f p = some v) (hraw : ∀ p, n ≤ p → f p = none) :
    resize K l.length a ⟨⟨some n, Slots.mk K.capacity f, []⟩, none⟩ = .done (inl K l none) () := by
  have hcap : l.length ≤ K.capacity := by omega
  have h1 : ¬ l.length > K.capacity := by omega
  have h2 : ¬ l.length > n := by omega
  have h3 : l.length < n := hl
  simp only [resize, isUsingFallback, X.bind_run, Option.isNone_some, Bool.and_false, Bool.false_eq_true, if_false, h1, decide_false,
    resizeInline, hcap, decide_true, X.assert_true, X.pure_run, mSize, h2, h3, if_true]
  rw [destroy_range (by omega) (fun p h1 h2 => hlive p (by omega))]
  simp only [setSize, X.modify_run, inl]
  congr 3
  rw [← truncate_run hf]
  apply Slots.mk_congr
  intro p hp
  by_cases h4 : l.length ≤ p
  · by_cases h5 : p < n
    · have : l.length ≤ p ∧ p < l.length + (n - l.length) := by omega
      simp [h4, this]
    · have : ¬ (l.length ≤ p ∧ p < l.length + (n - l.length)) := by omega
      rw [if_neg this, if_pos h4, hraw p (by omega)]
  · have : ¬ (l.length ≤ p ∧ p < l.length + (n - l.length)) := by omega
    rw [if_neg this, if_neg h4]

theorem eraseRange_reprU {u : Bool} {s : St α} {l : List α} (first last : Nat) (h : ReprU K u s l none) (hi : first ≤ last) (hlast : last ≤ l.length) :
    ∃ s', eraseRange K first last s = .done s' first ∧ ReprU K u s' (l.take first ++ l.drop last) none := by
  have hlen : (l.take first ++ l.drop last).length = l.length - (last - first) := by simp; omega
  have hsz := size_repr h.repr
  rcases h with ⟨rfl, rfl, hl⟩ | ⟨rfl, rfl, hF⟩
  · refine ⟨inl K (l.take first ++ l.drop last) none, ?_, .inl ⟨rfl, rfl, by omega⟩⟩
    rw [eraseRange, X.bind_done (using_inl _ _)]
    simp only [Bool.false_eq_true, if_false]
    by_cases heq : first = last
    · subst heq
      simp
    · have hlt : first < last := by omega
      simp only [heq, if_false, hlt, decide_true, X.assert_true, X.pure_bind']
      rw [X.bind_done hsz]
      simp only [hlast, decide_true, X.assert_true, X.pure_bind']
      obtain ⟨f, e, h1, h2, h3⟩ := shiftDown_run (K := K) (l := l) (first := first) (c := last - first) (b := []) (fu := none)
        (N := some l.length) (by omega) (by omega) hl
      rw [inl, X.bind_done e]
      have hres := resize_shrink_mk (K := K) (l := l.take first ++ l.drop last) (f := f) (n := l.length) (a := .value K.dflt) (by omega) hl
        (fun p hp => by rw [h1 p (by omega), eraseRange_get hi hlast]) h2 h3
      rw [hlen] at hres
      rw [X.bind_done hres]
      rfl
  · refine ⟨fb K (l.take first ++ l.drop last) none, ?_, .inr ⟨rfl, rfl, hF⟩⟩
    rw [eraseRange, X.bind_done (using_fb hF _ _)]
    simp only [if_true]
    rw [X.bind_done (getFallback_fb _ _)]
    simp only [hi, hlast, decide_true, Bool.and_true, X.guardUB_true, X.pure_bind']
    rw [X.bind_done (setFallback_fb _ _ _)]
    rfl

theorem eraseRange_repr {s : St α} {l : List α} (first last : Nat) (h : Repr K s l none) (hi : first ≤ last) (hlast : last ≤ l.length) :
    ∃ s', eraseRange K first last s = .done s' first ∧ Repr K s' (l.take first ++ l.drop last) none := by
  obtain ⟨u, h⟩ := h.withU
  obtain ⟨s', e, r⟩ := eraseRange_reprU first last h hi hlast
  exact ⟨s', e, r.repr⟩

/-! ## Resizing -/

@[simp] theorem ticks_none (n : Nat) (v : Vec α) : ticks n ⟨v, none⟩ = .done ⟨v, none⟩ () := by
  induction n with
  | zero => rfl
  | succ n ih => rw [ticks]; simp [X.bind_run, tick, ih]

theorem resizeFallback_fb {l : List α} {n : Nat} {v : α} :
    resizeFallback n (.value v) (fb K l none) = .done (fb K (l.take n ++ List.replicate (n - l.length) v) none) () := by
  rw [resizeFallback, X.bind_done (getFallback_fb _ _)]
  simp only [Arg.read, X.pure_run, X.bind_run, fb, ticks_none]
  rfl

theorem ofList_replicate {l : List α} {n k : Nat} {v : α} (hk : l.length + k < n) :
    Slots.create (Slots.ofList n (l ++ List.replicate k v)) (l.length + k) v = .ok (Slots.ofList n (l ++ List.replicate (k + 1) v)) := by
  have := create_ofList (n := n) (l := l ++ List.replicate k v) v (by simp; exact hk)
  simp only [List.length_append, List.length_replicate] at this
  rw [this]
  congr 2
  rw [List.replicate_succ', List.append_assoc]

theorem resize_inl {l : List α} {n : Nat} {v : α} (hl : l.length ≤ K.capacity) (hn : n ≤ K.capacity) :
    resize K n (.value v) (inl K l none) = .done (inl K (l.take n ++ List.replicate (n - l.length) v) none) () := by
  have hnot : ¬ n > K.capacity := by omega
  by_cases hlt : n < l.length
  · have hz : n - l.length = 0 := by omega
    have htl : (l.take n).length = n := by simp; omega
    simp only [hz, List.replicate_zero, List.append_nil]
    have := resize_shrink_mk (K := K) (l := l.take n) (f := fun p => l[p]?) (n := l.length) (a := .value v) (by omega) hl
      (fun p hp => by rw [List.getElem?_take]; simp [show p < n by omega]) (fun p hp => ⟨l[p], List.getElem?_eq_getElem hp⟩)
      (fun p hp => List.getElem?_eq_none hp)
    rwa [htl] at this
  · have htk : l.take n = l := List.take_of_length_le (by omega)
    rw [htk, resize, X.bind_done (using_inl _ _)]
    simp only [Bool.false_eq_true, if_false, hnot, decide_false, Bool.and_false]
    rw [resizeInline]
    simp only [hn, decide_true, X.assert_true, X.pure_bind']
    rw [X.bind_done (mSize_inl _ _)]
    by_cases hgt : n > l.length
    · simp only [hgt, if_true]
      have := X.forUp_done (lo := l.length) (n := n - l.length) (f := fun i => construct i (.value v))
        (fun k => (⟨⟨some l.length, Slots.ofList K.capacity (l ++ List.replicate k v), []⟩, none⟩ : St α)) (by
          intro k hk
          exact construct_run (ofList_replicate (by omega)))
      simp only [List.replicate_zero, List.append_nil] at this
      rw [inl, X.bind_done this]
      simp only [setSize, X.modify_run, inl]
      congr 3
      simp; omega
    · have : n = l.length := by omega
      subst this
      simp

theorem resize_repr {s : St α} {l : List α} (n : Nat) (v : α) (h : Repr K s l none) (hok : K.hasFallback = true ∨ n ≤ K.capacity) :
    ∃ s', resize K n (.value v) s = .done s' () ∧ Repr K s' (l.take n ++ List.replicate (n - l.length) v) none := by
  rcases h with ⟨rfl, hl⟩ | ⟨rfl, hF⟩
  · by_cases hbig : K.hasFallback = true ∧ n > K.capacity
    · refine ⟨fb K (l.take n ++ List.replicate (n - l.length) v) none, ?_, .inr ⟨rfl, hbig.1⟩⟩
      rw [resize, X.bind_done (using_inl _ _)]
      simp only [Bool.false_eq_true, if_false, hbig.1, hbig.2, decide_true, Bool.and_true, if_true]
      rw [X.bind_done (moveStorage_inl hl), resizeFallback_fb]
    · have hn : n ≤ K.capacity := by
        rcases hok with h | h
        · exact Nat.not_lt.mp (fun hc => hbig ⟨h, hc⟩)
        · exact h
      have hnot : ¬ n > K.capacity := by omega
      refine ⟨inl K (l.take n ++ List.replicate (n - l.length) v) none, ?_, .inl ⟨rfl, by simp; omega⟩⟩
      exact resize_inl hl hn
  · refine ⟨fb K (l.take n ++ List.replicate (n - l.length) v) none, ?_, .inr ⟨rfl, hF⟩⟩
    rw [resize, X.bind_done (using_fb hF _ _)]
    simp only [if_true]
    exact resizeFallback_fb

theorem reserve_repr {s : St α} {l : List α} {fu : Option Nat} (n : Nat) (h : Repr K s l fu) (hok : K.hasFallback = true ∨ n ≤ K.capacity) :
    ∃ s', reserve K n s = .done s' () ∧ Repr K s' l fu := by
  unfold reserve
  cases hF : K.hasFallback with
  | false =>
    have hn : n ≤ K.capacity := by simpa [hF] using hok
    refine ⟨s, ?_, h⟩
    simp [hn]
  | true =>
    simp only [if_true]
    by_cases hn : n ≤ K.capacity
    · refine ⟨s, ?_, h⟩
      simp [hn]
    · simp only [hn, if_false]
      rcases h with ⟨rfl, hl⟩ | ⟨rfl, _⟩
      · refine ⟨fb K l fu, ?_, .inr ⟨rfl, hF⟩⟩
        rw [X.bind_done (using_inl _ _)]
        simp only [Bool.false_eq_true, if_false]
        exact moveStorage_inl hl
      · refine ⟨fb K l fu, ?_, .inr ⟨rfl, hF⟩⟩
        rw [X.bind_done (using_fb hF _ _)]
        rfl

theorem assignAt_reprU {u : Bool} {s : St α} {l : List α} {fu : Option Nat} (i : Nat) (v : α) (h : ReprU K u s l fu) (hi : i < l.length) :
    ∃ s', assignAt K i v s = .done s' () ∧ ReprU K u s' (l.set i v) fu := by
  have hsz := size_repr h.repr
  rcases h with ⟨rfl, rfl, hl⟩ | ⟨rfl, rfl, hF⟩
  · refine ⟨inl K (l.set i v) fu, ?_, .inl ⟨rfl, rfl, by simpa using hl⟩⟩
    rw [assignAt, X.bind_done hsz]
    simp only [hi, decide_true, X.assert_true, X.pure_bind']
    rw [X.bind_done (using_inl _ _)]
    simp only [Bool.false_eq_true, if_false, inl, Slots.ofList, List.length_set]
    rw [onData_run (Slots.assign_mk v (u := l[i]) (by omega) (List.getElem?_eq_getElem hi))]
    congr 3
    apply Slots.mk_congr
    intro p hp
    simp only [Slots.upd, List.getElem?_set]
    by_cases h1 : p = i
    · subst h1; simp [hi]
    · simp [h1, Ne.symm h1]
  · refine ⟨fb K (l.set i v) fu, ?_, .inr ⟨rfl, rfl, hF⟩⟩
    rw [assignAt, X.bind_done hsz]
    simp only [hi, decide_true, X.assert_true, X.pure_bind']
    rw [X.bind_done (using_fb hF _ _)]
    simp only [if_true]
    rw [X.bind_done (getFallback_fb _ _)]
    rfl

theorem assignAt_repr {s : St α} {l : List α} {fu : Option Nat} (i : Nat) (v : α) (h : Repr K s l fu) (hi : i < l.length) :
    ∃ s', assignAt K i v s = .done s' () ∧ Repr K s' (l.set i v) fu := by
  obtain ⟨u, h⟩ := h.withU
  obtain ⟨s', e, r⟩ := assignAt_reprU i v h hi
  exact ⟨s', e, r.repr⟩

/-! ## Every operation -/

theorem run_repr {s : St α} {l : List α} (o : Op α) (h : Repr K s l none) (hok : o.ok K.capacity K.hasFallback l) :
    ∃ s', o.run K s = .done s' (o.spec l).2 ∧ Repr K s' (o.spec l).1 none := by
  cases o with
  | pushBack v =>
    obtain ⟨s', e, r⟩ := emplaceBack_repr v h hok
    exact ⟨s', by simp only [Op.run]; rw [X.bind_done e]; rfl, r⟩
  | emplace i v =>
    obtain ⟨s', e, r⟩ := emplace_repr i v h hok.1 hok.2
    refine ⟨s', by simp only [Op.run]; rw [X.bind_done e]; rfl, ?_⟩
    simp only [Op.spec]
    rwa [insertIdx_eq hok.1] at r
  | erase i =>
    obtain ⟨s', e, r⟩ := erase_repr i h hok
    exact ⟨s', by simp only [Op.run]; rw [X.bind_done e]; rfl, r⟩
  | eraseRange f t =>
    obtain ⟨s', e, r⟩ := eraseRange_repr f t h hok.1 hok.2
    exact ⟨s', by simp only [Op.run]; rw [X.bind_done e]; rfl, r⟩
  | popBack =>
    obtain ⟨s', e, r⟩ := popBack_repr h hok
    refine ⟨s', by simp only [Op.run]; rw [X.bind_done e]; rfl, ?_⟩
    simpa only [Op.spec, List.dropLast_eq_take] using r
  | resize n v =>
    obtain ⟨s', e, r⟩ := resize_repr n v h hok
    exact ⟨s', by simp only [Op.run]; rw [X.bind_done e]; rfl, r⟩
  | reserve n =>
    obtain ⟨s', e, r⟩ := reserve_repr n h hok
    exact ⟨s', by simp only [Op.run]; rw [X.bind_done e]; rfl, r⟩
  | assignAt i v =>
    obtain ⟨s', e, r⟩ := assignAt_repr i v h hok
    exact ⟨s', by simp only [Op.run]; rw [X.bind_done e]; rfl, r⟩
  | clear =>
    obtain ⟨s', e, r⟩ := clear_repr h
    exact ⟨s', by simp only [Op.run]; rw [X.bind_done e]; rfl, r⟩

theorem runAll_repr {s : St α} {l : List α} (os : List (Op α)) (h : Repr K s l none) (hok : okAll K.capacity K.hasFallback os l) :
    ∃ s', runAll K os s = .done s' (specAll os l).2 ∧ Repr K s' (specAll os l).1 none := by
  induction os generalizing s l with
  | nil => exact ⟨s, rfl, h⟩
  | cons o os ih =>
    obtain ⟨s1, e1, r1⟩ := run_repr o h hok.1
    obtain ⟨s2, e2, r2⟩ := ih r1 hok.2
    refine ⟨s2, ?_, r2⟩
    rw [runAll, X.bind_done e1, X.bind_done e2]
    rfl

theorem living_repr {s : St α} {l : List α} {fu : Option Nat} (h : Repr K s l fu) : living s = l.length := by
  rcases h with ⟨rfl, hl⟩ | ⟨rfl, _⟩
  · simp [living, inl, Slots.alive_ofList hl]
  · simp [living, fb, Slots.alive_ofList (l := ([] : List α)) (Nat.zero_le _)]

end Verif.FixedVector
