import Verif.FixedVector.LemmasCopy

/-!
# Exceptions and arguments that are elements of the vector
-/

namespace Verif.FixedVector
open Verif.Cpp

variable {α : Type} {K : Cfg α}

/-- The inline storage in which room was made at `i`, counted in the size. -/
def hole (K : Cfg α) (l : List α) (i : Nat) (fu : Option Nat) : St α :=
  ⟨⟨some (l.length + 1), Slots.mk K.capacity (fun p => if p < i then l[p]? else if p = i then none else l[p - 1]?), []⟩, fu⟩

theorem check_inl {l : List α} {fu : Option Nat} (hl : l.length < K.capacity) :
    checkFallbackOnGrow K (inl K l fu) = .done (inl K l fu) false := by
  unfold checkFallbackOnGrow
  split
  · rw [X.bind_done (using_inl _ _)]
    simp only [Bool.false_eq_true, if_false]
    rw [X.bind_done (mSize_inl _ _)]
    simp only [ge_iff_le, Nat.not_le.mpr hl, if_false, X.pure_run]
  · rfl

theorem check_full {l : List α} {fu : Option Nat} (hF : K.hasFallback = true) (hl : l.length = K.capacity) :
    checkFallbackOnGrow K (inl K l fu) = .done (fb K l fu) true := by
  unfold checkFallbackOnGrow
  simp only [hF, if_true]
  rw [X.bind_done (using_inl _ _)]
  simp only [Bool.false_eq_true, if_false]
  rw [X.bind_done (mSize_inl _ _)]
  simp only [ge_iff_le, hl, Nat.le_refl, if_true]
  rw [X.bind_done (moveStorage_inl (by omega))]
  rfl

theorem emplace_pre {l : List α} {i : Nat} {a : Arg α} {fu : Option Nat} (hl : l.length < K.capacity) (hi : i ≤ l.length) :
    emplace K i a (inl K l fu) = (construct i a >>= fun _ => pure i) (hole K l i fu) := by
  rw [emplace, X.bind_done (size_inl _ _)]
  simp only [hi, decide_true, X.assert_true, X.pure_bind']
  rw [X.bind_done (check_inl hl)]
  simp only [Bool.false_eq_true, if_false]
  rw [X.bind_done (mSize_inl _ _)]
  simp only [hl, decide_true, X.assert_true, X.pure_bind']
  by_cases hlt : i < l.length
  · simp only [hlt, if_true, inl]
    rw [X.bind_done (emplaceShift_run hlt hl)]
    rfl
  · simp only [hlt, if_false, setSize, inl, X.bind_run, X.modify_run, X.pure_run, hole]
    have : Slots.ofList K.capacity l = Slots.mk K.capacity (fun p => if p < i then l[p]? else if p = i then none else l[p - 1]?) := by
      apply Slots.mk_congr
      intro p _
      by_cases h1 : p < i
      · simp [h1]
      · by_cases h2 : p = i
        · simp [h2]; omega
        · rw [if_neg h1, if_neg h2, List.getElem?_eq_none (by omega), List.getElem?_eq_none (by omega)]
    rw [this]

theorem emplaceBack_pre {l : List α} {a : Arg α} {fu : Option Nat} (hl : l.length < K.capacity) :
    emplaceBack K a (inl K l fu) = (construct l.length a >>= fun _ => pure l.length) (hole K l l.length fu) := by
  rw [emplaceBack, X.bind_done (check_inl hl)]
  simp only [Bool.false_eq_true, if_false]
  rw [X.bind_done (mSize_inl _ _)]
  simp only [hl, decide_true, X.assert_true, X.pure_bind', hole]
  simp only [setSize, inl, X.bind_run, X.modify_run, X.pure_run]
  have : Slots.ofList K.capacity l =
      Slots.mk K.capacity (fun p => if p < l.length then l[p]? else if p = l.length then none else l[p - 1]?) := by
    apply Slots.mk_congr
    intro p _
    by_cases h1 : p < l.length
    · simp [h1]
    · by_cases h2 : p = l.length
      · simp [h2]
      · rw [if_neg h1, if_neg h2, List.getElem?_eq_none (by omega), List.getElem?_eq_none (by omega)]
  rw [this]

theorem construct_throw {i : Nat} {v : α} {vec : Vec α} : construct i (.value v) ⟨vec, some 0⟩ = .thrown ⟨vec, none⟩ := by
  simp [construct, Arg.read, X.bind_run, tick]

theorem hole_construct {l : List α} {i : Nat} {v : α} (hl : l.length < K.capacity) (hi : i ≤ l.length) :
    (construct i (.value v) >>= fun _ => pure i : X (St α) Nat) (hole K l i none) = .done (inl K (l.insertIdx i v) none) i := by
  rw [hole, X.bind_done (construct_run (Slots.create_mk v (by omega) (by simp)))]
  simp only [X.pure_run, inl, Slots.ofList, List.length_insertIdx_of_le_length hi]
  congr 3
  apply Slots.mk_congr
  intro p hp
  rw [insertIdx_get hi]
  simp only [Slots.upd]
  by_cases h1 : p = i
  · subst h1; simp
  · rw [if_neg h1, if_neg h1, if_neg h1]

theorem construct_slot {i j : Nat} {v : α} {s : St α} (h : Slots.read s.vec.data j = .ok v) :
    construct i (.slot j) s = construct i (.value v) s := by
  simp only [construct, Arg.read]
  rw [X.bind_done (ofData_run h)]
  rfl

theorem construct_slot_ub {i j : Nat} {s : St α} (h : Slots.read s.vec.data j = .error .ub) :
    construct i (.slot j) s = .fail .ub := by
  simp only [construct, Arg.read]
  apply X.bind_fail
  simp [ofData, h]

theorem hole_read_lt {l : List α} {i j : Nat} {fu : Option Nat} (hl : l.length < K.capacity) (hj : j < i) (hi : i ≤ l.length) :
    Slots.read (hole K l i fu).vec.data j = .ok l[j] := by
  apply Slots.read_mk (by omega)
  simp [hj]

theorem hole_read_eq {l : List α} {i : Nat} {fu : Option Nat} (hl : l.length < K.capacity) (hi : i ≤ l.length) :
    Slots.read (hole K l i fu).vec.data i = .error .ub := by
  have : i < K.capacity := by omega
  simp [hole, Slots.read, Slots.mk_get this]

theorem hole_read_gt {l : List α} {i j : Nat} {fu : Option Nat} (hl : l.length < K.capacity) (hj : i < j) (hj' : j < l.length) :
    Slots.read (hole K l i fu).vec.data j = .ok l[j - 1] := by
  apply Slots.read_mk (by omega)
  have h1 : ¬ j < i := by omega
  have h2 : ¬ j = i := by omega
  rw [if_neg h1, if_neg h2]
  exact List.getElem?_eq_getElem (by omega)

/-- Destroying a vector with a hole destroys raw memory. -/
theorem hole_destructor {l : List α} {i : Nat} (hl : l.length < K.capacity) (hi : i ≤ l.length) :
    destructor K (hole K l i none) = .fail .ub := by
  have hfor := X.forUp_fail (lo := 0) (n := l.length + 1) (f := fun i => onData (Slots.destroy · i)) (e := .ub)
    (fun k => (⟨⟨some (l.length + 1), Slots.mk K.capacity (fun p => if p < k then none else
      if p < i then l[p]? else if p = i then none else l[p - 1]?), []⟩, none⟩ : St α)) i (by omega) (by
      intro k hk
      rw [Nat.zero_add]
      apply onData_run
      rw [Slots.destroy_mk (v := l[k]) (by omega) (by simp [hk])]
      congr 1
      apply Slots.mk_congr
      intro p _
      simp only [Slots.upd]
      by_cases h : p = k
      · simp [h]
      · have : p < k ↔ p < k + 1 := by omega
        simp [h, this]) (by
      rw [Nat.zero_add]
      simp only [onData]
      rw [Slots.destroy_raw (by omega) (by simp)])
  simp only [Nat.not_lt_zero, if_false] at hfor
  rw [destructor]
  apply X.bind_fail
  simp only [clear, isUsingFallback, hole, X.bind_run, Option.isNone_some, Bool.and_false, Bool.false_eq_true, if_false, mSize]
  rw [hfor]

/-! ## Resizing -/

/-- The inline storage after a `resize` ended by an exception: `extra` objects exist that the size does not count. -/
def overfull (K : Cfg α) (l extra : List α) : St α := ⟨⟨some l.length, Slots.ofList K.capacity (l ++ extra), []⟩, none⟩

theorem resize_throw_inl {l : List α} {n k : Nat} {v : α} (hn : n ≤ K.capacity) (hk : k < n - l.length) :
    resize K n (.value v) (inl K l (some k)) = .thrown (overfull K l (List.replicate k v)) := by
  have hnot : ¬ n > K.capacity := by omega
  have hgt : n > l.length := by omega
  rw [resize, X.bind_done (using_inl _ _)]
  simp only [Bool.false_eq_true, if_false, hnot, decide_false, Bool.and_false]
  rw [resizeInline]
  simp only [hn, decide_true, X.assert_true, X.pure_bind']
  rw [X.bind_done (mSize_inl _ _)]
  simp only [hgt, if_true]
  have := X.forUp_thrown (lo := l.length) (n := n - l.length) (f := fun i => construct i (.value v))
    (fun j => (⟨⟨some l.length, Slots.ofList K.capacity (l ++ List.replicate j v), []⟩, some (k - j)⟩ : St α)) k hk
    (s' := overfull K l (List.replicate k v)) (by
      intro j hj
      obtain ⟨q, hq⟩ : ∃ q, k - j = q + 1 := ⟨k - j - 1, by omega⟩
      have hq' : k - (j + 1) = q := by omega
      simp only [construct, Arg.read, X.bind_run, X.pure_run, tick, hq, hq']
      exact onData_run (ofList_replicate (by omega))) (by
      rw [Nat.sub_self]
      exact construct_throw)
  simp only [List.replicate_zero, List.append_nil, Nat.sub_zero] at this
  exact X.bind_thrown (by rw [inl]; exact this)

theorem overfull_shows {l extra : List α} (h : (l ++ extra).length ≤ K.capacity) : Shows K (overfull K l extra) l := by
  have hsz : size K (overfull K l extra) = .done (overfull K l extra) l.length := by
    simp [size, overfull, isUsingFallback, mSize, X.bind_run]
  have hemp : isEmpty K (overfull K l extra) = .done (overfull K l extra) l.isEmpty := by
    rw [isEmpty, X.bind_done hsz]; cases l <;> simp
  have hrd : ∀ i (hi : i < l.length), readAt K i (overfull K l extra) = .done (overfull K l extra) l[i] := by
    intro i hi
    simp only [readAt, isUsingFallback, X.bind_run, overfull, Option.isNone_some, Bool.and_false, Bool.false_eq_true, if_false]
    refine ofData_run (f := (Slots.read · i)) (s := overfull K l extra) ?_
    have := read_ofList (n := K.capacity) (l := l ++ extra) (i := i) (by simp; omega) h
    rwa [List.getElem_append_left hi] at this
  exact {
    size := hsz
    empty := hemp
    at_lt := by
      intro i hi
      rw [at', X.bind_done hsz]
      simp only [hi, decide_true, X.assert_true, X.pure_bind']
      exact hrd i hi
    at_ge := by
      intro i hi
      rw [at', X.bind_done hsz]
      simp [Nat.not_lt.mpr hi, X.bind_run]
    front := by
      intro hl
      have hp := List.length_pos_iff.mpr hl
      rw [FixedVector.front, X.bind_done hemp]
      simp only [List.isEmpty_eq_false_iff.mpr hl, Bool.not_false, X.assert_true, X.pure_bind']
      rw [hrd 0 hp, List.head_eq_getElem]
    back := by
      intro hl
      have hp := List.length_pos_iff.mpr hl
      rw [FixedVector.back, X.bind_done hemp]
      simp only [List.isEmpty_eq_false_iff.mpr hl, Bool.not_false, X.assert_true, X.pure_bind']
      rw [X.bind_done hsz, hrd _ (by omega), List.getLast_eq_getElem]
    front_nil := by
      rintro rfl
      rw [FixedVector.front, X.bind_done hemp]; simp [X.bind_run]
    back_nil := by
      rintro rfl
      rw [FixedVector.back, X.bind_done hemp]; simp [X.bind_run] }

theorem alive_shift {n : Nat} {l extra : List α} (h : (l ++ extra).length ≤ n) :
    Slots.alive (Slots.mk n (fun p => if p < l.length then none else (l ++ extra)[p]?)) = extra.length := by
  have h1 := Slots.alive_ofList h
  have h2 : Slots.alive (Slots.ofList n (l ++ extra)) = l.length +
      Slots.alive (Slots.mk n (fun p => if p < l.length then none else (l ++ extra)[p]?)) := by
    have hle : l.length ≤ n := by simp at h; omega
    obtain ⟨m, rfl⟩ := Nat.exists_eq_add_of_le hle
    unfold Slots.alive Slots.ofList Slots.mk
    simp only [List.countP_map, List.range_add, List.countP_append]
    have a1 : List.countP (Option.isSome ∘ fun p => (l ++ extra)[p]?) (List.range l.length) = l.length := by
      conv => rhs; rw [← List.length_range (n := l.length)]
      rw [List.countP_eq_length]
      intro p hp
      simp only [List.mem_range] at hp
      have : p < (l ++ extra).length := by simp; omega
      simp only [Function.comp, List.getElem?_eq_getElem this, Option.isSome_some]
    have a2 : List.countP (Option.isSome ∘ fun p => if p < l.length then none else (l ++ extra)[p]?) (List.range l.length) = 0 := by
      rw [List.countP_eq_zero]
      intro p hp
      simp only [List.mem_range] at hp
      simp [hp]
    have a3 : List.countP ((Option.isSome ∘ fun p => (l ++ extra)[p]?) ∘ fun x => l.length + x) (List.range m) =
        List.countP ((Option.isSome ∘ fun p => if p < l.length then none else (l ++ extra)[p]?) ∘ fun x => l.length + x) (List.range m) := by
      congr 1
      funext p
      have : ¬ l.length + p < l.length := by omega
      simp only [Function.comp, this, if_false]
    rw [a1, a2, a3, Nat.zero_add]
  simp only [List.length_append] at h1
  omega

theorem overfull_destructor {l extra : List α} (h : (l ++ extra).length ≤ K.capacity) :
    ∃ s', destructor K (overfull K l extra) = .done s' () ∧ living s' = extra.length := by
  have hlen : l.length + extra.length ≤ K.capacity := by simpa using h
  refine ⟨⟨⟨some 0, Slots.mk K.capacity (fun p => if p < l.length then none else (l ++ extra)[p]?), []⟩, none⟩, ?_, ?_⟩
  · simp only [destructor, clear, isUsingFallback, overfull, X.bind_run, Option.isNone_some, Bool.and_false, Bool.false_eq_true, if_false, mSize,
      Slots.ofList]
    rw [destroy_range (by omega) (by
      intro p _ hp
      exact ⟨(l ++ extra)[p]'(by simp; omega), List.getElem?_eq_getElem (by simp; omega)⟩)]
    simp only [setSize, setFallback, X.modify_run]
    congr 3
    apply Slots.mk_congr
    intro p _
    simp
  · simp only [living, List.length_nil, Nat.add_zero]
    exact alive_shift h

theorem ticks_throw {k n : Nat} {v : Vec α} (h : k < n) : ticks n ⟨v, some k⟩ = .thrown ⟨v, none⟩ := by
  induction n generalizing k with
  | zero => omega
  | succ n ih =>
    cases k with
    | zero => simp [ticks, X.bind_run, tick]
    | succ k =>
      rw [ticks, X.bind_done (s' := ⟨v, some k⟩) (a := ()) (by simp [tick])]
      exact ih (by omega)

theorem resizeFallback_throw {l : List α} {n k : Nat} {v : α} (hk : k < n - l.length) :
    resizeFallback n (.value v) (fb K l (some k)) = .thrown (fb K l none) := by
  rw [resizeFallback, X.bind_done (getFallback_fb _ _)]
  simp only [Arg.read, X.pure_bind', fb]
  exact X.bind_thrown (ticks_throw hk)

end Verif.FixedVector
