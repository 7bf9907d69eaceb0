import Verif.FixedVector.ModelThrow

/-!
# Lemmas on throwing moves
-/

namespace Verif.FixedVector
open Verif.Cpp

variable {α : Type} {K : Cfg α}

/-! ## Agreement with `Model.lean` when nothing is thrown -/

theorem tick_none (v : Vec α) : tick ⟨v, none⟩ = .done ⟨v, none⟩ () := rfl

/-- Two loops whose bodies agree on the states of an invariant. -/
theorem forUp_agree {σ : Type} (P : σ → Prop) {f g : Nat → X σ Unit} (h : ∀ i s, P s → f i s = g i s)
    (hp : ∀ i s s' u, P s → g i s = .done s' u → P s') (lo n : Nat) (s : σ) (hs : P s) : X.forUp lo n f s = X.forUp lo n g s := by
  induction n generalizing lo s with
  | zero => rfl
  | succ n ih =>
    simp only [X.forUp, X.bind_run]
    rw [h lo s hs]
    cases hg : g lo s with
    | done s' u => exact ih _ _ (hp lo s s' u hs hg)
    | thrown s' => rfl
    | fail e => rfl

theorem forDown_agree {σ : Type} (P : σ → Prop) {f g : Nat → X σ Unit} (h : ∀ i s, P s → f i s = g i s)
    (hp : ∀ i s s' u, P s → g i s = .done s' u → P s') (lo n : Nat) (s : σ) (hs : P s) : X.forDown lo n f s = X.forDown lo n g s := by
  induction n generalizing s with
  | zero => rfl
  | succ n ih =>
    simp only [X.forDown, X.bind_run]
    rw [h _ s hs]
    cases hg : g (lo + n + 1) s with
    | done s' u => exact ih _ (hp _ s s' u hs hg)
    | thrown s' => rfl
    | fail e => rfl

def NoThrow (s : St α) : Prop := s.fuse = none

theorem noThrow_mk (v : Vec α) : NoThrow (⟨v, none⟩ : St α) := rfl

theorem onData_noThrow {f : Slots α → M (Slots α)} {s s' : St α} {u : Unit} (h : NoThrow s) (e : onData f s = .done s' u) : NoThrow s' := by
  unfold onData at e
  split at e
  · cases e; exact h
  · cases e

theorem moveCreateT_agrees {i j : Nat} {s : St α} (h : NoThrow s) :
    moveCreateT K i j s = onData (Slots.moveCreate K.mv · i j) s := by
  obtain ⟨v, f⟩ := s; cases h; rfl

theorem moveAssignT_agrees {i j : Nat} {s : St α} (h : NoThrow s) :
    moveAssignT K i j s = onData (Slots.moveAssign K.mv · i j) s := by
  obtain ⟨v, f⟩ := s; cases h; rfl

theorem moveOneToFallbackT_agrees {i : Nat} {s : St α} (h : NoThrow s) : moveOneToFallbackT K i s = moveOneToFallback K i s := by
  obtain ⟨v, f⟩ := s; cases h
  simp only [moveOneToFallbackT, moveOneToFallback, X.bind_run, ofData]
  cases Slots.read v.data i <;> rfl

theorem moveOneToFallback_noThrow {i : Nat} {s s' : St α} {u : Unit} (h : NoThrow s) (e : moveOneToFallback K i s = .done s' u) : NoThrow s' := by
  obtain ⟨v, f⟩ := s; cases h
  simp only [moveOneToFallback, X.bind_run, ofData, getFallback, setFallback, X.modify_run] at e
  split at e <;> try cases e
  rename_i heq
  split at heq <;> cases heq
  split at e <;> try cases e
  rename_i h1
  exact onData_noThrow (onData_noThrow (noThrow_mk _) h1) e

theorem moveStorageToFallbackT_agrees {s : St α} (h : NoThrow s) : moveStorageToFallbackT K s = moveStorageToFallback K s := by
  obtain ⟨v, f⟩ := s; cases h
  simp only [moveStorageToFallbackT, moveStorageToFallback, X.bind_run, isUsingFallback, mSize]
  cases K.hasFallback && v.size.isNone
  · simp only [Bool.not_false, X.assert_true, X.pure_run]
    cases v.size with
    | none => rfl
    | some n =>
      simp only
      rw [forUp_agree NoThrow (fun i s hs => moveOneToFallbackT_agrees (K := K) hs) (fun i s s' u hs e => moveOneToFallback_noThrow hs e) _ _ _ (noThrow_mk _)]
  · rfl

theorem checkFallbackOnGrowT_agrees {s : St α} (h : NoThrow s) : checkFallbackOnGrowT K s = checkFallbackOnGrow K s := by
  obtain ⟨v, f⟩ := s; cases h
  unfold checkFallbackOnGrowT checkFallbackOnGrow
  split
  · simp only [X.bind_run, isUsingFallback]
    split
    · rfl
    · simp only [X.bind_run, mSize]
      cases v.size with
      | none => rfl
      | some n =>
        simp only
        split
        · simp only [X.bind_run]
          rw [moveStorageToFallbackT_agrees (noThrow_mk _)]
        · rfl
  · rfl

theorem emplaceBackT_agrees {a : Arg α} {s : St α} (h : NoThrow s) : emplaceBackT K a s = emplaceBack K a s := by
  simp only [emplaceBackT, emplaceBack, X.bind_run]
  rw [checkFallbackOnGrowT_agrees h]

theorem emplaceShiftT_agrees {i n : Nat} {s : St α} (h : NoThrow s) : emplaceShiftT K i n s = emplaceShift K i n s := by
  simp only [emplaceShiftT, emplaceShift, X.bind_run]
  rw [moveCreateT_agrees h]
  cases e : onData (fun x => Slots.moveCreate K.mv x n (n - 1)) s with
  | done s' u =>
    simp only
    rw [forDown_agree NoThrow (fun i s hs => moveAssignT_agrees (K := K) hs) (fun i s s' u hs e => onData_noThrow hs e) _ _ _ (onData_noThrow h e)]
  | thrown s' => rfl
  | fail e => rfl

theorem checkFallbackOnGrow_false {s s' : St α} (e : checkFallbackOnGrow K s = .done s' false) : s' = s := by
  unfold checkFallbackOnGrow at e
  split at e
  · simp only [X.bind_run, isUsingFallback] at e
    split at e
    · cases e
    · simp only [X.bind_run, mSize] at e
      cases hsz : s.vec.size with
      | none => rw [hsz] at e; cases e
      | some n =>
        rw [hsz] at e
        simp only at e
        split at e
        · simp only [X.bind_run] at e
          split at e <;> cases e
        · cases e; rfl
  · cases e; rfl

theorem emplaceT_agrees {i : Nat} {a : Arg α} {s : St α} (h : NoThrow s) : emplaceT K i a s = emplace K i a s := by
  simp only [emplaceT, emplace, X.bind_run]
  cases e : size K s with
  | fail e => rfl
  | thrown s' => rfl
  | done s1 n =>
    have hs1 : s1 = s := by
      simp only [size, X.bind_run, isUsingFallback] at e
      split at e
      · cases e; rfl
      · simp only [mSize] at e
        split at e <;> cases e
        rfl
    subst hs1
    simp only
    cases ha : (X.assert (decide (i ≤ n)) : X (St α) Unit) s1 with
    | fail e => rfl
    | thrown s' => rfl
    | done s2 u =>
      have hs2 : s2 = s1 := by
        by_cases hin : i ≤ n
        · simp only [hin, decide_true, X.assert_true, X.pure_run] at ha; cases ha; rfl
        · simp only [hin, decide_false, X.assert_false, X.fail_run] at ha; cases ha
      subst hs2
      simp only
      rw [checkFallbackOnGrowT_agrees h]
      cases hc : checkFallbackOnGrow K s2 with
      | fail e => rfl
      | thrown s' => rfl
      | done s3 b =>
        cases b with
        | true => rfl
        | false =>
          have hs3 := checkFallbackOnGrow_false hc
          subst hs3
          simp only [Bool.false_eq_true, if_false, X.bind_run]
          cases hm : mSize s3 with
          | fail e => rfl
          | thrown s' => rfl
          | done s4 m =>
            have hs4 : s4 = s3 := by
              unfold mSize at hm; split at hm <;> cases hm; rfl
            subst hs4
            simp only
            by_cases hlt : m < K.capacity
            · simp only [hlt, decide_true, X.assert_true, X.pure_run]
              by_cases him : i < m
              · simp only [him, if_true, X.bind_run]
                rw [emplaceShiftT_agrees h]
              · simp only [him, if_false]
            · simp only [hlt, decide_false, X.assert_false, X.fail_run]

theorem resizeT_agrees {n : Nat} {a : Arg α} {s : St α} (h : NoThrow s) : resizeT K n a s = resize K n a s := by
  simp only [resizeT, resize, X.bind_run, isUsingFallback]
  split
  · rfl
  · split
    · simp only [X.bind_run]
      rw [moveStorageToFallbackT_agrees h]
    · rfl

theorem reserveT_agrees {n : Nat} {s : St α} (h : NoThrow s) : reserveT K n s = reserve K n s := by
  unfold reserveT reserve
  split
  · split
    · rfl
    · simp only [X.bind_run, isUsingFallback]
      split
      · rfl
      · rw [moveStorageToFallbackT_agrees h]
  · rfl

theorem size_keeps {s s' : St α} {n : Nat} (e : size K s = .done s' n) : s' = s := by
  simp only [size, X.bind_run, isUsingFallback] at e
  split at e
  · cases e; rfl
  · simp only [mSize] at e
    split at e <;> cases e
    rfl

theorem forUp_noThrow {f : Nat → X (St α) Unit} (hp : ∀ i s s' u, NoThrow s → f i s = .done s' u → NoThrow s') {lo n : Nat} {s s' : St α} {u : Unit}
    (hs : NoThrow s) (e : X.forUp lo n f s = .done s' u) : NoThrow s' := by
  induction n generalizing lo s with
  | zero => cases e; exact hs
  | succ n ih =>
    simp only [X.forUp, X.bind_run] at e
    cases hf : f lo s with
    | done s1 u1 => rw [hf] at e; exact ih (hp _ _ _ _ hs hf) e
    | thrown s1 => rw [hf] at e; cases e
    | fail e1 => rw [hf] at e; cases e

theorem eraseT_agrees {i : Nat} {s : St α} (h : NoThrow s) : eraseT K i s = erase K i s := by
  simp only [eraseT, erase, X.bind_run]
  cases e : size K s with
  | fail e => rfl
  | thrown s' => rfl
  | done s1 n =>
    have := size_keeps e
    subst this
    simp only
    by_cases hin : i < n
    · simp only [hin, decide_true, X.assert_true, X.pure_run, isUsingFallback]
      split
      · rfl
      · simp only [X.bind_run]
        rw [forUp_agree NoThrow (fun i s hs => moveAssignT_agrees (K := K) hs) (fun i s s' u hs e => onData_noThrow hs e) _ _ _ h]
    · simp only [hin, decide_false, X.assert_false, X.fail_run]

theorem eraseRangeT_agrees {i j : Nat} {s : St α} (h : NoThrow s) : eraseRangeT K i j s = eraseRange K i j s := by
  simp only [eraseRangeT, eraseRange, X.bind_run, isUsingFallback]
  split
  · rfl
  · split
    · rfl
    · simp only [X.bind_run]
      by_cases hij : i < j
      · simp only [hij, decide_true, X.assert_true, X.pure_run]
        cases e : size K s with
        | fail e => rfl
        | thrown s' => rfl
        | done s1 n =>
          have := size_keeps e
          subst this
          simp only
          by_cases hjn : j ≤ n
          · simp only [hjn, decide_true, X.assert_true, X.pure_run]
            rw [forUp_agree NoThrow (fun i s hs => moveAssignT_agrees (K := K) hs) (fun i s s' u hs e => onData_noThrow hs e) _ _ _ h]
            cases hf : X.forUp (i + (j - i)) (n - (i + (j - i))) (fun x => onData (fun d => Slots.moveAssign K.mv d (x - (j - i)) x)) s1 with
            | fail e => rfl
            | thrown s' => rfl
            | done s2 u =>
              simp only
              rw [resizeT_agrees (forUp_noThrow (fun i s s' u hs e => onData_noThrow hs e) h hf)]
          · simp only [hjn, decide_false, X.assert_false, X.fail_run]
      · simp only [hij, decide_false, X.assert_false, X.fail_run]

/-! ## Moves that throw -/

theorem tick_succ (v : Vec α) (k : Nat) : tick ⟨v, some (k + 1)⟩ = .done ⟨v, some k⟩ () := rfl
theorem tick_zero (v : Vec α) : tick ⟨v, some 0⟩ = .thrown ⟨v, none⟩ := rfl

theorem moveCreateT_succ {i j k : Nat} {n : Option Nat} {d d' : Slots α} {b : List α} (h : Slots.moveCreate K.mv d i j = .ok d') :
    moveCreateT K i j ⟨⟨n, d, b⟩, some (k + 1)⟩ = .done ⟨⟨n, d', b⟩, some k⟩ () := by
  rw [moveCreateT, X.bind_done (tick_succ _ _)]
  exact onData_run h

theorem moveAssignT_succ {i j k : Nat} {n : Option Nat} {d d' : Slots α} {b : List α} (h : Slots.moveAssign K.mv d i j = .ok d') :
    moveAssignT K i j ⟨⟨n, d, b⟩, some (k + 1)⟩ = .done ⟨⟨n, d', b⟩, some k⟩ () := by
  rw [moveAssignT, X.bind_done (tick_succ _ _)]
  exact onData_run h

/-- A descending loop ended by an exception in its `m`-th iteration. -/
theorem forDown_thrown {σ : Type} {lo n : Nat} {f : Nat → X σ Unit} (S : Nat → σ) (m : Nat) (hm : m < n) {s' : σ}
    (h : ∀ k, k < m → f (lo + n - k) (S k) = .done (S (k + 1)) ()) (ht : f (lo + n - m) (S m) = .thrown s') :
    X.forDown lo n f (S 0) = .thrown s' := by
  induction m generalizing n S with
  | zero =>
    obtain ⟨n, rfl⟩ : ∃ k, n = k + 1 := ⟨n - 1, by omega⟩
    simp only [X.forDown]
    rw [Nat.sub_zero, ← Nat.add_assoc] at ht
    exact X.bind_thrown ht
  | succ m ih =>
    obtain ⟨n, rfl⟩ : ∃ k, n = k + 1 := ⟨n - 1, by omega⟩
    simp only [X.forDown]
    have h0 := h 0 (by omega)
    rw [Nat.sub_zero, ← Nat.add_assoc] at h0
    rw [X.bind_done h0]
    exact ih (fun k => S (k + 1)) (by omega) (fun k hk => by
      have := h (k + 1) (by omega)
      rwa [show lo + (n + 1) - (k + 1) = lo + n - k by omega] at this)
      (by rwa [show lo + n - m = lo + (n + 1) - (m + 1) by omega])

/-- A list with given elements. -/
theorem exists_list (n : Nat) (f : Nat → Option α) (h : ∀ p, p < n → ∃ v, f p = some v) :
    ∃ l : List α, l.length = n ∧ ∀ p, p < n → l[p]? = f p := by
  induction n with
  | zero => exact ⟨[], rfl, fun p hp => absurd hp (by omega)⟩
  | succ n ih =>
    obtain ⟨l, hl, hp⟩ := ih (fun p hp => h p (by omega))
    obtain ⟨v, hv⟩ := h n (by omega)
    refine ⟨l ++ [v], by simp [hl], ?_⟩
    intro p hpn
    by_cases hq : p < n
    · rw [List.getElem?_append_left (by omega)]; exact hp p hq
    · have : p = n := by omega
      subst this
      rw [List.getElem?_append_right (by omega), hl, Nat.sub_self, hv]; rfl

/-- The contents while the elements from `first + c` on are moved down by `c`, `k` of them having been moved. -/
def downPart (mv : α → α) (l : List α) (first c k p : Nat) : Option α :=
  if p < first then l[p]? else if p < first + k then l[p + c]?
    else if first + c ≤ p ∧ p < first + c + k then (l[p]?).map mv else l[p]?

/-- Moving down the elements from `first + c` on, ended by an exception of the `k`-th move. -/
theorem shiftDown_throw {l : List α} {first c k : Nat} {b : List α} {N : Option Nat} (hc : 0 < c) (hk : first + c + k < l.length)
    (hl : l.length ≤ K.capacity) :
    X.forUp (first + c) (l.length - (first + c)) (fun i => moveAssignT K (i - c) i)
      ⟨⟨N, Slots.ofList K.capacity l, b⟩, some k⟩ = .thrown ⟨⟨N, Slots.mk K.capacity (downPart K.mv l first c k), b⟩, none⟩ := by
  have := X.forUp_thrown (lo := first + c) (n := l.length - (first + c)) (f := fun i => moveAssignT K (i - c) i)
    (fun j => (⟨⟨N, Slots.mk K.capacity (downPart K.mv l first c j), b⟩, some (k - j)⟩ : St α)) k (by omega)
    (s' := ⟨⟨N, Slots.mk K.capacity (downPart K.mv l first c k), b⟩, none⟩) (by
      intro j hj
      have e0 : first + c + j - c = first + j := by omega
      simp only [e0]
      have h1 : first + c + j < l.length := by omega
      have h2 : first + j < l.length := by omega
      obtain ⟨q, hq⟩ : ∃ q, k - j = q + 1 := ⟨k - j - 1, by omega⟩
      have hq' : k - (j + 1) = q := by omega
      rw [hq, hq']
      apply moveAssignT_succ
      obtain ⟨u, hu⟩ : ∃ u, downPart K.mv l first c j (first + j) = some u := by
        simp only [downPart]
        have a1 : ¬ first + j < first := by omega
        have a2 : ¬ first + j < first + j := by omega
        rw [if_neg a1, if_neg a2]
        split
        · exact ⟨K.mv l[first + j], by rw [List.getElem?_eq_getElem h2]; rfl⟩
        · exact ⟨l[first + j], List.getElem?_eq_getElem h2⟩
      have hv : downPart K.mv l first c j (first + c + j) = some l[first + c + j] := by
        simp only [downPart]
        have a1 : ¬ first + c + j < first := by omega
        have a2 : ¬ first + c + j < first + j := by omega
        have a3 : ¬ (first + c ≤ first + c + j ∧ first + c + j < first + c + j) := by omega
        rw [if_neg a1, if_neg a2, if_neg a3, List.getElem?_eq_getElem h1]
      rw [Slots.moveAssign_mk (u := u) (v := l[first + c + j]) (by omega) (by omega) hu hv (by omega)]
      congr 1
      apply Slots.mk_congr
      intro p hp
      simp only [Slots.upd, downPart]
      by_cases c1 : p = first + c + j
      · have a1 : ¬ p < first := by omega
        have a2 : ¬ p < first + (j + 1) := by omega
        have a3 : first + c ≤ p ∧ p < first + c + (j + 1) := by omega
        rw [if_pos c1, if_neg a1, if_neg a2, if_pos a3, c1, List.getElem?_eq_getElem h1]; rfl
      · rw [if_neg c1]
        by_cases c2 : p = first + j
        · have a1 : ¬ p < first := by omega
          have a2 : p < first + (j + 1) := by omega
          rw [if_pos c2, if_neg a1, if_pos a2, c2, show first + j + c = first + c + j by omega, List.getElem?_eq_getElem h1]
        · rw [if_neg c2]
          by_cases c3 : p < first
          · simp [c3]
          · have a2 : p < first + j ↔ p < first + (j + 1) := by omega
            have a3 : (first + c ≤ p ∧ p < first + c + j) ↔ (first + c ≤ p ∧ p < first + c + (j + 1)) := by omega
            simp only [c3, if_false, a2, a3]) (by
      rw [Nat.sub_self, moveAssignT]
      exact X.bind_thrown (tick_zero _))
  rw [Nat.sub_zero] at this
  rw [← this]
  congr 3
  apply Slots.mk_congr
  intro p hp
  simp only [downPart]
  by_cases c3 : p < first
  · simp [c3]
  · have a2 : ¬ p < first + 0 := by omega
    have a3 : ¬ (first + c ≤ p ∧ p < first + c + 0) := by omega
    rw [if_neg c3, if_neg a2, if_neg a3]

/-- The sequence left by an interrupted move down. -/
theorem downPart_list {mv : α → α} {l : List α} {first c k : Nat} (hk : first + c + k < l.length) :
    ∃ l' : List α, l'.length = l.length ∧ (∀ p, l'[p]? = downPart mv l first c k p) := by
  obtain ⟨l', h1, h2⟩ := exists_list l.length (downPart mv l first c k) (by
    intro p hp
    simp only [downPart]
    split
    · exact ⟨l[p], List.getElem?_eq_getElem hp⟩
    · split
      · exact ⟨l[p + c], List.getElem?_eq_getElem (by omega)⟩
      · split
        · exact ⟨mv l[p], by rw [List.getElem?_eq_getElem hp]; rfl⟩
        · exact ⟨l[p], List.getElem?_eq_getElem hp⟩)
  refine ⟨l', h1, fun p => ?_⟩
  by_cases hp : p < l.length
  · exact h2 p hp
  · rw [List.getElem?_eq_none (by omega)]
    simp only [downPart]
    rw [if_neg (by omega), if_neg (by omega), List.getElem?_eq_none (by omega)]
    split <;> rfl

/-- Making room, ended by an exception of move `k + 1` (the first assignment being move 1). -/
theorem emplaceShift_throw {l : List α} {index k : Nat} {b : List α} {N : Option Nat} (hk : index + k + 1 < l.length) (hl : l.length < K.capacity) :
    emplaceShiftT K index l.length ⟨⟨N, Slots.ofList K.capacity l, b⟩, some (k + 1)⟩ =
      .thrown ⟨⟨N, Slots.mk K.capacity (fun p => if p < l.length - 1 - k then l[p]? else if p = l.length - 1 - k then (l[p]?).map K.mv
      else l[p - 1]?), b⟩, none⟩ := by
  have hn : l.length - 1 < l.length := by omega
  have hlast : l[l.length - 1]? = some l[l.length - 1] := List.getElem?_eq_getElem hn
  rw [emplaceShiftT, Slots.ofList]
  rw [X.bind_done (moveCreateT_succ (Slots.moveCreate_mk (v := l[l.length - 1]) hl (by omega) (by simp) hlast))]
  have := forDown_thrown (lo := index) (n := l.length - 1 - index) (f := fun i => moveAssignT K i (i - 1))
    (fun j => (⟨⟨N, Slots.mk K.capacity (fun p => if p < l.length - 1 - j then l[p]? else if p = l.length - 1 - j then (l[p]?).map K.mv
      else l[p - 1]?), b⟩, some (k - j)⟩ : St α)) k (by omega) (s' := ⟨⟨N, Slots.mk K.capacity (fun p => if p < l.length - 1 - k then l[p]? else
        if p = l.length - 1 - k then (l[p]?).map K.mv else l[p - 1]?), b⟩, none⟩) (by
      intro j hj
      have e0 : index + (l.length - 1 - index) - j = l.length - 1 - j := by omega
      have h1 : l.length - 1 - j < l.length := by omega
      have h2 : l.length - 1 - j - 1 < l.length := by omega
      obtain ⟨q, hq⟩ : ∃ q, k - j = q + 1 := ⟨k - j - 1, by omega⟩
      have hq' : k - (j + 1) = q := by omega
      simp only [e0, hq, hq']
      apply moveAssignT_succ
      rw [Slots.moveAssign_mk (u := K.mv l[l.length - 1 - j]) (v := l[l.length - 1 - j - 1]) (by omega) (by omega)
        (by simp [List.getElem?_eq_getElem h1]) (by
          have : l.length - 1 - j - 1 < l.length - 1 - j := by omega
          simp [this, List.getElem?_eq_getElem h2]) (by omega)]
      congr 1
      apply Slots.mk_congr
      intro p hp
      simp only [Slots.upd]
      have e1 : l.length - 1 - (j + 1) = l.length - 1 - j - 1 := by omega
      rw [e1]
      by_cases hp1 : p = l.length - 1 - j - 1
      · subst hp1
        simp [List.getElem?_eq_getElem h2]
      · by_cases hp2 : p = l.length - 1 - j
        · have : ¬ p < l.length - 1 - j - 1 := by omega
          rw [if_neg hp1, if_pos hp2, if_neg this, if_neg hp1]
          rw [hp2, List.getElem?_eq_getElem h2]
        · rw [if_neg hp1, if_neg hp2, if_neg hp1]
          by_cases hp3 : p < l.length - 1 - j
          · have : p < l.length - 1 - j - 1 := by omega
            rw [if_pos hp3, if_pos this]
          · have : ¬ p < l.length - 1 - j - 1 := by omega
            rw [if_neg hp3, if_neg hp2, if_neg this]) (by
      simp only [Nat.sub_self]
      rw [moveAssignT]
      exact X.bind_thrown (tick_zero _))
  have hstart : (Slots.mk K.capacity (Slots.upd (Slots.upd (fun p => l[p]?) l.length (some l[l.length - 1])) (l.length - 1)
      (some (K.mv l[l.length - 1])))) = Slots.mk K.capacity (fun p => if p < l.length - 1 - 0 then l[p]? else
        if p = l.length - 1 - 0 then (l[p]?).map K.mv else l[p - 1]?) := by
    apply Slots.mk_congr
    intro p hp
    simp only [Slots.upd, Nat.sub_zero]
    by_cases h1 : p = l.length - 1
    · subst h1; simp [hlast]
    · by_cases h2 : p = l.length
      · have : ¬ p < l.length - 1 := by omega
        rw [if_neg h1, if_pos h2, if_neg this, if_neg h1, h2, hlast]
      · rw [if_neg h1, if_neg h2, if_neg h1]
        by_cases h3 : p < l.length - 1
        · rw [if_pos h3]
        · rw [if_neg h3, List.getElem?_eq_none (by omega), List.getElem?_eq_none (by omega)]
  rw [hstart]
  exact X.bind_thrown this

/-- Moving to the fallback, ended by an exception of move `k`. -/
def half (K : Cfg α) (l : List α) (k : Nat) : St α :=
  ⟨⟨some l.length, Slots.mk K.capacity (fun p => if p < k then none else l[p]?), l.take k⟩, none⟩

theorem moveStorage_throw {l : List α} {k : Nat} (hk : k < l.length) (hl : l.length ≤ K.capacity) :
    moveStorageToFallbackT K (inl K l (some k)) = .thrown (half K l k) := by
  rw [moveStorageToFallbackT, X.bind_done (using_inl _ _)]
  simp only [Bool.not_false, X.assert_true, X.pure_bind']
  rw [X.bind_done (mSize_inl _ _)]
  have := X.forUp_thrown (lo := 0) (n := l.length) (f := moveOneToFallbackT K)
    (fun j => (⟨⟨some l.length, Slots.mk K.capacity (fun p => if p < j then none else l[p]?), l.take j⟩, some (k - j)⟩ : St α)) k hk
    (s' := half K l k) (by
      intro j hj
      have hj' : j < l.length := by omega
      obtain ⟨q, hq⟩ : ∃ q, k - j = q + 1 := ⟨k - j - 1, by omega⟩
      have hq' : k - (j + 1) = q := by omega
      rw [Nat.zero_add, moveOneToFallbackT, hq, hq']
      rw [X.bind_done (ofData_run (x := l[j]) (Slots.read_mk (by omega) (by simp [hj'])))]
      rw [X.bind_done (tick_succ _ _)]
      simp only [getFallback, setFallback, X.bind_run, X.modify_run]
      rw [onData_run (Slots.assign_mk (u := l[j]) (K.mv l[j]) (by omega) (by simp [hj']))]
      simp only
      rw [onData_run (Slots.destroy_mk (v := K.mv l[j]) (by omega) (by simp [Slots.upd]))]
      congr 3
      · apply Slots.mk_congr
        intro p hp
        simp only [Slots.upd]
        by_cases h : p = j
        · simp [h]
        · have : p < j ↔ p < j + 1 := by omega
          simp [h, this]
      · rw [List.take_succ_eq_append_getElem hj']) (by
      rw [Nat.zero_add, moveOneToFallbackT, Nat.sub_self]
      rw [X.bind_done (ofData_run (x := l[k]) (Slots.read_mk (by omega) (by simp [hk])))]
      exact X.bind_thrown (tick_zero _))
  rw [show inl K l (some k) = (⟨⟨some l.length, Slots.mk K.capacity (fun p => if p < 0 then none else l[p]?), l.take 0⟩, some (k - 0)⟩ : St α) by
    simp [inl, Slots.ofList]]
  exact X.bind_thrown this

theorem half_zero (K : Cfg α) (l : List α) : half K l 0 = inl K l none := by
  simp [half, inl, Slots.ofList]

theorem half_destructor {l : List α} {k : Nat} (hk : 0 < k) (hkl : k < l.length) (hl : l.length ≤ K.capacity) :
    destructor K (half K l k) = .fail .ub := by
  rw [destructor]
  apply X.bind_fail
  simp only [clear, isUsingFallback, half, X.bind_run, Option.isNone_some, Bool.and_false, Bool.false_eq_true, if_false, mSize]
  obtain ⟨n, hn⟩ : ∃ n, l.length = n + 1 := ⟨l.length - 1, by omega⟩
  rw [hn]
  simp only [X.forUp, X.bind_run, onData]
  rw [Slots.destroy_raw (by omega) (by simp [hk])]

end Verif.FixedVector
