import Verif.FixedVector.LemmasMoveThrow

/-!
# Lemmas on exceptions in constructors and moves of whole vectors
-/

namespace Verif.FixedVector
open Verif.Cpp

variable {α : Type} {K : Cfg α}

theorem noexcept_thrown {σ β : Type} {m : X σ β} {s s' : σ} (h : m s = .thrown s') : noexcept m s = .fail .terminate := by
  rw [noexcept, h]

theorem onThis_thrown {β : Type} {m : X (St α) β} {s s' : St α} {v : Vec α} (h : m s = .thrown s') :
    onThis m (s, v) = .thrown (s', v) := by
  simp [onThis, X.zoom, h]

theorem construct_succ {i k : Nat} {v : α} {n : Option Nat} {d d' : Slots α} {b : List α} (h : Slots.create d i v = .ok d') :
    construct i (.value v) ⟨⟨n, d, b⟩, some (k + 1)⟩ = .done ⟨⟨n, d', b⟩, some k⟩ () := by
  simp only [construct, Arg.read, X.pure_bind']
  rw [X.bind_done (tick_succ _ _)]
  exact onData_run h

theorem emplaceBack_succ {l : List α} {v : α} {k : Nat} (hl : l.length < K.capacity) :
    emplaceBack K (.value v) (inl K l (some (k + 1))) = .done (inl K (l ++ [v]) (some k)) l.length := by
  rw [emplaceBack, X.bind_done (check_inl hl)]
  simp only [Bool.false_eq_true, if_false]
  rw [X.bind_done (mSize_inl _ _)]
  simp only [hl, decide_true, X.assert_true, X.pure_bind']
  simp only [setSize, inl, X.bind_run, X.modify_run]
  rw [construct_succ (create_ofList v hl)]
  simp

theorem emplaceInFallback_succ {l : List α} {v : α} {k : Nat} :
    emplaceInFallback l.length (.value v) (fb K l (some (k + 1))) = .done (fb K (l ++ [v]) (some k)) () := by
  rw [emplaceInFallback, X.bind_done (getFallback_fb _ _)]
  simp only [Nat.le_refl, decide_true, X.guardUB_true, X.pure_bind', Arg.read]
  rw [fb, X.bind_done (tick_succ _ _)]
  simp [setFallback, fb]

theorem emplaceInFallback_zero {l : List α} {v : α} :
    emplaceInFallback l.length (.value v) (fb K l (some 0)) = .thrown (fb K l none) := by
  rw [emplaceInFallback, X.bind_done (getFallback_fb _ _)]
  simp only [Nat.le_refl, decide_true, X.guardUB_true, X.pure_bind', Arg.read]
  rw [fb]
  exact X.bind_thrown (tick_zero _)

theorem check_fb {l : List α} {fu : Option Nat} (hF : K.hasFallback = true) : checkFallbackOnGrow K (fb K l fu) = .done (fb K l fu) true := by
  unfold checkFallbackOnGrow
  simp only [hF, if_true]
  rw [X.bind_done (using_fb hF _ _)]
  rfl

theorem emplaceBack_fb_succ {l : List α} {v : α} {k : Nat} (hF : K.hasFallback = true) :
    emplaceBack K (.value v) (fb K l (some (k + 1))) = .done (fb K (l ++ [v]) (some k)) l.length := by
  rw [emplaceBack, X.bind_done (check_fb hF)]
  simp only [if_true]
  rw [X.bind_done (getFallback_fb _ _), X.bind_done emplaceInFallback_succ]
  rfl

theorem emplaceBack_fb_zero {l : List α} {v : α} (hF : K.hasFallback = true) :
    emplaceBack K (.value v) (fb K l (some 0)) = .thrown (fb K l none) := by
  rw [emplaceBack, X.bind_done (check_fb hF)]
  simp only [if_true]
  rw [X.bind_done (getFallback_fb _ _)]
  exact X.bind_thrown emplaceInFallback_zero

theorem emplaceBack_zero {l : List α} {v : α} (hl : l.length < K.capacity) :
    emplaceBack K (.value v) (inl K l (some 0)) = .thrown (hole K l l.length none) := by
  rw [emplaceBack_pre hl]
  exact X.bind_thrown construct_throw

/-! ## Constructors -/

theorem emplaceAll_fb_throw {l vs : List α} {k : Nat} (hF : K.hasFallback = true) (hk : k < vs.length) :
    emplaceAll K vs (fb K l (some k)) = .thrown (fb K (l ++ vs.take k) none) := by
  induction vs generalizing l k with
  | nil => simp at hk
  | cons v vs ih =>
    cases k with
    | zero => simpa [emplaceAll] using X.bind_thrown (emplaceBack_fb_zero hF)
    | succ k =>
      rw [emplaceAll, X.bind_done (emplaceBack_fb_succ hF), ih (by simpa using hk)]
      simp

theorem emplaceAll_throw {l vs : List α} {k : Nat} (hk : k < vs.length) (hl : l.length + k < K.capacity) :
    emplaceAll K vs (inl K l (some k)) = .thrown (hole K (l ++ vs.take k) (l.length + k) none) := by
  induction vs generalizing l k with
  | nil => simp at hk
  | cons v vs ih =>
    cases k with
    | zero =>
      have := X.bind_thrown (f := fun _ => emplaceAll K vs) (emplaceBack_zero (v := v) (show l.length < K.capacity by omega))
      simpa [emplaceAll] using this
    | succ k =>
      rw [emplaceAll, X.bind_done (emplaceBack_succ (by omega)), ih (by simpa using hk) (by simp; omega)]
      simp only [List.take_succ_cons, List.append_assoc, List.cons_append, List.nil_append, List.length_append, List.length_cons, List.length_nil]
      congr 2
      omega

theorem emplaceAll_over_throw {l vs : List α} {k : Nat} (hF : K.hasFallback = true) (hk : k < vs.length) (hl : l.length ≤ K.capacity)
    (hlk : K.capacity ≤ l.length + k) : emplaceAll K vs (inl K l (some k)) = .thrown (fb K (l ++ vs.take k) none) := by
  induction vs generalizing l k with
  | nil => simp at hk
  | cons v vs ih =>
    by_cases hfull : l.length = K.capacity
    · have hc := check_full (K := K) (l := l) (fu := some k) hF hfull
      cases k with
      | zero =>
        rw [emplaceAll]
        have : emplaceBack K (.value v) (inl K l (some 0)) = .thrown (fb K l none) := by
          rw [emplaceBack, X.bind_done hc]
          simp only [if_true]
          rw [X.bind_done (getFallback_fb _ _)]
          exact X.bind_thrown emplaceInFallback_zero
        simpa using X.bind_thrown this
      | succ k =>
        have : emplaceBack K (.value v) (inl K l (some (k + 1))) = .done (fb K (l ++ [v]) (some k)) l.length := by
          rw [emplaceBack, X.bind_done hc]
          simp only [if_true]
          rw [X.bind_done (getFallback_fb _ _), X.bind_done emplaceInFallback_succ]
          rfl
        rw [emplaceAll, X.bind_done this, emplaceAll_fb_throw hF (by simpa using hk)]
        simp
    · cases k with
      | zero => omega
      | succ k =>
        rw [emplaceAll, X.bind_done (emplaceBack_succ (by omega)), ih (by simpa using hk) (by simp; omega) (by simp; omega)]
        simp


/-! ## Moves of whole vectors -/

/-- The vector with contents `l`, in its fallback or not. -/
def state (K : Cfg α) (u : Bool) (l : List α) (fu : Option Nat) : St α := if u then fb K l fu else inl K l fu

theorem using_state {u : Bool} (hu : u = true → K.hasFallback = true) (l : List α) (fu : Option Nat) :
    isUsingFallback K (state K u l fu) = .done (state K u l fu) u := by
  cases u with
  | false => exact using_inl _ _
  | true => exact using_fb (hu rfl) _ _

theorem tick_state_succ (u : Bool) (l : List α) (q : Nat) : tick (state K u l (some (q + 1))) = .done (state K u l (some q)) () := by
  cases u <;> rfl

theorem tick_state_zero (u : Bool) (l : List α) : tick (state K u l (some 0)) = .thrown (state K u l none) := by
  cases u <;> rfl

theorem pushBackMove_inl {l : List α} {v : α} {fu : Option Nat} (hl : l.length < K.capacity) :
    pushBackMove K v (inl K l fu) = .done (inl K (l ++ [v]) fu) (K.mv v) := by
  rw [pushBackMove, X.bind_done (check_inl hl)]
  simp only [Bool.false_eq_true, if_false]
  rw [X.bind_done (mSize_inl _ _)]
  simp only [hl, decide_true, X.assert_true, X.pure_run, setSize, inl, X.bind_run, X.modify_run]
  rw [onData_run (f := fun x => Slots.create x l.length v) (create_ofList v hl)]
  simp

theorem pushBackMove_fb_succ {l : List α} {v : α} {q : Nat} (hF : K.hasFallback = true) :
    pushBackMove K v (fb K l (some (q + 1))) = .done (fb K (l ++ [v]) (some q)) v := by
  rw [pushBackMove, X.bind_done (check_fb hF)]
  simp only [if_true]
  rw [X.bind_done (getFallback_fb _ _), X.bind_done emplaceInFallback_succ]
  rfl

theorem pushBackMove_fb_zero {l : List α} {v : α} (hF : K.hasFallback = true) :
    pushBackMove K v (fb K l (some 0)) = .thrown (fb K l none) := by
  rw [pushBackMove, X.bind_done (check_fb hF)]
  simp only [if_true]
  rw [X.bind_done (getFallback_fb _ _)]
  exact X.bind_thrown emplaceInFallback_zero

/-- The source after `j` moves. -/
def source (K : Cfg α) (u : Bool) (m : List α) (j : Nat) : Vec α :=
  ⟨some m.length, Slots.ofList K.capacity (movedPart (leftIn K u) m j), []⟩

theorem source_get {u : Bool} {m : List α} {j : Nat} (hj : j < m.length) : (movedPart (leftIn K u) m j)[j]? = some m[j] := by
  rw [movedPart_get]; simp [hj]

theorem moveOne_step {u : Bool} {m : List α} {j : Nat} {s s' : St α} (hm : m.length ≤ K.capacity) (hj : j < m.length)
    (e : pushBackMove K m[j] s = .done s' (leftIn K u m[j])) : moveOne K j (s, source K u m j) = .done (s', source K u m (j + 1)) () := by
  rw [moveOne, X.bind_done (X.get_run _)]
  simp only [source, Slots.ofList]
  rw [Slots.read_mk (v := m[j]) (by omega) (source_get hj)]
  simp only
  rw [X.bind_done (onThis_done e), X.bind_done (X.get_run _)]
  simp only
  rw [Slots.assign_mk (leftIn K u m[j]) (u := m[j]) (by omega) (source_get hj)]
  simp only [X.set_run]
  congr 3
  apply Slots.mk_congr
  intro p hp
  simp only [Slots.upd, movedPart_get]
  by_cases h1 : p = j
  · subst h1; simp [hj]
  · have : p < j ↔ p < j + 1 := by omega
    simp [h1, this]

theorem moveLoopT_throw {u : Bool} {m : List α} {k : Nat} (hu : u = true → K.hasFallback = true) (hm : m.length ≤ K.capacity) (hk : k < m.length) :
    ∃ s', X.forUp 0 m.length (moveOneT K) (state K u [] (some k), (inl K m none).vec) = .thrown s' := by
  have hstep : ∀ j, j < k → moveOneT K (0 + j) (state K u (m.take j) (some (k - j)), source K u m j) =
      .done (state K u (m.take (j + 1)) (some (k - (j + 1))), source K u m (j + 1)) () := by
    intro j hj
    have hj' : j < m.length := by omega
    obtain ⟨q, hq⟩ : ∃ q, k - j = q + 1 := ⟨k - j - 1, by omega⟩
    have hq' : k - (j + 1) = q := by omega
    rw [Nat.zero_add, hq, hq', moveOneT, X.bind_done (onThis_done (using_state hu _ _)), List.take_succ_eq_append_getElem hj']
    cases u with
    | false =>
      simp only [Bool.not_false, if_true]
      rw [X.bind_done (onThis_done (tick_state_succ _ _ _))]
      exact moveOne_step hm hj' (pushBackMove_inl (by rw [List.length_take]; omega))
    | true =>
      simp only [Bool.not_true, Bool.false_eq_true, if_false]
      exact moveOne_step hm hj' (pushBackMove_fb_succ (hu rfl))
  have hlast : ∃ s', moveOneT K (0 + k) (state K u (m.take k) (some (k - k)), source K u m k) = .thrown s' := by
    rw [Nat.zero_add, Nat.sub_self, moveOneT, X.bind_done (onThis_done (using_state hu _ _))]
    cases u with
    | false =>
      simp only [Bool.not_false, if_true]
      exact ⟨_, X.bind_thrown (onThis_thrown (tick_state_zero _ _))⟩
    | true =>
      simp only [Bool.not_true, Bool.false_eq_true, if_false, moveOne]
      rw [X.bind_done (X.get_run _)]
      simp only [source, Slots.ofList]
      rw [Slots.read_mk (v := m[k]) (by omega) (source_get hk)]
      exact ⟨_, X.bind_thrown (onThis_thrown (pushBackMove_fb_zero (hu rfl)))⟩
  obtain ⟨s', hs'⟩ := hlast
  refine ⟨s', ?_⟩
  have := X.forUp_thrown (lo := 0) (n := m.length) (f := moveOneT K)
    (fun j => (state K u (m.take j) (some (k - j)), source K u m j)) k hk hstep hs'
  rw [← this]
  simp [source, movedPart, inl]

/-! ## Copies -/

theorem copyLoop_throw_fb {m : List α} {k : Nat} (hF : K.hasFallback = true) (hm : m.length ≤ K.capacity) (hk : k < m.length) :
    copyLoop K (inl K m none).vec m.length (fb K [] (some k)) = .thrown (fb K (m.take k) none) := by
  have := X.forUp_thrown (lo := 0) (n := m.length) (f := copyOne K (inl K m none).vec) (fun j => fb K (m.take j) (some (k - j))) k hk
    (s' := fb K (m.take k) none) (by
      intro j hj
      have hj' : j < m.length := by omega
      obtain ⟨q, hq⟩ : ∃ q, k - j = q + 1 := ⟨k - j - 1, by omega⟩
      have hq' : k - (j + 1) = q := by omega
      rw [Nat.zero_add, hq, hq', copyOne]
      simp only [inl]
      rw [read_ofList hj' hm]
      simp only
      rw [X.bind_done (emplaceBack_fb_succ hF), List.take_succ_eq_append_getElem hj']
      rfl) (by
      rw [Nat.zero_add, Nat.sub_self, copyOne]
      simp only [inl]
      rw [read_ofList hk hm]
      exact X.bind_thrown (emplaceBack_fb_zero hF))
  simpa [copyLoop] using this

theorem copyLoop_throw_inl {m : List α} {k : Nat} (hm : m.length ≤ K.capacity) (hk : k < m.length) :
    copyLoop K (inl K m none).vec m.length (inl K [] (some k)) = .thrown (hole K (m.take k) k none) := by
  have := X.forUp_thrown (lo := 0) (n := m.length) (f := copyOne K (inl K m none).vec) (fun j => inl K (m.take j) (some (k - j))) k hk
    (s' := hole K (m.take k) k none) (by
      intro j hj
      have hj' : j < m.length := by omega
      obtain ⟨q, hq⟩ : ∃ q, k - j = q + 1 := ⟨k - j - 1, by omega⟩
      have hq' : k - (j + 1) = q := by omega
      rw [Nat.zero_add, hq, hq', copyOne]
      rw [show (inl K m none).vec.data = Slots.ofList K.capacity m from rfl, read_ofList hj' hm]
      simp only
      rw [X.bind_done (emplaceBack_succ (by rw [List.length_take]; omega)), List.take_succ_eq_append_getElem hj']
      rfl) (by
      rw [Nat.zero_add, Nat.sub_self, copyOne]
      rw [show (inl K m none).vec.data = Slots.ofList K.capacity m from rfl, read_ofList hk hm]
      have h1 : (m.take k).length = k := by rw [List.length_take]; omega
      have := X.bind_thrown (f := fun _ => (pure () : X (St α) Unit)) (emplaceBack_zero (K := K) (l := m.take k) (v := m[k]) (by omega))
      rw [h1] at this
      exact this)
  simpa [copyLoop] using this

theorem hole_alive {l : List α} (hl : l.length < K.capacity) : (hole K l l.length none).vec.data.alive = l.length := by
  have : (hole K l l.length none).vec.data = Slots.ofList K.capacity l := by
    simp only [hole, Slots.ofList]
    apply Slots.mk_congr
    intro p _
    by_cases h1 : p < l.length
    · rw [if_pos h1]
    · have h2 : l[p]? = none := List.getElem?_eq_none (by omega)
      rw [if_neg h1, h2]
      split
      · rfl
      · exact List.getElem?_eq_none (by omega)
  rw [this]
  exact Slots.alive_ofList (by omega)

end Verif.FixedVector
