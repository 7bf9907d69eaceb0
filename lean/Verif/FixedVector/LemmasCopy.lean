import Verif.FixedVector.Lemmas

/-!
# Copies, moves, reachable vectors
-/

namespace Verif.FixedVector
open Verif.Cpp

variable {α : Type} {K : Cfg α}

/-! ## Copies -/

theorem copyLoop_repr {s : St α} {m : List α} {vec : Vec α} (h : Repr K s [] none) (hm : m.length ≤ K.capacity)
    (hv : vec.data = Slots.ofList K.capacity m) : ∃ s', copyLoop K vec m.length s = .done s' () ∧ Repr K s' m none := by
  have := X.forUp_ok (lo := 0) (n := m.length) (f := copyOne K vec) (fun k s => Repr K s (m.take k) none) (s := s) (by simpa using h) (by
      intro k s hk hI
      simp only [Nat.zero_add, copyOne]
      rw [hv, read_ofList hk hm]
      obtain ⟨s', e, r⟩ := emplaceBack_repr m[k] hI (.inr (by simp; omega))
      refine ⟨s', by simp only; rw [X.bind_done e]; rfl, ?_⟩
      rwa [List.take_succ_eq_append_getElem hk])
  rw [List.take_length] at this
  exact this

theorem usesFallback_inl (l : List α) (fu : Option Nat) : (inl K l fu).vec.usesFallback K = false := by
  simp [Vec.usesFallback, inl]
theorem usesFallback_fb (h : K.hasFallback = true) (l : List α) (fu : Option Nat) : (fb K l fu).vec.usesFallback K = true := by
  simp [Vec.usesFallback, fb, h]

theorem copyConstruct_repr {t : St α} {m : List α} (ht : Repr K t m none) (v0 : Vec α) :
    ∃ s', copyConstruct K t.vec ⟨v0, none⟩ = .done s' () ∧ Repr K s' m none := by
  rcases ht with ⟨rfl, hm⟩ | ⟨rfl, hF⟩
  · obtain ⟨s', e, r⟩ := copyLoop_repr (vec := (inl K m none).vec) (repr_empty K none) hm rfl
    refine ⟨s', ?_, r⟩
    simp only [copyConstruct, usesFallback_inl, X.bind_run, X.modify_run, setFallback, setSize, Bool.not_false, if_true]
    exact e
  · refine ⟨fb K m none, ?_, .inr ⟨rfl, hF⟩⟩
    have h0 := empty_eq K (none : Option Nat)
    simp only [copyConstruct, usesFallback_fb hF, X.bind_run, X.modify_run, setFallback, setSize, Bool.not_true, Bool.false_eq_true, if_false]
    simp only [inl, St.mk.injEq, and_true] at h0
    rw [h0]
    rfl

theorem copyAssign_repr {s t : St α} {l m : List α} (hs : Repr K s l none) (ht : Repr K t m none)
    (hg : t.vec.usesFallback K = true → s.vec.usesFallback K = true ∨ l = []) :
    ∃ s', copyAssign K t.vec s = .done s' () ∧ Repr K s' m none := by
  rcases ht with ⟨rfl, hm⟩ | ⟨rfl, hF⟩
  · obtain ⟨s1, e1, r1⟩ := clear_repr hs
    obtain ⟨s2, e2, r2⟩ := reserve_repr m.length r1 (.inr hm)
    obtain ⟨s3, e3, r3⟩ := copyLoop_repr (vec := (inl K m none).vec) r2 hm rfl
    refine ⟨s3, ?_, r3⟩
    simp only [copyAssign, usesFallback_inl, Bool.false_eq_true, if_false]
    rw [X.bind_done e1]
    simp only [inl]
    rw [X.bind_done e2]
    exact e3
  · refine ⟨fb K m none, ?_, .inr ⟨rfl, hF⟩⟩
    simp only [copyAssign, usesFallback_fb hF, if_true]
    have hd : s.vec.data = Slots.ofList K.capacity [] ∧ s.fuse = none := by
      rcases hs with ⟨rfl, _⟩ | ⟨rfl, _⟩
      · rcases hg (usesFallback_fb hF _ _) with h | rfl
        · rw [usesFallback_inl] at h; simp at h
        · exact ⟨rfl, rfl⟩
      · exact ⟨rfl, rfl⟩
    simp only [X.bind_run, setFallback, setSize, X.modify_run]
    obtain ⟨⟨a, b, c⟩, d⟩ := s
    obtain ⟨h1, h2⟩ := hd
    simp only at h1 h2
    subst h1 h2
    rfl

/-- Assignment of a vector that uses the fallback to one that does not. -/
theorem copyAssign_leak {l m : List α} (hF : K.hasFallback = true) :
    copyAssign K (fb K m none).vec (inl K l none) = .done ⟨⟨none, Slots.ofList K.capacity l, m⟩, none⟩ () := by
  simp only [copyAssign, usesFallback_fb hF, if_true, X.bind_run, setFallback, setSize, X.modify_run]
  rfl

/-! ## Moves -/

theorem onThis_done {β : Type} {m : X (St α) β} {s s' : St α} {v : Vec α} {a : β} (h : m s = .done s' a) :
    onThis m (s, v) = .done (s', v) a := by
  simp [onThis, X.zoom, h]

/-- What `push_back(std::move(x))` leaves in `x`: moved from if the inline storage takes it, unchanged if the fallback does. -/
def leftIn (K : Cfg α) (fallback : Bool) (v : α) : α := if fallback then v else K.mv v

theorem pushBackMove_repr {s : St α} {l : List α} (v : α) (h : Repr K s l none) (hok : K.hasFallback = true ∨ l.length < K.capacity) :
    ∃ s', pushBackMove K v s = .done s' (leftIn K (s'.vec.usesFallback K) v) ∧ Repr K s' (l ++ [v]) none ∧
      (s'.vec.usesFallback K = (s.vec.usesFallback K || (K.hasFallback && decide (K.capacity ≤ l.length)))) := by
  rcases check_repr h with ⟨e, rfl, hc⟩ | ⟨e, hF⟩
  · have hl : l.length < K.capacity := by
      rcases hok with h | h
      · rcases hc with h' | h'
        · exact h'
        · rw [h] at h'; exact absurd h' (by simp)
      · exact h
    refine ⟨inl K (l ++ [v]) none, ?_, .inl ⟨rfl, by simp; omega⟩, ?_⟩
    · rw [pushBackMove, X.bind_done e]
      simp only [Bool.false_eq_true, if_false]
      rw [X.bind_done (mSize_inl _ _)]
      simp only [hl, decide_true, X.assert_true, X.pure_run, setSize, inl, X.bind_run, X.modify_run]
      rw [onData_run (f := fun x => Slots.create x l.length v) (create_ofList v hl)]
      simp [Vec.usesFallback, leftIn]
    · have : ¬ K.capacity ≤ l.length := by omega
      simp [usesFallback_inl, this]
  · refine ⟨fb K (l ++ [v]) none, ?_, .inr ⟨rfl, hF⟩, ?_⟩
    · rw [pushBackMove, X.bind_done e]
      simp only [if_true]
      rw [X.bind_done (getFallback_fb _ _), X.bind_done (emplaceInFallback_fb (Nat.le_refl _))]
      simp [List.insertIdx_length_self, usesFallback_fb hF, leftIn]
    · rw [usesFallback_fb hF, hF]
      rcases h with ⟨rfl, hl⟩ | ⟨rfl, _⟩
      · have : K.capacity ≤ l.length := by
          rcases Nat.lt_or_ge l.length K.capacity with h1 | h1
          · exfalso
            unfold checkFallbackOnGrow at e
            simp only [hF, if_true] at e
            rw [X.bind_done (using_inl _ _)] at e
            simp only [Bool.false_eq_true, if_false] at e
            rw [X.bind_done (mSize_inl _ _)] at e
            have h2 : ¬ l.length ≥ K.capacity := by omega
            simp [h2] at e
          · exact h1
        simp [this]
      · simp [usesFallback_fb hF]

/-- The source of a loop of moves, after `k` of them, `f` being what a move leaves behind. -/
def movedPart (f : α → α) (m : List α) (k : Nat) : List α := (m.take k).map f ++ m.drop k

theorem assign_ofList {n : Nat} {l : List α} {i : Nat} {v : α} (h : i < l.length) (hn : l.length ≤ n) :
    Slots.assign (Slots.ofList n l) i v = .ok (Slots.ofList n (l.set i v)) := by
  rw [Slots.ofList, Slots.assign_mk v (u := l[i]) (by omega) (List.getElem?_eq_getElem h)]
  congr 1
  apply Slots.mk_congr
  intro p hp
  simp only [Slots.upd, List.getElem?_set]
  by_cases h1 : p = i
  · subst h1; simp [h]
  · simp [h1, Ne.symm h1]

theorem movedPart_length (f : α → α) (m : List α) (k : Nat) : (movedPart f m k).length = m.length := by
  simp [movedPart]; omega

theorem movedPart_get {f : α → α} {m : List α} {k p : Nat} : (movedPart f m k)[p]? = if p < k then (m[p]?).map f else m[p]? := by
  simp only [movedPart, List.getElem?_append, List.length_map, List.length_take]
  by_cases h1 : p < k
  · by_cases h2 : p < m.length
    · have : p < min k m.length := by omega
      simp [h1, h2, this]
    · have : ¬ p < min k m.length := by omega
      simp only [this, if_false, h1, if_true, List.getElem?_drop]
      rw [List.getElem?_eq_none (by omega), List.getElem?_eq_none (by omega)]
      rfl
  · have : ¬ p < min k m.length := by omega
    simp only [this, if_false, h1, List.getElem?_drop]
    by_cases h2 : p < m.length
    · congr 1; omega
    · rw [List.getElem?_eq_none (by omega), List.getElem?_eq_none (by omega)]

theorem moveLoop_repr {s : St α} {m : List α} (h : Repr K s [] none) (hm : m.length ≤ K.capacity) :
    ∃ s', moveLoop K m.length (s, (inl K m none).vec) = .done (s', (inl K (m.map (leftIn K (s.vec.usesFallback K))) none).vec) () ∧
      Repr K s' m none := by
  have hlen : ∀ f : α → α, (m.map f).length = m.length := by simp
  generalize hb : s.vec.usesFallback K = b
  have := X.forUp_ok (lo := 0) (n := m.length) (f := moveOne K)
    (fun k s => Repr K s.1 (m.take k) none ∧ s.1.vec.usesFallback K = b ∧
      s.2 = ⟨some m.length, Slots.ofList K.capacity (movedPart (leftIn K b) m k), []⟩)
    (s := (s, (inl K m none).vec)) (by simpa [movedPart, inl, hb] using h) (by
      rintro k ⟨s, v⟩ hk ⟨hI, hu, hv⟩
      simp only at hI hu hv
      subst hv
      rw [Nat.zero_add, moveOne, X.bind_done (X.get_run _)]
      have hg : (movedPart (leftIn K b) m k)[k]? = some m[k] := by rw [movedPart_get]; simp [hk]
      simp only [Slots.ofList]
      rw [Slots.read_mk (v := m[k]) (by omega) hg]
      simp only
      obtain ⟨s', e, r, hu'⟩ := pushBackMove_repr m[k] hI (.inr (by simp; omega))
      have hu2 : s'.vec.usesFallback K = b := by
        rw [hu', hu]
        have : ¬ K.capacity ≤ (m.take k).length := by rw [List.length_take]; omega
        simp only [this, decide_false, Bool.and_false, Bool.or_false]
      rw [hu2] at e
      refine ⟨(s', ⟨some m.length, Slots.ofList K.capacity (movedPart (leftIn K b) m (k + 1)), []⟩), ?_, ?_, hu2, rfl⟩
      · rw [X.bind_done (onThis_done e), X.bind_done (X.get_run _)]
        simp only
        rw [Slots.assign_mk (leftIn K b m[k]) (u := m[k]) (by omega) hg]
        simp only [X.set_run]
        congr 3
        apply Slots.mk_congr
        intro p hp
        simp only [Slots.upd, movedPart_get]
        by_cases h1 : p = k
        · subst h1; simp [hk]
        · have : p < k ↔ p < k + 1 := by omega
          simp [h1, this]
      · simp only
        rwa [List.take_succ_eq_append_getElem hk])
  obtain ⟨⟨s', v⟩, e, r, _, hv⟩ := this
  simp only at r hv
  refine ⟨s', ?_, by rwa [List.take_length] at r⟩
  have hmap : movedPart (leftIn K b) m m.length = m.map (leftIn K b) := by simp [movedPart]
  rw [hmap] at hv
  rw [moveLoop, e, hv]
  simp [inl]

/-- The contents of a moved-from vector: none if it used its fallback; otherwise its elements, moved from if the target keeps its own
inline, unchanged if the target uses its fallback (`target`). -/
def movedFrom (K : Cfg α) (target : Bool) (t : St α) (m : List α) : List α :=
  if t.vec.usesFallback K then [] else m.map (leftIn K target)

theorem moveConstruct_repr {t : St α} {m : List α} (ht : Repr K t m none) (v0 : Vec α) :
    ∃ s' v', moveConstruct K (⟨v0, none⟩, t.vec) = .done (s', v') () ∧ Repr K s' m none ∧ Repr K ⟨v', none⟩ (movedFrom K false t m) none := by
  rcases ht with ⟨rfl, hm⟩ | ⟨rfl, hF⟩
  · obtain ⟨s', e, r⟩ := moveLoop_repr (repr_empty K none) hm
    rw [show (⟨empty K, none⟩ : St α).vec.usesFallback K = false from by simp [Vec.usesFallback, empty]] at e
    refine ⟨s', (inl K (m.map (leftIn K false)) none).vec, ?_, r, ?_⟩
    · have e0 : ({ (inl K m none).vec with fallback := [] } : Vec α) = (inl K m none).vec := rfl
      simp only [moveConstruct, X.bind_run, X.modify_run, X.get_run, e0, usesFallback_inl, Bool.not_false, if_true]
      exact e
    · rw [movedFrom, usesFallback_inl]
      exact .inl ⟨rfl, by simpa using hm⟩
  · refine ⟨fb K m none, (fb K [] none).vec, ?_, .inr ⟨rfl, hF⟩, ?_⟩
    · have e0 : ({ (fb K m none).vec with fallback := [] } : Vec α) = (fb K [] none).vec := rfl
      have h0 := empty_eq K (none : Option Nat)
      simp only [inl, St.mk.injEq, and_true] at h0
      simp only [moveConstruct, X.bind_run, X.modify_run, X.get_run, e0, usesFallback_fb hF, Bool.not_true, Bool.false_eq_true, if_false,
        onThis, X.zoom, setSize, h0]
      rfl
    · rw [movedFrom, usesFallback_fb hF]
      exact .inr ⟨rfl, hF⟩

theorem clear_uses {s s' : St α} {l : List α} {fu : Option Nat} (h : Repr K s l fu) (e : clear K s = .done s' ()) :
    s'.vec.usesFallback K = s.vec.usesFallback K := by
  rcases h with ⟨rfl, hl⟩ | ⟨rfl, hF⟩
  · rw [clear_inl hl] at e
    cases e
    rw [usesFallback_inl, usesFallback_inl]
  · simp only [clear] at e
    rw [X.bind_done (using_fb hF _ _)] at e
    simp only [if_true, setFallback, X.modify_run] at e
    cases e
    rfl

theorem reserve_uses {s s' : St α} {l : List α} {fu : Option Nat} {n : Nat} (_ : Repr K s l fu) (hn : n ≤ K.capacity)
    (e : reserve K n s = .done s' ()) : s'.vec.usesFallback K = s.vec.usesFallback K := by
  unfold reserve at e
  cases hF : K.hasFallback <;> simp [hF, hn] at e <;> rw [e]

theorem moveAssign_repr {s t : St α} {l m : List α} (hs : Repr K s l none) (ht : Repr K t m none)
    (hg : t.vec.usesFallback K = true → s.vec.usesFallback K = true ∨ l = []) :
    ∃ s' v', moveAssign K (s, t.vec) = .done (s', v') () ∧ Repr K s' m none ∧ Repr K ⟨v', none⟩ (movedFrom K (s.vec.usesFallback K) t m) none := by
  rcases ht with ⟨rfl, hm⟩ | ⟨rfl, hF⟩
  · -- the fallback of the source is empty
    have hs0 : ∃ l', Repr K ⟨⟨s.vec.size, s.vec.data, []⟩, s.fuse⟩ l' none := by
      rcases hs with ⟨rfl, hl⟩ | ⟨rfl, hF⟩
      · exact ⟨l, .inl ⟨rfl, hl⟩⟩
      · exact ⟨[], .inr ⟨rfl, hF⟩⟩
    obtain ⟨l', hs0⟩ := hs0
    obtain ⟨s1, e1, r1⟩ := clear_repr hs0
    obtain ⟨s2, e2, r2⟩ := reserve_repr m.length r1 (.inr hm)
    obtain ⟨s3, e3, r3⟩ := moveLoop_repr r2 hm
    have hu2 : s2.vec.usesFallback K = s.vec.usesFallback K := by
      rw [reserve_uses r1 hm e2, clear_uses hs0 e1]
      rfl
    rw [hu2] at e3
    refine ⟨s3, (inl K (m.map (leftIn K (s.vec.usesFallback K))) none).vec, ?_, r3, ?_⟩
    · have e0 : ({ (inl K m none).vec with fallback := [] } : Vec α) = (inl K m none).vec := rfl
      have e00 : (inl K m none).vec.fallback = [] := rfl
      rw [moveAssign, X.bind_done (X.modify_run _ _), X.bind_done (X.get_run _)]
      simp only [e0, e00, usesFallback_inl, Bool.false_eq_true, if_false]
      rw [X.bind_done (onThis_done e1)]
      simp only [inl]
      rw [X.bind_done (onThis_done e2)]
      exact e3
    · rw [movedFrom, usesFallback_inl]
      exact .inl ⟨rfl, by simpa using hm⟩
  · refine ⟨fb K m none, (fb K [] none).vec, ?_, .inr ⟨rfl, hF⟩, ?_⟩
    · have e0 : ({ (fb K m none).vec with fallback := [] } : Vec α) = (fb K [] none).vec := rfl
      have hd : s.vec.data = Slots.ofList K.capacity [] ∧ s.fuse = none := by
        rcases hs with ⟨rfl, _⟩ | ⟨rfl, _⟩
        · rcases hg (usesFallback_fb hF _ _) with h | rfl
          · rw [usesFallback_inl] at h; simp at h
          · exact ⟨rfl, rfl⟩
        · exact ⟨rfl, rfl⟩
      simp only [moveAssign, X.bind_run, X.modify_run, X.get_run, e0, usesFallback_fb hF, if_true, onThis, X.zoom, setSize]
      obtain ⟨⟨a, b, c⟩, d⟩ := s
      obtain ⟨h1, h2⟩ := hd
      simp only at h1 h2
      subst h1 h2
      rfl
    · rw [movedFrom, usesFallback_fb hF]
      exact .inr ⟨rfl, hF⟩

theorem moveAssign_leak {l m : List α} (hF : K.hasFallback = true) :
    moveAssign K (inl K l none, (fb K m none).vec) = .done (⟨⟨none, Slots.ofList K.capacity l, m⟩, none⟩, (fb K [] none).vec) () := by
  have e0 : ({ (fb K m none).vec with fallback := [] } : Vec α) = (fb K [] none).vec := rfl
  simp only [moveAssign, X.bind_run, X.modify_run, X.get_run, e0, usesFallback_fb hF, if_true, onThis, X.zoom, setSize]
  rfl

/-! ## Reachable vectors -/

/-- The vectors that calls of the API can make (no constructor throwing, no argument that is an element of the vector itself, and none of
the assignments of `C27_leak_violated` and `C27_self_violated`), with the sequence they are meant to be. -/
inductive Reachable (K : Cfg α) : St α → List α → Prop where
  /-- the default constructor -/
  | new : Reachable K ⟨empty K, none⟩ []
  /-- a member function -/
  | call {s s' : St α} {l : List α} {o : Op α} {r : Option Nat} (h : Reachable K s l) (hok : o.ok K.capacity K.hasFallback l)
      (e : o.run K s = .done s' r) : Reachable K s' (o.spec l).1
  /-- copy constructor -/
  | copyConstruct {t s' : St α} {m : List α} (h : Reachable K t m) {v0 : Vec α} (e : copyConstruct K t.vec ⟨v0, none⟩ = .done s' ()) :
      Reachable K s' m
  /-- copy assignment -/
  | copyAssign {s t s' : St α} {l m : List α} (h : Reachable K s l) (h' : Reachable K t m)
      (hg : t.vec.usesFallback K = true → s.vec.usesFallback K = true ∨ l = []) (e : copyAssign K t.vec s = .done s' ()) : Reachable K s' m
  /-- the new vector of a move construction -/
  | moveConstruct {t s' : St α} {v' : Vec α} {m : List α} (h : Reachable K t m) {v0 : Vec α}
      (e : moveConstruct K (⟨v0, none⟩, t.vec) = .done (s', v') ()) : Reachable K s' m
  /-- the moved-from vector of a move construction -/
  | moveConstructSource {t s' : St α} {v' : Vec α} {m : List α} (h : Reachable K t m) {v0 : Vec α}
      (e : moveConstruct K (⟨v0, none⟩, t.vec) = .done (s', v') ()) : Reachable K ⟨v', none⟩ (movedFrom K false t m)
  /-- the target of a move assignment -/
  | moveAssign {s t s' : St α} {v' : Vec α} {l m : List α} (h : Reachable K s l) (h' : Reachable K t m)
      (hg : t.vec.usesFallback K = true → s.vec.usesFallback K = true ∨ l = [])
      (e : moveAssign K (s, t.vec) = .done (s', v') ()) : Reachable K s' m
  /-- the source of a move assignment -/
  | moveAssignSource {s t s' : St α} {v' : Vec α} {l m : List α} (h : Reachable K s l) (h' : Reachable K t m)
      (hg : t.vec.usesFallback K = true → s.vec.usesFallback K = true ∨ l = [])
      (e : moveAssign K (s, t.vec) = .done (s', v') ()) :
      Reachable K ⟨v', none⟩ (movedFrom K (s.vec.usesFallback K) t m)

theorem Reachable.repr {s : St α} {l : List α} (h : Reachable K s l) : Repr K s l none := by
  induction h with
  | new => exact repr_empty K none
  | call _ hok e ih =>
    obtain ⟨s1, e1, r1⟩ := run_repr _ ih hok
    rw [e1] at e; cases e; exact r1
  | copyConstruct _ e ih =>
    obtain ⟨s1, e1, r1⟩ := copyConstruct_repr ih _
    rw [e1] at e; cases e; exact r1
  | copyAssign _ _ hg e ih ih' =>
    obtain ⟨s1, e1, r1⟩ := copyAssign_repr ih ih' hg
    rw [e1] at e; cases e; exact r1
  | moveConstruct _ e ih =>
    obtain ⟨s1, v1, e1, r1, _⟩ := moveConstruct_repr ih _
    rw [e1] at e; cases e; exact r1
  | moveConstructSource _ e ih =>
    obtain ⟨s1, v1, e1, _, r1⟩ := moveConstruct_repr ih _
    rw [e1] at e; cases e; exact r1
  | moveAssign _ _ hg e ih ih' =>
    obtain ⟨s1, v1, e1, r1, _⟩ := moveAssign_repr ih ih' hg
    rw [e1] at e; cases e; exact r1
  | moveAssignSource _ _ hg e ih ih' =>
    obtain ⟨s1, v1, e1, _, r1⟩ := moveAssign_repr ih ih' hg
    rw [e1] at e; cases e; exact r1

theorem Reachable.runAll {s s' : St α} {l : List α} (h : Reachable K s l) {os : List (Op α)} {rs : List (Option Nat)}
    (hok : okAll K.capacity K.hasFallback os l) (e : runAll K os s = .done s' rs) : Reachable K s' (specAll os l).1 := by
  induction os generalizing s l rs with
  | nil => cases e; exact h
  | cons o os ih =>
    obtain ⟨s1, e1, r1⟩ := run_repr o h.repr hok.1
    obtain ⟨s2, e2, r2⟩ := runAll_repr os r1 hok.2
    rw [FixedVector.runAll, X.bind_done e1, X.bind_done e2] at e
    cases e
    exact ih (h.call hok.1 e1) hok.2 e2

theorem destructor_repr {s : St α} {l : List α} {fu : Option Nat} (h : Repr K s l fu) :
    ∃ s', destructor K s = .done s' () ∧ living s' = 0 := by
  obtain ⟨s1, e1, r1⟩ := clear_repr h
  refine ⟨_, by rw [destructor, X.bind_done e1]; rfl, ?_⟩
  have := living_repr r1
  simp only [living, List.length_nil, Nat.add_zero] at this ⊢
  omega

/-- The vector with `m` in its fallback and `l` forgotten in the inline storage. -/
theorem destructor_leak {l m : List α} (hF : K.hasFallback = true) (hl : l.length ≤ K.capacity) :
    ∃ s', destructor K ⟨⟨none, Slots.ofList K.capacity l, m⟩, none⟩ = .done s' () ∧ living s' = l.length := by
  refine ⟨⟨⟨none, Slots.ofList K.capacity l, []⟩, none⟩, ?_, ?_⟩
  · simp [destructor, clear, isUsingFallback, hF, X.bind_run, setFallback]
  · simp [living, Slots.alive_ofList hl]

end Verif.FixedVector
