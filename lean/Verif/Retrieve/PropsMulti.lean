import Verif.Retrieve.SpecMulti

/-!
# C171: `Retrieve` with multimaps and with keys of another type
-/

namespace Verif.Retrieve.Multi
open Verif.Cpp

variable {K Q V : Type}

/-- The state of the map is that of the entries. -/
private structure Rel (w : Multi K V) (a : Entries K V) : Prop where
  node : ∀ r, w.node r = (a r).map (·.2)
  mem : ∀ k r, (k, r) ∈ w.entries ↔ ∃ v, a r = some (k, v)

private theorem mem_insert {l : List (K × Nat)} {p : Nat} {e x : K × Nat} : x ∈ l.take p ++ e :: l.drop p ↔ x = e ∨ x ∈ l := by
  have h : x ∈ l ↔ x ∈ l.take p ∨ x ∈ l.drop p := by rw [← List.mem_append, List.take_append_drop]
  rw [List.mem_append, List.mem_cons, h]
  exact or_left_comm

private theorem Rel.step {w : Multi K V} {a : Entries K V} (h : Rel w a) {o : Op K V} (ho : o.ok a) : ∃ w', o.run w = .ok w' ∧ Rel w' (o.spec a) := by
  cases o with
  | insert p k v r =>
    refine ⟨_, rfl, ?_, ?_⟩
    · intro j
      show (if j = r then some v else w.node j) = Option.map _ (if j = r then some (k, v) else a j)
      split
      · rfl
      · exact h.node j
    · intro k' j
      show (k', j) ∈ w.entries.take p ++ (k, r) :: w.entries.drop p ↔ ∃ v', (if j = r then some (k, v) else a j) = some (k', v')
      rw [mem_insert, h.mem]
      by_cases hj : j = r
      · subst hj
        have : a j = none := ho
        simp [this, eq_comm]
      · simp [hj]
  | erase g =>
    refine ⟨_, rfl, ?_, ?_⟩
    · intro j
      show (if w.entries.any (fun e => e.2 = j && g e.1 e.2) then none else w.node j) = Option.map _ ((a j).filter _)
      cases ha : a j with
      | none =>
        have := h.node j
        rw [ha] at this
        simp [this]
      | some e =>
        have hn := h.node j
        rw [ha] at hn
        have hm := (h.mem e.1 j).mpr ⟨e.2, ha⟩
        cases hg : g e.1 j with
        | true =>
          rw [if_pos (List.any_eq_true.mpr ⟨_, hm, by simp [hg]⟩)]
          simp [Option.filter, hg]
        | false =>
          rw [if_neg]
          · simp [Option.filter, hg, hn]
          · intro hx
            obtain ⟨x, hx1, hx'⟩ := List.any_eq_true.mp hx
            obtain ⟨k, r⟩ := x
            simp only [Bool.and_eq_true, decide_eq_true_eq] at hx'
            obtain ⟨rfl, hx'⟩ := hx'
            obtain ⟨v, hv⟩ := (h.mem k r).mp hx1
            rw [ha] at hv
            cases hv
            rw [hg] at hx'
            cases hx'
    · intro k j
      show (k, j) ∈ w.entries.filter _ ↔ ∃ v, (a j).filter _ = some (k, v)
      rw [List.mem_filter, h.mem]
      constructor
      · rintro ⟨⟨v, hv⟩, hg⟩
        exact ⟨v, by rw [Option.filter_eq_some_iff]; exact ⟨hv, hg⟩⟩
      · rintro ⟨v, hv⟩
        rw [Option.filter_eq_some_iff] at hv
        exact ⟨⟨v, hv.1⟩, hv.2⟩
  | assign r v =>
    have ho : a r ≠ none := ho
    obtain ⟨e, he⟩ := Option.ne_none_iff_exists'.mp ho
    have hn := h.node r
    rw [he] at hn
    refine ⟨_, by simp only [Op.run, store, hn, Option.map_some]; rfl, ?_, ?_⟩
    · intro j
      show (if j = r then some v else w.node j) = Option.map _ (if j = r then (a j).map _ else a j)
      by_cases hj : j = r
      · subst hj; simp [he]
      · simp [hj, h.node j]
    · intro k j
      show (k, j) ∈ w.entries ↔ ∃ v', (if j = r then (a j).map _ else a j) = some (k, v')
      rw [h.mem]
      by_cases hj : j = r
      · subst hj
        simp [he]
        constructor
        · rintro ⟨v, rfl⟩; rfl
        · rintro rfl; exact ⟨e.2, rfl⟩
      · simp [hj]

private theorem Steps.rel {P : Op K V → Prop} {w w' : Multi K V} {a a' : Entries K V} (h : Steps P w a w' a') (hr : Rel w a) : Rel w' a' := by
  induction h with
  | refl => exact hr
  | step _ o hok _ hrun ih =>
    obtain ⟨w2, e, h2⟩ := ih.step hok
    rw [hrun] at e
    cases e
    exact h2

private theorem Reached.rel {w : Multi K V} {a : Entries K V} (h : Reached w a) : Rel w a :=
  Steps.rel h ⟨fun _ => rfl, fun k r => by simp [Multi.empty]⟩

private theorem Rel.matching {w : Multi K V} {a : Entries K V} (h : Rel w a) (same : K → Q → Bool) (q : Q) (r : Nat) :
    r ∈ matching same q w ↔ ∃ k v, a r = some (k, v) ∧ same k q = true := by
  simp only [Multi.matching, List.mem_map, List.mem_filter, Prod.exists]
  constructor
  · rintro ⟨k, r', ⟨h1, h2⟩, rfl⟩
    obtain ⟨v, hv⟩ := (h.mem k r').mp h1
    exact ⟨k, v, hv, h2⟩
  · rintro ⟨k, v, h1, h2⟩
    exact ⟨k, r, ⟨(h.mem k r).mpr ⟨v, h1⟩, h2⟩, rfl⟩

private theorem retrieve_eq (b : Bool) (pick : List Nat → Nat) (same : K → Q → Bool) (q : Q) (w : Multi K V) (h : matching same q w ≠ []) :
    retrieve b pick same q w = .ok (pick (matching same q w)) := by
  unfold retrieve find
  cases hm : matching same q w with
  | nil => exact absurd hm h
  | cons r l => cases b <;> rfl

/-- C171: allowed calls succeed, and at all times a reference to an entry gives the value that was inserted or assigned last. -/
theorem C171_history {w : Multi K V} {a : Entries K V} (h : Reached w a) :
    (∀ o : Op K V, o.ok a → ∃ w', o.run w = .ok w' ∧ Reached w' (o.spec a)) ∧ ∀ r v, deref r w = .ok v ↔ ∃ k, a r = some (k, v) := by
  refine ⟨?_, ?_⟩
  · intro o ho
    obtain ⟨w', e, _⟩ := h.rel.step ho
    exact ⟨w', e, Steps.step h o ho trivial e⟩
  · intro r v
    have hn := h.rel.node r
    cases ha : a r with
    | none => rw [ha] at hn; simp [deref, hn]
    | some e =>
      rw [ha] at hn
      obtain ⟨k, v'⟩ := e
      simp only [deref, hn, Option.map_some]
      constructor
      · intro e; cases e; exact ⟨k, rfl⟩
      · rintro ⟨k', e⟩; cases e; rfl

/-- C171: if an entry has a key equivalent to the one looked for, `Retrieve` gives a reference to such an entry, whatever the implementation picks; it refers to this entry for as long as the entry
is not erased, whatever is done with other entries, also of the same key. -/
theorem C171_entry (b : Bool) {pick : List Nat → Nat} (hp : Picks pick) {w : Multi K V} {a : Entries K V} (h : Reached w a) (same : K → Q → Bool) {q : Q} {r0 : Nat} {k0 : K} {v0 : V}
    (h0 : a r0 = some (k0, v0)) (hs : same k0 q = true) :
    ∃ r k v, retrieve b pick same q w = .ok r ∧ a r = some (k, v) ∧ same k q = true ∧ deref r w = .ok v ∧
      ∀ w' a', Steps (Op.keeps k r) w a w' a' → ∃ v', a' r = some (k, v') ∧ deref r w' = .ok v' := by
  have hne : matching same q w ≠ [] := List.ne_nil_of_mem ((h.rel.matching same q r0).mpr ⟨k0, v0, h0, hs⟩)
  obtain ⟨k, v, ha, hk⟩ := (h.rel.matching same q _).mp (hp _ hne)
  have hd : ∀ (w : Multi K V) (a : Entries K V) r v, Rel w a → a r = some (k, v) → deref r w = .ok v := by
    intro w a r v hr ha
    have := hr.node r
    rw [ha] at this
    simp [deref, this]
  refine ⟨_, k, v, retrieve_eq b pick same q w hne, ha, hk, hd _ _ _ _ h.rel ha, ?_⟩
  intro w' a' hs
  have hr' := hs.rel h.rel
  have : ∃ v', a' (pick (matching same q w)) = some (k, v') := by
    generalize pick (matching same q w) = r at ha hs
    clear hr'
    have hrel := h.rel
    clear h hne h0
    induction hs with
    | refl => exact ⟨v, ha⟩
    | step _ o hok hk' _ ih =>
      obtain ⟨v', hv'⟩ := ih
      cases o with
      | insert p k2 v2 r2 =>
        have hok : _ = none := hok
        refine ⟨v', ?_⟩
        show (if r = r2 then _ else _) = _
        rw [if_neg (by rintro rfl; rw [hv'] at hok; cases hok), hv']
      | erase g =>
        have hk' : g k r = false := hk'
        exact ⟨v', by show Option.filter _ _ = _; rw [hv']; simp [Option.filter, hk']⟩
      | assign r2 v2 =>
        by_cases hr : r = r2
        · exact ⟨v2, by show (if r = r2 then _ else _) = _; rw [if_pos hr, hv']; rfl⟩
        · exact ⟨v', by show (if r = r2 then _ else _) = _; rw [if_neg hr, hv']⟩
  obtain ⟨v', hv'⟩ := this
  exact ⟨v', hv', hd _ _ _ _ hr' hv'⟩

/-- C171: if there is one such entry, it is the one that is found, in all implementations. -/
theorem C171_single (b : Bool) {pick : List Nat → Nat} (hp : Picks pick) {w : Multi K V} {a : Entries K V} (h : Reached w a) (same : K → Q → Bool) {q : Q} {r : Nat} {k : K} {v : V}
    (hr : a r = some (k, v)) (hs : same k q = true) (h1 : ∀ r' k' v', a r' = some (k', v') → same k' q = true → r' = r) :
    retrieve b pick same q w = .ok r := by
  obtain ⟨r', k', v', e, ha, hk, _⟩ := C171_entry b hp h same hr hs
  rw [e, h1 r' k' v' ha hk]

/-- C171: no such entry: the assertion fails; without assertions the behaviour is undefined. -/
theorem C171_missing (pick : List Nat → Nat) {w : Multi K V} {a : Entries K V} (h : Reached w a) (same : K → Q → Bool) {q : Q} (hn : ∀ r k v, a r = some (k, v) → same k q = false) :
    retrieve true pick same q w = .error .assert ∧ retrieve false pick same q w = .error .ub := by
  have : matching same q w = [] := by
    rw [List.eq_nil_iff_forall_not_mem]
    intro r hr
    obtain ⟨k, v, h1, h2⟩ := (h.rel.matching same q r).mp hr
    rw [hn r k v h1] at h2
    cases h2
  constructor <;> simp [retrieve, find, this, Cpp.assert]

/-- C171, violated: that `Retrieve` of a key gives the entry it gave before.  Whenever another entry of the key is inserted, there is an implementation of `find` with which `Retrieve` then gives the
new entry, and one with which it gives the old one. -/
theorem C171_again_violated (b : Bool) {w : Multi K V} {a : Entries K V} (h : Reached w a) (same : K → Q → Bool) {q : Q} {r : Nat} {k : K} {v : V} (hr : a r = some (k, v)) (hs : same k q = true)
    (place : Nat) (v2 : V) {r2 : Nat} (hf : a r2 = none) :
    (∃ pick, Picks pick ∧ retrieve b pick same q w = .ok r ∧ retrieve b pick same q (insert place k v2 r2 w) = .ok r2 ∧ deref r2 (insert place k v2 r2 w) = .ok v2) ∧
    (∃ pick, Picks pick ∧ retrieve b pick same q w = .ok r ∧ retrieve b pick same q (insert place k v2 r2 w) = .ok r ∧ deref r (insert place k v2 r2 w) = .ok v) := by
  have hrel := h.rel
  obtain ⟨w', e, hrel'⟩ := hrel.step (o := .insert place k v2 r2) hf
  cases e
  have hne : r ≠ r2 := by rintro rfl; rw [hr] at hf; cases hf
  have m1 : r ∈ matching same q w := (hrel.matching same q r).mpr ⟨k, v, hr, hs⟩
  have m2 : r ∈ matching same q (insert place k v2 r2 w) := (hrel'.matching same q r).mpr ⟨k, v, by show (if r = r2 then _ else _) = _; rw [if_neg hne, hr], hs⟩
  have m3 : r2 ∈ matching same q (insert place k v2 r2 w) := (hrel'.matching same q r2).mpr ⟨k, v2, by show (if r2 = r2 then _ else _) = _; rw [if_pos rfl], hs⟩
  have m4 : r2 ∉ matching same q w := by
    intro hm
    obtain ⟨k', v', h1, _⟩ := (hrel.matching same q r2).mp hm
    rw [hf] at h1; cases h1
  have hp : ∀ x y : Nat, Picks (fun l => if x ∈ l then x else if y ∈ l then y else l.headD 0) := by
    intro x y l hl
    simp only
    split
    · assumption
    · split
      · assumption
      · cases l with
        | nil => exact absurd rfl hl
        | cons z l => exact List.mem_cons_self
  refine ⟨⟨_, hp r2 r, ?_, ?_, ?_⟩, ⟨_, hp r r2, ?_, ?_, ?_⟩⟩
  · rw [retrieve_eq b _ same q w (List.ne_nil_of_mem m1)]; simp [m1, m4]
  · rw [retrieve_eq b _ same q _ (List.ne_nil_of_mem m2)]; simp [m3]
  · simp [deref, insert]
  · rw [retrieve_eq b _ same q w (List.ne_nil_of_mem m1)]; simp [m1]
  · rw [retrieve_eq b _ same q _ (List.ne_nil_of_mem m2)]; simp [m2]
  · have := hrel.node r
    rw [hr] at this
    simp [deref, insert, hne, this]

/-- A multimap with two entries of one key and one of another; the first entry can be retrieved, and keeps its value when the second is erased. -/
example : ∃ (w : Multi Nat Nat) (a : Entries Nat Nat), Reached w a ∧ a 3 = some (5, 50) ∧ a 4 = some (5, 51) ∧ a 9 = some (6, 60) ∧ a 0 = none := by
  obtain ⟨w1, _, h1⟩ := (C171_history (Steps.refl (P := fun _ => True) (w := (Multi.empty : Multi Nat Nat)) (a := fun _ => none))).1 (.insert 0 5 50 3) rfl
  obtain ⟨w2, _, h2⟩ := (C171_history h1).1 (.insert 1 5 51 4) rfl
  obtain ⟨w3, _, h3⟩ := (C171_history h2).1 (.insert 2 6 60 9) rfl
  exact ⟨w3, _, h3, rfl, rfl, rfl, rfl⟩
example : Picks (fun l => l.headD 0) := fun l hl => by cases l with
  | nil => exact absurd rfl hl
  | cons x l => exact List.mem_cons_self
example : (Op.erase (fun _ r => r = 4) : Op Nat Nat).keeps 5 3 := rfl

end Verif.Retrieve.Multi
