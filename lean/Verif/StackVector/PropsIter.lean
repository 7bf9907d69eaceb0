import Verif.FixedVector.PropsIter
import Verif.StackVector.ModelIter
import Verif.StackVector.Props

/-!
# C108, C109 for `StackVector` and `StackArray`
-/

namespace Verif.StackVector
open Verif.Cpp
open Verif.FixedVector (St Vec Arg Cfg Repr ReprU Ptr deref store forRange forRangeRev mSize inl)

variable {α : Type}

theorem visit_inl {K : Cfg α} {l : List α} (hl : l.length ≤ K.capacity) {fuel : Nat} (hf : l.length ≤ fuel) :
    forRange deref fuel ⟨false, 0⟩ ⟨false, l.length⟩ (inl K l none) = .done (inl K l none) l ∧
    forRangeRev deref fuel ⟨false, l.length⟩ ⟨false, 0⟩ (inl K l none) = .done (inl K l none) l.reverse := by
  have h : ReprU K false (inl K l none) l none := .inl ⟨rfl, rfl, hl⟩
  constructor
  · obtain ⟨s', e, rfl⟩ := FixedVector.forRange_run (body := deref) false l 0 (fun _ t => t = inl K l none) (fun k t hk ht => by
      subst ht
      exact ⟨_, by rw [Nat.zero_add, FixedVector.deref_reprU h, List.getElem?_eq_getElem hk], rfl⟩) hf rfl
    rwa [Nat.zero_add] at e
  · obtain ⟨s', e, rfl⟩ := FixedVector.forRangeRev_run (body := deref) false l.reverse 0 (fun _ t => t = inl K l none) (fun k t hk ht => by
      subst ht
      rw [List.length_reverse] at hk
      exact ⟨_, by rw [Nat.zero_add, FixedVector.deref_reprU h, List.length_reverse, List.getElem?_eq_getElem (by omega), List.getElem_reverse], rfl⟩)
      (by simpa using hf) rfl
    rwa [Nat.zero_add, List.length_reverse] at e

/-- C108: the loops over a `StackVector` visit its elements in order, and in the opposite order with the reverse iterators. -/
theorem C108_stackVector {C : Nat} {dflt : α} {mv : α → α} {s : St α} {l : List α} (hs : Reachable C dflt mv s l) :
    ∃ b e rb re, begin' s = .done s b ∧ end' s = .done s e ∧ rbegin s = .done s rb ∧ rend s = .done s re ∧
      ∀ fuel, l.length ≤ fuel → forRange deref fuel b e s = .done s l ∧ forRangeRev deref fuel rb re s = .done s l.reverse := by
  obtain ⟨rfl, hl⟩ := repr_inl hs.repr
  exact ⟨⟨false, 0⟩, ⟨false, l.length⟩, ⟨false, l.length⟩, ⟨false, 0⟩, rfl, rfl, rfl, rfl, fun fuel hf => visit_inl hl hf⟩

open Arr in
/-- C108: the same for a `StackArray` of `n` elements after any writes. -/
theorem C108_stackArray (n : Nat) (dflt : α) (ws : List (Write α)) (hw : ∀ w ∈ ws, w.ok n) :
    ∃ s s' : St α, ∃ b e rb re, Arr.construct n dflt (raw n) = .done s () ∧ runWrites ws s = .done s' () ∧ Arr.size s' = .done s' n ∧
      Arr.isEmpty s' = .done s' (n == 0) ∧ Arr.begin' s' = .done s' b ∧ Arr.end' s' = .done s' e ∧ Arr.rbegin s' = .done s' rb ∧ Arr.rend s' = .done s' re ∧
      ∀ fuel, n ≤ fuel → forRange deref fuel b e s' = .done s' (ws.foldl (fun l w => w.spec l) (List.replicate n dflt)) ∧
        forRangeRev deref fuel rb re s' = .done s' (ws.foldl (fun l w => w.spec l) (List.replicate n dflt)).reverse := by
  have key : ∀ (ws : List (Write α)) (l : List α), l.length = n → (∀ w ∈ ws, w.ok n) →
      runWrites ws (holding l) = .done (holding (ws.foldl (fun l w => w.spec l) l)) () ∧ (ws.foldl (fun l w => w.spec l) l).length = n := by
    intro ws
    induction ws with
    | nil => intro l hl _; exact ⟨rfl, hl⟩
    | cons w ws ih =>
      intro l hl hw
      have h1 : w.run (holding l) = .done (holding (w.spec l)) () ∧ (w.spec l).length = n := by
        cases w with
        | fill v =>
          refine ⟨?_, by simpa [Write.spec] using hl⟩
          rw [Write.run, fill_run, Write.spec, List.map_const']
        | set i v =>
          have := hw (.set i v) (by simp)
          exact ⟨assignAt_run (by rw [hl]; exact this) v, by simpa [Write.spec] using hl⟩
      obtain ⟨e2, h2⟩ := ih _ h1.2 (fun w hw' => hw w (by simp [hw']))
      refine ⟨?_, h2⟩
      rw [runWrites, X.bind_done h1.1, e2]
      rfl
  obtain ⟨e, hlen⟩ := key ws (List.replicate n dflt) (by simp) hw
  have hm : mSize (holding (ws.foldl (fun l w => w.spec l) (List.replicate n dflt))) = .done (holding (ws.foldl (fun l w => w.spec l) (List.replicate n dflt))) n := by
    simp only [mSize, holding]
    rw [hlen]
  refine ⟨_, _, ⟨false, 0⟩, ⟨false, n⟩, ⟨false, n⟩, ⟨false, 0⟩, construct_run n dflt, e, hm, ?_, rfl, ?_, ?_, rfl, ?_⟩
  · rw [Arr.isEmpty, X.bind_done hm]; rfl
  · rw [Arr.end', X.bind_done hm]; rfl
  · rw [Arr.rbegin, X.bind_done hm]; rfl
  · intro fuel hf
    have := visit_inl (K := cfg n dflt id) (l := ws.foldl (fun l w => w.spec l) (List.replicate n dflt)) (Nat.le_of_eq hlen) (fuel := fuel) (by omega)
    rw [hlen] at this
    have hh : holding (ws.foldl (fun l w => w.spec l) (List.replicate n dflt)) =
        inl (cfg n dflt id) (ws.foldl (fun l w => w.spec l) (List.replicate n dflt)) none := by
      simp only [holding, inl, cfg]
      rw [hlen]
    rw [hh]
    exact this

/-- The element at position `i` stays at its position. -/
def Op.keeps (i : Nat) : Op α → List α → Prop
  | .pushBack _, _ => True
  | .emplace j _, _ => i < j
  | .erase j, _ => i < j
  | .eraseRange f t, _ => i < f ∨ f = t
  | .popBack, l => i + 1 < l.length
  | .resize n _, _ => i < n
  | .assignAt j _, _ => i ≠ j
  | .clear, _ => False

/-- C109: the elements of a `StackVector` are never moved by growth: a reference to an element survives every allowed call that inserts and removes only behind
it. -/
theorem C109_stackVector {C : Nat} {dflt : α} {mv : α → α} {s : St α} {l : List α} (hs : Reachable C dflt mv s l) (o : Op α) (hok : o.ok C l)
    (i : Nat) (hi : i < l.length) (hk : o.keeps i l) :
    ∃ p s' r, addressOf i s = .done s p ∧ deref p s = .done s l[i] ∧ o.run C dflt mv s = .done s' r ∧ deref p s' = .done s' l[i] ∧
      addressOf i s' = .done s' p := by
  obtain ⟨rfl, hl⟩ := repr_inl hs.repr
  have hok' := Op.ok_fixed dflt hok
  have hk' : (o.toFixed dflt).keeps i l := by
    cases o <;> simp_all [Op.keeps, Op.toFixed, FixedVector.Op.keeps]
  obtain ⟨e, hl'⟩ := FixedVector.run_inl (K := cfg C dflt mv) (o.toFixed dflt) hl hok' (FixedVector.fits_of_noFallback hok')
  have hg := FixedVector.keeps_get hok' hi hk'
  have hi' : i < ((o.toFixed dflt).spec l).1.length := (List.getElem?_eq_some_iff.mp hg).1
  have addr (m : List α) (h : i < m.length) : addressOf i (inl (cfg C dflt mv) m none) = .done (inl (cfg C dflt mv) m none) ⟨false, i⟩ := by
    have hm : mSize (inl (cfg C dflt mv) m none) = .done (inl (cfg C dflt mv) m none) m.length := rfl
    rw [addressOf, X.bind_done hm]
    simp [h, X.pure_bind']
  have hu : ReprU (cfg C dflt mv) false (inl (cfg C dflt mv) l none) l none := .inl ⟨rfl, rfl, hl⟩
  have hu' : ReprU (cfg C dflt mv) false (inl (cfg C dflt mv) ((o.toFixed dflt).spec l).1 none) ((o.toFixed dflt).spec l).1 none := .inl ⟨rfl, rfl, hl'⟩
  refine ⟨⟨false, i⟩, _, _, addr l hi, ?_, by rw [Op.run_eq]; exact e, ?_, addr _ hi'⟩
  · rw [FixedVector.deref_reprU hu, List.getElem?_eq_getElem hi]
  · rw [FixedVector.deref_reprU hu', hg]

/-- C109: there is no reference to an element that is not there: `v[i]` fails its assertion. -/
theorem C109_stackVector_range {C : Nat} {dflt : α} {mv : α → α} {s : St α} {l : List α} (hs : Reachable C dflt mv s l) (i : Nat) (hi : l.length ≤ i) :
    addressOf i s = .fail .assert := by
  obtain ⟨rfl, hl⟩ := repr_inl hs.repr
  have hm : mSize (inl (cfg C dflt mv) l none) = .done (inl (cfg C dflt mv) l none) l.length := rfl
  rw [addressOf, X.bind_done hm]
  simp [Nat.not_lt.mpr hi, X.bind_run, X.assert]

example : (Op.emplace 2 7).ok 4 [1, 2, 3] ∧ (Op.emplace 2 7 : Op Nat).keeps 1 [1, 2, 3] ∧
    Reachable 4 0 (fun _ => 0) (inl (cfg 4 0 (fun _ => 0)) [1, 2, 3] none) [1, 2, 3] :=
  ⟨⟨by decide, by decide⟩, by simp [Op.keeps], [.pushBack 1, .pushBack 2, .pushBack 3], by simp [okAll, Op.ok, Op.spec], by decide +kernel, rfl⟩

end Verif.StackVector
