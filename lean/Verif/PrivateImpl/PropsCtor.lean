import Verif.PrivateImpl.ModelCtor
import Verif.PrivateImpl.Props
import Mathlib.Tactic.ByContra

/-!
# C138: which constructor of `PrivateImpl` is called

`ModelCtor.lean` has the overload resolution.
-/

namespace Verif.PrivateImpl.Ctor

open Verif.Cpp

variable {K : Type} [DecidableEq K]

/-! ## Specification -/

/-- The argument is a `PrivateImpl<T>` or an object of a class derived from it. -/
def Arg.IsWrapper (c : Classes K) (a : Arg K) : Prop := ∃ k, a.core = .cls k ∧ (k = c.wrapper ∨ c.derives k c.wrapper = true)

/-- The argument is a pointer that converts to `T*` without cast: to a `T` or to an object of a class derived from `T`, not qualified. -/
def Arg.IsPointer (c : Classes K) (a : Arg K) : Prop := ∃ k, a.core = .ptr false false k ∧ (k = c.target ∨ c.derives k c.target = true)

/-- What the user of the form on the heap expects: another `PrivateImpl` is copied, or moved if it is an rvalue that may be changed; a
pointer to an object is adopted; `nullptr` gives an empty one; any other argument is passed on to the constructor of `T`. -/
inductive Wanted (c : Classes K) (a : Arg K) : Which → Prop
  | copy : a.IsWrapper c → a.isLvalue = true ∨ a.const = true → Wanted c a .copy
  | move : a.IsWrapper c → a.isLvalue = false → a.const = false → Wanted c a .move
  | pointer : a.IsPointer c → Wanted c a .pointer
  | nullptr : a.core = .null → Wanted c a .nullptr
  | forward : ¬ a.IsWrapper c → ¬ a.IsPointer c → a.core ≠ .null → Wanted c a .forward

/-! ## Theorems -/

/-- C138: `RemoveCvRef` gives a type without reference and qualification, leaves such types unchanged, and forgets nothing else. -/
theorem C138_removeCvRef {K : Type} (t : CppType K) :
    (removeCvRef t).ref = .none ∧ (removeCvRef t).const = false ∧ (removeCvRef t).volatile = false ∧ (removeCvRef t).core = t.core ∧
    removeCvRef (removeCvRef t) = removeCvRef t := ⟨rfl, rfl, rfl, rfl, rfl⟩

/-- C138, form on the heap: for every argument, except volatile `PrivateImpl<T>`, objects of classes derived from `PrivateImpl<T>` and
pointers to objects of classes derived from `T`, a constructor is selected, and it is the wanted one.  (Missing for the full claim: these,
see `C138_volatile_violated` and `C138_derived_violated`.) -/
theorem C138_heap_partial (c : Classes K) (a : Arg K)
    (hw : a.IsWrapper c → a.core = .cls c.wrapper ∧ a.volatile = false) (hp : a.IsPointer c → a.core = .ptr false false c.target) :
    ∃ w, select true c [a] = some w ∧ Wanted c a w := by
  obtain ⟨const, volatile, core, lv, zero⟩ := a
  cases core with
  | cls k =>
    by_cases hk : k = c.wrapper
    · subst hk
      obtain ⟨-, hv⟩ := hw ⟨_, rfl, Or.inl rfl⟩
      simp only at hv
      subst hv
      have hs : select true c [⟨const, false, .cls c.wrapper, lv, zero⟩] = some (if lv = true ∨ const = true then .copy else .move) := by
        cases const <;> cases lv <;> simp [select, candidates, convert, forwardEnabled, removeCvRef, Arg.deduced, better, Rank.num]
      refine ⟨_, hs, ?_⟩
      split
      · rename_i h; exact .copy ⟨_, rfl, Or.inl rfl⟩ h
      · rename_i h
        simp only [not_or, Bool.not_eq_true] at h
        exact .move ⟨_, rfl, Or.inl rfl⟩ h.1 h.2
    · have hd : c.derives k c.wrapper = false := by
        by_contra h
        have := hw ⟨k, rfl, Or.inr (by simpa using h)⟩
        exact hk (by simpa using this.1)
      refine ⟨.forward, ?_, .forward ?_ ?_ (by simp)⟩
      · cases zero <;> simp [select, candidates, convert, forwardEnabled, removeCvRef, Arg.deduced, better, Rank.num, hk, hd]
      · rintro ⟨k', h, h'⟩
        simp only [Core.cls.injEq] at h
        subst h
        rcases h' with h' | h'
        · exact hk h'
        · rw [hd] at h'; cases h'
      · rintro ⟨k', h, -⟩; cases h
  | ptr pc pv k =>
    by_cases hq : pc = false ∧ pv = false
    · obtain ⟨rfl, rfl⟩ := hq
      by_cases hk : k = c.target
      · subst hk
        refine ⟨.pointer, ?_, .pointer ⟨_, rfl, Or.inl rfl⟩⟩
        cases zero <;> simp [select, candidates, convert, forwardEnabled, removeCvRef, Arg.deduced, better, Rank.num]
      · have hd : c.derives k c.target = false := by
          by_contra h
          have := hp ⟨k, rfl, Or.inr (by simpa using h)⟩
          exact hk (by simpa using this)
        refine ⟨.forward, ?_, .forward ?_ ?_ (by simp)⟩
        · cases zero <;> simp [select, candidates, convert, forwardEnabled, removeCvRef, Arg.deduced, better, Rank.num, hk, hd]
        · rintro ⟨k', h, -⟩; cases h
        · rintro ⟨k', h, h'⟩
          simp only [Core.ptr.injEq, true_and] at h
          subst h
          rcases h' with h' | h'
          · exact hk h'
          · rw [hd] at h'; cases h'
    · refine ⟨.forward, ?_, .forward ?_ ?_ (by simp)⟩
      · have : (pc || pv) = true := by cases pc <;> cases pv <;> simp_all
        cases zero <;> simp [select, candidates, convert, forwardEnabled, removeCvRef, Arg.deduced, better, Rank.num, this]
      · rintro ⟨k', h, -⟩; cases h
      · rintro ⟨k', h, -⟩
        simp only [Core.ptr.injEq] at h
        exact hq ⟨h.1, h.2.1⟩
  | null =>
    refine ⟨.nullptr, ?_, .nullptr rfl⟩
    simp [select, candidates, convert, forwardEnabled, removeCvRef, Arg.deduced, better, Rank.num]
  | other n =>
    refine ⟨.forward, ?_, .forward ?_ ?_ (by simp)⟩
    · cases zero <;> simp [select, candidates, convert, forwardEnabled, removeCvRef, Arg.deduced, better, Rank.num]
    · rintro ⟨k', h, -⟩; cases h
    · rintro ⟨k', h, -⟩; cases h

/-- C138, inline storage: a `PrivateImpl<T>` that is not volatile is copied or moved, and every argument that has nothing to do with
`PrivateImpl<T>` is passed on to the constructor of `T`. -/
theorem C138_inline_partial (c : Classes K) (a : Arg K) :
    (a.core = .cls c.wrapper → a.volatile = false →
      select false c [a] = some (if a.isLvalue = true ∨ a.const = true then .copy else .move)) ∧
    (¬ a.IsWrapper c → select false c [a] = some .forward) := by
  obtain ⟨const, volatile, core, lv, zero⟩ := a
  constructor
  · rintro h hv
    simp only at h hv
    subst h hv
    cases const <;> cases lv <;> simp [select, candidates, convert, forwardEnabled, removeCvRef, Arg.deduced, better, Rank.num]
  · intro h
    cases core with
    | cls k =>
      have hk : k ≠ c.wrapper := fun e => h ⟨k, rfl, Or.inl e⟩
      have hd : c.derives k c.wrapper = false := by
        by_contra h'
        exact h ⟨k, rfl, Or.inr (by simpa using h')⟩
      simp [select, candidates, convert, forwardEnabled, removeCvRef, Arg.deduced, better, Rank.num, hk, hd]
    | ptr pc pv k => simp [select, candidates, convert, forwardEnabled, removeCvRef, Arg.deduced, better, Rank.num]
    | null => simp [select, candidates, convert, forwardEnabled, removeCvRef, Arg.deduced, better, Rank.num]
    | other n => simp [select, candidates, convert, forwardEnabled, removeCvRef, Arg.deduced, better, Rank.num]

/-- C138 fails for volatile `PrivateImpl<T>`: no constructor takes them. -/
theorem C138_volatile_violated (heap : Bool) (c : Classes K) (a : Arg K) (h : a.core = .cls c.wrapper) (hv : a.volatile = true) :
    select heap c [a] = none := by
  obtain ⟨const, volatile, core, lv, zero⟩ := a
  simp only at h hv
  subst h hv
  cases heap <;> simp [select, candidates, convert, forwardEnabled, removeCvRef, Arg.deduced, better, Rank.num]

/-- C138, both forms: no argument, or several, are always passed on to the constructor of `T`. -/
theorem C138_several (heap : Bool) (c : Classes K) (args : List (Arg K)) (h : args.length ≠ 1) :
    select heap c args = some .forward := by
  match args with
  | [] => simp [select, forwardEnabled]
  | [a] => simp at h
  | a :: b :: l => simp [select, forwardEnabled]

/-- C138 fails for every object of a class derived from `PrivateImpl<T>` (also when a derived class passes its argument on in its own
copy constructor), and on the heap for every pointer to an object of a class derived from `T`: the template is the better match, so
instead of copying, moving or adopting, the constructor of `T` is called with the argument. -/
theorem C138_derived_violated (c : Classes K) (a : Arg K) (k : K) :
    (a.core = .cls k → k ≠ c.wrapper → c.derives k c.wrapper = true →
      ∀ heap, select heap c [a] = some .forward ∧ ∀ w, Wanted c a w → w ≠ .forward) ∧
    (a.core = .ptr false false k → k ≠ c.target → c.derives k c.target = true →
      select true c [a] = some .forward ∧ Wanted c a .pointer) := by
  obtain ⟨const, volatile, core, lv, zero⟩ := a
  refine ⟨?_, ?_⟩
  · intro h hk hd heap
    simp only at h
    subst h
    refine ⟨?_, ?_⟩
    · cases heap <;> cases const <;> cases volatile <;> cases lv <;> cases zero <;>
        simp [select, candidates, convert, forwardEnabled, removeCvRef, Arg.deduced, better, Rank.num, hk, hd]
    · rintro w hw rfl
      cases hw with
      | forward h1 _ _ => exact h1 ⟨k, rfl, Or.inr hd⟩
  · intro h hk hd
    simp only at h
    subst h
    refine ⟨?_, .pointer ⟨k, rfl, Or.inr hd⟩⟩
    cases zero <;> simp [select, candidates, convert, forwardEnabled, removeCvRef, Arg.deduced, better, Rank.num, hk, hd]

/-! ## What the constructions do -/

/-- The operation of the model of C54 that constructs variable `i` from variable `j` with the copy or move constructor. -/
def construct {T : Type} (i j : Nat) : Which → Option (Op T)
  | .copy => some (.copyCtor i j)
  | .move => some (.moveCtor i j)
  | _ => none

/-- C138: after any history, a `PrivateImpl` constructed from another one, written in whatever way (`j`, `std::as_const(j)`,
`std::move(j)`), holds the value of that one, in an object of its own; and the other one still holds it unless it was an rvalue that may be
changed, in which case it is empty.  In particular construction from an lvalue that is not const never reaches the template. -/
theorem C138_construct_from_other {T : Type} (ty : Ty T) (c : Classes K) (a : Arg K) (ha : a.core = .cls c.wrapper)
    (hv : a.volatile = false) (before : List (Op T)) (i j : Nat) (v : T) (σ : Spec T)
    (hb : runSpec (heapStep ty) before (fun _ => none) = some σ) (hj : σ j = some (some v)) (hi : σ i = none)
    (hc : ty.copyThrows v = false) :
    ∃ w op s, select true c [a] = some w ∧ construct i j w = some op ∧ Heap.run ty (before ++ [op]) Heap.init = .done s () ∧
      Heap.get i s = .done s (some v) ∧
      Heap.get j s = .done s (if a.isLvalue = true ∨ a.const = true then some v else none) ∧
      ∀ p, s.vars i = some p → s.vars j ≠ some p := by
  have hij : j ≠ i := by rintro rfl; rw [hi] at hj; simp at hj
  have hs : select true c [a] = some (if a.isLvalue = true ∨ a.const = true then .copy else .move) := by
    obtain ⟨const, volatile, core, lv, zero⟩ := a
    simp only at ha hv
    subst ha hv
    cases const <;> cases lv <;> simp [select, candidates, convert, forwardEnabled, removeCvRef, Arg.deduced, better, Rank.num]
  by_cases hl : a.isLvalue = true ∨ a.const = true
  · simp only [hl, if_true] at hs ⊢
    have h : runSpec (heapStep ty) (before ++ [.copyCtor i j]) (fun _ => none) = some (σ.set i (some (some v))) := by
      rw [runSpec_append, hb]
      simp [runSpec, heapStep, hi, hj, put, hc]
    obtain ⟨s, e, hg, _, ho, _⟩ := C54_heap_history_partial ty _ _ h
    have h1 := (hg i (some v) (by simp [Spec.set])).1
    have h2 := (hg j (some v) (by simp [Spec.set, hij, hj])).1
    refine ⟨.copy, _, s, hs, rfl, e, h1, h2, ?_⟩
    intro p hp hp'
    by_cases h0 : p = 0
    · subst h0
      simp only [Heap.get] at h1
      rw [X.bind_done (getPtr_run hp)] at h1
      simp at h1
    · exact hij (ho j i p hp' hp h0)
  · simp only [hl, if_false] at hs ⊢
    have h : runSpec (heapStep ty) (before ++ [.moveCtor i j]) (fun _ => none) = some ((σ.set j (some none)).set i (some (some v))) := by
      rw [runSpec_append, hb]
      simp [runSpec, heapStep, hi, hj]
    obtain ⟨s, e, hg, _, ho, _⟩ := C54_heap_history_partial ty _ _ h
    have h1 := (hg i (some v) (by simp [Spec.set])).1
    have h2 := (hg j none (by simp [Spec.set, hij])).1
    refine ⟨.move, _, s, hs, rfl, e, h1, h2, ?_⟩
    intro p hp hp'
    by_cases h0 : p = 0
    · subst h0
      simp only [Heap.get] at h1
      rw [X.bind_done (getPtr_run hp)] at h1
      simp at h1
    · exact hij (ho j i p hp' hp h0)

/-! ## Concrete cases

Classes 0 (`T`), 1 (`PrivateImpl<T>`), 2 (derived from `T`), 3 (derived from `PrivateImpl<T>`), 4 (unrelated). -/

private def cs : Classes Nat := ⟨0, 1, fun a b => (a == 2 && b == 0) || (a == 3 && b == 1)⟩

example : select true cs [⟨false, false, .cls 1, true, false⟩] = some .copy := by decide
example : select true cs [⟨true, false, .cls 1, false, false⟩] = some .copy := by decide
example : select true cs [⟨false, false, .cls 1, false, false⟩] = some .move := by decide
example : select true cs [⟨false, true, .cls 1, true, false⟩] = none := by decide
example : select true cs [⟨true, false, .ptr false false 0, true, false⟩] = some .pointer := by decide
example : select true cs [⟨false, false, .ptr true false 0, false, false⟩] = some .forward := by decide
example : select true cs [⟨false, false, .ptr false false 2, false, false⟩] = some .forward := by decide
example : select true cs [⟨false, false, .null, false, false⟩] = some .nullptr := by decide
example : select true cs [⟨false, false, .other 0, false, true⟩] = some .forward := by decide
example : select true cs [⟨true, false, .cls 3, true, false⟩] = some .forward := by decide
example : select true cs [⟨false, false, .cls 4, false, false⟩] = some .forward := by decide
example : select false cs [⟨false, false, .null, false, false⟩] = some .forward := by decide

private def ty : Ty Nat := { throws := fun _ => false, copyThrows := fun _ => false, copyAssignable := true, movedFrom := fun _ => 0 }

example : ∃ σ, runSpec (heapStep ty) [.ctorArgs 0 7, .ctorNull 1] (fun _ => none) = some σ ∧ σ 0 = some (some 7) ∧ σ 2 = none ∧
    ty.copyThrows 7 = false := ⟨_, rfl, rfl, rfl, rfl⟩

end Verif.PrivateImpl.Ctor
