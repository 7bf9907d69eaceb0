import Verif.FixedVector.ModelSelect
import Verif.FixedVector.Props

/-!
# C153: declarations of a `FixedVector` make the sequence that they say

`v(n, x)` says `n` times `x`; `v(first, last)`, for iterators, the elements of the range; `v(n)` says `n` default elements; `v{ x, y, ... }` the elements `x`, `y`, ...
-/

namespace Verif.FixedVector.Select
open Verif.Cpp

/-- The declaration compiles and makes a vector with these elements, if there is room for them. -/
def Makes {τ A α : Type} [DecidableEq τ] (L : Lang τ A α) (K : Cfg α) (f : Form) (args : List A) (l : List α) : Prop :=
  ∃ o : Out (St α) Unit, declare L K f args = some o ∧
    ((K.hasFallback = true ∨ l.length ≤ K.capacity) → ∃ s : St α, o = .done s () ∧ Shows K s l)

/-- The declaration does not compile. -/
def Refused {τ A α : Type} [DecidableEq τ] (L : Lang τ A α) (K : Cfg α) (f : Form) (args : List A) : Prop :=
  declare L K f args = none

variable {τ A α : Type} [DecidableEq τ] {L : Lang τ A α} {K : Cfg α}

private theorem makes_of {f : Form} {args : List A} {c : Ctor} {l : List α} (h : make L f args = .calls c)
    (hc : (K.hasFallback = true ∨ l.length ≤ K.capacity) → ∃ s : St α, call L K c args ⟨empty K, none⟩ = .done s () ∧ Shows K s l) : Makes L K f args l :=
  ⟨_, by simp only [declare, h], hc⟩

private theorem makes_count {n : Nat} {v : α} (h : K.hasFallback = true ∨ (List.replicate n v).length ≤ K.capacity) :
    ∃ s : St α, ofSize K n v ⟨empty K, none⟩ = .done s () ∧ Shows K s (List.replicate n v) :=
  (C25_constructors K [] n v).1 (by simpa using h)

private theorem makes_list {l : List α} (h : K.hasFallback = true ∨ l.length ≤ K.capacity) :
    ∃ s : St α, emplaceAll K l ⟨empty K, none⟩ = .done s () ∧ Shows K s l :=
  (C25_constructors K l 0 K.dflt).2 h

private theorem resolve_of {args : List A} {x y z : Option (List Nat)} (h1 : ranks L .dflt args = x) (h2 : ranks L .count args = y) (h3 : ranks L .range args = z) :
    resolve L args =
      let vs := (x.map (fun r => (Ctor.dflt, r))).toList ++ ((y.map (fun r => (Ctor.count, r))).toList ++ (z.map (fun r => (Ctor.range, r))).toList)
      (vs.find? (fun c => vs.all (fun d => d.1 == c.1 || better c d))).map Prod.fst := by
  subst h1 h2 h3
  rw [resolve]
  have : [Ctor.dflt, .count, .range].filterMap (fun c => (ranks L c args).map (fun r => (c, r))) =
      ((ranks L .dflt args).map (fun r => (Ctor.dflt, r))).toList ++ (((ranks L .count args).map (fun r => (Ctor.count, r))).toList ++
        ((ranks L .range args).map (fun r => (Ctor.range, r))).toList) := by
    cases h1 : ranks L .dflt args <;> cases h2 : ranks L .count args <;> cases h3 : ranks L .range args <;> simp [List.filterMap, h1, h2, h3]
  rw [this]

/-- Overload resolution with two arguments. -/
private theorem resolve_two (a b : A) : resolve L [a, b] =
    if L.ty a = L.ty b ∧ ¬ (L.ty a = L.sizeT ∧ L.ty b = L.elem) then some .range
    else if (L.conv (L.ty a) L.sizeT).isSome ∧ (L.conv (L.ty b) L.elem).isSome then some .count else none := by
  have e1 := L.conv_exact (L.ty a) L.sizeT
  have e2 := L.conv_exact (L.ty b) L.elem
  have h3 : ranks L .range [a, b] = if L.ty a = L.ty b then some [0, 0] else none := rfl
  cases h1 : L.conv (L.ty a) L.sizeT with
  | none =>
    have h2 : ranks L .count [a, b] = none := by simp [ranks, h1]
    have n : ¬ (L.ty a = L.sizeT) := fun hh => by rw [h1] at e1; simpa using e1.2 hh
    rw [resolve_of rfl h2 h3]
    by_cases h : L.ty a = L.ty b
    · rw [if_pos h, if_pos ⟨h, fun hh => n hh.1⟩]; simp [ranks]
    · rw [if_neg h, if_neg (fun hh => h hh.1)]; simp [ranks]
  | some r =>
    cases h2 : L.conv (L.ty b) L.elem with
    | none =>
      have h2' : ranks L .count [a, b] = none := by simp [ranks, h1, h2]
      have n : ¬ (L.ty b = L.elem) := fun hh => by rw [h2] at e2; simpa using e2.2 hh
      rw [resolve_of rfl h2' h3]
      by_cases h : L.ty a = L.ty b
      · rw [if_pos h, if_pos ⟨h, fun hh => n hh.2⟩]; simp [ranks]
      · rw [if_neg h, if_neg (fun hh => h hh.1)]; simp [ranks]
    | some r' =>
      have h2' : ranks L .count [a, b] = some [r, r'] := by simp [ranks, h1, h2]
      rw [h1] at e1; rw [h2] at e2
      simp only [Option.some.injEq] at e1 e2
      rw [resolve_of rfl h2' h3]
      simp only [← e1, ← e2]
      by_cases h : L.ty a = L.ty b
      · by_cases z : r = 0 <;> by_cases z' : r' = 0 <;> simp [ranks, h, z, z', better, Ctor.isTemplate, List.find?, Nat.pos_of_ne_zero]
      · rw [if_neg h, if_neg (fun hh => h hh.1)]; simp [ranks]

private theorem resolve_one (a : A) : resolve L [a] = if (L.conv (L.ty a) L.sizeT).isSome then some .count else none := by
  cases h1 : L.conv (L.ty a) L.sizeT with
  | none => rw [resolve_of rfl (show ranks L .count [a] = none by simp [ranks, h1]) rfl]; simp [ranks]
  | some r => rw [resolve_of rfl (show ranks L .count [a] = some [r] by simp [ranks, h1]) rfl]; simp [ranks]

private theorem make_paren (args : List A) : make L .paren args =
    match resolve L args with
    | none => .noMatch
    | some c => if compiles L .paren c args then .calls c else .error := by
  simp only [make]
  rw [if_neg (fun h => h.1 rfl)]
  rfl

/-- C153: which constructor `v(a, b)` calls: all cases. -/
theorem C153_paren (a b : A) :
    (make L .paren [a, b] = .calls .count ↔
      (L.conv (L.ty a) L.sizeT).isSome ∧ (L.conv (L.ty b) L.elem).isSome ∧ (L.ty a = L.ty b → L.ty a = L.sizeT ∧ L.ty b = L.elem)) ∧
    (make L .paren [a, b] = .calls .range ↔ L.ty a = L.ty b ∧ ∃ e : τ, L.iter (L.ty a) = some e ∧ L.builds e = true) := by
  rw [make_paren, resolve_two]
  by_cases h : L.ty a = L.ty b ∧ ¬ (L.ty a = L.sizeT ∧ L.ty b = L.elem)
  · rw [if_pos h]
    constructor
    · constructor
      · intro hh
        simp only at hh
        split at hh <;> simp at hh
      · rintro ⟨_, _, hh⟩; exact absurd (hh h.1) h.2
    · cases hi : L.iter (L.ty a) with
      | none => simp [compiles, hi]
      | some e =>
        rw [h.1] at hi
        simp [compiles, hi, h.1]
  · rw [if_neg h]
    constructor
    · by_cases hc : (L.conv (L.ty a) L.sizeT).isSome ∧ (L.conv (L.ty b) L.elem).isSome
      · rw [if_pos hc]
        simp only [compiles]
        constructor
        · intro _
          exact ⟨hc.1, hc.2, fun hab => Classical.byContradiction fun hn => h ⟨hab, hn⟩⟩
        · intro _; rfl
      · rw [if_neg hc]
        simp only [reduceCtorEq, false_iff]
        rintro ⟨x, y, _⟩; exact hc ⟨x, y⟩
    · constructor
      · intro hh
        split at hh
        · simp at hh
        · rename_i c hc
          split at hc
          · cases hc; split at hh <;> simp at hh
          · simp at hc
      · rintro ⟨hab, e, he, _⟩
        have : L.ty a = L.sizeT ∧ L.ty b = L.elem := Classical.byContradiction fun hn => h ⟨hab, hn⟩
        rw [this.1, L.iter_sizeT] at he
        simp at he

/-- C153: `v(n, x)` makes `n` times `x` if the two arguments have different types, or have exactly the types `size_type` and `T`. -/
theorem C153_count_partial {a b : A} (h1 : (L.conv (L.ty a) L.sizeT).isSome) (h2 : (L.conv (L.ty b) L.elem).isSome)
    (h : L.ty a ≠ L.ty b ∨ (L.ty a = L.sizeT ∧ L.ty b = L.elem)) : Makes L K .paren [a, b] (List.replicate (L.toSize a) (L.toElem b)) := by
  refine makes_of ((C153_paren a b).1.2 ⟨h1, h2, fun hab => ?_⟩) makes_count
  rcases h with h | h
  · exact absurd hab h
  · exact h

/-- C153: otherwise, if they are not iterators, it does not compile, although the arguments convert to the types of `FixedVector(size, value)`: the constructor from a range is preferred. -/
theorem C153_count_violated {a b : A} (h : L.ty a = L.ty b) (hi : L.iter (L.ty a) = none) (hn : ¬ (L.ty a = L.sizeT ∧ L.ty b = L.elem)) :
    make L .paren [a, b] = .error ∧ Refused L K .paren [a, b] := by
  have : make L .paren [a, b] = .error := by
    rw [make_paren, resolve_two, if_pos ⟨h, hn⟩]
    simp [compiles, hi]
  exact ⟨this, by simp only [Refused, declare, this]⟩

/-- C153: `v(first, last)` makes the elements of the range, for all iterators with elements from which `T` can be constructed; also `v{ first, last }` and `v = { first, last }`, if the iterators
do not convert to `T`. -/
theorem C153_range {a b : A} {e : τ} (f : Form) (h : L.ty a = L.ty b) (hi : L.iter (L.ty a) = some e) (hb : L.builds e = true)
    (hf : f = .paren ∨ L.conv (L.ty a) L.elem = none) : Makes L K f [a, b] (L.range a b) := by
  have hn : ¬ (L.ty a = L.sizeT ∧ L.ty b = L.elem) := by
    rintro ⟨hs, _⟩
    rw [hs, L.iter_sizeT] at hi
    simp at hi
  refine makes_of (c := .range) ?_ makes_list
  have hl : ¬ (f ≠ .paren ∧ [a, b] ≠ [] ∧ [a, b].all (fun a => (L.conv (L.ty a) L.elem).isSome) = true) := by
    rintro ⟨x, _, y⟩
    rcases hf with hf | hf
    · exact x hf
    · simp [hf] at y
  simp only [make]
  rw [if_neg hl, resolve_two, if_pos ⟨h, hn⟩]
  simp [compiles, hi, hb]

/-- C153: `v(n)` makes `n` default elements; it does not compile if `T` has no default constructor. -/
theorem C153_size {a : A} (h : (L.conv (L.ty a) L.sizeT).isSome) :
    (L.hasDefault = true → Makes L K .paren [a] (List.replicate (L.toSize a) K.dflt)) ∧
    (L.hasDefault = false → Refused L K .paren [a]) := by
  have e : make L .paren [a] = if L.hasDefault = true then .calls .count else .error := by
    rw [make_paren, resolve_one, if_pos h]
    simp [compiles]
  constructor
  · intro hd
    rw [if_pos hd] at e
    exact makes_of e makes_count
  · intro hd
    rw [if_neg (by simp [hd])] at e
    simp only [Refused, declare, e]

/-- C153: `v{ x, y, ... }` and `v = { x, y, ... }` make the listed elements whenever all of them convert to `T`, whatever their number and whatever else they convert to; with a narrowing conversion
they do not compile. -/
theorem C153_list {args : List A} (f : Form) (hf : f ≠ .paren) (hne : args ≠ []) (h : ∀ a ∈ args, (L.conv (L.ty a) L.elem).isSome) :
    ((∀ a ∈ args, L.narrow a L.elem = false) → Makes L K f args (args.map L.toElem)) ∧
    ((∃ a ∈ args, L.narrow a L.elem = true) → Refused L K f args) := by
  have e : make L f args = if compiles L f .list args then .calls .list else .error := by
    simp only [make]
    rw [if_pos ⟨hf, hne, by simpa using h⟩]
  constructor
  · intro hn
    rw [if_pos (by simpa [compiles] using hn)] at e
    refine makes_of e ?_
    simpa only [call] using makes_list
  · rintro ⟨a, ha, hn⟩
    rw [if_neg (by simpa [compiles] using ⟨a, ha, hn⟩)] at e
    simp only [Refused, declare, e]

/-- C153: without arguments the vector is empty, in every form. -/
theorem C153_empty (f : Form) : Makes L K f [] [] := by
  refine makes_of (c := .dflt) ?_ ?_
  · have : resolve L ([] : List A) = some .dflt := by
      rw [resolve_of rfl rfl rfl]; simp [ranks]
    simp [make, this, compiles]
  · intro h
    obtain ⟨s, e, hs⟩ := makes_list (K := K) (l := []) h
    exact ⟨s, e, hs⟩

/-- C153: in braces `n` and `x` are a count and a value only if one of them does not convert to `T`, and never in a copy initialization. -/
theorem C153_brace_count {a b : A} (f : Form) (hf : f ≠ .paren) :
    make L f [a, b] = .calls .count ↔
      f = .brace ∧ L.conv (L.ty a) L.elem = none ∧ (L.conv (L.ty a) L.sizeT).isSome ∧ (L.conv (L.ty b) L.elem).isSome ∧
        L.narrow a L.sizeT = false ∧ L.narrow b L.elem = false := by
  simp only [make]
  by_cases h1 : (L.conv (L.ty a) L.elem).isSome
  · have hx : ¬ (L.conv (L.ty a) L.elem = none) := by
      intro hh; simp [hh] at h1
    simp only [hx, false_and, and_false, iff_false]
    by_cases h2 : (L.conv (L.ty b) L.elem).isSome
    · rw [if_pos ⟨hf, by simp, by simp [h1, h2]⟩]
      simp only
      split <;> simp
    · rw [if_neg (by rintro ⟨_, _, hh⟩; simp [h2] at hh), resolve_two]
      have : ¬ ((L.conv (L.ty a) L.sizeT).isSome ∧ (L.conv (L.ty b) L.elem).isSome) := fun hh => h2 hh.2
      simp only [this, if_false]
      split
      · simp
      · rename_i c hc
        split at hc
        · cases hc; split <;> simp
        · simp at hc
  · rw [if_neg (by rintro ⟨_, _, hh⟩; simp [h1] at hh), resolve_two]
    have h1' : L.conv (L.ty a) L.elem = none := by simpa using h1
    by_cases hab : L.ty a = L.ty b
    · have h2 : L.conv (L.ty b) L.elem = none := by rw [← hab]; exact h1'
      have : ¬ (L.ty a = L.sizeT ∧ L.ty b = L.elem) := by
        rintro ⟨_, hh⟩
        have := (L.conv_exact (L.ty b) L.elem).2 hh
        rw [h2] at this; simp at this
      rw [if_pos ⟨hab, this⟩]
      simp only [h2]
      split <;> simp
    · rw [if_neg (fun hh => hab hh.1)]
      by_cases hc : (L.conv (L.ty a) L.sizeT).isSome ∧ (L.conv (L.ty b) L.elem).isSome
      · rw [if_pos hc]
        cases f
        · exact absurd rfl hf
        · simp [compiles, h1', hc.1, hc.2]
        · simp [compiles]
      · rw [if_neg hc]
        simp only [reduceCtorEq, false_iff]
        rintro ⟨_, _, x, y, _⟩; exact hc ⟨x, y⟩

/-! ## A concrete case -/

/-- Four types: `int`, `size_t`, `double`, pointers to `int`; numbers convert to each other.  `T` is `int`; an expression is a type and a value, and every pointer designates the range 7, 8. -/
inductive Ty where
  | int
  | size
  | double
  | ptr
  deriving DecidableEq

def exampleLang (T : Ty) : Lang Ty (Ty × Nat) Nat where
  elem := T
  sizeT := .size
  ty := Prod.fst
  conv a b := if a = b then some 0 else if a = .ptr ∨ b = .ptr then none else some 2
  conv_exact a b := by revert a b; intro a b; cases a <;> cases b <;> simp
  narrow a t := a.1 == .double && t != .double
  iter t := if t = .ptr then some .int else none
  iter_sizeT := rfl
  builds t := t != .ptr && T != .ptr
  hasDefault := true
  toSize := Prod.snd
  toElem := Prod.snd
  range _ _ := [7, 8]

/-- `FixedVector<int, 4> v(3, 5)` does not compile; `v(std::size_t(3), 5)` is three times 5; `v{ 3, 5 }` is 3, 5; `v(p, q)` is the range; `FixedVector<std::size_t, 4> v(std::size_t(3), std::size_t(5))` is three times 5. -/
example : make (exampleLang .int) .paren [(.int, 3), (.int, 5)] = .error ∧
    Makes (exampleLang .int) ⟨4, false, 0, id⟩ .paren [(.size, 3), (.int, 5)] [5, 5, 5] ∧
    Makes (exampleLang .int) ⟨4, false, 0, id⟩ .brace [(.int, 3), (.int, 5)] [3, 5] ∧
    Makes (exampleLang .int) ⟨4, false, 0, id⟩ .brace [(.ptr, 0), (.ptr, 0)] [7, 8] ∧
    Makes (exampleLang .size) ⟨4, false, 0, id⟩ .paren [(.size, 3), (.size, 5)] [5, 5, 5] ∧
    Makes (exampleLang .int) ⟨4, false, 0, id⟩ .paren [(.int, 2)] [0, 0] ∧
    Refused (exampleLang .int) ⟨4, false, 0, id⟩ .brace [(.int, 3), (.double, 5)] ∧
    make (exampleLang .ptr) .brace [(.size, 3), (.ptr, 5)] = .calls .count :=
  ⟨(C153_count_violated (L := exampleLang .int) (a := (.int, 3)) (b := (.int, 5)) (K := ⟨4, false, 0, id⟩) rfl rfl (by decide)).1,
    C153_count_partial (by decide) (by decide) (.inl (by decide)),
    (C153_list .brace (by decide) (by decide) (by decide)).1 (by decide),
    C153_range (e := .int) .brace rfl rfl rfl (.inr rfl),
    C153_count_partial (by decide) (by decide) (.inr (by decide)),
    (C153_size (by decide)).1 rfl,
    (C153_list .brace (by decide) (by decide) (by decide)).2 ⟨(.double, 5), by decide, rfl⟩,
    (C153_brace_count .brace (by decide)).2 (by decide)⟩

end Verif.FixedVector.Select
