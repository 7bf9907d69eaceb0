import Verif.EnumArray.SpecInit
import Verif.EnumArray.Props
import Mathlib.Data.List.Forall2

/-!
# Property C167: the initialisation of an `EnumArray`
-/

namespace Verif.EnumArray.Init
open Verif.Cpp

variable {base : Nat → Option Nat}

private theorem element_some {t : Ty} {c : Clause} {v : Val} (h : declareWith base t c = some v) (rest : List Clause) :
    element base (fill base t) t (c :: rest) = some (rest, v) := by
  cases c with
  | expr e => simp only [declareWith] at h; simp only [element, h]
  | braced cs => simp only [declareWith, declareBraces] at h; simp only [element, h, Option.map_some]

private theorem times_some {t : Ty} {cs : List Clause} {vs : List Val} (h : List.Forall₂ (fun c v => declareWith base t c = some v) cs vs) :
    ∀ n, times (element base (fill base t) t) n cs = some (cs.drop n, vs.take n ++ List.replicate (n - vs.length) (zero t)) := by
  induction h with
  | nil =>
    intro n
    induction n with
    | zero => rfl
    | succ n ih => simp only [times, element]; simp [ih, List.replicate_succ]
  | cons h hs ih =>
    intro n
    cases n with
    | zero => simp [times]
    | succ n => simp only [times, element_some h]; simp [ih n]

private theorem fill_arr {t : Ty} {cs : List Clause} {vs : List Val} (h : List.Forall₂ (fun c v => declareWith base t c = some v) cs vs) (n : Nat) :
    fill base (.arr n t) cs = some (cs.drop n, .arr (vs.take n ++ List.replicate (n - vs.length) (zero t))) := by
  rw [fill]
  show (times (element base (fill base t) t) n cs).bind _ = _
  rw [times_some h]
  rfl

private theorem fill_single (name : Nat) (t : Ty) (cs : List Clause) :
    fill base (.cls name [t]) cs = (element base (fill base t) t cs).map (fun p => (p.1, .cls name [p.2])) := by
  rw [fill, fillAll]
  show ((element base (fill base t) t cs).bind _).bind _ = _
  cases element base (fill base t) t cs with
  | none => rfl
  | some p => simp [fillAll]

private theorem listInit_arr (n : Nat) (t : Ty) (cs : List Clause) :
    listInit base (fill base (.arr n t)) (.arr n t) cs = complete (fill base (.arr n t) cs) := by
  unfold listInit
  rfl

private theorem listInit_cls (name : Nat) (ts : List Ty) (cs : List Clause) (h : ∀ v, cs = [.expr v] → convert base (.cls name ts) v = none) :
    listInit base (fill base (.cls name ts)) (.cls name ts) cs = complete (fill base (.cls name ts) cs) := by
  match cs, h with
  | [], _ => rfl
  | [.expr v], h => simp only [listInit, h v rfl]
  | [.braced _], _ => rfl
  | .expr _ :: _ :: _, _ => rfl
  | .braced _ :: _ :: _, _ => rfl

private theorem complete_map (f : Val → Val) (p : Option (List Clause × Val)) : complete (p.map (fun p => (p.1, f p.2))) = (complete p).map f := by
  rcases p with _ | ⟨_ | _, v⟩ <;> rfl

/-- The declaration with one, two and three pairs of braces, by what the array of elements gets. -/
private theorem one (C : Classes) (n : Nat) (V : Ty) (cs : List Clause) (h : ∀ v, cs = [.expr v] → convert C.base (C.enum n V) v = none) :
    declareBraces C.base (C.enum n V) cs = (complete (element C.base (fill C.base (C.array n V)) (C.array n V) cs)).map (fun v => .cls C.enumArray [v]) := by
  unfold declareBraces Classes.enum at *
  rw [listInit_cls _ _ _ h, fill_single, complete_map (fun v => .cls C.enumArray [v])]

private theorem two (C : Classes) (n : Nat) (V : Ty) (cs : List Clause) (h : ∀ v, cs = [.expr v] → convert C.base (C.array n V) v = none) :
    declareBraces C.base (C.enum n V) [.braced cs] =
      (complete (element C.base (fill C.base (.arr n V)) (.arr n V) cs)).map (fun v => .cls C.enumArray [.cls C.stdArray [v]]) := by
  rw [one _ _ _ _ (by simp)]
  unfold Classes.array at *
  rw [element, listInit_cls _ _ _ h, fill_single, complete_map (fun v => .cls C.stdArray [v])]
  cases complete (element C.base (fill C.base (.arr n V)) (.arr n V) cs) <;> rfl

private theorem three (C : Classes) (n : Nat) (V : Ty) (cs : List Clause) :
    declareBraces C.base (C.enum n V) [.braced [.braced cs]] =
      (complete (fill C.base (.arr n V) cs)).map (fun v => .cls C.enumArray [.cls C.stdArray [v]]) := by
  rw [two _ _ _ _ (by simp), element, listInit_arr]
  cases complete (fill C.base (.arr n V) cs) <;> rfl

private theorem complete_arr {t : Ty} {cs : List Clause} {vs : List Val} (h : List.Forall₂ (fun c v => declareWith base t c = some v) cs vs) (n : Nat) :
    complete (fill base (.arr n t) cs) = if vs.length ≤ n then some (.arr (vs ++ List.replicate (n - vs.length) (zero t))) else none := by
  rw [fill_arr h]
  have hl := h.length_eq
  split
  · rw [List.drop_eq_nil_of_le (by omega), List.take_of_length_le (by omega)]; rfl
  · have : cs.drop n ≠ [] := by rw [Ne, List.drop_eq_nil_iff]; omega
    cases e : cs.drop n with
    | nil => exact absurd e this
    | cons => rfl

/-- C167: with three pairs of braces, `EnumArray<E, V> x { { { c0, c1, ... } } };`, whatever the type of the values and whatever the initialisers, each a list in braces or an expression: the values
are those that the declarations `V v = c0;`, `V v = c1;` and so on make, in this order, followed by zeros; more initialisers than enumerators are refused. -/
theorem C167_braces_partial (C : Classes) (n : Nat) (V : Ty) (cs : List Clause) (vs : List Val) (h : List.Forall₂ (fun c v => declareWith C.base V c = some v) cs vs) :
    declareBraces C.base (C.enum n V) [.braced [.braced cs]] =
      if vs.length ≤ n then some (C.object (vs ++ List.replicate (n - vs.length) (zero V))) else none := by
  rw [three, complete_arr h]
  split <;> rfl

private theorem Classes.Other.enum {C : Classes} {v : Val} (h : C.Other v) (n : Nat) (V : Ty) : convert C.base (C.enum n V) v = none := by
  cases v with
  | cls name vs => obtain ⟨h1, h2, h3, h4⟩ := h; simp [Classes.enum, convert, h1, h3]
  | num => rfl
  | arr => rfl

private theorem Classes.Other.array {C : Classes} {v : Val} (h : C.Other v) (n : Nat) (V : Ty) : convert C.base (C.array n V) v = none := by
  cases v with
  | cls name vs => obtain ⟨h1, h2, h3, h4⟩ := h; simp [Classes.array, convert, h2, h4]
  | num => rfl
  | arr => rfl

/-- C167: if the initialisers are expressions, one and two pairs of braces do the same as three: `EnumArray<E, V> x { e0, e1, ... };`. -/
theorem C167_expressions_partial (C : Classes) (n : Nat) (V : Ty) (es vs : List Val) (h : List.Forall₂ (fun e v => convert C.base V e = some v) es vs) (ho : ∀ e ∈ es, C.Other e) :
    let x := if vs.length ≤ n then some (C.object (vs ++ List.replicate (n - vs.length) (zero V))) else none
    declareBraces C.base (C.enum n V) (es.map .expr) = x ∧ declareBraces C.base (C.enum n V) [.braced (es.map .expr)] = x := by
  have h' : List.Forall₂ (fun c v => declareWith C.base V c = some v) (es.map .expr) vs := by
    rw [List.forall₂_map_left_iff]
    exact h
  have hs : ∀ v, es.map Clause.expr = [.expr v] → C.Other v := by
    intro v e
    cases es with
    | nil => simp at e
    | cons a es =>
      injection e with e1 e2
      injection e1 with e1
      subst e1
      exact ho a (by simp)
  have harr : complete (element C.base (fill C.base (.arr n V)) (.arr n V) (es.map .expr)) =
      if vs.length ≤ n then some (.arr (vs ++ List.replicate (n - vs.length) (zero V))) else none := by
    rw [← complete_arr h' n]
    cases es with
    | nil => rw [fill_arr h']; cases h; simp [element, complete, zero]
    | cons e es => cases e <;> rfl
  refine ⟨?_, ?_⟩
  · rw [one _ _ _ _ (fun v e => (hs v e).enum n V)]
    have : element C.base (fill C.base (C.array n V)) (C.array n V) (es.map .expr) = (element C.base (fill C.base (.arr n V)) (.arr n V) (es.map .expr)).map (fun p => (p.1, .cls C.stdArray [p.2])) := by
      cases es with
      | nil => rfl
      | cons e es =>
        have := (ho e (by simp)).array n V
        rw [List.map_cons, element, this]
        show fill C.base (.cls _ [_]) _ = _
        rw [fill_single]
    rw [this, complete_map (fun v => .cls C.stdArray [v]), harr]
    split <;> rfl
  · rw [two _ _ _ _ (fun v e => (hs v e).array n V), harr]
    split <;> rfl

/-- C167: the value of each enumerator after the initialisation: the one at its place, zero if there is none. -/
theorem C167_lookup {E : Enum} {B : Bound} (hB : B.Declared E) (C : Classes) (V : Ty) (cs : List Clause) (vs : List Val)
    (h : List.Forall₂ (fun c v => declareWith C.base V c = some v) cs vs) (hl : vs.length ≤ valueCount B) :
    ∃ a, declareBraces C.base (C.enum (valueCount B) V) [.braced [.braced cs]] = some (C.object a) ∧ a.length = valueCount B ∧
      ∀ e, B.Has e → get a e = .ok (vs[e.toNat]?.getD (zero V)) := by
  refine ⟨_, by rw [C167_braces_partial C _ V cs vs h, if_pos hl], by simp; omega, ?_⟩
  intro e he
  obtain ⟨h0, h1⟩ := (C56_size hB e).mp he
  generalize hv : vs ++ List.replicate (valueCount B - vs.length) (zero V) = a
  have ha : a.length = valueCount B := by rw [← hv]; simp; omega
  obtain ⟨hl', hg⟩ := get_ok hB ha he
  rw [hg]
  congr 1
  subst hv
  rw [List.getElem_append]
  split
  · rename_i h; rw [List.getElem?_eq_getElem h]; rfl
  · rename_i h; rw [List.getElem?_eq_none (by omega), List.getElem_replicate]; rfl

/-- C167: an `EnumArray` or a `std::array` is copied, with any object of the class of values. -/
theorem C167_copy (C : Classes) (n : Nat) (V : Ty) (vs : List Val) :
    declareBraces C.base (C.enum n V) [.expr (C.object vs)] = some (C.object vs) ∧
      declareBraces C.base (C.enum n V) [.expr (.cls C.stdArray [.arr vs])] = some (C.object vs) ∧
      declareBraces C.base (C.enum n V) [.braced [.expr (C.object vs)]] = some (C.object vs) := by
  have h1 := C.distinct
  have h2 := C.derives
  have h3 := C.root
  refine ⟨?_, ?_, ?_⟩
  · simp [declareBraces, Classes.enum, listInit, convert, Classes.object]
  · rw [one _ _ _ _ (by intro v e; simp only [List.cons.injEq, Clause.expr.injEq, and_true] at e; subst e; simp [Classes.enum, convert, h1.symm, h3])]
    simp [element, Classes.array, convert, complete, Classes.object]
  · rw [one _ _ _ _ (by simp)]
    simp [element, Classes.array, listInit, convert, complete, Classes.object, h1, h2]

/-- C167: but lists in braces for the values need all three pairs: with one or two pairs, two or more initialisers the first of which is a list in braces are refused, even if each of them is right for
a value. -/
theorem C167_lists_violated (C : Classes) (n : Nat) (V : Ty) (c : List Clause) (c' : Clause) (cs : List Clause) :
    declareBraces C.base (C.enum n V) (.braced c :: c' :: cs) = none ∧ declareBraces C.base (C.enum n V) [.braced (.braced c :: c' :: cs)] = none := by
  refine ⟨?_, ?_⟩
  · rw [one _ _ _ _ (by simp), element]
    cases listInit C.base (fill C.base (C.array n V)) (C.array n V) c <;> rfl
  · rw [two _ _ _ _ (by simp), element]
    cases listInit C.base (fill C.base (.arr n V)) (.arr n V) c <;> rfl

/-- A class of two numbers, and a class of two of those, and a class of one of these. -/
def pair : Ty := .cls 10 [.num, .num]
def pairs : Ty := .cls 11 [pair, pair]
def holder : Ty := .cls 12 [pairs]

/-- C167: and a single one may be taken for something else: the initialiser `{ { { x }, { y } } }` makes a value with the two pairs (x, 0) and (y, 0); an `EnumArray` declared with this initialiser for
its first value gets (x, 0) in the first value and (y, 0) in the second one. -/
theorem C167_single_violated (C : Classes) (n : Nat) (x y : Int) :
    let c : Clause := .braced [.braced [.braced [.expr (.num x)], .braced [.expr (.num y)]]]
    let p (x : Int) : Val := .cls 10 [.num x, .num 0]
    let v (x y : Int) : Val := .cls 12 [.cls 11 [p x, p y]]
    declareWith C.base holder c = some (v x y) ∧
      declareBraces C.base (C.enum (n + 2) holder) [.braced [.braced [c]]] = some (C.object (v x y :: List.replicate (n + 1) (v 0 0))) ∧
      declareBraces C.base (C.enum (n + 2) holder) [c] = some (C.object (v x 0 :: v y 0 :: List.replicate n (v 0 0))) := by
  have h1 : ∀ x y, declareWith C.base holder (.braced [.braced [.braced [.expr (.num x)], .braced [.expr (.num y)]]]) = some (.cls 12 [.cls 11 [.cls 10 [.num x, .num 0], .cls 10 [.num y, .num 0]]]) :=
    fun x y => rfl
  have h2 : ∀ x, declareWith C.base holder (.braced [.expr (.num x)]) = some (.cls 12 [.cls 11 [.cls 10 [.num x, .num 0], .cls 10 [.num 0, .num 0]]]) := fun x => rfl
  refine ⟨h1 x y, ?_, ?_⟩
  · exact (C167_braces_partial C (n + 2) holder [_] [_] (.cons (h1 x y) .nil)).trans rfl
  · exact (C167_braces_partial C (n + 2) holder [_, _] [_, _] (.cons (h2 x) (.cons (h2 y) .nil))).trans (if_pos (by simp))

private theorem numbers_replicate (v : Val) (k : Nat) (h : v.numbers = List.replicate k 0) (n : Nat) : allNumbers (List.replicate n v) = List.replicate (n * k) 0 := by
  induction n with
  | zero => simp [allNumbers]
  | succ n ih => rw [List.replicate_succ, allNumbers, h, ih, List.replicate_append_replicate, Nat.succ_mul, Nat.add_comm]

mutual
private theorem numbers_zero : ∀ t : Ty, (zero t).numbers = List.replicate t.count 0
  | .num => rfl
  | .cls _ ts => by rw [zero, Val.numbers, Ty.count, numbers_zeros ts]
  | .arr n t => by rw [zero, Val.numbers, Ty.count, numbers_replicate _ _ (numbers_zero t)]
private theorem numbers_zeros : ∀ ts : List Ty, allNumbers (zeros ts) = List.replicate (countAll ts) 0
  | [] => rfl
  | t :: ts => by rw [zeros, allNumbers, countAll, numbers_zero t, numbers_zeros ts, List.replicate_append_replicate]
end

/-- C167: `EnumArray<E, V> x {};`, with any number of pairs of braces up to three: one value for each enumerator, all of whose numbers are zero. -/
theorem C167_empty (C : Classes) (n : Nat) (V : Ty) :
    ∃ vs, (∀ cs ∈ [[], [.braced []], [.braced [.braced []]]], declareBraces C.base (C.enum n V) cs = some (C.object vs)) ∧ vs.length = n ∧
      ∀ v ∈ vs, v.numbers = List.replicate V.count 0 := by
  refine ⟨List.replicate n (zero V), ?_, by simp, ?_⟩
  · obtain ⟨h1, h2⟩ := C167_expressions_partial C n V [] [] .nil (by simp)
    have h3 := C167_braces_partial C n V [] [] .nil
    intro cs hcs
    simp only [List.mem_cons, List.not_mem_nil, or_false] at hcs
    rcases hcs with rfl | rfl | rfl
    · simpa using h1
    · simpa using h2
    · simpa using h3
  · intro v hv
    rw [List.eq_of_mem_replicate hv, numbers_zero]

private theorem fillAll_nil : ∀ ts : List Ty, fillAll base ts [] = some ([], zeros ts)
  | [] => by simp [fillAll, zeros]
  | t :: ts => by
    rw [fillAll, element]
    show (fillAll base ts []).bind _ = _
    rw [fillAll_nil ts]; rfl

/-- C167: an element written as `{}` has zeros only, for all types of elements, as if no clause was left for it. -/
theorem C167_empty_element (C : Classes) (V : Ty) : ∃ v, declareWith C.base V (.braced []) = some v ∧ v.numbers = List.replicate V.count 0 := by
  refine ⟨zero V, ?_, numbers_zero V⟩
  cases V with
  | num => rfl
  | cls name ts =>
    show complete (fill C.base (.cls name ts) []) = _
    rw [fill, fillAll_nil]; rfl
  | arr n t =>
    show complete (fill C.base (.arr n t) []) = _
    rw [fill_arr .nil]
    simp [complete, zero]

/-- `EnumArray<E, int> a {{{ 7, {}, 9 }}}` -/
example (C : Classes) : declareBraces C.base (C.enum 3 .num) [.braced [.braced [.expr (.num 7), .braced [], .expr (.num 9)]]] = some (C.object [.num 7, .num 0, .num 9]) :=
  C167_braces_partial C 3 .num _ [.num 7, .num 0, .num 9] (.cons rfl (.cons rfl (.cons rfl .nil)))

private theorem fillAll_numbers : ∀ (m : Nat) (xs : List Int), fillAll base (List.replicate m .num) (xs.map (fun x => .expr (.num x))) =
    some ((xs.drop m).map (fun x => .expr (.num x)), (xs.take m ++ List.replicate (m - xs.length) 0).map .num)
  | 0, xs => by simp [fillAll]
  | m + 1, [] => by
    have := fillAll_numbers m []
    simp only [List.map_nil, List.drop_nil] at this
    rw [List.replicate_succ, List.map_nil, fillAll]
    simp [element, this, zero, List.replicate_succ]
  | m + 1, x :: xs => by
    have := fillAll_numbers m xs
    rw [List.replicate_succ, List.map_cons, fillAll]
    simp only [element, convert]
    simp [this]

private theorem zeros_numbers (m : Nat) : zeros (List.replicate m .num) = List.replicate m (.num 0) := by
  induction m with
  | zero => rfl
  | succ m ih => rw [List.replicate_succ, zeros, ih]; rfl

private theorem groups_nil (name m n : Nat) : groups name m n [] = List.replicate n (zero (.cls name (List.replicate m .num))) := by
  induction n with
  | zero => rfl
  | succ n ih => rw [groups, List.drop_nil, ih, List.replicate_succ, zero, zeros_numbers]; simp

private theorem times_numbers (name m : Nat) : ∀ (n : Nat) (xs : List Int),
    times (element base (fill base (.cls name (List.replicate m .num))) (.cls name (List.replicate m .num))) n (xs.map (fun x => .expr (.num x))) =
      some ((xs.drop (n * m)).map (fun x => .expr (.num x)), groups name m n xs)
  | 0, xs => by simp [times, groups]
  | n + 1, xs => by
    have ih := times_numbers name m n (xs.drop m)
    have h : element base (fill base (.cls name (List.replicate m .num))) (.cls name (List.replicate m .num)) (xs.map (fun x => .expr (.num x))) =
        some ((xs.drop m).map (fun x => .expr (.num x)), .cls name ((xs.take m ++ List.replicate (m - xs.length) 0).map .num)) := by
      have hf : fill base (.cls name (List.replicate m .num)) (xs.map (fun x => .expr (.num x))) =
          some ((xs.drop m).map (fun x => .expr (.num x)), .cls name ((xs.take m ++ List.replicate (m - xs.length) 0).map .num)) := by
        rw [fill, fillAll_numbers]; rfl
      cases xs with
      | nil => simp [element, zero, zeros_numbers]
      | cons x xs => exact hf
    rw [times, h]
    show (times _ _ _).bind _ = _
    rw [ih]
    simp [groups, Nat.succ_mul, Nat.add_comm]

/-- C167: numbers without inner braces fill values that are classes of `m` numbers one after the other, `m` numbers each; more numbers than there are in the array are refused. -/
theorem C167_numbers (C : Classes) (n m name : Nat) (xs : List Int) :
    declareBraces C.base (C.enum n (.cls name (List.replicate m .num))) (xs.map (fun x => .expr (.num x))) =
      if xs.length ≤ n * m then some (C.object (groups name m n xs)) else none := by
  rw [one _ _ _ _ (by intro v e; cases xs with
    | nil => simp at e
    | cons x xs => simp only [List.map_cons, List.cons.injEq, Clause.expr.injEq] at e; rw [← e.1]; rfl)]
  have h : fill C.base (.arr n (.cls name (List.replicate m .num))) (xs.map (fun x => .expr (.num x))) =
      some ((xs.drop (n * m)).map (fun x => .expr (.num x)), .arr (groups name m n xs)) := by
    rw [fill]
    show (times (element C.base (fill C.base (.cls name (List.replicate m .num))) _) n _).bind _ = _
    rw [times_numbers]; rfl
  have h2 : element C.base (fill C.base (C.array n (.cls name (List.replicate m .num)))) (C.array n (.cls name (List.replicate m .num))) (xs.map (fun x => .expr (.num x))) =
      some ((xs.drop (n * m)).map (fun x => .expr (.num x)), .cls C.stdArray [.arr (groups name m n xs)]) := by
    cases xs with
    | nil => simp [element, Classes.array, groups_nil, zero, zeros]
    | cons x xs =>
      show fill C.base (.cls _ [_]) _ = _
      rw [fill_single]
      show Option.map _ (fill C.base (.arr n (.cls name (List.replicate m .num))) ((x :: xs).map (fun x => .expr (.num x)))) = _
      rw [h]; rfl
  rw [h2]
  split
  · rw [List.drop_eq_nil_of_le (by assumption)]; rfl
  · cases e : xs.drop (n * m) with
    | nil => rw [List.drop_eq_nil_iff] at e; contradiction
    | cons => rfl

/-- A program with these classes. -/
def classes : Classes := ⟨1, 0, fun n => if n = 1 then some 0 else none, rfl, rfl, by decide⟩

example : List.Forall₂ (fun c v => declareWith classes.base pair c = some v) [.braced [.expr (.num 3)], .expr (.cls 10 [.num 1, .num 2])] [.cls 10 [.num 3, .num 0], .cls 10 [.num 1, .num 2]] :=
  .cons rfl (.cons rfl .nil)
example : classes.Other (.cls 10 [.num 1, .num 2]) ∧ classes.Other (.num 5) := ⟨by simp [classes, Classes.Other], trivial⟩

end Verif.EnumArray.Init
