/-!
# Outcomes, checked memory accesses and loops of the C++ code

The model of every unit is written in the error monad `M`.  The error records *why* an execution
has no ordinary result.  Loops are combinators with Hoare-style rules.
-/

namespace Verif.Cpp

/-- Ways in which an execution of the C++ code has no ordinary result. -/
inductive Err where
  /-- a `NazaraAssert` (or `AssertFailure`) fails: `Assert.hpp:13-19`, assertions enabled -/
  | assert
  /-- undefined behaviour: out-of-range access, too wide shift, use of a dead object, ... -/
  | ub
  /-- an element constructor (or user functor) throws -/
  | throw
  /-- the loop never ends -/
  | diverge
  /-- `std::terminate`: an exception leaves a `noexcept` function -/
  | terminate
  deriving DecidableEq, Repr

/-- Outcome of a call: an error or an ordinary result. -/
abbrev M (α : Type u) := Except Err α

instance {α : Type u} [DecidableEq α] : DecidableEq (M α) := fun a b =>
  match a, b with
  | .ok x, .ok y => if h : x = y then isTrue (by rw [h]) else isFalse (by intro h'; injection h'; contradiction)
  | .error x, .error y => if h : x = y then isTrue (by rw [h]) else isFalse (by intro h'; injection h'; contradiction)
  | .ok _, .error _ => isFalse (by intro h; cases h)
  | .error _, .ok _ => isFalse (by intro h; cases h)

/-- `NazaraAssert(cond)`: `Assert.hpp:14`. -/
def assert (c : Bool) : M Unit := if c then .ok () else .error .assert

/-- A side condition without which the C++ behaviour is undefined. -/
def guardUB (c : Bool) : M Unit := if c then .ok () else .error .ub

/-- Unchecked element read `container[i]`: undefined out of range. -/
def rd {α : Type u} (l : List α) (i : Nat) : M α :=
  match l[i]? with
  | some x => .ok x
  | none => .error .ub

/-- Unchecked element write `container[i] = x`: undefined out of range. -/
def wr {α : Type u} (l : List α) (i : Nat) (x : α) : M (List α) :=
  if i < l.length then .ok (l.set i x) else .error .ub

/-- `for (i = lo; i < lo + n; ++i) s = body(i, s)`. -/
def forUp {σ : Type u} (lo : Nat) : (n : Nat) → (Nat → σ → M σ) → σ → M σ
  | 0, _, s => .ok s
  | n + 1, f, s =>
    match f lo s with
    | .ok s' => forUp (lo + 1) n f s'
    | .error e => .error e

/-- `for (i = lo + n; i > lo; --i) s = body(i, s)`. -/
def forDown {σ : Type u} (lo : Nat) : (n : Nat) → (Nat → σ → M σ) → σ → M σ
  | 0, _, s => .ok s
  | n + 1, f, s =>
    match f (lo + n + 1) s with
    | .ok s' => forDown lo n f s'
    | .error e => .error e

/-- `for (i = lo; i < lo + n; ++i) if (p(i)) return i;`: the first index of the range on which the test holds. -/
def findUp (lo : Nat) : (n : Nat) → (Nat → M Bool) → M (Option Nat)
  | 0, _ => .ok none
  | n + 1, p =>
    match p lo with
    | .ok true => .ok (some lo)
    | .ok false => findUp (lo + 1) n p
    | .error e => .error e

@[simp] theorem ok_bind {α β : Type u} (x : α) (f : α → M β) : ((Except.ok x : M α) >>= f) = f x := rfl
@[simp] theorem err_bind {α β : Type u} (e : Err) (f : α → M β) : ((Except.error e : M α) >>= f) = .error e := rfl
@[simp] theorem pure_ok {α : Type u} (x : α) : (pure x : M α) = .ok x := rfl
@[simp] theorem assert_true : assert true = .ok () := rfl
@[simp] theorem assert_false : assert false = .error .assert := rfl
@[simp] theorem guardUB_true : guardUB true = .ok () := rfl
@[simp] theorem guardUB_false : guardUB false = .error .ub := rfl

theorem rd_ok {α : Type u} {l : List α} {i : Nat} (h : i < l.length) : rd l i = .ok l[i] := by
  simp [rd, List.getElem?_eq_getElem h]

theorem rd_ub {α : Type u} {l : List α} {i : Nat} (h : l.length ≤ i) : rd l i = .error .ub := by
  simp [rd, List.getElem?_eq_none h]

theorem wr_ok {α : Type u} {l : List α} {i : Nat} {x : α} (h : i < l.length) :
    wr l i x = .ok (l.set i x) := by simp [wr, h]

/-- Invariant rule for `forUp`: the invariant `I k` holds after `k` iterations. -/
theorem forUp_ok {σ : Type u} (I : Nat → σ → Prop) {lo n : Nat} {f : Nat → σ → M σ} {s : σ}
    (h0 : I 0 s)
    (hstep : ∀ k s, k < n → I k s → ∃ s', f (lo + k) s = .ok s' ∧ I (k + 1) s') :
    ∃ s', forUp lo n f s = .ok s' ∧ I n s' := by
  induction n generalizing lo s I with
  | zero => exact ⟨s, rfl, h0⟩
  | succ n ih =>
    obtain ⟨s1, e1, i1⟩ := hstep 0 s (by omega) h0
    rw [Nat.add_zero] at e1
    obtain ⟨s2, e2, i2⟩ := ih (fun k => I (k + 1)) (lo := lo + 1) i1 (by
      intro k s hk hI
      have := hstep (k + 1) s (by omega) hI
      rwa [show lo + (k + 1) = lo + 1 + k by omega] at this)
    exact ⟨s2, by simp only [forUp, e1]; exact e2, i2⟩

/-- Invariant rule for `forDown`: the invariant `I k` holds after `k` iterations, the `k`-th
(from 0) of which has loop variable `lo + n - k`. -/
theorem forDown_ok {σ : Type u} (I : Nat → σ → Prop) {lo n : Nat} {f : Nat → σ → M σ} {s : σ}
    (h0 : I 0 s)
    (hstep : ∀ k s, k < n → I k s → ∃ s', f (lo + n - k) s = .ok s' ∧ I (k + 1) s') :
    ∃ s', forDown lo n f s = .ok s' ∧ I n s' := by
  induction n generalizing s I with
  | zero => exact ⟨s, rfl, h0⟩
  | succ n ih =>
    obtain ⟨s1, e1, i1⟩ := hstep 0 s (by omega) h0
    rw [Nat.sub_zero] at e1
    obtain ⟨s2, e2, i2⟩ := ih (fun k => I (k + 1)) i1 (by
      intro k s hk hI
      have := hstep (k + 1) s (by omega) hI
      rwa [show lo + (n + 1) - (k + 1) = lo + n - k by omega] at this)
    refine ⟨s2, ?_, i2⟩
    simp only [forDown, show lo + n + 1 = lo + (n + 1) by omega, e1]
    exact e2

/-- `findUp` with tests that do not fail is a search for the least index. -/
theorem findUp_ok {lo n : Nat} {p : Nat → M Bool} (q : Nat → Bool) (h : ∀ i, lo ≤ i → i < lo + n → p i = .ok (q i)) :
    ∃ r, findUp lo n p = .ok r ∧
      (∀ i, r = some i → lo ≤ i ∧ i < lo + n ∧ q i = true ∧ ∀ j, lo ≤ j → j < i → q j = false) ∧
      (r = none → ∀ j, lo ≤ j → j < lo + n → q j = false) := by
  induction n generalizing lo with
  | zero => exact ⟨none, rfl, by simp, by intro _ j h1 h2; omega⟩
  | succ n ih =>
    have h0 := h lo (by omega) (by omega)
    cases hq : q lo with
    | true =>
      refine ⟨some lo, by simp [findUp, h0, hq], ?_, by simp⟩
      rintro i ⟨⟩
      exact ⟨by omega, by omega, hq, by intros; omega⟩
    | false =>
      obtain ⟨r, e, h1, h2⟩ := ih (lo := lo + 1) (fun i hi1 hi2 => h i (by omega) (by omega))
      refine ⟨r, by simp [findUp, h0, hq, e], ?_, ?_⟩
      · intro i hi
        obtain ⟨a, b, c, d⟩ := h1 i hi
        refine ⟨by omega, by omega, c, fun j hj1 hj2 => ?_⟩
        rcases Nat.eq_or_lt_of_le hj1 with rfl | hlt
        · exact hq
        · exact d j hlt hj2
      · intro hr j hj1 hj2
        rcases Nat.eq_or_lt_of_le hj1 with rfl | hlt
        · exact hq
        · exact h2 hr j hlt (by omega)

/-- Width of the type in which C++ computes on an operand of `w` bits: operands narrower than
`int` are promoted to (32-bit) `int`. -/
def promoted (w : Nat) : Nat := max w 32

end Verif.Cpp
