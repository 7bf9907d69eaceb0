import Verif.Result.ModelHelper

/-!
# C106: the argument of `Ok` and `Err`
-/

namespace Verif.Result.Helper
open Verif.Cpp

variable {T : Type}

/-! ## Specification -/

/-- The result variable `r` holds `v`, as an error or as a value. -/
def Holds (s : St T) (r : Nat) (isErr : Bool) (v : T) : Prop := s.results r = some (isErr, v)

/-- A step that leaves object `a` as it is, whatever helpers exist: it does not begin, end or assign it; conversions of helpers are excluded, as they may move from it. -/
def Step.leaves (a : Nat) : Step T → Prop
  | .begin b _ => b ≠ a
  | .finish b => b ≠ a
  | .assign b _ => b ≠ a
  | .make _ _ _ _ => True
  | .convert _ _ => False
  | .direct _ _ rvalue b => rvalue = true → b ≠ a

/-- A step that does not replace the helper in variable `h`. -/
def Step.keeps (h : Nat) : Step T → Prop
  | .make k _ _ _ => k ≠ h
  | _ => True

theorem put_same {α : Type} (f : Nat → Option α) (i : Nat) (x : Option α) : put f i x i = x := by simp [put]
theorem put_other {α : Type} (f : Nat → Option α) {i k : Nat} (x : Option α) (h : k ≠ i) : put f i x k = f k := by simp [put, h]

theorem construct_ok (mf : T → T) {s : St T} {r : Nat} {h : Helper} {v : T} (hv : s.mem h.arg = some v) :
    ∃ s', construct mf s r h = .ok s' ∧ Holds s' r h.isErr v ∧ s'.helpers = s.helpers ∧
      s'.mem = if h.rvalue then put s.mem h.arg (some (mf v)) else s.mem :=
  ⟨{ s with mem := if h.rvalue then put s.mem h.arg (some (mf v)) else s.mem, results := put s.results r (some (h.isErr, v)) },
    by simp only [construct, hv], put_same _ _ _, rfl, rfl⟩

/-- C106 (the usual way): `return Nz::Ok(x);` and `Result r = Nz::Err(std::move(x));` give a result with the value of `x`; `x` keeps its value unless it was given as an rvalue, and is
moved from exactly once otherwise; other objects are unchanged. -/
theorem C106_direct (mf : T → T) {s : St T} {a : Nat} {v : T} (hv : s.mem a = some v) (r : Nat) (isErr rvalue : Bool) :
    ∃ s', step mf s (.direct r isErr rvalue a) = .ok s' ∧ Holds s' r isErr v ∧ s'.mem a = some (if rvalue then mf v else v) ∧
      ∀ b, b ≠ a → s'.mem b = s.mem b := by
  obtain ⟨s', e, h1, _, h3⟩ := construct_ok mf (s := s) (r := r) (h := ok isErr rvalue a) hv
  refine ⟨s', e, h1, ?_, fun b hb => ?_⟩
  · rw [h3]; cases rvalue <;> simp [ok, put_same, hv]
  · rw [h3]; cases rvalue <;> simp [ok, put_other _ _ hb]

example : (⟨put (fun _ => none) 3 (some 7), fun _ => none, fun _ => none⟩ : St Nat).mem 3 = some 7 := rfl

theorem step_leaves (mf : T → T) {s s' : St T} {x : Step T} {a h : Nat} (h1 : x.leaves a) (h2 : x.keeps h) (e : step mf s x = .ok s') :
    s'.mem a = s.mem a ∧ s'.helpers h = s.helpers h := by
  cases x with
  | «begin» b v => cases e; exact ⟨put_other _ _ (fun h => h1 h.symm), rfl⟩
  | finish b => cases e; exact ⟨put_other _ _ (fun h => h1 h.symm), rfl⟩
  | assign b v =>
    simp only [step] at e
    split at e
    · cases e; exact ⟨put_other _ _ (fun h => h1 h.symm), rfl⟩
    · cases e
  | make k isErr rvalue b => cases e; exact ⟨rfl, put_other _ _ (fun h => h2 h.symm)⟩
  | convert r k => exact absurd h1 id
  | direct r isErr rvalue b =>
    simp only [step, construct] at e
    split at e
    · cases e
    · cases e
      refine ⟨?_, rfl⟩
      cases rvalue
      · simp [ok]
      · simp only [ok]
        exact put_other _ _ (fun h => h1 rfl h.symm)

theorem run_leaves (mf : T → T) {s s' : St T} (xs : List (Step T)) {a h : Nat} (h1 : ∀ x ∈ xs, x.leaves a) (h2 : ∀ x ∈ xs, x.keeps h)
    (e : run mf xs s = .ok s') : s'.mem a = s.mem a ∧ s'.helpers h = s.helpers h := by
  induction xs generalizing s with
  | nil => cases e; exact ⟨rfl, rfl⟩
  | cons x xs ih =>
    rw [run] at e
    cases hx : step mf s x with
    | error err => rw [hx] at e; cases e
    | ok t =>
      rw [hx] at e
      obtain ⟨k1, k2⟩ := ih (fun x h => h1 x (by simp [h])) (fun x h => h2 x (by simp [h])) e
      obtain ⟨l1, l2⟩ := step_leaves mf (h1 x (by simp)) (h2 x (by simp)) hx
      exact ⟨k1.trans l1, k2.trans l2⟩

/-- C106 (part): a result made from a helper that was kept in a variable has the value that the argument of `Ok` (`Err`) had, if the argument is left as it is in between.  Missing:
`C106_dangling_violated`, `C106_changed_violated`, `C106_twice_violated`. -/
theorem C106_kept_partial (mf : T → T) {s s' : St T} {a : Nat} {v : T} (hv : s.mem a = some v) (h r : Nat) (isErr rvalue : Bool) (between : List (Step T))
    (h1 : ∀ x ∈ between, x.leaves a) (h2 : ∀ x ∈ between, x.keeps h) (e : run mf (.make h isErr rvalue a :: between) s = .ok s') :
    ∃ t, step mf s' (.convert r h) = .ok t ∧ Holds t r isErr v := by
  rw [run] at e
  obtain ⟨k1, k2⟩ := run_leaves mf between h1 h2 e
  have hh : s'.helpers h = some (ok isErr rvalue a) := k2.trans (put_same _ _ _)
  obtain ⟨t, et, ht, _⟩ := construct_ok mf (s := s') (r := r) (h := ok isErr rvalue a) (v := v) (k1.trans hv)
  exact ⟨t, by simp only [step, hh]; exact et, ht⟩

example : (run (T := Nat) (fun _ => 0) [.begin 0 5, .make 0 true true 0, .begin 1 6, .direct 2 false true 1]
    ⟨fun _ => none, fun _ => none, fun _ => none⟩).toOption.isSome = true := by decide +kernel

/-- A step that does not make a new object at address `a`. -/
def Step.notAt (a : Nat) : Step T → Prop
  | .begin b _ => b ≠ a
  | _ => True

theorem run_keeps (mf : T → T) {s s' : St T} (xs : List (Step T)) {h : Nat} (h2 : ∀ x ∈ xs, x.keeps h) (e : run mf xs s = .ok s') :
    s'.helpers h = s.helpers h := by
  induction xs generalizing s with
  | nil => cases e; rfl
  | cons x xs ih =>
    rw [run] at e
    cases hx : step mf s x with
    | error err => rw [hx] at e; cases e
    | ok t =>
      rw [hx] at e
      refine (ih (fun x h => h2 x (by simp [h])) e).trans ?_
      have := h2 x (by simp)
      cases x with
      | «begin» b v => cases hx; rfl
      | finish b => cases hx; rfl
      | assign b v =>
        simp only [step] at hx
        split at hx <;> cases hx
        rfl
      | make k isErr rvalue b => cases hx; exact put_other _ _ (fun h => this h.symm)
      | convert r k =>
        simp only [step, construct] at hx
        split at hx
        · split at hx <;> cases hx
          rfl
        · cases hx
      | direct r isErr rvalue b =>
        simp only [step, construct] at hx
        split at hx <;> cases hx
        rfl

theorem construct_dead (mf : T → T) {s s' : St T} {r a : Nat} {h : Helper} (hd : s.mem a = none) (e : construct mf s r h = .ok s') : s'.mem a = none := by
  unfold construct at e
  split at e
  · cases e
  · rename_i v hv
    cases e
    simp only
    split
    · rw [put_other _ _ (fun hh => by rw [hh, hv] at hd; cases hd)]; exact hd
    · exact hd

theorem run_dead (mf : T → T) {s s' : St T} (xs : List (Step T)) {a : Nat} (h2 : ∀ x ∈ xs, x.notAt a) (hd : s.mem a = none) (e : run mf xs s = .ok s') :
    s'.mem a = none := by
  induction xs generalizing s with
  | nil => cases e; exact hd
  | cons x xs ih =>
    rw [run] at e
    cases hx : step mf s x with
    | error err => rw [hx] at e; cases e
    | ok t =>
      rw [hx] at e
      refine ih (fun x h => h2 x (by simp [h])) ?_ e
      have := h2 x (by simp)
      cases x with
      | «begin» b v => cases hx; exact (put_other _ _ (fun h => this h.symm)).trans hd
      | finish b =>
        cases hx
        by_cases hb : a = b
        · subst hb; exact put_same _ _ _
        · exact (put_other _ _ hb).trans hd
      | assign b v =>
        simp only [step] at hx
        split at hx
        · rename_i w hw
          cases hx
          exact (put_other _ _ (fun hh => by rw [← hh, hd] at hw; cases hw)).trans hd
        · cases hx
      | make k isErr rvalue b => cases hx; exact hd
      | convert r k =>
        simp only [step] at hx
        split at hx
        · exact construct_dead mf hd hx
        · cases hx
      | direct r isErr rvalue b => exact construct_dead mf hd hx

theorem run_append (mf : T → T) (xs ys : List (Step T)) (s : St T) : run mf (xs ++ ys) s = (run mf xs s >>= run mf ys) := by
  induction xs generalizing s with
  | nil => rfl
  | cons x xs ih =>
    simp only [List.cons_append, run]
    cases step mf s x with
    | error e => rfl
    | ok t => exact ih t

/-- C106 does not hold of a helper kept beyond the life of its argument, as in `auto h = Nz::Ok(std::string("x")); return h;` or in a function that returns `auto`: whatever happens otherwise, the
conversion reads an object that has ended. -/
theorem C106_dangling_violated (mf : T → T) {s s' : St T} (a h r : Nat) (isErr rvalue : Bool) (between after : List (Step T))
    (h1 : ∀ x ∈ between ++ after, x.keeps h) (h2 : ∀ x ∈ after, x.notAt a)
    (e : run mf (.make h isErr rvalue a :: between ++ .finish a :: after) s = .ok s') : step mf s' (.convert r h) = .error .ub := by
  rw [run_append] at e
  cases e1 : run mf (.make h isErr rvalue a :: between) s with
  | error err => rw [e1] at e; cases e
  | ok t =>
    rw [e1] at e
    change run mf (.finish a :: after) t = _ at e
    rw [run] at e
    change run mf after { t with mem := put t.mem a none } = _ at e
    have hd := run_dead mf after h2 (put_same _ _ _) e
    have hh : s'.helpers h = some (ok isErr rvalue a) := by
      rw [run_keeps mf after (fun x hx => h1 x (by simp [hx])) e]
      rw [run] at e1
      exact (run_keeps mf between (fun x hx => h1 x (by simp [hx])) e1).trans (put_same _ _ _)
    simp only [step, hh, construct, ok, hd]

example : (run (T := Nat) (fun _ => 0) [.begin 0 5, .make 0 false true 0, .finish 0, .begin 1 3, .direct 2 false true 1]
    ⟨fun _ => none, fun _ => none, fun _ => none⟩).toOption.isSome = true := by decide +kernel

/-- C106 does not hold of a helper whose argument is changed before the conversion: the result has the later value. -/
theorem C106_changed_violated (mf : T → T) {s : St T} {a : Nat} {v : T} (hv : s.mem a = some v) (w : T) (h r : Nat) (isErr rvalue : Bool) :
    ∃ t, run mf [.make h isErr rvalue a, .assign a w, .convert r h] s = .ok t ∧ Holds t r isErr w := by
  simp only [run, step, bind, Except.bind, construct, put, ok, if_true, hv]
  exact ⟨_, rfl, by simp [Holds, put]⟩

/-- C106 does not hold of a helper of an rvalue that is converted twice: the second result has the moved-from value. -/
theorem C106_twice_violated (mf : T → T) {s : St T} {a : Nat} {v : T} (hv : s.mem a = some v) (h r r' : Nat) (hr : r ≠ r') (isErr : Bool) :
    ∃ t, run mf [.make h isErr true a, .convert r h, .convert r' h] s = .ok t ∧ Holds t r isErr v ∧ Holds t r' isErr (mf v) := by
  simp only [run, step, bind, Except.bind, construct, put, ok, if_true, hv]
  exact ⟨_, rfl, by simp [Holds, put, hr], by simp [Holds, put]⟩

/-- A helper of an lvalue can be converted any number of times. -/
theorem C106_lvalue_twice (mf : T → T) {s : St T} {a : Nat} {v : T} (hv : s.mem a = some v) (h r r' : Nat) (hr : r ≠ r') (isErr : Bool) :
    ∃ t, run mf [.make h isErr false a, .convert r h, .convert r' h] s = .ok t ∧ Holds t r isErr v ∧ Holds t r' isErr v ∧ t.mem a = some v := by
  simp only [run, step, bind, Except.bind, construct, put, ok, Bool.false_eq_true, if_false, if_true, hv]
  exact ⟨_, rfl, by simp [Holds, put, hr], by simp [Holds, put], hv⟩

end Verif.Result.Helper
