import Verif.StackAlloc.Model

/-!
# C103, C104: memory for stack vectors and arrays
-/

namespace Verif.StackAlloc
open Verif.Cpp
open Verif.FixedVector (St Arg mSize setSize)
open Verif.StackVector (Op runAll okAll specAll Shows)

variable {S α : Type}

/-! ## Specification -/

/-- An expression without side effects whose value is `n`. -/
def Expr.Is (e : Expr S) (n : Int) : Prop := ∀ s, e s = (s, n)

/-- The expression `i++`, for a variable `i` that is the state. -/
def postIncrement : Expr Nat := fun i => (i + 1, (i : Int))

/-- An expression that also counts its evaluations. -/
def Expr.counted (e : Expr S) : Expr (S × Nat) := fun s => ((((e s.1).1), s.2 + 1), (e s.1).2)

/-! ## C103 -/

theorem toSize_nat {n : Nat} (h : n < 2 ^ 64) : toSize (n : Int) = n := by
  unfold toSize
  omega

theorem product_pure {e : Expr S} {v : Int} (h : e.Is v) (elem : Nat) (s : S) :
    product e elem s = (s, toSize v * elem % 2 ^ 64) := by
  simp only [product, h s]

theorem alloca_pure {e : Expr S} {v : Int} (h : e.Is v) (p : Platform) (elem : Nat) (s : S) :
    nazaraAlloca p e elem s =
      (s, if p = .gnu ∧ toSize v * elem % 2 ^ 64 = 0 then 1 else toSize v * elem % 2 ^ 64) := by
  cases p <;> simp only [nazaraAlloca, product_pure h, reduceCtorEq, false_and, if_false, true_and]
  split <;> split <;> first | rfl | omega

theorem arguments_pure {e : Expr S} {v : Int} (h : e.Is v) (p : Platform) (mf : Bool) (elem : Nat) (s : S) :
    arguments p mf e elem s =
      (s, ⟨if p = .gnu ∧ toSize v * elem % 2 ^ 64 = 0 then 1 else toSize v * elem % 2 ^ 64, toSize v⟩) := by
  unfold arguments
  cases mf <;> simp only [alloca_pure h, h s, if_true, if_false, Bool.false_eq_true]

/-- C103 (part): for a size expression without side effects, and a size in bytes that fits in `size_t`, the vector (array) is given that capacity and
memory for at least that many elements, on every platform; the state of the program is unchanged.  What is missing: `C103_overflow_violated`,
`C103_side_effects_violated`. -/
theorem C103_room_partial {e : Expr S} {n : Nat} (he : e.Is n) (p : Platform) (mf : Bool) {elem : Nat} (h0 : 0 < elem) (hfit : n * elem < 2 ^ 64)
    (s : S) : ∃ bytes, arguments p mf e elem s = (s, ⟨bytes, n⟩) ∧ n * elem ≤ bytes ∧ bytes ≤ max (n * elem) 1 := by
  have hn : n < 2 ^ 64 := Nat.lt_of_le_of_lt (Nat.le_mul_of_pos_right n h0) hfit
  rw [arguments_pure he, toSize_nat hn, Nat.mod_eq_of_lt hfit]
  refine ⟨_, rfl, ?_, ?_⟩ <;> split <;> omega

example : Expr.Is (fun s : Nat => (s, 3)) ((3 : Nat) : Int) ∧ 3 * 24 < 2 ^ 64 := ⟨fun _ => rfl, by decide⟩
example : arguments .gnu true (fun s : Nat => (s, 3)) 24 7 = (7, ⟨72, 3⟩) ∧ arguments .gnu true (fun s : Nat => (s, 0)) 24 7 = (7, ⟨1, 0⟩) ∧
    arguments .windows false (fun s : Nat => (s, 0)) 24 7 = (7, ⟨0, 0⟩) := by decide +kernel

theorem slots_pure {e : Expr S} {n : Nat} (he : e.Is n) (p : Platform) (mf : Bool) {elem : Nat} (h0 : 0 < elem) (hfit : n * elem < 2 ^ 64)
    (s : S) : ∃ k, (arguments p mf e elem s).1 = s ∧ (arguments p mf e elem s).2.slots elem = k ∧ (arguments p mf e elem s).2.capacity = n ∧
      (k = n ∨ n = 0) := by
  obtain ⟨b, hb, h1, h2⟩ := C103_room_partial he p mf h0 hfit s
  refine ⟨b / elem, by rw [hb], by rw [hb]; rfl, by rw [hb], ?_⟩
  rcases Nat.eq_zero_or_pos n with h | h
  · exact .inr h
  · have : 0 < n * elem := Nat.mul_pos h h0
    have : b = n * elem := by omega
    rw [this, Nat.mul_div_cancel _ h0]
    exact .inl rfl

/-- A vector of capacity 0 does nothing, whatever its buffer. -/
theorem empty_run (k : Nat) (dflt : α) (mv : α → α) (o : Op α) (h : o.ok 0 []) :
    o.run 0 dflt mv (StackVector.new k) = .done (StackVector.new k) (o.spec []).2 ∧ (o.spec []).1 = [] := by
  cases o with
  | pushBack v => simp [Op.ok] at h
  | emplace i v => simp [Op.ok] at h
  | erase i => simp [Op.ok] at h
  | eraseRange f t =>
    have : t = 0 := by simpa using h.2
    subst this
    have : f = 0 := by simpa using h.1
    subst this
    exact ⟨rfl, rfl⟩
  | popBack => simp [Op.ok] at h
  | resize n v =>
    have : n = 0 := by simpa [Op.ok] using h
    subst this
    exact ⟨rfl, by simp [Op.spec]⟩
  | assignAt i v => simp [Op.ok] at h
  | clear => exact ⟨rfl, rfl⟩

theorem empty_runAll (k : Nat) (dflt : α) (mv : α → α) (os : List (Op α)) (h : okAll 0 os []) :
    runAll 0 dflt mv os (StackVector.new k) = .done (StackVector.new k) (specAll os []).2 ∧ (specAll os []).1 = [] := by
  induction os with
  | nil => exact ⟨rfl, rfl⟩
  | cons o os ih =>
    obtain ⟨e1, e2⟩ := empty_run k dflt mv o h.1
    have h2 := h.2
    rw [e2] at h2
    obtain ⟨e3, e4⟩ := ih h2
    constructor
    · rw [runAll, X.bind_done e1, X.bind_done e3]
      simp only [specAll, e2]
      rfl
    · simp only [specAll, e2]; exact e4

/-- C103 (part): a vector made by `NazaraStackVector(T, n)` is a vector of capacity `n`: every history of calls allowed for that capacity (as in C29) runs
without failure, and the vector then shows the right sequence. -/
theorem C103_vector_partial {e : Expr S} {n : Nat} (he : e.Is n) (p : Platform) (mf : Bool) {elem : Nat} (h0 : 0 < elem) (hfit : n * elem < 2 ^ 64)
    (dflt : α) (mv : α → α) (ops : List (Op α)) (h : okAll n ops []) (s : S) :
    ∃ vec, stackVector p mf e elem s = (s, vec, n) ∧
      ∃ t, runAll n dflt mv ops vec = .done t (specAll ops []).2 ∧ Shows t (specAll ops []).1 := by
  obtain ⟨k, e1, e2, e3, hk⟩ := slots_pure he p mf h0 hfit s
  refine ⟨StackVector.new k, ?_, ?_⟩
  · simp only [stackVector, e1, e2, e3]
  · rcases hk with rfl | rfl
    · exact StackVector.C29_history k dflt mv ops h
    · obtain ⟨e4, e5⟩ := empty_runAll k dflt mv ops h
      refine ⟨_, e4, ?_⟩
      rw [e5]
      refine ⟨rfl, rfl, fun i hi => absurd hi (by simp), fun i _ => ?_, ?_, ?_⟩
      · rfl
      all_goals first | rfl | simp | trivial

/-- C103 (part): so is an array made by `NazaraStackArray(T, n)` an array of `n` value-initialised elements. -/
theorem C103_array_partial {e : Expr S} {n : Nat} (he : e.Is n) (p : Platform) (mf : Bool) {elem : Nat} (h0 : 0 < elem) (hfit : n * elem < 2 ^ 64)
    (dflt : α) (s : S) :
    ∃ arr, stackArray p mf e elem dflt s = (s, .done arr ()) ∧ mSize arr = .done arr n ∧
      ∀ i, StackVector.Arr.at' i arr = if i < n then .done arr dflt else .fail .assert := by
  obtain ⟨k, e1, e2, e3, hk⟩ := slots_pure he p mf h0 hfit s
  simp only [stackArray, e1, e2, e3]
  rcases hk with rfl | rfl
  · rw [StackVector.Arr.construct_run]
    refine ⟨_, rfl, ?_, fun i => ?_⟩
    · simp [mSize, StackVector.Arr.holding]
    · obtain ⟨h1, h2⟩ := StackVector.Arr.at_run (l := List.replicate k dflt) i
      by_cases hi : i < k
      · rw [if_pos hi, h1 (by simpa using hi)]; simp
      · rw [if_neg hi, h2 (by simpa using hi)]
  · exact ⟨_, rfl, rfl, fun i => by rw [if_neg (by omega)]; rfl⟩

/-! ### What goes wrong -/

/-- A vector that believes its buffer larger than it is. -/
theorem push_run (k C : Nat) (dflt v : α) (mv : α → α) (j i : Nat) (hC : i + j ≤ C) (hk : i + j ≤ k) :
    ∃ r, runAll C dflt mv (List.replicate j (.pushBack v)) ⟨⟨some i, Slots.ofList k (List.replicate i v), []⟩, none⟩ =
      .done ⟨⟨some (i + j), Slots.ofList k (List.replicate (i + j) v), []⟩, none⟩ r := by
  induction j generalizing i with
  | zero => exact ⟨_, rfl⟩
  | succ j ih =>
    obtain ⟨r, hr⟩ := ih (i + 1) (by omega) (by omega)
    have e1 : (Op.pushBack v).run C dflt mv ⟨⟨some i, Slots.ofList k (List.replicate i v), []⟩, none⟩ =
        .done ⟨⟨some (i + 1), Slots.ofList k (List.replicate (i + 1) v), []⟩, none⟩ (some i) := by
      have hc := FixedVector.create_ofList (n := k) (l := List.replicate i v) v (by simpa using (by omega : i < k))
      rw [List.length_replicate, ← List.replicate_succ'] at hc
      have : i < C := by omega
      simp only [Op.run, StackVector.emplaceBack, X.bind_run, mSize, this, decide_true, X.assert_true, X.pure_run, setSize, X.modify_run,
        FixedVector.construct_run hc]
    refine ⟨some i :: r, ?_⟩
    rw [List.replicate_succ, runAll, X.bind_done e1, X.bind_done hr, show i + 1 + j = i + (j + 1) by omega]
    rfl

theorem runAll_append_fail {C : Nat} {dflt : α} {mv : α → α} (os : List (Op α)) (o : Op α) {s t : St α} {r : List (Option Nat)} {err : Err}
    (h : runAll C dflt mv os s = .done t r) (h2 : o.run C dflt mv t = .fail err) : runAll C dflt mv (os ++ [o]) s = .fail err := by
  induction os generalizing s r with
  | nil =>
    cases h
    rw [List.nil_append, runAll, X.bind_fail h2]
  | cons a os ih =>
    rw [runAll, X.bind_run] at h
    rw [List.cons_append, runAll, X.bind_run]
    cases hr : a.run C dflt mv s with
    | fail e => rw [hr] at h; cases h
    | thrown s => rw [hr] at h; cases h
    | done u x =>
      rw [hr] at h
      simp only at h ⊢
      rw [X.bind_run] at h ⊢
      cases hr2 : runAll C dflt mv os u with
      | fail e => rw [hr2] at h; cases h
      | thrown s => rw [hr2] at h; cases h
      | done u2 x2 =>
        rw [hr2] at h
        simp only [X.pure_run, Out.done.injEq] at h
        rw [ih (by rw [hr2, h.1])]

theorem create_beyond (k : Nat) (v w : α) : Slots.create (Slots.ofList k (List.replicate k v)) k w = .error .ub := by
  simp [Slots.create, Slots.ofList, Slots.mk]

theorem new_eq (k : Nat) (v : α) : (StackVector.new k : St α) = ⟨⟨some 0, Slots.ofList k (List.replicate 0 v), []⟩, none⟩ := by
  have := StackVector.Arr.raw_eq (α := α) k
  simp only [StackVector.Arr.raw, FixedVector.St.mk.injEq, FixedVector.Vec.mk.injEq, and_true, true_and] at this
  simp [StackVector.new, this]

/-- The first element for which there is no room is written outside the buffer. -/
theorem too_small (k C : Nat) (h : k < C) (dflt v : α) (mv : α → α) :
    runAll C dflt mv (List.replicate (k + 1) (.pushBack v)) (StackVector.new k) = .fail .ub := by
  obtain ⟨r, hr⟩ := push_run k C dflt v mv k 0 (by omega) (by omega)
  rw [← new_eq] at hr
  rw [List.replicate_succ']
  refine runAll_append_fail _ _ hr ?_
  simp only [Nat.zero_add, Op.run, StackVector.emplaceBack, X.bind_run, mSize, h, decide_true, X.assert_true, X.pure_run, setSize, X.modify_run,
    FixedVector.construct, Arg.read, FixedVector.tick, FixedVector.onData, create_beyond]

theorem ok_pushes (C j i : Nat) (v : α) (h : i + j ≤ C) : okAll C (List.replicate j (.pushBack v)) (List.replicate i v) := by
  induction j generalizing i with
  | zero => trivial
  | succ j ih =>
    refine ⟨by simpa [Op.ok] using (by omega : i < C), ?_⟩
    have : (Op.pushBack v).spec (List.replicate i v) = (List.replicate (i + 1) v, some i) := by
      simp [Op.spec, List.replicate_succ']
    rw [this]
    exact ih (i + 1) (by omega)

/-- The constructor of an array that believes its buffer larger than it is. -/
theorem array_too_small (k n : Nat) (h : k < n) (dflt : α) : StackVector.Arr.construct n dflt (StackVector.Arr.raw k) = .fail .ub := by
  have hrun : ∀ (m i : Nat), i ≤ k → k < i + m →
      X.forUp i m (StackVector.Arr.constructOne dflt) (⟨⟨some n, Slots.ofList k (List.replicate i dflt), []⟩, none⟩ : St α) = .fail .ub := by
    intro m
    induction m with
    | zero => intro i h1 h2; omega
    | succ m ih =>
      intro i h1 h2
      rw [X.forUp]
      rcases Nat.lt_or_ge i k with hi | hi
      · have hc := FixedVector.create_ofList (n := k) (l := List.replicate i dflt) dflt (by simpa using hi)
        rw [List.length_replicate, ← List.replicate_succ'] at hc
        rw [StackVector.Arr.constructOne, X.bind_done (FixedVector.construct_run hc)]
        exact ih (i + 1) (by omega) (by omega)
      · obtain rfl : i = k := by omega
        refine X.bind_fail ?_
        simp only [StackVector.Arr.constructOne, FixedVector.construct, Arg.read, FixedVector.tick, FixedVector.onData, X.bind_run, X.pure_run, create_beyond]
  have := hrun n 0 (by omega) (by omega)
  simp only [StackVector.Arr.construct, StackVector.Arr.raw_eq, X.bind_run, setSize, X.modify_run]
  exact this

/-- C103 does not hold when the size in bytes does not fit in `size_t` (also for a negative number): the product wraps around, the vector gets a buffer smaller than its
capacity, and a history of `push_back` that respects the capacity writes outside the buffer; the constructor of an array does so at once. -/
theorem C103_overflow_violated {e : Expr S} {v : Int} (he : e.Is v) (p : Platform) (mf : Bool) {elem : Nat} (h0 : 0 < elem)
    (hbig : 2 ^ 64 ≤ toSize v * elem) (dflt x : α) (mv : α → α) (s : S) :
    (∃ vec, stackVector p mf e elem s = (s, vec, toSize v) ∧
      ∃ ops, okAll (toSize v) ops [] ∧ runAll (toSize v) dflt mv ops vec = .fail .ub) ∧
    stackArray p mf e elem dflt s = (s, .fail .ub) := by
  have hlt : ((if p = .gnu ∧ toSize v * elem % 2 ^ 64 = 0 then 1 else toSize v * elem % 2 ^ 64) / elem) < toSize v := by
    rw [Nat.div_lt_iff_lt_mul h0]
    refine Nat.lt_of_lt_of_le ?_ hbig
    split
    · decide
    · exact Nat.mod_lt _ (by decide)
  constructor
  · refine ⟨_, by simp only [stackVector, arguments_pure he]; rfl, List.replicate _ (.pushBack x), ?_, too_small _ _ hlt dflt x mv⟩
    exact ok_pushes (toSize v) _ 0 x (by omega)
  · simp only [stackArray, arguments_pure he, Args.slots, array_too_small _ _ hlt]

example : Expr.Is (fun s : Nat => (s, -1)) (-1) ∧ 2 ^ 64 ≤ toSize (-1) * 8 := ⟨fun _ => rfl, by decide +kernel⟩
example : Expr.Is (fun s : Nat => (s, 2 ^ 61)) (2 ^ 61) ∧ 2 ^ 64 ≤ toSize (2 ^ 61) * 8 := ⟨fun _ => rfl, by decide +kernel⟩

/-- C103 does not hold for a size expression with side effects: it is evaluated two or three times. -/
theorem C103_evaluated_violated (e : Expr S) (p : Platform) (mf : Bool) (elem : Nat) (s : S) :
    2 ≤ (arguments p mf e.counted elem (s, 0)).1.2 ∧ (arguments p mf e.counted elem (s, 0)).1.2 ≤ 3 ∧
      (p ≠ .gnu → (arguments p mf e.counted elem (s, 0)).1.2 = 2) := by
  cases p <;> cases mf <;>
    simp only [arguments, nazaraAlloca, product, Expr.counted, if_true, if_false, Bool.false_eq_true, ne_eq, reduceCtorEq, not_false_eq_true, not_true_eq_false,
      false_implies, forall_const, Nat.zero_add]
  all_goals first
    | (split <;> simp)
    | simp

/-- With `NazaraStackVector(T, i++)`, when the memory is asked for first: the capacity is larger than the buffer, and a history of `push_back` that respects
the capacity writes outside the buffer. -/
theorem C103_side_effects_violated (p : Platform) {i elem : Nat} (hi : 0 < i) (h0 : 0 < elem) (hfit : (i + 2) * elem < 2 ^ 64)
    (dflt x : α) (mv : α → α) :
    ∃ i' vec C, stackVector p true postIncrement elem i = (i', vec, C) ∧ i + 1 < i' ∧
      ∃ ops, okAll C ops [] ∧ runAll C dflt mv ops vec = .fail .ub := by
  have h2 : i + 2 < 2 ^ 64 := Nat.lt_of_le_of_lt (Nat.le_mul_of_pos_right _ h0) hfit
  have ha : i * elem < 2 ^ 64 := Nat.lt_of_le_of_lt (Nat.mul_le_mul_right elem (by omega)) hfit
  have hb : (i + 1) * elem < 2 ^ 64 := Nat.lt_of_le_of_lt (Nat.mul_le_mul_right elem (by omega)) hfit
  have hp : 0 < i * elem := Nat.mul_pos hi h0
  have t0 : toSize (i : Int) = i := toSize_nat (by omega)
  have t1 : toSize ((i + 1 : Nat) : Int) = i + 1 := toSize_nat (by omega)
  have t2 : toSize ((i + 1 + 1 : Nat) : Int) = i + 2 := toSize_nat (by omega)
  have key : ∀ k C, k < C → ∃ ops, okAll C ops [] ∧ runAll C dflt mv ops (StackVector.new k : St α) = .fail .ub := by
    intro k C h
    exact ⟨_, ok_pushes C (k + 1) 0 x (by omega), too_small k C h dflt x mv⟩
  have other : ∃ i' vec C, ((i + 1 + 1, (StackVector.new (i * elem / elem) : St α), i + 1) = (i', vec, C)) ∧ i + 1 < i' ∧
      ∃ ops, okAll C ops [] ∧ runAll C dflt mv ops vec = .fail .ub :=
    ⟨_, _, _, rfl, by omega, key _ _ (by rw [Nat.mul_div_cancel _ h0]; omega)⟩
  cases p with
  | windows =>
    simpa only [stackVector, arguments, nazaraAlloca, product, postIncrement, if_true, t0, t1, Nat.mod_eq_of_lt ha, Args.slots] using other
  | other =>
    simpa only [stackVector, arguments, nazaraAlloca, product, postIncrement, if_true, t0, t1, Nat.mod_eq_of_lt ha, Args.slots] using other
  | gnu =>
    simp only [stackVector, arguments, nazaraAlloca, product, postIncrement, if_true, t0, t1, t2, Nat.mod_eq_of_lt ha, Nat.mod_eq_of_lt hb, Args.slots,
      gt_iff_lt, hp]
    exact ⟨_, _, _, rfl, by omega, key _ _ (by rw [Nat.mul_div_cancel _ h0]; omega)⟩

example : arguments .gnu true postIncrement 8 5 = (8, ⟨48, 7⟩) ∧ arguments .windows true postIncrement 8 5 = (7, ⟨40, 6⟩) ∧
    arguments .gnu false postIncrement 8 5 = (8, ⟨56, 5⟩) := by decide +kernel

/-! ## C104

Specification of the time during which a function is active, and of the name of the object that has a buffer. -/

/-- The depth of calls made since, starting from depth `d`; `none` once the function that was active at depth 0 has returned. -/
def depth : Nat → List Step → Option Nat
  | d, [] => some d
  | d, .enter :: r => depth (d + 1) r
  | 0, .leave :: _ => none
  | d + 1, .leave :: r => depth d r
  | d, _ :: r => depth d r

/-- The object that has, after these steps, the buffer that `v` had before. -/
def follow : Nat → List Step → Option Nat
  | v, [] => some v
  | v, .make u _ :: r => if u = v then none else follow v r
  | v, .drop u :: r => if u = v then none else follow v r
  | v, .move u w :: r => if w = v then follow u r else if u = v then none else follow v r
  | v, _ :: r => follow v r

theorem run_cons (st : Step) (r : List Step) (w : World) : run (st :: r) w = (step w st >>= run r) := rfl

theorem run_cons_ok {st : Step} {r : List Step} {w w' : World} (h : run (st :: r) w = .ok w') :
    ∃ w1, step w st = .ok w1 ∧ run r w1 = .ok w' := by
  rw [run_cons] at h
  cases hs : step w st with
  | error e => rw [hs] at h; cases h
  | ok w1 => rw [hs] at h; exact ⟨w1, rfl, h⟩

theorem run_append (a b : List Step) (w : World) : run (a ++ b) w = (run a w >>= run b) := by
  induction a generalizing w with
  | nil => rfl
  | cons st a ih =>
    rw [List.cons_append, run_cons, run_cons]
    cases step w st with
    | error e => rfl
    | ok w1 => exact ih w1

/-- Buffer `b` belongs to the frame below `d` others. -/
def At (w : World) (b d : Nat) : Prop :=
  ∃ inner f fs, w.frames = inner ++ f :: fs ∧ inner.length = d ∧ (∃ n, (b, n) ∈ f) ∧ b < w.made ∧
    (∀ g ∈ inner, ∀ x ∈ g, x.1 ≠ b) ∧ (∀ g ∈ fs, ∀ x ∈ g, x.1 ≠ b)

/-- Buffer `b` is gone. -/
def Gone (w : World) (b : Nat) : Prop := b < w.made ∧ ∀ g ∈ w.frames, ∀ x ∈ g, x.1 ≠ b

/-- Buffers are numbered in the order of their creation. -/
def Fresh (w : World) : Prop := ∀ g ∈ w.frames, ∀ x ∈ g, x.1 < w.made

theorem step_fresh {w w' : World} {st : Step} (h : Fresh w) (hs : step w st = .ok w') : Fresh w' := by
  cases st with
  | enter =>
    cases hs
    intro g hg x hx
    rcases List.mem_cons.mp hg with rfl | hg
    · cases hx
    · exact h g hg x hx
  | leave =>
    simp only [step] at hs
    split at hs
    · rename_i g0 f fs hf
      cases hs
      intro g hg x hx
      exact h g (by rw [hf]; exact List.mem_cons_of_mem _ hg) x hx
    · cases hs
  | make v n =>
    simp only [step] at hs
    split at hs
    · rename_i f fs hf
      cases hs
      intro g hg x hx
      simp only
      rcases List.mem_cons.mp hg with rfl | hg
      · rcases List.mem_cons.mp hx with rfl | hx
        · simp
        · have := h f (by rw [hf]; simp) x hx
          omega
      · have := h g (by rw [hf]; exact List.mem_cons_of_mem _ hg) x hx
        omega
    · cases hs
  | drop v => cases hs; exact h
  | move v u => cases hs; exact h
  | access v =>
    simp only [step] at hs
    split at hs
    · split at hs <;> cases hs
      exact h
    · cases hs

theorem run_fresh {w w' : World} (sts : List Step) (h : Fresh w) (hs : run sts w = .ok w') : Fresh w' := by
  induction sts generalizing w with
  | nil => cases hs; exact h
  | cons st r ih =>
    obtain ⟨w1, e1, e2⟩ := run_cons_ok hs
    exact ih (step_fresh h e1) e2

theorem fresh_start : Fresh start := by
  intro g hg x hx
  simp only [start, List.mem_singleton] at hg
  subst hg
  cases hx

/-- What a step does to a buffer: it stays, or goes with its frame. -/
theorem step_at {w w' : World} {st : Step} {b d : Nat} (h : At w b d) (hs : step w st = .ok w') :
    (∃ d', depth d [st] = some d' ∧ At w' b d') ∨ (depth d [st] = none ∧ Gone w' b) := by
  obtain ⟨inner, f, fs, hf, hl, ⟨n, hm⟩, hb, h1, h2⟩ := h
  cases st with
  | enter =>
    cases hs
    refine .inl ⟨d + 1, rfl, [] :: inner, f, fs, by simp [hf], by simp [hl], ⟨n, hm⟩, hb, ?_, h2⟩
    intro g hg x hx
    rcases List.mem_cons.mp hg with rfl | hg
    · cases hx
    · exact h1 g hg x hx
  | leave =>
    simp only [step] at hs
    split at hs
    · rename_i g0 f' fs' hf'
      cases hs
      cases inner with
      | nil =>
        rw [hf] at hf'
        simp only [List.nil_append, List.cons.injEq] at hf'
        obtain ⟨rfl, rfl⟩ := hf'
        simp only [List.length_nil] at hl
        subst hl
        exact .inr ⟨rfl, hb, h2⟩
      | cons g inner =>
        rw [hf] at hf'
        simp only [List.cons_append, List.cons.injEq] at hf'
        simp only [List.length_cons] at hl
        subst hl
        refine .inl ⟨inner.length, rfl, inner, f, fs, hf'.2.symm, rfl, ⟨n, hm⟩, hb, ?_, h2⟩
        exact fun g hg => h1 g (List.mem_cons_of_mem _ hg)
    · cases hs
  | make v k =>
    have hd : depth d [.make v k] = some d := by cases d <;> rfl
    simp only [step] at hs
    split at hs
    · rename_i f' fs' hf'
      cases hs
      cases inner with
      | nil =>
        rw [hf] at hf'
        simp only [List.nil_append, List.cons.injEq] at hf'
        obtain ⟨rfl, rfl⟩ := hf'
        exact .inl ⟨d, hd, [], _, _, rfl, hl, ⟨n, List.mem_cons_of_mem _ hm⟩, by simp only; omega, (fun g hg => by cases hg), h2⟩
      | cons g inner =>
        rw [hf] at hf'
        simp only [List.cons_append, List.cons.injEq] at hf'
        obtain ⟨rfl, rfl⟩ := hf'
        refine .inl ⟨d, hd, ((w.made, k) :: g) :: inner, f, fs, rfl, by simpa using hl, ⟨n, hm⟩, by simp only; omega, ?_, h2⟩
        intro g' hg x hx
        rcases List.mem_cons.mp hg with rfl | hg
        · rcases List.mem_cons.mp hx with rfl | hx
          · simp only; omega
          · exact h1 g (by simp) x hx
        · exact h1 g' (List.mem_cons_of_mem _ hg) x hx
    · cases hs
  | drop v =>
    cases hs
    exact .inl ⟨d, by cases d <;> rfl, inner, f, fs, hf, hl, ⟨n, hm⟩, hb, h1, h2⟩
  | move v u =>
    cases hs
    exact .inl ⟨d, by cases d <;> rfl, inner, f, fs, hf, hl, ⟨n, hm⟩, hb, h1, h2⟩
  | access v =>
    have : w' = w := by
      simp only [step] at hs
      split at hs
      · split at hs <;> cases hs
        rfl
      · cases hs
    subst this
    exact .inl ⟨d, by cases d <;> rfl, inner, f, fs, hf, hl, ⟨n, hm⟩, hb, h1, h2⟩

theorem step_gone {w w' : World} {st : Step} {b : Nat} (h : Gone w b) (hs : step w st = .ok w') : Gone w' b := by
  obtain ⟨hb, h⟩ := h
  cases st with
  | enter =>
    cases hs
    refine ⟨hb, fun g hg x hx => ?_⟩
    rcases List.mem_cons.mp hg with rfl | hg
    · cases hx
    · exact h g hg x hx
  | leave =>
    simp only [step] at hs
    split at hs
    · rename_i g0 f fs hf
      cases hs
      exact ⟨hb, fun g hg x hx => h g (by rw [hf]; exact List.mem_cons_of_mem _ hg) x hx⟩
    · cases hs
  | make v n =>
    simp only [step] at hs
    split at hs
    · rename_i f fs hf
      cases hs
      refine ⟨by simp only; omega, fun g hg x hx => ?_⟩
      rcases List.mem_cons.mp hg with rfl | hg
      · rcases List.mem_cons.mp hx with rfl | hx
        · simp only; omega
        · exact h f (by rw [hf]; simp) x hx
      · exact h g (by rw [hf]; exact List.mem_cons_of_mem _ hg) x hx
    · cases hs
  | drop v => cases hs; exact ⟨hb, h⟩
  | move v u => cases hs; exact ⟨hb, h⟩
  | access v =>
    simp only [step] at hs
    split at hs
    · split at hs <;> cases hs
      exact ⟨hb, h⟩
    · cases hs

theorem depth_cons (d : Nat) (st : Step) (r : List Step) : depth d (st :: r) = (depth d [st]).bind (fun d' => depth d' r) := by
  cases st <;> cases d <;> rfl

theorem run_gone {w w' : World} (sts : List Step) {b : Nat} (h : Gone w b) (hs : run sts w = .ok w') : Gone w' b := by
  induction sts generalizing w with
  | nil => cases hs; exact h
  | cons st r ih =>
    obtain ⟨w1, e1, e2⟩ := run_cons_ok hs
    exact ih (step_gone h e1) e2

theorem run_at {w w' : World} (sts : List Step) {b d : Nat} (h : At w b d) (hs : run sts w = .ok w') :
    (∃ d', depth d sts = some d' ∧ At w' b d') ∨ (depth d sts = none ∧ Gone w' b) := by
  induction sts generalizing w d with
  | nil => cases hs; exact .inl ⟨d, by cases d <;> rfl, h⟩
  | cons st r ih =>
    obtain ⟨w1, e1, e2⟩ := run_cons_ok hs
    rw [depth_cons]
    rcases step_at h e1 with ⟨d', e, h'⟩ | ⟨e, h'⟩
    · rw [e]; exact ih h' e2
    · rw [e]; exact .inr ⟨rfl, run_gone r h' e2⟩

theorem step_follow {w w' : World} {st : Step} {b v u : Nat} (hv : w.vars v = some b) (hs : step w st = .ok w')
    (hf : follow v [st] = some u) : w'.vars u = some b := by
  cases st with
  | enter => cases hs; cases hf; exact hv
  | leave =>
    cases hf
    simp only [step] at hs
    split at hs <;> cases hs
    exact hv
  | make x n =>
    simp only [follow] at hf
    split at hf
    · cases hf
    · rename_i hx
      cases hf
      simp only [step] at hs
      split at hs <;> cases hs
      simp only [setVar]
      rw [if_neg (fun h => hx h.symm), hv]
  | drop x =>
    simp only [follow] at hf
    split at hf
    · cases hf
    · rename_i hx
      cases hf; cases hs
      simp only [setVar]
      rw [if_neg (fun h => hx h.symm), hv]
  | move x y =>
    cases hs
    simp only [follow] at hf
    split at hf
    · rename_i hy
      cases hf
      simp [setVar, hy, hv]
    · split at hf
      · cases hf
      · rename_i hy hx
        cases hf
        simp only [setVar]
        rw [if_neg (fun h => hx h.symm), if_neg (fun h => hy h.symm), hv]
  | access x =>
    cases hf
    simp only [step] at hs
    split at hs
    · split at hs <;> cases hs
      exact hv
    · cases hs

theorem follow_cons (v : Nat) (st : Step) (r : List Step) : follow v (st :: r) = (follow v [st]).bind (fun u => follow u r) := by
  cases st <;> simp only [follow] <;> (try split) <;> (try split) <;> rfl

theorem run_follow {w w' : World} (sts : List Step) {b v u : Nat} (hv : w.vars v = some b) (hs : run sts w = .ok w')
    (hf : follow v sts = some u) : w'.vars u = some b := by
  induction sts generalizing w v with
  | nil => cases hs; cases hf; exact hv
  | cons st r ih =>
    obtain ⟨w1, e1, e2⟩ := run_cons_ok hs
    rw [follow_cons] at hf
    cases hx : follow v [st] with
    | none => rw [hx] at hf; cases hf
    | some x =>
      rw [hx] at hf
      exact ih (step_follow hv e1 hx) e2 hf

theorem made_at {w w' : World} {v n : Nat} (h : Fresh w) (hs : step w (.make v n) = .ok w') :
    At w' w.made 0 ∧ w'.vars v = some w.made := by
  simp only [step] at hs
  split at hs
  · rename_i f fs hf
    cases hs
    refine ⟨⟨[], _, fs, rfl, rfl, ⟨n, by simp⟩, by simp, (fun g hg => by cases hg), fun g hg x hx => ?_⟩, by simp [setVar]⟩
    have := h g (by rw [hf]; exact List.mem_cons_of_mem _ hg) x hx
    omega
  · cases hs

theorem at_holds {w : World} {b d : Nat} (h : At w b d) : w.holds b = true := by
  obtain ⟨inner, f, fs, hf, _, ⟨n, hm⟩, _⟩ := h
  simp only [World.holds, hf, List.any_append, List.any_cons, Bool.or_eq_true]
  exact .inr (.inl (List.any_eq_true.mpr ⟨_, hm, by simp⟩))

theorem gone_holds {w : World} {b : Nat} (h : Gone w b) : w.holds b = false := by
  rw [World.holds, List.any_eq_false]
  intro g hg
  rw [Bool.not_eq_true, List.any_eq_false]
  intro x hx
  simpa using h.2 g hg x hx

/-- C104: the memory of a stack vector (array) made by a function can be used, through whichever object has it, as long as that function has not returned: in the
functions it calls, and after the block in which it was made. -/
theorem C104_lives {before after : List Step} {v n : Nat} {w : World} (hrun : run (before ++ .make v n :: after) start = .ok w) {u : Nat}
    (hu : follow v after = some u) (hactive : depth 0 after ≠ none) : step w (.access u) = .ok w := by
  rw [run_append] at hrun
  cases h0 : run before start with
  | error e => rw [h0] at hrun; cases hrun
  | ok w0 =>
    rw [h0] at hrun
    obtain ⟨w1, e1, e2⟩ := run_cons_ok hrun
    obtain ⟨ha, hv⟩ := made_at (run_fresh before fresh_start h0) e1
    have hv' := run_follow after hv e2 hu
    rcases run_at after ha e2 with ⟨d', _, h⟩ | ⟨h, _⟩
    · simp only [step, hv', at_holds h, if_true]
    · exact absurd h hactive

/-- C104 does not extend beyond the function: once it has returned, an access through an object that got the memory (a stack vector returned or moved to the caller) is
undefined. -/
theorem C104_returned_violated {before after : List Step} {v n : Nat} {w : World} (hrun : run (before ++ .make v n :: after) start = .ok w) {u : Nat}
    (hu : follow v after = some u) (hreturned : depth 0 after = none) : step w (.access u) = .error .ub := by
  rw [run_append] at hrun
  cases h0 : run before start with
  | error e => rw [h0] at hrun; cases hrun
  | ok w0 =>
    rw [h0] at hrun
    obtain ⟨w1, e1, e2⟩ := run_cons_ok hrun
    obtain ⟨ha, hv⟩ := made_at (run_fresh before fresh_start h0) e1
    have hv' := run_follow after hv e2 hu
    rcases run_at after ha e2 with ⟨d', h, _⟩ | ⟨_, h⟩
    · rw [h] at hreturned; cases hreturned
    · simp [step, hv', gone_holds h]

example : (run [.make 0 8, .enter, .make 1 16, .enter, .access 1, .access 0, .leave, .access 1, .move 2 1, .access 2] start).toOption.isSome = true ∧
    follow 1 [.enter, .access 1, .access 0, .leave, .access 1, .move 2 1, .access 2] = some 2 ∧
    depth 0 [.enter, .access 1, .access 0, .leave, .access 1, .move 2 1, .access 2] = some 0 := by decide +kernel
example : (run ([.enter] ++ .make 1 16 :: [.move 2 1, .leave]) start).toOption.isSome = true ∧ follow 1 [.move 2 1, .leave] = some 2 ∧
    depth 0 [.move 2 1, .leave] = none := by decide +kernel

theorem run_frames {w w' : World} (sts : List Step) {inner fs : List Frame} {d d' : Nat} (hf : w.frames = inner ++ fs) (hl : inner.length = d + 1)
    (hd : depth d sts = some d') (hs : run sts w = .ok w') : ∃ inner', w'.frames = inner' ++ fs ∧ inner'.length = d' + 1 := by
  induction sts generalizing w inner d with
  | nil =>
    cases hs
    have : depth d [] = some d := by cases d <;> rfl
    rw [this] at hd; cases hd
    exact ⟨inner, hf, hl⟩
  | cons st r ih =>
    obtain ⟨w1, e1, e2⟩ := run_cons_ok hs
    rw [depth_cons] at hd
    cases inner with
    | nil => simp at hl
    | cons g inner =>
    have hl' : inner.length = d := by simpa using hl
    cases st with
    | enter =>
      cases e1
      exact ih (inner := [] :: g :: inner) (d := d + 1) (by simp [hf]) (by simp [hl']) (by cases d <;> exact hd) e2
    | leave =>
      cases d with
      | zero => cases hd
      | succ d =>
        cases inner with
        | nil => simp at hl'
        | cons g' inner =>
          simp only [step, hf, List.cons_append] at e1
          cases e1
          exact ih (inner := g' :: inner) (d := d) rfl (by simpa using hl') hd e2
    | make v n =>
      simp only [step, hf, List.cons_append] at e1
      cases e1
      exact ih (inner := _ :: inner) (d := d) rfl (by simp [hl']) (by cases d <;> exact hd) e2
    | drop v =>
      cases e1
      exact ih (w := { w with vars := setVar w.vars v none }) (inner := g :: inner) (d := d) hf hl (by cases d <;> exact hd) e2
    | move v u =>
      cases e1
      exact ih (w := { w with vars := setVar (setVar w.vars u none) v (w.vars u) }) (inner := g :: inner) (d := d) hf hl (by cases d <;> exact hd) e2
    | access v =>
      have : w1 = w := by
        simp only [step] at e1
        split at e1
        · split at e1 <;> cases e1
          rfl
        · cases e1
      subst this
      exact ih (inner := g :: inner) (d := d) hf hl (by cases d <;> exact hd) e2

/-- C104: a call gives back all the stack memory that the function, and those it called, asked for. -/
theorem C104_released {w w' : World} (body : List Step) (hbal : depth 0 body = some 0) (hrun : run (.enter :: body ++ [.leave]) w = .ok w') :
    w'.used = w.used := by
  obtain ⟨w1, e1, e2⟩ := run_cons_ok hrun
  cases e1
  change run (body ++ [.leave]) _ = _ at e2
  rw [run_append] at e2
  cases h : run body { w with frames := [] :: w.frames } with
  | error e => rw [h] at e2; cases e2
  | ok w2 =>
    rw [h] at e2
    obtain ⟨w3, e3, e4⟩ := run_cons_ok e2
    cases e4
    obtain ⟨inner, hf, hl⟩ := run_frames body (inner := [[]]) (fs := w.frames) (d := 0) rfl rfl hbal h
    cases inner with
    | nil => simp at hl
    | cons g inner =>
      have : inner = [] := by simpa using hl
      subst this
      simp only [step] at e3
      split at e3
      · rename_i g0 f fs hf'
        rw [hf] at hf'
        simp only [List.cons_append, List.nil_append, List.cons.injEq] at hf'
        cases e3
        simp [World.used, hf'.2]
      · cases e3

example : (run (.enter :: [.make 0 8, .enter, .make 1 100, .leave, .make 2 8] ++ [.leave]) start).toOption.isSome = true ∧
    depth 0 [.make 0 8, .enter, .make 1 100, .leave, .make 2 8] = some 0 := by decide +kernel

/-- C104 does not extend to blocks: a loop whose body makes a stack vector, with a scope that ends with the body, uses the memory of all its iterations until the function
returns. -/
theorem C104_loop_violated {w : World} (hw : w.frames ≠ []) (v n k : Nat) (hk : 0 < k) :
    ∃ w', run (List.replicate k [.make v n, .drop v]).flatten w = .ok w' ∧ w'.vars v = none ∧ w'.used = w.used + k * n := by
  have main : ∀ (k : Nat) (w : World), w.frames ≠ [] → ∃ w', run (List.replicate k [.make v n, .drop v]).flatten w = .ok w' ∧
      w'.used = w.used + k * n ∧ (0 < k ∨ w.vars v = none → w'.vars v = none) := by
    intro k
    induction k with
    | zero => exact fun w _ => ⟨w, rfl, by simp, fun h => by simpa using h⟩
    | succ k ih =>
      intro w hw
      obtain ⟨f, fs, hf⟩ := List.exists_cons_of_ne_nil hw
      obtain ⟨w', e1, e2, e3⟩ := ih ⟨((w.made, n) :: f) :: fs, w.made + 1, setVar (setVar w.vars v (some w.made)) v none⟩ (by simp)
      refine ⟨w', ?_, ?_, fun _ => e3 (.inr (by simp [setVar]))⟩
      · rw [List.replicate_succ, List.flatten_cons, List.cons_append, List.cons_append, List.nil_append, run_cons]
        simp only [step, hf]
        exact e1
      · rw [e2]
        simp only [World.used, hf, List.map_cons, List.sum_cons, Nat.succ_mul]
        omega
  obtain ⟨w', e1, e2, e3⟩ := main k w hw
  exact ⟨w', e1, e3 (.inl hk), e2⟩

example : start.frames ≠ [] := by decide

end Verif.StackAlloc
