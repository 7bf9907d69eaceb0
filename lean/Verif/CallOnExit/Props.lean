import Verif.CallOnExit.Model

/-!
# Property C53 of `CallOnExit`
-/

namespace Verif.CallOnExit

variable {F : Type} [DecidableEq F]

/-! ## Specification -/

/-- Operations that end the wait of object `i`. -/
def Op.ends (i : Nat) : Op F → Bool
  | .callAndReset k => k == i
  | .reset k => k == i
  | .destroy k => k == i
  | _ => false

/-- How often a functor should be called, from what happens to its object first after its creation. -/
def expectedCalls (i : Nat) (later : List (Op F)) : Nat :=
  match later.find? (Op.ends i) with
  | some (.callAndReset _) => 1
  | some (.destroy _) => 1
  | _ => 0

/-- The operation creates an object for functor `f`. -/
def Op.creates (f : F) : Op F → Bool
  | .create _ g => g == f
  | _ => false

/-- The operation moves one object to another. -/
def Op.isMove : Op F → Bool
  | .moveAssign i j => i != j
  | _ => false

/-! ## Proofs -/

variable {fs : Functors F}

/-- `f` is in no object. -/
def Gone (s : St F) (f : F) : Prop := ∀ k, s.objs k ≠ some (some f)

theorem count_append_ne (l : List F) {f g : F} (h : g ≠ f) : (l ++ [g]).count f = l.count f := by
  rw [List.count_append, List.count_singleton]; simp [h]

omit [DecidableEq F] in
theorem set_objs (s : St F) (i : Nat) (o : Option (Option F)) (k : Nat) : (s.set i o).objs k = if k = i then o else s.objs k := rfl
omit [DecidableEq F] in
@[simp] theorem set_calls (s : St F) (i : Nat) (o : Option (Option F)) : (s.set i o).calls = s.calls := rfl
omit [DecidableEq F] in
@[simp] theorem set_terminated (s : St F) (i : Nat) (o : Option (Option F)) : (s.set i o).terminated = s.terminated := rfl

omit [DecidableEq F] in
theorem gone_set {s : St F} {f : F} (h : Gone s f) (i : Nat) (o : Option (Option F)) (ho : o ≠ some (some f)) : Gone (s.set i o) f := by
  intro k hk
  by_cases hki : k = i
  · simp only [St.set, hki, if_true] at hk; exact ho hk
  · simp only [St.set, hki, if_false] at hk; exact h k hk

theorem gone_step {s : St F} {f : F} (h : Gone s f) (op : Op F) (hc : op.creates f = false) (hm : op.isMove = false) :
    Gone (step fs s op) f ∧ (step fs s op).calls.count f = s.calls.count f := by
  unfold step
  by_cases ht : s.terminated = true
  · rw [if_pos ht]; exact ⟨h, rfl⟩
  · rw [if_neg ht]
    cases op with
    | create i g =>
      dsimp only
      split
      · refine ⟨gone_set h i _ ?_, rfl⟩
        intro he
        simp only [Option.some.injEq] at he
        simp [Op.creates, he] at hc
      · exact ⟨h, rfl⟩
    | createEmpty i =>
      dsimp only
      split
      · exact ⟨gone_set h i _ (by simp), rfl⟩
      · exact ⟨h, rfl⟩
    | callAndReset i =>
      dsimp only
      cases ho : s.objs i with
      | none => exact ⟨h, rfl⟩
      | some o =>
        cases o with
        | none => exact ⟨gone_set h i _ (by simp), rfl⟩
        | some g =>
          have hg : g ≠ f := fun e => h i (by rw [ho, e])
          dsimp only [callAndReset, St.call]
          split
          · exact ⟨h, count_append_ne _ hg⟩
          · exact ⟨gone_set (s := { s with calls := s.calls ++ [g] }) h i _ (by simp), count_append_ne _ hg⟩
    | reset i =>
      dsimp only
      split
      · exact ⟨gone_set h i _ (by simp), rfl⟩
      · exact ⟨h, rfl⟩
    | moveAssign a b =>
      have hab : a = b := by simpa [Op.isMove] using hm
      subst hab
      dsimp only
      split
      · rw [if_pos rfl]
        exact ⟨h, rfl⟩
      · exact ⟨h, rfl⟩
    | destroy i =>
      dsimp only
      cases ho : s.objs i with
      | none => exact ⟨h, rfl⟩
      | some o =>
        cases o with
        | none => exact ⟨gone_set h i _ (by simp), rfl⟩
        | some g =>
          have hg : g ≠ f := fun e => h i (by rw [ho, e])
          dsimp only [destroy, St.call]
          split
          · exact ⟨h, count_append_ne _ hg⟩
          · exact ⟨gone_set (s := { s with calls := s.calls ++ [g] }) h i _ (by simp), count_append_ne _ hg⟩

theorem gone_run {f : F} (ops : List (Op F)) : ∀ {s : St F}, Gone s f → (∀ op ∈ ops, op.creates f = false ∧ op.isMove = false) →
    Gone (runFrom fs s ops) f ∧ (runFrom fs s ops).calls.count f = s.calls.count f := by
  induction ops with
  | nil => exact fun h _ => ⟨h, rfl⟩
  | cons op ops ih =>
    intro s h ho
    obtain ⟨h1, h2⟩ := gone_step (fs := fs) h op (ho op (by simp)).1 (ho op (by simp)).2
    obtain ⟨h3, h4⟩ := ih h1 (fun o h => ho o (by simp [h]))
    exact ⟨h3, h4.trans h2⟩

/-- `f` waits in object `i` and nowhere else. -/
def Waits (s : St F) (f : F) (i : Nat) : Prop := s.objs i = some (some f) ∧ ∀ k, k ≠ i → s.objs k ≠ some (some f)

omit [DecidableEq F] in
theorem waits_set {s : St F} {f : F} {i : Nat} (h : Waits s f i) (k : Nat) (hk : k ≠ i) (o : Option (Option F)) (ho : o ≠ some (some f)) :
    Waits (s.set k o) f i := by
  refine ⟨by simp only [St.set, Ne.symm hk, if_false]; exact h.1, fun m hm hx => ?_⟩
  by_cases hmk : m = k
  · simp only [St.set, hmk, if_true] at hx; exact ho hx
  · simp only [St.set, hmk, if_false] at hx; exact h.2 m hm hx

omit [DecidableEq F] in
theorem waits_gone {s : St F} {f : F} {i : Nat} (h : Waits s f i) (o : Option (Option F)) (ho : o ≠ some (some f)) : Gone (s.set i o) f := by
  intro k hk
  by_cases hki : k = i
  · simp only [St.set, hki, if_true] at hk; exact ho hk
  · simp only [St.set, hki, if_false] at hk; exact h.2 k hki hk

/-- Operations on other objects. -/
theorem waits_step {s : St F} {f : F} {i : Nat} (h : Waits s f i) (op : Op F) (hc : op.creates f = false) (hm : op.isMove = false)
    (he : op.ends i = false) : Waits (step fs s op) f i ∧ (step fs s op).calls.count f = s.calls.count f := by
  unfold step
  by_cases ht : s.terminated = true
  · rw [if_pos ht]; exact ⟨h, rfl⟩
  · rw [if_neg ht]
    cases op with
    | create k g =>
      dsimp only
      split
      next hn =>
        have hk : k ≠ i := by rintro rfl; rw [h.1] at hn; simp at hn
        refine ⟨waits_set h k hk _ ?_, rfl⟩
        intro he
        simp only [Option.some.injEq] at he
        simp [Op.creates, he] at hc
      · exact ⟨h, rfl⟩
    | createEmpty k =>
      dsimp only
      split
      next hn =>
        have hk : k ≠ i := by rintro rfl; rw [h.1] at hn; simp at hn
        exact ⟨waits_set h k hk _ (by simp), rfl⟩
      · exact ⟨h, rfl⟩
    | callAndReset k =>
      have hk : k ≠ i := by simpa [Op.ends] using he
      dsimp only
      cases ho : s.objs k with
      | none => exact ⟨h, rfl⟩
      | some o =>
        cases o with
        | none => exact ⟨waits_set h k hk _ (by simp), rfl⟩
        | some g =>
          have hg : g ≠ f := fun e => h.2 k hk (by rw [ho, e])
          dsimp only [callAndReset, St.call]
          split
          · exact ⟨h, count_append_ne _ hg⟩
          · exact ⟨waits_set (s := { s with calls := s.calls ++ [g] }) h k hk _ (by simp), count_append_ne _ hg⟩
    | reset k =>
      have hk : k ≠ i := by simpa [Op.ends] using he
      dsimp only
      split
      · exact ⟨waits_set h k hk _ (by simp), rfl⟩
      · exact ⟨h, rfl⟩
    | moveAssign a b =>
      have hab : a = b := by simpa [Op.isMove] using hm
      subst hab
      dsimp only
      split
      · rw [if_pos rfl]
        exact ⟨h, rfl⟩
      · exact ⟨h, rfl⟩
    | destroy k =>
      have hk : k ≠ i := by simpa [Op.ends] using he
      dsimp only
      cases ho : s.objs k with
      | none => exact ⟨h, rfl⟩
      | some o =>
        cases o with
        | none => exact ⟨waits_set h k hk _ (by simp), rfl⟩
        | some g =>
          have hg : g ≠ f := fun e => h.2 k hk (by rw [ho, e])
          dsimp only [destroy, St.call]
          split
          · exact ⟨h, count_append_ne _ hg⟩
          · exact ⟨waits_set (s := { s with calls := s.calls ++ [g] }) h k hk _ (by simp), count_append_ne _ hg⟩

theorem runFrom_cons (s : St F) (op : Op F) (ops : List (Op F)) : runFrom fs s (op :: ops) = runFrom fs (step fs s op) ops := rfl

theorem terminated_run (ops : List (Op F)) : ∀ {s : St F}, s.terminated = true → runFrom fs s ops = s := by
  induction ops with
  | nil => exact fun _ => rfl
  | cons op ops ih =>
    intro s h
    have : step fs s op = s := by simp [step, h]
    rw [runFrom_cons, this]; exact ih h

theorem waits_run {f : F} {i : Nat} (hthrow : ∀ n, fs.throws f n = false) (ops : List (Op F)) : ∀ {s : St F}, Waits s f i →
    (∀ op ∈ ops, op.creates f = false ∧ op.isMove = false) → (runFrom fs s ops).terminated = false →
    (runFrom fs s ops).calls.count f = s.calls.count f + expectedCalls i ops := by
  induction ops with
  | nil => intro s _ _ _; rfl
  | cons op ops ih =>
    intro s h ho ht
    have ho' : ∀ o ∈ ops, o.creates f = false ∧ o.isMove = false := fun o h => ho o (by simp [h])
    rw [runFrom_cons] at ht ⊢
    have hs : s.terminated = false := by
      cases hs : s.terminated with
      | false => rfl
      | true =>
        have h1 : step fs s op = s := by simp [step, hs]
        rw [h1, terminated_run ops hs, hs] at ht
        exact absurd ht (by simp)
    by_cases he : op.ends i = true
    · have key : ∀ (s1 : St F) (n : Nat), step fs s op = s1 → Gone s1 f → s1.calls.count f = s.calls.count f + n →
          expectedCalls i (op :: ops) = n → (runFrom fs (step fs s op) ops).calls.count f = s.calls.count f + expectedCalls i (op :: ops) := by
        intro s1 n e1 h1 h2 h3
        rw [e1, h3, (gone_run (fs := fs) ops h1 ho').2, h2]
      have hfind : expectedCalls i (op :: ops) = match op with | .callAndReset _ => 1 | .destroy _ => 1 | _ => 0 := by
        simp only [expectedCalls, List.find?_cons, he]
        cases op <;> rfl
      have hcnt : ((s.calls ++ [f]).count f) = s.calls.count f + 1 := by simp
      cases op with
      | callAndReset k =>
        have hk : k = i := by simpa [Op.ends] using he
        subst hk
        refine key ({ s with calls := s.calls ++ [f] }.set k (some none)) 1 ?_ ?_ hcnt hfind
        · simp [step, hs, h.1, callAndReset, St.call, hthrow]
        · exact waits_gone (s := { s with calls := s.calls ++ [f] }) h _ (by simp)
      | reset k =>
        have hk : k = i := by simpa [Op.ends] using he
        subst hk
        exact key (s.set k (some none)) 0 (by simp [step, hs, h.1]) (waits_gone h _ (by simp)) rfl hfind
      | destroy k =>
        have hk : k = i := by simpa [Op.ends] using he
        subst hk
        refine key ({ s with calls := s.calls ++ [f] }.set k none) 1 ?_ ?_ hcnt hfind
        · simp [step, hs, h.1, destroy, St.call, hthrow]
        · exact waits_gone (s := { s with calls := s.calls ++ [f] }) h _ (by simp)
      | create k g => simp [Op.ends] at he
      | createEmpty k => simp [Op.ends] at he
      | moveAssign k j => simp [Op.ends] at he
    · have he : op.ends i = false := by simpa using he
      obtain ⟨h1, h2⟩ := waits_step (fs := fs) h op (ho op (by simp)).1 (ho op (by simp)).2 he
      rw [ih h1 ho' ht, h2]
      congr 1
      simp only [expectedCalls, List.find?_cons, he]

/-! ## C53 -/

/-- C53: in every program without move assignments (but of an object to itself), a functor that does not throw is called exactly once if the
first thing that happens to its object is `CallAndReset` or destruction, and never if it is `Reset`, or nothing.
Missing (see the `_violated` theorems): move assignment and functors that throw. -/
theorem C53_once_partial (fs : Functors F) (f : F) (hthrow : ∀ n, fs.throws f n = false) (i : Nat) (before later : List (Op F))
    (hops : ∀ op ∈ before ++ later, op.creates f = false ∧ op.isMove = false)
    (hfree : (run fs before).objs i = none) (hend : (run fs (before ++ .create i f :: later)).terminated = false) :
    (run fs (before ++ .create i f :: later)).calls.count f = expectedCalls i later := by
  have hb : ∀ op ∈ before, op.creates f = false ∧ op.isMove = false := fun op h => hops op (by simp [h])
  have hl : ∀ op ∈ later, op.creates f = false ∧ op.isMove = false := fun op h => hops op (by simp [h])
  obtain ⟨g1, g2⟩ := gone_run (fs := fs) (f := f) before (s := St.init) (by intro k; simp [St.init]) hb
  have e : run fs (before ++ .create i f :: later) = runFrom fs (step fs (run fs before) (.create i f)) later := by
    simp [run, runFrom, List.foldl_append]
  have ht : (run fs before).terminated = false := by
    cases hs : (run fs before).terminated with
    | false => rfl
    | true =>
      have h1 : step fs (run fs before) (.create i f) = run fs before := by simp [step, hs]
      rw [e, h1, terminated_run later hs, hs] at hend
      exact absurd hend (by simp)
  have e2 : step fs (run fs before) (.create i f) = (run fs before).set i (some (some f)) := by simp [step, ht, hfree]
  rw [e, e2] at hend
  rw [e, e2]
  have hw : Waits ((run fs before).set i (some (some f))) f i := by
    refine ⟨by simp [St.set], fun k hk hx => ?_⟩
    simp only [St.set, hk, if_false] at hx
    exact g1 k hx
  rw [waits_run hthrow later hw hl hend]
  have : ((run fs before).set i (some (some f))).calls.count f = 0 := by
    rw [set_calls]
    exact g2
  omega

/-- Three objects; the functors 10 and 12 are called once, 11 is reset. -/
example : (run (F := Nat) ⟨id, fun _ _ => false⟩ [.create 0 10, .create 1 11, .create 2 12, .callAndReset 0, .reset 1, .callAndReset 0,
    .destroy 2, .destroy 1, .destroy 0]).calls = [10, 12] := by decide

theorem run_append (ops ops' : List (Op F)) : run fs (ops ++ ops') = runFrom fs (run fs ops) ops' := by
  simp [run, runFrom, List.foldl_append]

/-- C53 fails for move assignments, after every history: the functor of the target is not called, and the functor of the source is
called by both objects (the second time in the state a move leaves it, which for function pointers and most
functors is the same). -/
theorem C53_move_violated (fs : Functors F) (hthrow : ∀ f n, fs.throws f n = false) (ops : List (Op F)) (i j : Nat) (hij : i ≠ j) (f g : F)
    (hi : (run fs ops).objs i = some (some f)) (hj : (run fs ops).objs j = some (some g)) (hlive : (run fs ops).terminated = false) :
    (run fs (ops ++ [.moveAssign i j, .destroy i, .destroy j])).calls = (run fs ops).calls ++ [g, fs.movedFrom g] := by
  rw [run_append]
  generalize run fs ops = s at hi hj hlive
  simp [runFrom, step, St.set, moveAssign, destroy, St.call, hthrow, hi, hj, hlive, hij, Ne.symm hij]

/-- C53: after such an assignment the functor of the target is never called again, whatever follows (but moves between objects). -/
theorem C53_move_replaced (fs : Functors F) (ops later : List (Op F)) (i j : Nat) (hij : i ≠ j) (f : F) (o : Option F)
    (hi : (run fs ops).objs i = some (some f)) (honly : ∀ k, k ≠ i → (run fs ops).objs k ≠ some (some f))
    (hj : (run fs ops).objs j = some o) (hm : ∀ g, o = some g → fs.movedFrom g ≠ f)
    (hlive : (run fs ops).terminated = false) (hlater : ∀ op ∈ later, op.creates f = false ∧ op.isMove = false) :
    (run fs (ops ++ .moveAssign i j :: later)).calls.count f = (run fs ops).calls.count f := by
  rw [run_append, runFrom_cons]
  generalize run fs ops = s at hi honly hj hlive
  have e : step fs s (.moveAssign i j) = moveAssign fs s i j o := by simp [step, hi, hj, hlive, hij]
  rw [e]
  have hg : Gone (moveAssign fs s i j o) f ∧ (moveAssign fs s i j o).calls = s.calls := by
    cases o with
    | none =>
      refine ⟨fun k hk => ?_, rfl⟩
      by_cases hki : k = i
      · simp [moveAssign, St.set, hki] at hk
      · simp only [moveAssign, St.set, hki, if_false] at hk; exact honly k hki hk
    | some g =>
      refine ⟨fun k hk => ?_, rfl⟩
      by_cases hkj : k = j
      · simp only [moveAssign, St.set, hkj, if_true, Option.some.injEq] at hk; exact hm g rfl hk
      · by_cases hki : k = i
        · subst hki
          simp only [moveAssign, St.set, hkj, if_false, if_true, Option.some.injEq] at hk
          exact honly j (Ne.symm hij) (by rw [hj, hk])
        · simp only [moveAssign, St.set, hki, hkj, if_false] at hk; exact honly k hki hk
  rw [(gone_run (fs := fs) later hg.1 hlater).2, hg.2]

/-- C53 fails for functors that throw: if the call by `CallAndReset` throws, the destructor calls the functor again. -/
theorem C53_throw_violated (fs : Functors F) (ops : List (Op F)) (i : Nat) (f : F) (hi : (run fs ops).objs i = some (some f))
    (hlive : (run fs ops).terminated = false) (h0 : fs.throws f ((run fs ops).calls.count f) = true) :
    (run fs (ops ++ [.callAndReset i, .destroy i])).calls = (run fs ops).calls ++ [f, f] := by
  rw [run_append]
  generalize run fs ops = s at hi hlive h0
  cases h1 : fs.throws f (s.calls.count f + 1) <;> simp [runFrom, step, St.set, callAndReset, destroy, St.call, h0, h1, hi, hlive]

/-- C53: an exception of the functor in the destructor ends the program. -/
theorem C53_destructor_terminates (fs : Functors F) (ops : List (Op F)) (i : Nat) (f : F) (hi : (run fs ops).objs i = some (some f))
    (hlive : (run fs ops).terminated = false) (h0 : fs.throws f ((run fs ops).calls.count f) = true) :
    (run fs (ops ++ [.destroy i])).terminated = true := by
  rw [run_append]
  generalize run fs ops = s at hi hlive h0
  simp [runFrom, step, destroy, St.call, h0, hi, hlive]

theorem step_live {s : St F} {op : Op F} (hlive : s.terminated = false) :
    (step fs s op).terminated = true ↔ ∃ i f, op = .destroy i ∧ s.objs i = some (some f) ∧ fs.throws f (s.calls.count f) = true := by
  cases op with
  | create i f => cases ho : s.objs i <;> simp [step, hlive, ho]
  | createEmpty i => cases ho : s.objs i <;> simp [step, hlive, ho]
  | callAndReset i =>
    rcases ho : s.objs i with _ | _ | f <;> simp [step, hlive, ho, callAndReset, St.call]
    split <;> simp
  | reset i => rcases ho : s.objs i with _ | o <;> simp [step, hlive, ho]
  | moveAssign i j =>
    rcases hi : s.objs i with _ | o <;> rcases hj : s.objs j with _ | _ | f <;> simp [step, hlive, hi, hj] <;> split <;> simp [hlive, moveAssign]
  | destroy i =>
    rcases ho : s.objs i with _ | _ | f <;> simp [step, hlive, ho, destroy, St.call]
    cases fs.throws f (s.calls.count f) <;> simp

/-- C53: nothing else ends the program: it ends exactly if at some moment an object is destroyed whose functor throws when it is called then. -/
theorem C53_terminates_iff (fs : Functors F) (ops : List (Op F)) :
    (run fs ops).terminated = true ↔
      ∃ before i later f, ops = before ++ .destroy i :: later ∧ (run fs before).terminated = false ∧ (run fs before).objs i = some (some f) ∧
        fs.throws f ((run fs before).calls.count f) = true := by
  have key : ∀ (ops : List (Op F)) (s : St F), s.terminated = false → ((runFrom fs s ops).terminated = true ↔
      ∃ before i later f, ops = before ++ .destroy i :: later ∧ (runFrom fs s before).terminated = false ∧ (runFrom fs s before).objs i = some (some f) ∧
        fs.throws f ((runFrom fs s before).calls.count f) = true) := by
    intro ops
    induction ops with
    | nil => intro s hs; simp [runFrom, hs]
    | cons op ops ih =>
      intro s hs
      rw [runFrom_cons]
      cases ht : (step fs s op).terminated with
      | true =>
        obtain ⟨i, f, rfl, ho, hth⟩ := (step_live hs).mp ht
        rw [terminated_run ops ht, ht]
        exact ⟨fun _ => ⟨[], i, ops, f, rfl, hs, ho, hth⟩, fun _ => rfl⟩
      | false =>
        rw [ih _ ht]
        constructor
        · rintro ⟨b, i, l, f, rfl, h1, h2, h3⟩
          exact ⟨op :: b, i, l, f, rfl, h1, h2, h3⟩
        · rintro ⟨b, i, l, f, e, h1, h2, h3⟩
          cases b with
          | nil =>
            simp only [List.nil_append, List.cons.injEq] at e
            obtain ⟨rfl, rfl⟩ := e
            have := (step_live (fs := fs) hs).mpr ⟨i, f, rfl, h2, h3⟩
            rw [this] at ht; cases ht
          | cons o b =>
            simp only [List.cons_append, List.cons.injEq] at e
            obtain ⟨rfl, rfl⟩ := e
            exact ⟨b, i, l, f, rfl, h1, h2, h3⟩
  exact key ops St.init rfl

/-- The hypotheses hold e.g. after the creation of two objects. -/
example : (run (F := Nat) ⟨id, fun _ _ => false⟩ [.create 0 10, .create 1 11]).objs 0 = some (some 10) ∧
    (run (F := Nat) ⟨id, fun _ _ => false⟩ [.create 0 10, .create 1 11]).objs 1 = some (some 11) ∧
    (run (F := Nat) ⟨id, fun _ _ => false⟩ [.create 0 10, .create 1 11]).terminated = false ∧
    (run (F := Nat) ⟨id, fun _ n => n == 0⟩ [.create 0 10, .callAndReset 0, .destroy 0]).calls = [10, 10] := by decide

end Verif.CallOnExit
