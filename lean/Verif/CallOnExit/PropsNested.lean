import Verif.CallOnExit.ModelNested

/-!
# C105: functors of scope guards that use other guards
-/

namespace Verif.CallOnExit.Nested
open Verif.Cpp

/-! ## Specification -/

/-- Calls `CallAndReset` or `Reset` on a guard declared before number `n`. -/
def Act.below (n : Nat) : Act → Prop
  | .callAndReset j => j < n
  | .reset j => j < n
  | .destroy _ => False

/-- As in a scope, where lambdas can capture what was declared before them. -/
def CapturesEarlier (body : Nat → List Act) : Prop := ∀ i, ∀ a ∈ body i, a.below i

def Act.isReset : Act → Bool
  | .reset _ => true
  | _ => false

/-! ## Proof -/

def total (s : St) (i : Nat) : Nat := s.log.count (.called i) + s.log.count (.disarmed i)

/-- The bookkeeping of guard `i`. -/
def Inv (s : St) (i : Nat) : Prop := total s i = if s.armed i then 0 else 1

/-- The state of guard `i` has not changed. -/
def Same (s s' : St) (i : Nat) : Prop := s'.armed i = s.armed i ∧ total s' i = total s i

/-- Guards below `r` are in order, the others as they were. -/
structure Good (r : Nat) (s s' : St) : Prop where
  inv : ∀ j, j < r → Inv s' j
  same : ∀ j, r ≤ j → Same s s' j
  alive : s'.alive = s.alive
  /-- functors once gone stay so -/
  mono : ∀ j, s.armed j = false → s'.armed j = false

theorem Good.trans {r : Nat} {s s' s'' : St} (h : Good r s s') (h' : Good r s' s'') : Good r s s'' :=
  ⟨h'.inv, fun j hj => ⟨(h'.same j hj).1.trans (h.same j hj).1, (h'.same j hj).2.trans (h.same j hj).2⟩, h'.alive.trans h.alive,
    fun j hj => h'.mono j (h.mono j hj)⟩

theorem Good.weaken {r r' : Nat} {s s' : St} (h : Good r s s') (hr : r ≤ r') (hs : ∀ j, j < r' → Inv s j) : Good r' s s' := by
  refine ⟨fun j hj => ?_, fun j hj => h.same j (by omega), h.alive, h.mono⟩
  by_cases hjr : j < r
  · exact h.inv j hjr
  · obtain ⟨h1, h2⟩ := h.same j (by omega)
    have := hs j hj
    unfold Inv at *
    rw [h1, h2, this]

theorem total_called (s : St) (i j : Nat) (a al : Nat → Bool) :
    total ⟨al, a, s.log ++ [.called i]⟩ j = total s j + if j = i then 1 else 0 := by
  unfold total
  simp only [List.count_append, List.count_singleton, beq_iff_eq, Ev.called.injEq, reduceCtorEq, if_false, @eq_comm _ i j]
  omega

theorem total_disarmed (s : St) (i j : Nat) (a al : Nat → Bool) :
    total ⟨al, a, s.log ++ [.disarmed i]⟩ j = total s j + if j = i then 1 else 0 := by
  unfold total
  simp only [List.count_append, List.count_singleton, beq_iff_eq, Ev.disarmed.injEq, reduceCtorEq, if_false, @eq_comm _ i j]
  omega

section
variable {body : Nat → List Act} (hb : CapturesEarlier body)
include hb

/-- The call of the functor of guard `i`. -/
theorem invoke_good (n i : Nat) (ih : ∀ a, a.below i → ∀ s : St, (∀ j, j < i → s.alive j = true) → (∀ j, j < i → Inv s j) →
    ∃ s', exec body n a s = .ok s' ∧ Good i s s') (s : St) (hal : ∀ j, j ≤ i → s.alive j = true) (hs : ∀ j, j < i → Inv s j) (hi : Inv s i) :
    ∃ s', invoke (exec body n) body i s = .ok s' ∧ s'.alive = s.alive ∧ (∀ j, j < i → Inv s' j) ∧ (∀ j, i < j → Same s s' j) ∧
      total s' i = 1 ∧ (∀ j, s.armed j = false → s'.armed j = false) := by
  unfold invoke
  cases ha : s.armed i with
  | false =>
    unfold Inv at hi
    rw [ha] at hi
    exact ⟨s, by simp, rfl, hs, fun j _ => ⟨rfl, rfl⟩, by simpa using hi, fun _ h => h⟩
  | true =>
    have hrun : ∀ (as : List Act), (∀ a ∈ as, a.below i) → ∀ t : St, t.armed i = true → (∀ j, j < i → t.alive j = true) → (∀ j, j < i → Inv t j) →
        ∃ t', runBody (exec body n) i as t = .ok t' ∧ Good i t t' := by
      intro as
      induction as with
      | nil => exact fun _ t _ _ ht => ⟨t, rfl, ht, fun j _ => ⟨rfl, rfl⟩, rfl, fun _ h => h⟩
      | cons a as iha =>
        intro hm t hta htal htI
        obtain ⟨t1, e1, g1⟩ := ih a (hm a (by simp)) t htal htI
        obtain ⟨t2, e2, g2⟩ := iha (fun a h => hm a (by simp [h])) t1 ((g1.same i (by omega)).1.trans hta) (by rw [g1.alive]; exact htal) g1.inv
        refine ⟨t2, ?_, g1.trans g2⟩
        simp only [runBody, hta, if_true, e1]
        exact e2
    have hI : ∀ j, j < i → Inv { s with log := s.log ++ [.called i] } j := by
      intro j hj
      have := hs j hj
      unfold Inv at *
      rw [total_called, this, if_neg (show ¬ j = i by omega)]
      rfl
    obtain ⟨t, e, g⟩ := hrun (body i) (hb i) { s with log := s.log ++ [.called i] } ha (fun j hj => hal j (by omega)) hI
    refine ⟨t, ?_, g.alive, g.inv, fun j hj => ?_, ?_, g.mono⟩
    · simp only [if_true, e]
      change (if t.alive i = true then Except.ok t else Except.error Err.ub) = _
      rw [if_pos (by rw [g.alive]; exact hal i (Nat.le_refl i))]
    · obtain ⟨h1, h2⟩ := g.same j (by omega)
      refine ⟨h1, ?_⟩
      rw [h2, total_called, if_neg (by omega)]
      rfl
    · rw [(g.same i (Nat.le_refl i)).2, total_called, if_pos rfl]
      unfold Inv at hi
      rw [hi, ha]
      rfl

theorem exec_good (r : Nat) : ∀ (n : Nat), r < n → ∀ a, a.below r → ∀ s : St, (∀ j, j < r → s.alive j = true) → (∀ j, j < r → Inv s j) →
    ∃ s', exec body n a s = .ok s' ∧ Good r s s' := by
  induction r using Nat.strongRecOn with
  | _ r ihr =>
    intro n hn a ha s hal hs
    obtain ⟨n, rfl⟩ : ∃ m, n = m + 1 := ⟨n - 1, by omega⟩
    cases a with
    | destroy i => exact absurd ha (by simp [Act.below])
    | reset i =>
      have hi : i < r := ha
      have hIi := hs i hi
      unfold Inv at hIi
      refine ⟨{ s with armed := setAt s.armed i false, log := if s.armed i then s.log ++ [.disarmed i] else s.log },
        by simp only [exec, hal i hi, if_true], fun j hj => ?_, fun j hj => ⟨?_, ?_⟩, rfl, fun j hj => ?_⟩
      · have hIj := hs j hj
        unfold Inv at *
        cases hai : s.armed i with
        | true =>
          simp only [if_true]
          rw [total_disarmed]
          by_cases hji : j = i
          · subst hji; simp [setAt, hIj, hai]
          · simp [setAt, hji, hIj]
        | false =>
          simp only [Bool.false_eq_true, if_false]
          change total s j = _
          by_cases hji : j = i
          · subst hji; simp [setAt, hIj, hai]
          · simp [setAt, hji, hIj]
      · have : j ≠ i := by omega
        simp [setAt, this]
      · have : j ≠ i := by omega
        split
        · rw [total_disarmed, if_neg this]; rfl
        · rfl
      · simp only [setAt]
        split
        · rfl
        · exact hj
    | callAndReset i =>
      have hi : i < r := ha
      obtain ⟨t, e, h1, h2, h3, h4, h5⟩ := invoke_good hb n i (fun a ha s h1 h2 => ihr i hi n (by omega) a ha s h1 h2) s (fun j hj => hal j (by omega))
        (fun j hj => hs j (by omega)) (hs i hi)
      refine ⟨{ t with armed := setAt t.armed i false }, ?_, fun j hj => ?_, fun j hj => ?_, h1, fun j hj => ?_⟩
      · simp only [exec, hal i hi, if_true, e]
        rfl
      · rcases Nat.lt_trichotomy j i with h | h | h
        · have := h2 j h
          unfold Inv at *
          change total t j = _
          simp [setAt, Nat.ne_of_lt h, this]
        · subst h
          unfold Inv
          change total t j = _
          simp [setAt, h4]
        · have := hs j hj
          obtain ⟨e1, e2⟩ := h3 j h
          unfold Inv at *
          change total t j = _
          simp [setAt, Nat.ne_of_gt h, e1, e2, this]
      · obtain ⟨e1, e2⟩ := h3 j (by omega)
        exact ⟨by simp [setAt, show j ≠ i by omega, e1], e2⟩
      · simp only [setAt]
        split
        · rfl
        · exact h5 j hj

theorem execAll_good (n r : Nat) (hn : r < n) (as : List Act) (has : ∀ a ∈ as, a.below r) (s : St) (hal : ∀ j, j < r → s.alive j = true)
    (hs : ∀ j, j < r → Inv s j) : ∃ s', execAll body n as s = .ok s' ∧ Good r s s' := by
  induction as generalizing s with
  | nil => exact ⟨s, rfl, hs, fun j _ => ⟨rfl, rfl⟩, rfl, fun _ h => h⟩
  | cons a as ih =>
    obtain ⟨t, e, g⟩ := exec_good hb r n hn a (has a (by simp)) s hal hs
    obtain ⟨t', e', g'⟩ := ih (fun a h => has a (by simp [h])) t (by rw [g.alive]; exact hal) g.inv
    refine ⟨t', ?_, g.trans g'⟩
    simp only [execAll, e]
    exact e'

theorem leave_good (n r : Nat) (hn : r ≤ n) (s : St) (hal : ∀ j, j < r → s.alive j = true) (hs : ∀ j, j < r → Inv s j) :
    ∃ s', execAll body (n + 1) (leave r) s = .ok s' ∧ (∀ j, j < r → total s' j = 1) ∧ (∀ j, r ≤ j → total s' j = total s j) := by
  induction r generalizing s with
  | zero => exact ⟨s, rfl, fun j hj => absurd hj (by omega), fun _ _ => rfl⟩
  | succ r ih =>
    obtain ⟨t, e, h1, h2, h3, h4, h5⟩ := invoke_good hb n r (fun a ha s h1 h2 => exec_good hb r n (by omega) a ha s h1 h2) s (fun j hj => hal j (by omega))
      (fun j hj => hs j (by omega)) (hs r (by omega))
    obtain ⟨s', e', k1, k2⟩ := ih (by omega) { t with alive := setAt t.alive r false, armed := setAt t.armed r false }
      (fun j hj => by simp [setAt, Nat.ne_of_lt hj, h1, hal j (by omega)]) (fun j hj => by
        have := h2 j hj
        unfold Inv at *
        change total t j = _
        simp [setAt, Nat.ne_of_lt hj, this])
    refine ⟨s', ?_, fun j hj => ?_, fun j hj => ?_⟩
    · simp only [leave, execAll, exec, hal r (by omega), if_true, e]
      exact e'
    · by_cases h : j < r
      · exact k1 j h
      · obtain rfl : j = r := by omega
        rw [k2 j (Nat.le_refl j)]
        exact h4
    · rw [k2 j (by omega)]
      exact (h3 j (by omega)).2

end

theorem execAll_append (body : Nat → List Act) (n : Nat) (as bs : List Act) (s : St) :
    execAll body n (as ++ bs) s = (execAll body n as s >>= execAll body n bs) := by
  induction as generalizing s with
  | nil => rfl
  | cons a as ih =>
    simp only [List.cons_append, execAll]
    cases exec body n a s with
    | error e => rfl
    | ok t => exact ih t

/-- C105: in a scope whose guards have functors that use guards declared earlier, after any calls of `CallAndReset` and `Reset` and the end of the scope, each functor was called
exactly once, or given up exactly once by a `Reset` and not called; nothing fails or goes on for ever. -/
theorem C105_scope {body : Nat → List Act} (hb : CapturesEarlier body) (n : Nat) (acts : List Act) (hacts : ∀ a ∈ acts, a.below n) {fuel : Nat}
    (hfuel : n < fuel) :
    ∃ s, scope body fuel n acts = .ok s ∧
      ∀ i, s.log.count (.called i) + s.log.count (.disarmed i) = if i < n then 1 else 0 := by
  obtain ⟨fuel, rfl⟩ : ∃ m, fuel = m + 1 := ⟨fuel - 1, by omega⟩
  obtain ⟨t, e, g⟩ := execAll_good hb (fuel + 1) n hfuel acts hacts (declared n) (fun j hj => by simp [declared, hj]) (fun j hj => by
    simp [Inv, total, declared, hj])
  obtain ⟨s, e', k1, k2⟩ := leave_good hb fuel n (by omega) t (by rw [g.alive]; intro j hj; simp [declared, hj]) g.inv
  refine ⟨s, ?_, fun i => ?_⟩
  · rw [scope, execAll_append, e]
    exact e'
  · change total s i = _
    by_cases hi : i < n
    · rw [k1 i hi, if_pos hi]
    · rw [k2 i (by omega), (g.same i (by omega)).2, if_neg hi]
      simp [total, declared]

/-- Guard 2 calls the functor of guard 0 and gives up that of guard 1. -/
def sampleBody : Nat → List Act
  | 2 => [.callAndReset 0, .reset 1]
  | _ => []

example : CapturesEarlier sampleBody := by
  intro i a ha
  unfold sampleBody at ha
  split at ha
  · simp only [List.mem_cons, List.not_mem_nil, or_false] at ha
    rcases ha with rfl | rfl <;> simp [Act.below]
  · cases ha
example : (scope sampleBody 5 4 []).toOption.map (·.log) = some [.called 3, .called 2, .called 0, .disarmed 1] ∧
    (scope sampleBody 5 4 [.reset 0]).toOption.map (·.log) = some [.disarmed 0, .called 3, .called 2, .disarmed 1] ∧
    (scope sampleBody 5 4 [.callAndReset 1, .callAndReset 2]).toOption.map (·.log) = some [.called 1, .called 2, .called 0, .called 3] := by
  decide +kernel

/-! ### Without `Reset` -/

/-- A step that logs no `disarmed`. -/
def NoneGivenUp (s : St) : Prop := ∀ i, s.log.count (.disarmed i) = 0

theorem exec_kept {body : Nat → List Act} (hb : ∀ i, ∀ a ∈ body i, a.isReset = false) (n : Nat) :
    ∀ a, a.isReset = false → ∀ s s' : St, NoneGivenUp s → exec body n a s = .ok s' → NoneGivenUp s' := by
  induction n with
  | zero => intro a _ s s' _ h; cases h
  | succ n ih =>
    have hrun : ∀ (i : Nat) (as : List Act), (∀ a ∈ as, a.isReset = false) → ∀ t t' : St, NoneGivenUp t → runBody (exec body n) i as t = .ok t' →
        NoneGivenUp t' := by
      intro i as
      induction as with
      | nil => intro _ t t' ht h; cases h; exact ht
      | cons a as iha =>
        intro hm t t' ht h
        rw [runBody] at h
        split at h
        · cases ha : exec body n a t with
          | error e => rw [ha] at h; cases h
          | ok t1 =>
            rw [ha] at h
            exact iha (fun a h => hm a (by simp [h])) t1 t' (ih a (hm a (by simp)) t t1 ht ha) h
        · cases h
    have hinv : ∀ (i : Nat) (t t' : St), NoneGivenUp t → invoke (exec body n) body i t = .ok t' → NoneGivenUp t' := by
      intro i t t' ht h
      unfold invoke at h
      split at h
      · cases hr : runBody (exec body n) i (body i) { t with log := t.log ++ [.called i] } with
        | error e => rw [hr] at h; cases h
        | ok t1 =>
          rw [hr] at h
          change (if t1.alive i = true then Except.ok t1 else Except.error Err.ub) = _ at h
          split at h
          · cases h
            refine hrun i (body i) (hb i) _ _ (fun k => ?_) hr
            simp only [List.count_append, ht k]
            simp
          · cases h
      · cases h; exact ht
    intro a ha s s' hs h
    cases a with
    | reset i => cases ha
    | callAndReset i =>
      rw [exec] at h
      split at h
      · cases hi : invoke (exec body n) body i s with
        | error e => rw [hi] at h; cases h
        | ok t =>
          rw [hi] at h
          cases h
          exact hinv i s t hs hi
      · cases h
    | destroy i =>
      rw [exec] at h
      split at h
      · cases hi : invoke (exec body n) body i s with
        | error e => rw [hi] at h; cases h
        | ok t =>
          rw [hi] at h
          cases h
          exact hinv i s t hs hi
      · cases h

theorem execAll_kept {body : Nat → List Act} (hb : ∀ i, ∀ a ∈ body i, a.isReset = false) (n : Nat) (as : List Act) (has : ∀ a ∈ as, a.isReset = false)
    (s s' : St) (hs : NoneGivenUp s) (h : execAll body n as s = .ok s') : NoneGivenUp s' := by
  induction as generalizing s with
  | nil => cases h; exact hs
  | cons a as ih =>
    rw [execAll] at h
    cases ha : exec body n a s with
    | error e => rw [ha] at h; cases h
    | ok t =>
      rw [ha] at h
      exact ih (fun a h => has a (by simp [h])) t (exec_kept hb n a (has a (by simp)) s t hs ha) h

theorem leave_noReset (n : Nat) : ∀ a ∈ leave n, a.isReset = false := by
  induction n with
  | zero => intro a h; cases h
  | succ n ih =>
    intro a h
    rcases List.mem_cons.mp h with rfl | h
    · rfl
    · exact ih a h

/-- C105: if nobody calls `Reset`, each functor is called exactly once. -/
theorem C105_called {body : Nat → List Act} (hb : CapturesEarlier body) (hr : ∀ i, ∀ a ∈ body i, a.isReset = false) (n : Nat) (acts : List Act)
    (hacts : ∀ a ∈ acts, a.below n ∧ a.isReset = false) {fuel : Nat} (hfuel : n < fuel) :
    ∃ s, scope body fuel n acts = .ok s ∧ ∀ i, s.log.count (.called i) = if i < n then 1 else 0 := by
  obtain ⟨s, e, h⟩ := C105_scope hb n acts (fun a ha => (hacts a ha).1) hfuel
  refine ⟨s, e, fun i => ?_⟩
  have := execAll_kept hr fuel (acts ++ leave n) (fun a ha => by
    rcases List.mem_append.mp ha with ha | ha
    · exact (hacts a ha).2
    · exact leave_noReset n a ha) (declared n) s (fun i => by simp [declared]) e i
  have h := h i
  rw [this] at h
  exact h

example : (scope (fun i => if i = 0 then [] else [.callAndReset (i - 1)]) 5 4 [.callAndReset 2]).toOption.map (·.log) =
    some [.called 2, .called 1, .called 0, .called 3] := by decide +kernel

/-- C105: at the end of the scope the functors that are left are called in the reverse order of the declarations. -/
theorem C105_order (n fuel : Nat) (hfuel : 0 < fuel) :
    ∃ s, scope (fun _ => []) fuel n [] = .ok s ∧ s.log = (List.range n).reverse.map .called := by
  obtain ⟨fuel, rfl⟩ : ∃ m, fuel = m + 1 := ⟨fuel - 1, by omega⟩
  have main : ∀ (r : Nat) (s : St), (∀ j, j < r → s.alive j = true ∧ s.armed j = true) →
      ∃ s', execAll (fun _ => []) (fuel + 1) (leave r) s = .ok s' ∧ s'.log = s.log ++ (List.range r).reverse.map .called := by
    intro r
    induction r with
    | zero => exact fun s _ => ⟨s, rfl, by simp⟩
    | succ r ih =>
      intro s hs
      obtain ⟨h1, h2⟩ := hs r (by omega)
      obtain ⟨s', e, h⟩ := ih ⟨setAt s.alive r false, setAt s.armed r false, s.log ++ [.called r]⟩ (fun j hj => by
        simp [setAt, Nat.ne_of_lt hj, hs j (by omega)])
      refine ⟨s', ?_, ?_⟩
      · simp only [leave, execAll, exec, invoke, runBody, h1, h2, if_true]
        change (if s.alive r = true then Except.ok _ else Except.error Err.ub) >>= _ >>= _ = _
        rw [if_pos h1]
        exact e
      · rw [h, List.range_succ]
        simp
  obtain ⟨s, e, h⟩ := main n (declared n) (fun j hj => by simp [declared, hj])
  exact ⟨s, e, by simpa [declared] using h⟩

/-! ### The order, with functors that use other guards -/

/-- The guard an event is about. -/
def Ev.guard : Ev → Nat
  | .called i => i
  | .disarmed i => i

/-- `s'` has the log of `s` and further events about guards below `r`. -/
def Logs (r : Nat) (s s' : St) : Prop := ∃ xs, s'.log = s.log ++ xs ∧ ∀ e ∈ xs, e.guard < r

theorem Logs.refl (r : Nat) (s : St) : Logs r s s := ⟨[], by simp, by simp⟩

theorem Logs.trans {r : Nat} {s s' s'' : St} (h : Logs r s s') (h' : Logs r s' s'') : Logs r s s'' := by
  obtain ⟨xs, e, hx⟩ := h
  obtain ⟨ys, e', hy⟩ := h'
  refine ⟨xs ++ ys, by rw [e', e, List.append_assoc], fun e he => ?_⟩
  rcases List.mem_append.mp he with he | he
  · exact hx e he
  · exact hy e he

theorem Logs.weaken {r r' : Nat} {s s' : St} (h : Logs r s s') (hr : r ≤ r') : Logs r' s s' := by
  obtain ⟨xs, e, hx⟩ := h
  exact ⟨xs, e, fun e he => Nat.lt_of_lt_of_le (hx e he) hr⟩

/-- The call of a functor logs that call, and then events about guards below. -/
theorem invoke_logs {body : Nat → List Act} (hb : CapturesEarlier body) (n i : Nat)
    (ih : ∀ a, a.below i → ∀ s s' : St, exec body n a s = .ok s' → Logs i s s') {s s' : St} (h : invoke (exec body n) body i s = .ok s') :
    s'.log = s.log ∨ ∃ xs, s'.log = s.log ++ .called i :: xs ∧ ∀ e ∈ xs, e.guard < i := by
  have hrun : ∀ (as : List Act), (∀ a ∈ as, a.below i) → ∀ t t' : St, runBody (exec body n) i as t = .ok t' → Logs i t t' := by
    intro as
    induction as with
    | nil => intro _ t t' h; cases h; exact .refl i t
    | cons a as iha =>
      intro hm t t' h
      rw [runBody] at h
      split at h
      · cases ha : exec body n a t with
        | error e => rw [ha] at h; cases h
        | ok t1 =>
          rw [ha] at h
          exact (ih a (hm a (by simp)) t t1 ha).trans (iha (fun a h => hm a (by simp [h])) t1 t' h)
      · cases h
  unfold invoke at h
  split at h
  · cases hr : runBody (exec body n) i (body i) { s with log := s.log ++ [.called i] } with
    | error e => rw [hr] at h; cases h
    | ok t1 =>
      rw [hr] at h
      change (if t1.alive i = true then Except.ok t1 else Except.error Err.ub) = _ at h
      split at h
      · cases h
        obtain ⟨xs, e, hx⟩ := hrun (body i) (hb i) _ _ hr
        exact .inr ⟨xs, by rw [e]; simp, hx⟩
      · cases h
  · cases h; exact .inl rfl

theorem exec_logs {body : Nat → List Act} (hb : CapturesEarlier body) (n : Nat) :
    ∀ r a, a.below r → ∀ s s' : St, exec body n a s = .ok s' → Logs r s s' := by
  induction n with
  | zero => intro r a _ s s' h; cases h
  | succ n ih =>
    intro r a ha s s' h
    cases a with
    | destroy i => exact absurd ha (by simp [Act.below])
    | reset i =>
      rw [exec] at h
      split at h
      · cases h
        by_cases hi : s.armed i = true
        · exact ⟨[.disarmed i], by simp [hi], fun e he => by
            rw [List.mem_singleton.mp he]; exact ha⟩
        · exact ⟨[], by simp [hi], by simp⟩
      · cases h
    | callAndReset i =>
      have hi : i < r := ha
      rw [exec] at h
      split at h
      · cases hv : invoke (exec body n) body i s with
        | error e => rw [hv] at h; cases h
        | ok t =>
          rw [hv] at h
          cases h
          rcases invoke_logs hb n i (ih i) hv with e | ⟨xs, e, hx⟩
          · exact ⟨[], by simp [e], by simp⟩
          · refine ⟨.called i :: xs, e, fun x hxm => ?_⟩
            rcases List.mem_cons.mp hxm with rfl | hxm
            · exact hi
            · exact Nat.lt_trans (hx x hxm) hi
      · cases h

theorem leave_logs {body : Nat → List Act} (hb : CapturesEarlier body) (fuel r : Nat) {s s' : St} (h : execAll body fuel (leave r) s = .ok s') :
    ∃ seg : Nat → List Ev, s'.log = s.log ++ (List.range r).reverse.flatMap seg ∧
      ∀ i, i < r → seg i = [] ∨ ∃ xs, seg i = .called i :: xs ∧ ∀ e ∈ xs, e.guard < i := by
  induction r generalizing s with
  | zero => cases h; exact ⟨fun _ => [], by simp, fun i hi => absurd hi (by omega)⟩
  | succ r ih =>
    rw [leave, execAll] at h
    cases fuel with
    | zero => cases h
    | succ n =>
      rw [exec] at h
      split at h
      · cases hv : invoke (exec body n) body r s with
        | error e => rw [hv] at h; cases h
        | ok t =>
          rw [hv] at h
          obtain ⟨seg, e, hseg⟩ := ih (s := { t with alive := setAt t.alive r false, armed := setAt t.armed r false }) h
          have : ∃ ys, t.log = s.log ++ ys ∧ (ys = [] ∨ ∃ xs, ys = .called r :: xs ∧ ∀ e ∈ xs, e.guard < r) := by
            rcases invoke_logs hb n r (exec_logs hb n r) hv with e | ⟨xs, e, hx⟩
            · exact ⟨[], by simp [e], .inl rfl⟩
            · exact ⟨_, e, .inr ⟨xs, rfl, hx⟩⟩
          obtain ⟨ys, e1, hy⟩ := this
          refine ⟨fun i => if i = r then ys else seg i, ?_, fun i hi => ?_⟩
          · rw [e, e1, List.range_succ, List.reverse_append, List.flatMap_append, List.append_assoc]
            congr 1
            have : ∀ (l : List Nat), (∀ i ∈ l, i < r) → l.flatMap (fun i => if i = r then ys else seg i) = l.flatMap seg := by
              intro l hl
              induction l with
              | nil => rfl
              | cons a l ihl =>
                have ha : a ≠ r := Nat.ne_of_lt (hl a (by simp))
                simp only [List.flatMap_cons, ha, if_false]
                rw [ihl (fun i hi => hl i (by simp [hi]))]
            rw [this (List.range r).reverse (fun i hi => List.mem_range.mp (List.mem_reverse.mp hi))]
            simp
          · dsimp only
            by_cases hir : i = r
            · rw [if_pos hir, hir]; exact hy
            · rw [if_neg hir]; exact hseg i (by omega)
      · cases h

/-- C105: whatever the functors do and was done before, at the end of the scope the guards are served in the reverse order of the declarations: for each of them its functor is called, unless it is gone, and
during this call only guards declared before it are concerned.  (`t` is the state just before the end of the scope.) -/
theorem C105_reverse {body : Nat → List Act} (hb : CapturesEarlier body) (n : Nat) (acts : List Act) (hacts : ∀ a ∈ acts, a.below n) {fuel : Nat}
    (hfuel : n < fuel) :
    ∃ (t s : St) (seg : Nat → List Ev), execAll body fuel acts (declared n) = .ok t ∧ scope body fuel n acts = .ok s ∧
      s.log = t.log ++ (List.range n).reverse.flatMap seg ∧
      ∀ i, i < n → seg i = [] ∨ ∃ xs, seg i = .called i :: xs ∧ ∀ e ∈ xs, e.guard < i := by
  obtain ⟨t, e, _⟩ := execAll_good hb fuel n hfuel acts hacts (declared n) (fun j hj => by simp [declared, hj]) (fun j hj => by
    simp [Inv, total, declared, hj])
  obtain ⟨s, e', _⟩ := C105_scope hb n acts hacts hfuel
  have h : execAll body fuel (leave n) t = .ok s := by
    rw [scope, execAll_append, e] at e'
    exact e'
  obtain ⟨seg, h1, h2⟩ := leave_logs hb fuel n h
  exact ⟨t, s, seg, e, e', h1, h2⟩

/-! ### What goes wrong -/

/-- C105 does not extend to functors that call their own guard, directly or in a cycle: `CallAndReset` (the destructor) calls the functor before it gives it up, so that the calls go on for ever.
`P` are the guards of the cycle. -/
theorem C105_cycle_violated {body : Nat → List Act} {P : Nat → Prop} {next : Nat → Nat} {rest : Nat → List Act} (hP : ∀ i, P i → P (next i))
    (hbody : ∀ i, P i → body i = .callAndReset (next i) :: rest i) {s : St} (hs : ∀ i, P i → s.alive i = true ∧ s.armed i = true) {i : Nat} (hi : P i)
    (fuel : Nat) : exec body fuel (.callAndReset i) s = .error .diverge ∧ exec body fuel (.destroy i) s = .error .diverge := by
  induction fuel generalizing i s with
  | zero => exact ⟨rfl, rfl⟩
  | succ n ih =>
    obtain ⟨h1, h2⟩ := hs i hi
    have := (ih (s := { s with log := s.log ++ [.called i] }) hs (hP i hi)).1
    constructor
    · simp only [exec, invoke, h1, h2, if_true, hbody i hi, runBody, this]
      rfl
    · simp only [exec, invoke, h1, h2, if_true, hbody i hi, runBody, this]
      rfl

example : exec (fun i => [.callAndReset (1 - i)]) 100 (.callAndReset 0) (declared 2) = .error .diverge := (C105_cycle_violated (P := fun i => i < 2)
  (next := fun i => 1 - i) (rest := fun _ => []) (fun i _ => by omega) (fun _ _ => rfl) (fun i hi => by simp [declared, hi]) (by omega) 100).1

/-- C105 does not extend to functors that reset their own guard and then go on: they have destroyed themselves. -/
theorem C105_reset_self_violated {body : Nat → List Act} {i : Nat} {a : Act} {rest : List Act} (hbody : body i = .reset i :: a :: rest) {s : St}
    (hs : s.alive i = true ∧ s.armed i = true) (fuel : Nat) :
    exec body (fuel + 2) (.callAndReset i) s = .error .ub ∧ exec body (fuel + 2) (.destroy i) s = .error .ub := by
  obtain ⟨h1, h2⟩ := hs
  constructor
  all_goals
    simp only [exec, invoke, h1, h2, if_true, hbody, runBody]
    simp [bind, Except.bind, setAt]

example : (declared 1).alive 0 = true ∧ (declared 1).armed 0 = true := by decide

end Verif.CallOnExit.Nested
