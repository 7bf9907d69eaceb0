import Verif.Signal.ModelThreads

/-! # Property C132: emissions of one signal by several threads -/

namespace Verif.Signal.Threads
open Verif.Cpp

/-! ## Specification -/

/-- Thread `t` is in the middle of an emission. -/
def St.Emitting (σ : St) (t : Nat) : Prop := σ.pc t ≠ .start ∧ σ.pc t ≠ .done

/-- The states that are reached if an emission only begins when no other is in progress (as with a mutex that is held during the emission), by any schedule. -/
inductive Locked (slots : List Nat) : St → Prop
  | init : Locked slots .init
  | step {σ σ' : St} (t : Nat) (h : Locked slots σ) (hlock : σ.pc t = .start → ∀ u, ¬ σ.Emitting u) (hrun : step slots t σ = .ok σ') : Locked slots σ'

/-! ## Lemmas -/

theorem goto_self (σ : St) (t : Nat) (p : Pc) : (σ.goto t p).pc t = p := by simp [St.goto]

theorem goto_ne (σ : St) {t u : Nat} (p : Pc) (h : u ≠ t) : (σ.goto t p).pc u = σ.pc u := by simp [St.goto, h]

/-- What is known of a thread when emissions do not overlap. -/
def Good (slots : List Nat) (σ : St) (t : Nat) : Prop :=
  match σ.pc t with
  | .start => σ.called t = []
  | .test => σ.called t = slots.take σ.iter ∧ σ.iter ≤ slots.length
  | .call => σ.called t = slots.take σ.iter ∧ σ.iter < slots.length
  | .inc => σ.called t = slots.take (σ.iter + 1) ∧ σ.iter < slots.length
  | .done => σ.called t = slots

/-- At most one thread emits. -/
def One (σ : St) : Prop := ∀ t u, σ.Emitting t → σ.Emitting u → t = u

theorem Good.congr {slots : List Nat} {σ σ' : St} {u : Nat} (h : Good slots σ u) (hp : σ'.pc u = σ.pc u) (hc : σ'.called u = σ.called u)
    (hi : σ'.iter = σ.iter ∨ ¬ σ.Emitting u) : Good slots σ' u := by
  unfold Good at *
  rw [hp, hc]
  rcases hi with hi | hi
  · rw [hi]; exact h
  · cases hpc : σ.pc u with
    | start => rw [hpc] at h; exact h
    | done => rw [hpc] at h; exact h
    | test => exact absurd ⟨by rw [hpc]; decide, by rw [hpc]; decide⟩ hi
    | call => exact absurd ⟨by rw [hpc]; decide, by rw [hpc]; decide⟩ hi
    | inc => exact absurd ⟨by rw [hpc]; decide, by rw [hpc]; decide⟩ hi

/-- One step of a thread that may take it. -/
theorem step_good {slots : List Nat} {σ : St} (hg : ∀ t, Good slots σ t) (ho : One σ) (t : Nat) (hlock : σ.pc t = .start → ∀ u, ¬ σ.Emitting u) :
    ∃ σ', step slots t σ = .ok σ' ∧ (∀ u, Good slots σ' u) ∧ One σ' := by
  have hothers : σ.pc t ≠ .done → ∀ u, u ≠ t → ¬ σ.Emitting u := by
    intro hd u hu he
    by_cases hs : σ.pc t = .start
    · exact hlock hs u he
    · exact hu (ho u t he ⟨hs, hd⟩)
  have hone : ∀ σ' : St, (∀ u, u ≠ t → σ'.pc u = σ.pc u) → σ.pc t ≠ .done → One σ' := by
    intro σ' hp hd
    have : ∀ u, u ≠ t → ¬ σ'.Emitting u := by
      intro u hu he
      unfold St.Emitting at he
      rw [hp u hu] at he
      exact hothers hd u hu he
    intro u v hu hv
    by_cases h1 : u = t
    · by_cases h2 : v = t
      · rw [h1, h2]
      · exact absurd hv (this v h2)
    · exact absurd hu (this u h1)
  have ht := hg t
  unfold Good at ht
  unfold step
  cases hpc : σ.pc t with
  | start =>
    rw [hpc] at ht
    refine ⟨_, rfl, ?_, hone _ (fun u hu => goto_ne σ _ hu) (by rw [hpc]; decide)⟩
    intro u
    by_cases hu : u = t
    · subst hu
      simp only [Good, St.goto, if_true]
      exact ⟨by simpa using ht, Nat.zero_le _⟩
    · exact (hg u).congr (goto_ne σ _ hu) rfl (Or.inr (hothers (by rw [hpc]; decide) u hu))
  | test =>
    rw [hpc] at ht
    by_cases hi : σ.iter < slots.length
    · simp only [hi, if_true]
      refine ⟨_, rfl, ?_, hone _ (fun u hu => goto_ne σ _ hu) (by rw [hpc]; decide)⟩
      intro u
      by_cases hu : u = t
      · subst hu
        simp only [Good, St.goto, if_true]
        exact ⟨ht.1, hi⟩
      · exact (hg u).congr (goto_ne σ _ hu) rfl (Or.inl rfl)
    · simp only [hi, if_false]
      refine ⟨_, rfl, ?_, hone _ (fun u hu => goto_ne σ _ hu) (by rw [hpc]; decide)⟩
      intro u
      by_cases hu : u = t
      · subst hu
        simp only [Good, St.goto, if_true]
        rw [ht.1, List.take_of_length_le (by omega)]
      · exact (hg u).congr (goto_ne σ _ hu) rfl (Or.inl rfl)
  | call =>
    rw [hpc] at ht
    obtain ⟨hcalled, hlt⟩ : σ.called t = slots.take σ.iter ∧ σ.iter < slots.length := ht
    simp only [rd, List.getElem?_eq_getElem hlt]
    refine ⟨_, rfl, ?_, hone _ (fun u hu => goto_ne σ _ hu) (by rw [hpc]; decide)⟩
    intro u
    by_cases hu : u = t
    · subst hu
      simp only [Good, St.goto, if_true]
      refine ⟨?_, hlt⟩
      rw [hcalled, List.take_add_one, List.getElem?_eq_getElem hlt]
      rfl
    · exact (hg u).congr (goto_ne σ _ hu) (by simp [hu]) (Or.inl rfl)
  | inc =>
    rw [hpc] at ht
    refine ⟨_, rfl, ?_, hone _ (fun u hu => goto_ne σ _ hu) (by rw [hpc]; decide)⟩
    intro u
    by_cases hu : u = t
    · subst hu
      simp only [Good, St.goto, if_true]
      exact ⟨ht.1, ht.2⟩
    · exact (hg u).congr (goto_ne σ _ hu) rfl (Or.inr (hothers (by rw [hpc]; decide) u hu))
  | done => exact ⟨σ, rfl, hg, ho⟩

theorem Locked.good {slots : List Nat} {σ : St} (h : Locked slots σ) : (∀ t, Good slots σ t) ∧ One σ := by
  induction h with
  | init => exact ⟨fun _ => rfl, fun t _ h => absurd rfl h.1⟩
  | step t _ hlock hrun ih =>
    obtain ⟨σ'', e, h1, h2⟩ := step_good ih.1 ih.2 t hlock
    rw [hrun] at e
    injection e with e
    subst e
    exact ⟨h1, h2⟩

/-! ## C132 -/

/-- C132 if emissions do not overlap: nothing is undefined, and each emission that has ended called every slot once, in their order. -/
theorem C132_locked_partial {slots : List Nat} {σ : St} (h : Locked slots σ) (t : Nat) :
    ((σ.pc t = .start → ∀ u, ¬ σ.Emitting u) → ∃ σ', step slots t σ = .ok σ') ∧ (σ.pc t = .done → σ.called t = slots) := by
  obtain ⟨h1, h2⟩ := h.good
  refine ⟨fun hl => ?_, fun hd => ?_⟩
  · obtain ⟨σ', e, -⟩ := step_good h1 h2 t hl
    exact ⟨σ', e⟩
  · have := h1 t
    unfold Good at this
    rwa [hd] at this

/-- Steps that a thread needs at most to end its emission. -/
def remaining (slots : List Nat) (σ : St) (t : Nat) : Nat :=
  match σ.pc t with
  | .start => 3 * slots.length + 2
  | .test => 3 * (slots.length - σ.iter) + 1
  | .call => 3 * (slots.length - σ.iter)
  | .inc => 3 * (slots.length - σ.iter) - 1
  | .done => 0

/-- A step of a thread brings it closer to its end, if emissions do not overlap. -/
theorem step_remaining {slots : List Nat} {σ σ' : St} (hg : Good slots σ t) (hrun : step slots t σ = .ok σ') (hd : σ.pc t ≠ .done) :
    remaining slots σ' t < remaining slots σ t := by
  unfold Good at hg
  unfold step at hrun
  unfold remaining
  cases hpc : σ.pc t with
  | start =>
    rw [hpc] at hrun
    injection hrun with hrun
    subst hrun
    simp only [goto_self]
    show 3 * (slots.length - 0) + 1 < _
    omega
  | test =>
    rw [hpc] at hrun
    injection hrun with hrun
    subst hrun
    by_cases hi : σ.iter < slots.length
    · simp only [hi, if_true, goto_self]
      show 3 * (slots.length - σ.iter) < _
      omega
    · simp only [hi, if_false, goto_self]
      omega
  | call =>
    rw [hpc] at hrun hg
    obtain ⟨-, hlt⟩ : σ.called t = slots.take σ.iter ∧ σ.iter < slots.length := hg
    simp only [rd, List.getElem?_eq_getElem hlt] at hrun
    injection hrun with hrun
    subst hrun
    simp only [goto_self]
    show 3 * (slots.length - σ.iter) - 1 < _
    omega
  | inc =>
    rw [hpc] at hrun hg
    obtain ⟨-, hlt⟩ : σ.called t = slots.take (σ.iter + 1) ∧ σ.iter < slots.length := hg
    injection hrun with hrun
    subst hrun
    simp only [goto_self]
    show 3 * (slots.length - (σ.iter + 1)) + 1 < _
    omega
  | done => exact absurd hpc hd

theorem run_cons {slots : List Nat} {t : Nat} {ts : List Nat} {σ σ' : St} (h : step slots t σ = .ok σ') : run slots (t :: ts) σ = run slots ts σ' := by
  unfold run
  rw [List.foldlM_cons, h]
  rfl

theorem run_append {slots : List Nat} (xs ys : List Nat) {σ σ' : St} (h : run slots xs σ = .ok σ') : run slots (xs ++ ys) σ = run slots ys σ' := by
  unfold run at *
  rw [List.foldlM_append, h]
  rfl

/-- The rest of the loop of one thread, without steps of the others. -/
theorem run_loop (slots : List Nat) (t : Nat) : ∀ (k : Nat) (σ : St), σ.pc t = .test → σ.iter + k = slots.length →
    ∃ σ', run slots (List.replicate (3 * k + 1) t) σ = .ok σ' ∧ σ'.iter = slots.length ∧ σ'.pc t = .done ∧ σ'.called t = σ.called t ++ slots.drop σ.iter ∧
      ∀ u, u ≠ t → σ'.pc u = σ.pc u ∧ σ'.called u = σ.called u := by
  intro k
  induction k with
  | zero =>
    intro σ hpc hk
    refine ⟨σ.goto t .done, ?_, (show σ.iter = slots.length by simpa using hk), goto_self _ _ _, ?_, fun u hu => ⟨goto_ne _ _ hu, rfl⟩⟩
    · show run slots [t] σ = _
      rw [run_cons (σ' := σ.goto t .done) (by unfold step; rw [hpc]; simp only [show ¬ σ.iter < slots.length by omega, if_false]; rfl)]
      rfl
    · rw [List.drop_of_length_le (by omega)]; simp [St.goto]
  | succ k ih =>
    intro σ hpc hk
    have hlt : σ.iter < slots.length := by omega
    obtain ⟨σ1, hσ1⟩ : ∃ σ1, σ1 = σ.goto t .call := ⟨_, rfl⟩
    obtain ⟨σ2, hσ2⟩ : ∃ σ2 : St, σ2 = { σ1.goto t .inc with called := fun u => if u = t then σ1.called u ++ [slots[σ.iter]] else σ1.called u } := ⟨_, rfl⟩
    obtain ⟨σ3, hσ3⟩ : ∃ σ3 : St, σ3 = { σ2.goto t .test with iter := σ2.iter + 1 } := ⟨_, rfl⟩
    have e1 : step slots t σ = .ok σ1 := by unfold step; rw [hpc, hσ1]; simp only [hlt, if_true]; rfl
    have e2 : step slots t σ1 = .ok σ2 := by
      have h1 : σ1.pc t = .call := by rw [hσ1]; exact goto_self _ _ _
      have h2 : σ1.iter = σ.iter := by rw [hσ1]; rfl
      unfold step
      rw [h1]
      simp only [h2, rd, List.getElem?_eq_getElem hlt, hσ2]
      rfl
    have e3 : step slots t σ2 = .ok σ3 := by
      have h1 : σ2.pc t = .inc := by rw [hσ2]; exact goto_self _ _ _
      unfold step
      rw [h1, hσ3]
      rfl
    have hi3 : σ3.iter = σ.iter + 1 := by rw [hσ3, hσ2, hσ1]; rfl
    obtain ⟨σ', e, g1, g2, g3, g4⟩ := ih σ3 (by rw [hσ3]; exact goto_self _ _ _) (by rw [hi3]; omega)
    refine ⟨σ', ?_, g1, g2, ?_, ?_⟩
    · rw [show 3 * (k + 1) + 1 = (3 * k + 1) + 1 + 1 + 1 by omega, List.replicate_succ, List.replicate_succ, List.replicate_succ, run_cons e1, run_cons e2, run_cons e3, e]
    · rw [g3, hi3, List.drop_eq_getElem_cons hlt, hσ3, hσ2, hσ1]
      simp [St.goto]
    · intro u hu
      obtain ⟨k1, k2⟩ := g4 u hu
      rw [k1, k2, hσ3, hσ2, hσ1]
      simp [St.goto, hu]

/-- A whole emission of one thread, without steps of the others. -/
theorem run_whole (slots : List Nat) (t : Nat) (σ : St) (hpc : σ.pc t = .start) :
    ∃ σ', run slots (List.replicate (3 * slots.length + 2) t) σ = .ok σ' ∧ σ'.iter = slots.length ∧ σ'.pc t = .done ∧ σ'.called t = σ.called t ++ slots ∧
      ∀ u, u ≠ t → σ'.pc u = σ.pc u ∧ σ'.called u = σ.called u := by
  obtain ⟨σ1, hσ1⟩ : ∃ σ1 : St, σ1 = { σ.goto t .test with iter := 0 } := ⟨_, rfl⟩
  have e1 : step slots t σ = .ok σ1 := by unfold step; rw [hpc, hσ1]; rfl
  obtain ⟨σ', e, g1, g2, g3, g4⟩ := run_loop slots t slots.length σ1 (by rw [hσ1]; exact goto_self _ _ _) (by rw [hσ1]; exact Nat.zero_add _)
  refine ⟨σ', ?_, g1, g2, ?_, ?_⟩
  · rw [show 3 * slots.length + 2 = (3 * slots.length + 1) + 1 by omega, List.replicate_succ, run_cons e1, e]
  · rw [g3, hσ1]; simp [St.goto]
  · intro u hu
    obtain ⟨k1, k2⟩ := g4 u hu
    rw [k1, k2, hσ1]
    simp [St.goto, hu]

/-- C132 if emissions do not overlap, by any schedule: every emission ends; each step of its thread brings it closer to its end, which is at most 3 steps per slot and 2 more away. -/
theorem C132_ends_partial {slots : List Nat} {σ σ' : St} (h : Locked slots σ) (t : Nat) (hrun : step slots t σ = .ok σ') (hd : σ.pc t ≠ .done) :
    remaining slots σ' t < remaining slots σ t ∧ remaining slots σ t ≤ 3 * slots.length + 2 := by
  refine ⟨step_remaining (h.good.1 t) hrun hd, ?_⟩
  unfold remaining
  split <;> omega

/-- C132 is violated: for every signal that has a slot, two threads that emit it at the same time can reach past the end of the list of slots. -/
theorem C132_overlap_ub_violated {slots : List Nat} (hs : slots ≠ []) {t u : Nat} (htu : t ≠ u) :
    ∃ schedule, (∀ v ∈ schedule, v = t ∨ v = u) ∧ run slots schedule .init = .error .ub := by
  have hpos : 0 < slots.length := List.length_pos_iff.2 hs
  obtain ⟨σ1, hσ1⟩ : ∃ σ1 : St, σ1 = { St.init.goto t .test with iter := 0 } := ⟨_, rfl⟩
  obtain ⟨σ2, hσ2⟩ : ∃ σ2 : St, σ2 = σ1.goto t .call := ⟨_, rfl⟩
  have e1 : step slots t .init = .ok σ1 := by rw [hσ1]; rfl
  have e2 : step slots t σ1 = .ok σ2 := by
    unfold step
    rw [show σ1.pc t = .test by rw [hσ1]; exact goto_self _ _ _, show σ1.iter = 0 by rw [hσ1]]
    simp only [hpos, if_true, hσ2]
    rfl
  obtain ⟨σ3, e3, g1, -, -, g4⟩ := run_whole slots u σ2 (by rw [hσ2, hσ1]; simp [St.goto, Ne.symm htu, St.init])
  refine ⟨t :: t :: (List.replicate (3 * slots.length + 2) u ++ [t]), ?_, ?_⟩
  · intro v hv
    simp only [List.mem_cons, List.mem_append, List.mem_replicate, List.not_mem_nil, or_false] at hv
    rcases hv with h | h | ⟨-, h⟩ | h
    · exact Or.inl h
    · exact Or.inl h
    · exact Or.inr h
    · exact Or.inl h
  · rw [run_cons e1, run_cons e2, run_append _ _ e3]
    have : step slots t σ3 = .error .ub := by
      unfold step
      rw [(g4 t htu).1, show σ2.pc t = .call by rw [hσ2]; exact goto_self _ _ _]
      simp only [g1, rd, List.getElem?_eq_none (Nat.le_refl slots.length)]
      rfl
    unfold run
    rw [List.foldlM_cons, this]
    rfl

/-- C132 is violated: for every signal of at least two slots, two threads that emit it at the same time can both end, and one has called the first slot only. -/
theorem C132_overlap_missed_violated {a b : Nat} {rest : List Nat} {t u : Nat} (htu : t ≠ u) :
    ∃ schedule σ, (∀ v ∈ schedule, v = t ∨ v = u) ∧ run (a :: b :: rest) schedule .init = .ok σ ∧ σ.pc t = .done ∧ σ.pc u = .done ∧
      σ.called t = [a] ∧ σ.called u = a :: b :: rest := by
  obtain ⟨slots, hsl⟩ : ∃ slots, slots = a :: b :: rest := ⟨_, rfl⟩
  have hlen : slots.length = rest.length + 2 := by rw [hsl]; rfl
  obtain ⟨σ1, hσ1⟩ : ∃ σ1 : St, σ1 = { St.init.goto t .test with iter := 0 } := ⟨_, rfl⟩
  obtain ⟨σ2, hσ2⟩ : ∃ σ2 : St, σ2 = σ1.goto t .call := ⟨_, rfl⟩
  obtain ⟨σ3, hσ3⟩ : ∃ σ3 : St, σ3 = { σ2.goto t .inc with called := fun u => if u = t then σ2.called u ++ [a] else σ2.called u } := ⟨_, rfl⟩
  have e1 : step slots t .init = .ok σ1 := by rw [hσ1]; rfl
  have e2 : step slots t σ1 = .ok σ2 := by
    unfold step
    rw [show σ1.pc t = .test by rw [hσ1]; exact goto_self _ _ _, show σ1.iter = 0 by rw [hσ1]]
    simp only [show 0 < slots.length by omega, if_true, hσ2]
    rfl
  have e3 : step slots t σ2 = .ok σ3 := by
    unfold step
    rw [show σ2.pc t = .call by rw [hσ2]; exact goto_self _ _ _, show σ2.iter = 0 by rw [hσ2, hσ1]; rfl, hσ3, hsl]
    rfl
  obtain ⟨σ4, e4, g1, g2, g3, g4⟩ := run_whole slots u σ3 (by rw [hσ3, hσ2, hσ1]; simp [St.goto, Ne.symm htu, St.init])
  obtain ⟨σ5, hσ5⟩ : ∃ σ5 : St, σ5 = { σ4.goto t .test with iter := σ4.iter + 1 } := ⟨_, rfl⟩
  obtain ⟨σ6, hσ6⟩ : ∃ σ6 : St, σ6 = σ5.goto t .done := ⟨_, rfl⟩
  have e5 : step slots t σ4 = .ok σ5 := by
    unfold step
    rw [(g4 t htu).1, show σ3.pc t = .inc by rw [hσ3]; exact goto_self _ _ _, hσ5]
    rfl
  have e6 : step slots t σ5 = .ok σ6 := by
    unfold step
    rw [show σ5.pc t = .test by rw [hσ5]; exact goto_self _ _ _, show σ5.iter = slots.length + 1 by rw [hσ5, g1]]
    simp only [show ¬ slots.length + 1 < slots.length by omega, if_false, hσ6]
    rfl
  refine ⟨t :: t :: t :: (List.replicate (3 * slots.length + 2) u ++ [t, t]), σ6, ?_, ?_, ?_, ?_, ?_, ?_⟩
  · intro v hv
    simp only [List.mem_cons, List.mem_append, List.mem_replicate, List.not_mem_nil, or_false] at hv
    rcases hv with h | h | h | ⟨-, h⟩ | h | h
    · exact Or.inl h
    · exact Or.inl h
    · exact Or.inl h
    · exact Or.inr h
    · exact Or.inl h
    · exact Or.inl h
  · rw [← hsl, run_cons e1, run_cons e2, run_cons e3, run_append _ _ e4, run_cons e5, run_cons e6]
    rfl
  · rw [hσ6]; exact goto_self _ _ _
  · rw [hσ6, hσ5]; simp [St.goto, Ne.symm htu, g2]
  · rw [hσ6, hσ5]
    show σ4.called t = _
    rw [(g4 t htu).2, hσ3, hσ2, hσ1]
    simp [St.goto, St.init]
  · rw [hσ6, hσ5]
    show σ4.called u = _
    rw [g3, hσ3, hσ2, hσ1, hsl]
    simp [St.goto, St.init, Ne.symm htu]

/-- The hypotheses of the theorems are met, e.g., by a second thread that emits after the first has ended, of a signal with two slots; both then have called both slots. -/
example : ∃ σ, Locked [5, 6] σ ∧ σ.pc 0 = .done ∧ σ.pc 1 = .done ∧ σ.called 0 = [5, 6] ∧ σ.called 1 = [5, 6] := by
  have locked : ∀ (k t : Nat) (σ σ' : St), Locked [5, 6] σ → (∀ u, u ≠ t → ¬ σ.Emitting u) → run [5, 6] (List.replicate k t) σ = .ok σ' → Locked [5, 6] σ' := by
    intro k t
    induction k with
    | zero => intro σ σ' h _ e; injection e with e; subst e; exact h
    | succ k ih =>
      intro σ σ' h ho e
      have hlock : σ.pc t = .start → ∀ u, ¬ σ.Emitting u := by
        intro hs u he
        by_cases hu : u = t
        · subst hu; exact he.1 hs
        · exact ho u hu he
      obtain ⟨σ1, e1⟩ := (C132_locked_partial h t).1 hlock
      rw [List.replicate_succ, run_cons e1] at e
      refine ih σ1 σ' (Locked.step t h hlock e1) ?_ e
      intro u hu he
      refine ho u hu ?_
      have hp : σ1.pc u = σ.pc u := by
        unfold step at e1
        split at e1
        · injection e1 with e1; subst e1; exact goto_ne _ _ hu
        · injection e1 with e1; subst e1; split <;> exact goto_ne _ _ hu
        · cases hr : rd [5, 6] σ.iter with
          | error _ => rw [hr] at e1; cases e1
          | ok x => rw [hr] at e1; injection e1 with e1; subst e1; exact goto_ne _ _ hu
        · injection e1 with e1; subst e1; exact goto_ne _ _ hu
        · injection e1 with e1; subst e1; rfl
      unfold St.Emitting at he
      rw [hp] at he
      exact he
  obtain ⟨σ1, e1, -, a2, a3, a4⟩ := run_whole [5, 6] 0 .init rfl
  obtain ⟨σ2, e2, -, b2, b3, b4⟩ := run_whole [5, 6] 1 σ1 (by rw [(a4 1 (by decide)).1]; rfl)
  have l1 := locked _ 0 .init σ1 .init (fun u _ h => h.1 rfl) e1
  have l2 := locked _ 1 σ1 σ2 l1 (by
    intro u hu he
    unfold St.Emitting at he
    by_cases h0 : u = 0
    · subst h0; exact he.2 a2
    · rw [(a4 u h0).1] at he; exact he.1 rfl) e2
  have d0 : σ2.pc 0 = .done := by rw [(b4 0 (by decide)).1, a2]
  exact ⟨σ2, l2, d0, b2, (C132_locked_partial l2 0).2 d0, (C132_locked_partial l2 1).2 b2⟩

end Verif.Signal.Threads
