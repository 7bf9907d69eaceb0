import Verif.FixedVectorAlloc.LemmasCopy

/-!
# The vectors of a program in which allocations may fail
-/

namespace Verif.FixedVectorAlloc
open Verif.Cpp Verif.FixedVector

variable {α : Type} {K : Cfg α} {L : Lib} {grant : Nat → Bool}

/-- The vectors that calls of the API can make, exceptions of the allocations included, with the sequence they are meant to be.  Excluded are the assignments of
`C27_leak_violated` and `C27_self_violated`. -/
inductive Reachable (K : Cfg α) (L : Lib) (grant : Nat → Bool) (nothrowCopy : Bool) : HSt α → List α → Prop where
  /-- the default constructor -/
  | new (n : Nat) : Reachable K L grant nothrowCopy ⟨⟨empty K, none⟩, ⟨0, 0⟩, n⟩ []
  /-- other parts of the program allocate -/
  | other {h : HSt α} {l : List α} (hr : Reachable K L grant nothrowCopy h l) {n : Nat} (hn : h.tries ≤ n) :
      Reachable K L grant nothrowCopy { h with tries := n } l
  /-- a member function that returns -/
  | call {h h' : HSt α} {l : List α} {o : Op α} {r : Option Nat} (hr : Reachable K L grant nothrowCopy h l)
      (hok : o.ok K.capacity K.hasFallback l) (e : run K L grant o h = .done h' r) : Reachable K L grant nothrowCopy h' (o.spec l).1
  /-- a member function that throws -/
  | callThrown {h h' : HSt α} {l : List α} {o : Op α} (hr : Reachable K L grant nothrowCopy h l)
      (hok : o.ok K.capacity K.hasFallback l) (e : run K L grant o h = .thrown h') : Reachable K L grant nothrowCopy h' l
  /-- copy constructor -/
  | copyConstruct {t h' : HSt α} {m : List α} (hr : Reachable K L grant nothrowCopy t m) {v0 : Vec α} {b0 : Buf} {n : Nat}
      (e : copyConstruct K L grant nothrowCopy t.st.vec ⟨⟨v0, none⟩, b0, n⟩ = .done h' ()) : Reachable K L grant nothrowCopy h' m
  /-- copy assignment -/
  | copyAssign {h t h' : HSt α} {l m : List α} (hr : Reachable K L grant nothrowCopy h l) (hr' : Reachable K L grant nothrowCopy t m)
      (hg : t.st.vec.usesFallback K = true → h.st.vec.usesFallback K = true ∨ l = [])
      (e : copyAssign K L grant nothrowCopy t.st.vec h = .done h' ()) : Reachable K L grant nothrowCopy h' m
  /-- copy assignment that throws; what is left depends on the source -/
  | copyAssignThrown {h t h' : HSt α} {l m : List α} {k : Nat} (hr : Reachable K L grant nothrowCopy h l)
      (hr' : Reachable K L grant nothrowCopy t m) (hg : t.st.vec.usesFallback K = true → h.st.vec.usesFallback K = true ∨ l = [])
      (e : copyAssign K L grant nothrowCopy t.st.vec h = .thrown h') (hk : size K h'.st = .done h'.st k) :
      Reachable K L grant nothrowCopy h' (if t.st.vec.usesFallback K then l else m.take k)
  /-- the new vector of a move construction -/
  | moveConstruct {t h' : HSt α} {v' : Vec α × Buf} {m : List α} (hr : Reachable K L grant nothrowCopy t m) {v0 : Vec α} {b0 : Buf} {n : Nat}
      (hn : t.tries ≤ n) (e : moveConstruct K L grant (⟨⟨v0, none⟩, b0, n⟩, (t.st.vec, t.buf)) = .done (h', v') ()) :
      Reachable K L grant nothrowCopy h' m
  /-- the moved-from vector of a move construction -/
  | moveConstructSource {t h' : HSt α} {v' : Vec α × Buf} {m : List α} (hr : Reachable K L grant nothrowCopy t m) {v0 : Vec α} {b0 : Buf} {n : Nat}
      (hn : t.tries ≤ n) (e : moveConstruct K L grant (⟨⟨v0, none⟩, b0, n⟩, (t.st.vec, t.buf)) = .done (h', v') ()) :
      Reachable K L grant nothrowCopy ⟨⟨v'.1, none⟩, v'.2, n⟩ (movedFrom K false t.st m)
  /-- the target of a move assignment -/
  | moveAssign {h t h' : HSt α} {v' : Vec α × Buf} {l m : List α} (hr : Reachable K L grant nothrowCopy h l)
      (hr' : Reachable K L grant nothrowCopy t m) (hn : t.tries ≤ h.tries)
      (hg : t.st.vec.usesFallback K = true → h.st.vec.usesFallback K = true ∨ l = [])
      (e : moveAssign K L grant (h, (t.st.vec, t.buf)) = .done (h', v') ()) : Reachable K L grant nothrowCopy h' m
  /-- the source of a move assignment -/
  | moveAssignSource {h t h' : HSt α} {v' : Vec α × Buf} {l m : List α} (hr : Reachable K L grant nothrowCopy h l)
      (hr' : Reachable K L grant nothrowCopy t m) (hn : t.tries ≤ h.tries)
      (hg : t.st.vec.usesFallback K = true → h.st.vec.usesFallback K = true ∨ l = [])
      (e : moveAssign K L grant (h, (t.st.vec, t.buf)) = .done (h', v') ()) :
      Reachable K L grant nothrowCopy ⟨⟨v'.1, none⟩, v'.2, h'.tries⟩ (movedFrom K (h.st.vec.usesFallback K) t.st m)

theorem HRepr.cases {u : Bool} {h : HSt α} {l : List α} (hr : HRepr K u h l) :
    (u = false ∧ h = ⟨inl K l none, ⟨0, 0⟩, h.tries⟩ ∧ l.length ≤ K.capacity) ∨
    (u = true ∧ h = ⟨fb K l none, h.buf, h.tries⟩ ∧ K.hasFallback = true ∧ l.length ≤ h.buf.cap) := by
  obtain ⟨s, b, t⟩ := h
  rcases hr.1 with ⟨rfl, hs, hl⟩ | ⟨rfl, hs, hF⟩
  · have hb := hr.2.1 rfl
    simp only at hs hb
    subst hs hb
    exact .inl ⟨rfl, rfl, hl⟩
  · have hb := hr.2.2.1 rfl
    simp only at hs
    subst hs
    exact .inr ⟨rfl, rfl, hF, hb⟩

theorem HRepr.inl_source {m : List α} {f : α → α} {n : Nat} (hm : m.length ≤ K.capacity) :
    HRepr K false ⟨⟨(inl K (m.map f) none).vec, none⟩, ⟨0, 0⟩, n⟩ (m.map f) :=
  ⟨.inl ⟨rfl, rfl, by simpa using hm⟩, fun _ => rfl, by simp, by simp⟩

theorem HRepr.fb_source (hF : K.hasFallback = true) {n : Nat} : HRepr K true (⟨⟨(fb K [] none).vec, none⟩, ⟨0, 0⟩, n⟩ : HSt α) [] :=
  ⟨.inr ⟨rfl, rfl, hF⟩, by simp, by simp, by simp⟩

theorem Reachable.repr {nt : Bool} {h : HSt α} {l : List α} (hr : Reachable K L grant nt h l) : ∃ u, HRepr K u h l := by
  induction hr with
  | new n => exact ⟨false, repr_new K n⟩
  | other _ hn ih =>
    obtain ⟨u, r⟩ := ih
    exact ⟨u, r.1, r.2.1, r.2.2.1, Nat.le_trans r.2.2.2 hn⟩
  | @call h h' l o x _ hok e ih =>
    obtain ⟨u, r⟩ := ih
    have ho := run_out (L := L) (grant := grant) _ r hok
    rcases Nat.lt_or_ge (capOf K u h) (needs' K o l) with hc | hc
    · cases hg : grant h.tries with
      | true =>
        obtain ⟨s', c, _, e', r'⟩ := (ho.2 hc).1 hg
        rw [e'] at e; cases e; exact ⟨true, r'⟩
      | false => rw [(ho.2 hc).2 hg] at e; cases e
    · obtain ⟨s', e', r'⟩ := ho.1 hc
      rw [e'] at e; cases e; exact ⟨u, r'⟩
  | @callThrown h h' l o _ hok e ih =>
    obtain ⟨u, r⟩ := ih
    have ho := run_out (L := L) (grant := grant) _ r hok
    rcases Nat.lt_or_ge (capOf K u h) (needs' K o l) with hc | hc
    · cases hg : grant h.tries with
      | true =>
        obtain ⟨s', c, _, e', r'⟩ := (ho.2 hc).1 hg
        rw [e'] at e; cases e
      | false =>
        rw [(ho.2 hc).2 hg] at e; cases e
        exact ⟨u, r.1, r.2.1, r.2.2.1, Nat.le_succ_of_le r.2.2.2⟩
    · obtain ⟨s', e', r'⟩ := ho.1 hc
      rw [e'] at e; cases e
  | copyConstruct _ e ih =>
    obtain ⟨u, r⟩ := ih
    rcases r.cases with ⟨_, hh, hl⟩ | ⟨_, hh, hF, _⟩
    · rw [hh] at e
      obtain ⟨s', e', r'⟩ := copyConstruct_inl (L := L) (grant := grant) hl _ _ _
      rw [e'] at e; cases e; exact ⟨false, r'⟩
    · rw [hh] at e
      simp only at e
      rw [copyConstruct_fb hF] at e
      split at e
      · rename_i hm
        cases e
        refine ⟨true, .inr ⟨rfl, rfl, hF⟩, by simp, ?_, by simp⟩
        simp [hm]
      · split at e
        · cases e
          exact ⟨true, .inr ⟨rfl, rfl, hF⟩, by simp, fun _ => L.le_copy _, by simp⟩
        · cases e
  | @copyAssign h t h' l m _ _ hg e ih ih' =>
    obtain ⟨u, r⟩ := ih
    obtain ⟨u', r'⟩ := ih'
    rw [uses_reprU r.1, uses_reprU r'.1] at hg
    rcases r'.cases with ⟨_, hh, hl⟩ | ⟨hu, hh, hF, _⟩
    · rw [hh] at e
      obtain ⟨s0, e0, r0⟩ := copyAssign_inl (L := L) (grant := grant) r hl
      simp only at e
      rw [e0] at e
      rcases copyLoop_cases (L := L) (grant := grant) (vec := (inl K m none).vec) r0 hl rfl with ⟨h', e1, r1⟩ | ⟨_, _, h', k, e1, r1⟩ | ⟨_, _, e1⟩ <;> rw [e1] at e <;> cases e
      exact ⟨u, r1⟩
    · rw [hh] at e
      simp only at e
      rw [copyAssign_fb r hF (hg hu)] at e
      split at e
      · rename_i hc
        cases e
        exact ⟨true, .inr ⟨rfl, rfl, hF⟩, by simp, fun _ => hc, r.2.2.2⟩
      · split at e
        · cases e
          exact ⟨true, .inr ⟨rfl, rfl, hF⟩, by simp, fun _ => L.le_grow _ _, by simp⟩
        · cases e
  | @copyAssignThrown h t h' l m k0 _ _ hg e hk ih ih' =>
    obtain ⟨u, r⟩ := ih
    obtain ⟨u', r'⟩ := ih'
    rw [uses_reprU r.1, uses_reprU r'.1] at hg
    rw [uses_reprU r'.1]
    rcases r'.cases with ⟨hu, hh, hl⟩ | ⟨hu, hh, hF, _⟩
    · subst hu
      rw [hh] at e
      obtain ⟨s0, e0, r0⟩ := copyAssign_inl (L := L) (grant := grant) r hl
      simp only at e
      rw [e0] at e
      rcases copyLoop_cases (L := L) (grant := grant) (vec := (inl K m none).vec) r0 hl rfl with ⟨h', e1, r1⟩ | ⟨_, _, h', k, e1, r1⟩ | ⟨_, _, e1⟩ <;> rw [e1] at e <;> cases e
      rw [size_repr r1.1.repr] at hk
      simp only [Out.done.injEq, true_and] at hk
      refine ⟨u, ?_⟩
      rw [← hk]
      simp only [Bool.false_eq_true, if_false, List.length_take]
      rw [show List.take (min k _) _ = List.take k _ from by rw [← List.take_take, List.take_length]]
      exact r1
    · subst hu
      rw [hh] at e
      simp only at e
      rw [copyAssign_fb r hF (hg rfl)] at e
      split at e
      · cases e
      · split at e
        · cases e
        · cases e
          exact ⟨u, r.1, r.2.1, r.2.2.1, Nat.le_succ_of_le r.2.2.2⟩
  | moveConstruct _ hn e ih =>
    obtain ⟨u, r⟩ := ih
    rcases r.cases with ⟨_, hh, hl⟩ | ⟨_, hh, hF, hc⟩
    · rw [hh] at e
      obtain ⟨s', e', r'⟩ := moveConstruct_inl (L := L) (grant := grant) hl _ _ _
      rw [e'] at e; cases e; exact ⟨false, r'⟩
    · rw [hh] at e
      simp only at e
      rw [moveConstruct_fb hF] at e
      cases e
      exact ⟨true, .inr ⟨rfl, rfl, hF⟩, by simp, fun _ => hc, Nat.le_trans r.2.2.2 hn⟩
  | @moveConstructSource t _ _ m _ _ _ n hn e ih =>
    obtain ⟨u, r⟩ := ih
    rw [movedFrom, uses_reprU r.1]
    rcases r.cases with ⟨hu, hh, hl⟩ | ⟨hu, hh, hF, hc⟩
    · subst hu
      rw [hh] at e
      obtain ⟨s', e', r'⟩ := moveConstruct_inl (L := L) (grant := grant) hl _ _ _
      rw [e'] at e; cases e
      exact ⟨false, HRepr.inl_source hl⟩
    · subst hu
      rw [hh] at e
      simp only at e
      rw [moveConstruct_fb hF] at e
      cases e
      exact ⟨true, HRepr.fb_source hF⟩
  | @moveAssign h t h' v' l m _ _ hn hg e ih ih' =>
    obtain ⟨u, r⟩ := ih
    obtain ⟨u', r'⟩ := ih'
    rw [uses_reprU r.1, uses_reprU r'.1] at hg
    rcases r'.cases with ⟨_, hh, hl⟩ | ⟨hu, hh, hF, hc⟩
    · rw [hh] at e
      obtain ⟨s0, e0, r0⟩ := moveAssign_inl (L := L) (grant := grant) r hl
      simp only at e
      rw [e0] at e
      rcases moveLoop_cases (L := L) (grant := grant) (b' := ⟨0, 0⟩) r0 hl with ⟨h', e1, r1, _⟩ | ⟨_, e1⟩
      · rw [noexcept_done e1] at e
        cases e
        exact ⟨u, r1⟩
      · rw [noexcept_fail e1] at e; cases e
    · rw [hh] at e
      simp only at e
      rw [moveAssign_fb r hF (hg hu)] at e
      cases e
      exact ⟨true, .inr ⟨rfl, rfl, hF⟩, by simp, fun _ => hc, Nat.le_trans r'.2.2.2 hn⟩
  | @moveAssignSource h t h' v' l m _ _ hn hg e ih ih' =>
    obtain ⟨u, r⟩ := ih
    obtain ⟨u', r'⟩ := ih'
    rw [uses_reprU r.1, uses_reprU r'.1] at hg
    rw [movedFrom, uses_reprU r.1, uses_reprU r'.1]
    rcases r'.cases with ⟨hu, hh, hl⟩ | ⟨hu, hh, hF, hc⟩
    · subst hu
      rw [hh] at e
      obtain ⟨s0, e0, r0⟩ := moveAssign_inl (L := L) (grant := grant) r hl
      simp only at e
      rw [e0] at e
      rcases moveLoop_cases (L := L) (grant := grant) (b' := ⟨0, 0⟩) r0 hl with ⟨h', e1, r1, _⟩ | ⟨_, e1⟩
      · rw [noexcept_done e1] at e
        cases e
        exact ⟨false, HRepr.inl_source hl⟩
      · rw [noexcept_fail e1] at e; cases e
    · subst hu
      rw [hh] at e
      simp only at e
      rw [moveAssign_fb r hF (hg rfl)] at e
      cases e
      exact ⟨true, HRepr.fb_source hF⟩

end Verif.FixedVectorAlloc
