import Mathlib.Data.List.Basic
import Mathlib.Data.List.TakeDrop
import Verif.FixedVector.ModelReent

/-!
# C159: elements that use the vector they are in
-/

namespace Verif.FixedVector.Reent
open Verif.Cpp

/-! ## Specification -/

/-- The vector holds the objects `l` (number and kind), the first at index `b`; nothing is said of the slots below `b`. -/
def Holds (σ : St) (b : Nat) (l : List (Nat × Nat)) : Prop :=
  σ.size = b + l.length ∧ (∀ i, (h : i < l.length) → σ.slots (b + i) = .alive l[i].1 l[i].2)

/-- Nothing is in the slots beyond the size. -/
def Tidy (σ : St) : Prop := ∀ i, σ.size ≤ i → σ.slots i = .raw

/-- The task ends with the given outcome. -/
def Ends (env : Env) (cap : Nat) (σ : St) (t : Task) (r : M St) : Prop := ∃ F, ∀ f, F ≤ f → run env cap f σ t = r

/-- Calls that append elements whose constructors append elements, and so on: the kinds in the order in which the constructors are called. -/
inductive Appends (env : Env) : List Act → List Nat → Prop where
  | nil : Appends env [] []
  | cons {k : Nat} {as : List Act} {ks ls : List Nat} : Appends env (env.ctor k) ks → Appends env as ls → Appends env (.push k :: as) (k :: (ks ++ ls))

/-- The objects made by appending the kinds `ks`. -/
def objects (next : Nat) : List Nat → List (Nat × Nat)
  | [] => []
  | k :: ks => (next, k) :: objects (next + 1) ks

/-- Destructors that remove elements: the numbers of elements that remain when `p` elements are removed from a stack of kinds (the last one first), whose destructors remove others; `none`: there are not
enough. -/
def removed (pops : Nat → Nat) : List Nat → Nat → Option Nat
  | s, 0 => some s.length
  | [], _ + 1 => none
  | k :: s, p + 1 => removed pops s (pops k + p)

/-- `clear()` with such destructors, from the first element on: each destructor removes elements at the end; `false`: there are not enough. -/
def clears (pops : Nat → Nat) : Nat → List Nat → Bool
  | 0, l => l.isEmpty
  | _ + 1, [] => true
  | n + 1, k :: l =>
    match removed pops l.reverse (pops k) with
    | some m => clears pops n (l.take m)
    | none => false

/-! ## Proofs -/

variable {env : Env} {cap : Nat}

private theorem ends_nil (σ : St) : Ends env cap σ (.acts []) (.ok σ) := ⟨1, fun f hf => by
  obtain ⟨g, rfl⟩ := Nat.exists_eq_add_of_le' hf; rfl⟩

private theorem ends_cons {σ σ1 : St} {a : Act} {as : List Act} {r : M St} (h1 : Ends env cap σ (.act a) (.ok σ1)) (h2 : Ends env cap σ1 (.acts as) r) :
    Ends env cap σ (.acts (a :: as)) r := by
  obtain ⟨F1, h1⟩ := h1
  obtain ⟨F2, h2⟩ := h2
  refine ⟨max F1 F2 + 1, fun f hf => ?_⟩
  obtain ⟨g, rfl⟩ := Nat.exists_eq_add_of_le' (show 1 ≤ f by omega)
  simp only [run, h1 g (by omega), h2 g (by omega), ok_bind]

private theorem ends_cons_err {σ : St} {a : Act} {as : List Act} {e : Err} (h1 : Ends env cap σ (.act a) (.error e)) : Ends env cap σ (.acts (a :: as)) (.error e) := by
  obtain ⟨F1, h1⟩ := h1
  refine ⟨F1 + 1, fun f hf => ?_⟩
  obtain ⟨g, rfl⟩ := Nat.exists_eq_add_of_le' (show 1 ≤ f by omega)
  simp only [run, h1 g (by omega), err_bind]

/-- The state in which the constructor of a new element runs. -/
private def opened (σ : St) (k : Nat) : St := ⟨put σ.slots σ.size (.building σ.next k), σ.size + 1, σ.next + 1, σ.log ++ [.made σ.next]⟩

private theorem ends_push {σ : St} {k : Nat} {r : M St} (hr : σ.slots σ.size = .raw) (hc : σ.size < cap) (h : Ends env cap (opened σ k) (.acts (env.ctor k)) r) :
    Ends env cap σ (.act (.push k)) (r.bind (built σ.size σ.next k)) := by
  obtain ⟨F, h⟩ := h
  refine ⟨F + 1, fun f hf => ?_⟩
  obtain ⟨g, rfl⟩ := Nat.exists_eq_add_of_le' (show 1 ≤ f by omega)
  have := h g (by omega)
  unfold opened at this
  simp only [run, Cpp.assert, hc, decide_true, if_true, guardUB, hr, ok_bind, this]
  rfl

private theorem ends_push_full {σ : St} {k : Nat} (hc : cap ≤ σ.size) : Ends env cap σ (.act (.push k)) (.error .assert) := by
  refine ⟨1, fun f hf => ?_⟩
  obtain ⟨g, rfl⟩ := Nat.exists_eq_add_of_le' hf
  have : ¬ σ.size < cap := by omega
  simp [run, Cpp.assert, this]

/-- The state after appending. -/
private def pushed (σ : St) (ks : List Nat) : St :=
  ⟨fun i => if i < σ.size then σ.slots i else (match ks[i - σ.size]? with | some k => .alive (σ.next + (i - σ.size)) k | none => .raw),
    σ.size + ks.length, σ.next + ks.length, σ.log ++ (List.range' σ.next ks.length).map .made⟩

private theorem pushed_nil {σ : St} (ht : Tidy σ) : pushed σ [] = σ := by
  unfold pushed
  cases σ
  simp only [List.length_nil, Nat.add_zero, List.range'_zero, List.map_nil, List.append_nil, St.mk.injEq, and_true]
  funext i
  split
  · rfl
  · rename_i h; simp; exact (ht i (by simpa using h)).symm

private theorem tidy_pushed (σ : St) (ks : List Nat) : Tidy (pushed σ ks) := by
  intro i hi
  simp only [pushed] at hi ⊢
  rw [if_neg (by omega), List.getElem?_eq_none (by omega)]

private theorem pushed_pushed (σ : St) (ks ls : List Nat) : pushed (pushed σ ks) ls = pushed σ (ks ++ ls) := by
  unfold pushed
  simp only [List.length_append, St.mk.injEq]
  refine ⟨?_, by omega, by omega, ?_⟩
  · funext i
    by_cases h1 : i < σ.size
    · rw [if_pos (by omega), if_pos h1, if_pos h1]
    · rw [if_neg h1, if_neg h1]
      by_cases h2 : i < σ.size + ks.length
      · rw [if_pos h2, List.getElem?_append_left (by omega)]
      · rw [if_neg h2, List.getElem?_append_right (by omega), show i - (σ.size + ks.length) = i - σ.size - ks.length by omega]
        cases ls[i - σ.size - ks.length]? with
        | none => rfl
        | some k => simp only; congr 1; omega
  · rw [List.append_assoc, ← List.map_append, List.range'_append_1]

private theorem tidy_opened {σ : St} {k : Nat} (ht : Tidy σ) : Tidy (opened σ k) := by
  intro i hi
  simp only [opened, put] at hi ⊢
  rw [if_neg (by omega)]
  exact ht i (by omega)

private theorem built_pushed {σ : St} {k : Nat} {ks : List Nat} :
    built σ.size σ.next k (pushed (opened σ k) ks) = .ok (pushed σ (k :: ks)) := by
  have h : (pushed (opened σ k) ks).slots σ.size = .building σ.next k := by simp [pushed, opened, put]
  unfold built
  rw [if_pos h]
  congr 1
  unfold pushed opened
  simp only [St.mk.injEq, List.length_cons]
  refine ⟨?_, by omega, by omega, by rw [List.append_assoc, List.range'_succ]; rfl⟩
  funext i
  unfold put
  by_cases h0 : i = σ.size
  · subst h0; simp
  · rw [if_neg h0]
    beta_reduce
    by_cases h1 : i < σ.size
    · rw [if_pos (by omega), if_neg h0, if_pos h1]
    · rw [if_neg (by omega), if_neg h1, show i - σ.size = (i - (σ.size + 1)) + 1 by omega, List.getElem?_cons_succ]
      cases ks[i - (σ.size + 1)]? with
      | none => rfl
      | some k' => simp only; congr 1; omega

private theorem appends_ok {as : List Act} {ks : List Nat} (h : Appends env as ks) : ∀ {σ : St}, Tidy σ → σ.size + ks.length ≤ cap →
    Ends env cap σ (.acts as) (.ok (pushed σ ks)) := by
  induction h with
  | nil => intro σ ht _; rw [pushed_nil ht]; exact ends_nil σ
  | @cons k as ks ls _ _ ih1 ih2 =>
    intro σ ht hr
    simp only [List.length_cons, List.length_append] at hr
    have h1 := ih1 (σ := opened σ k) (tidy_opened ht) (by simp only [opened]; omega)
    have h2 := ends_push (ht _ (Nat.le_refl _)) (by omega) h1
    rw [show (Except.ok (pushed (opened σ k) ks) : M St).bind (built σ.size σ.next k) = built σ.size σ.next k (pushed (opened σ k) ks) from rfl, built_pushed] at h2
    have h3 := ih2 (σ := pushed σ (k :: ks)) (tidy_pushed _ _) (by simp only [pushed, List.length_cons]; omega)
    rw [pushed_pushed, List.cons_append] at h3
    exact ends_cons h2 h3

private theorem appends_full {as : List Act} {ks : List Nat} (h : Appends env as ks) : ∀ {σ : St}, Tidy σ → σ.size ≤ cap → cap < σ.size + ks.length →
    Ends env cap σ (.acts as) (.error .assert) := by
  induction h with
  | nil => intro σ _ h1 h2; simp at h2; omega
  | @cons k as ks ls ha _ ih1 ih2 =>
    intro σ ht hc hr
    simp only [List.length_cons, List.length_append] at hr
    by_cases h0 : cap ≤ σ.size
    · exact ends_cons_err (ends_push_full h0)
    · by_cases h1 : cap < σ.size + 1 + ks.length
      · have h1 := ih1 (σ := opened σ k) (tidy_opened ht) (by simp only [opened]; omega) (by simp only [opened]; omega)
        exact ends_cons_err (ends_push (ht _ (Nat.le_refl _)) (by omega) h1)
      · have h1 := appends_ok ha (cap := cap) (σ := opened σ k) (tidy_opened ht) (by simp only [opened]; omega)
        have h2 := ends_push (ht _ (Nat.le_refl _)) (by omega) h1
        rw [show (Except.ok (pushed (opened σ k) ks) : M St).bind (built σ.size σ.next k) = built σ.size σ.next k (pushed (opened σ k) ks) from rfl, built_pushed] at h2
        have h3 := ih2 (σ := pushed σ (k :: ks)) (tidy_pushed _ _) (by simp only [pushed, List.length_cons]; omega) (by simp only [pushed, List.length_cons]; omega)
        exact ends_cons h2 h3

/-! ### Removal -/

/-- The state after the elements from `m` on are removed. -/
private def cut (σ : St) (m : Nat) (l : List (Nat × Nat)) : St :=
  ⟨fun i => if m ≤ i ∧ i < σ.size then .raw else σ.slots i, m, σ.next, σ.log ++ (l.reverse.map (fun x => .ended x.1))⟩

private theorem removed_le (pops : Nat → Nat) : ∀ (s : List Nat) (p m : Nat), removed pops s p = some m → m ≤ s.length := by
  intro s
  induction s with
  | nil => intro p m h; cases p <;> simp [removed] at h; omega
  | cons k s ih =>
    intro p m h
    cases p with
    | zero => simp [removed] at h; simp; omega
    | succ p => have := ih _ _ h; simp; omega

private theorem removed_add (pops : Nat → Nat) : ∀ (s : List Nat) (a b : Nat),
    removed pops s (a + b) = (removed pops s a).bind (fun m => removed pops (s.drop (s.length - m)) b) := by
  intro s
  induction s with
  | nil =>
    intro a b
    cases a with
    | zero => simp [removed]
    | succ a => simp [removed, Nat.succ_add]
  | cons k s ih =>
    intro a b
    cases a with
    | zero => simp [removed]
    | succ a =>
      rw [Nat.succ_add, removed, ← Nat.add_assoc, ih, removed]
      cases h : removed pops s (pops k + a) with
      | none => rfl
      | some m =>
        have := removed_le pops s _ _ h
        simp only [Option.bind_some, List.length_cons]
        rw [show s.length + 1 - m = (s.length - m) + 1 by omega, List.drop_succ_cons]

private theorem ends_pop {σ : St} {n k : Nat} {r : M St} (h0 : σ.size ≠ 0) (ha : σ.slots (σ.size - 1) = .alive n k)
    (h : Ends env cap ⟨put σ.slots (σ.size - 1) (.dying n k), σ.size - 1, σ.next, σ.log ++ [.ended n]⟩ (.acts (env.dtor k)) r) :
    Ends env cap σ (.act .pop) (r.bind (destroyed (σ.size - 1) n k)) := by
  obtain ⟨F, h⟩ := h
  refine ⟨F + 2, fun f hf => ?_⟩
  obtain ⟨g, rfl⟩ := Nat.exists_eq_add_of_le' (show 2 ≤ f by omega)
  have := h g (by omega)
  simp only [run, Cpp.assert, ne_eq, h0, not_false_eq_true, decide_true, if_true, ok_bind, ha, this]
  cases r <;> rfl

private theorem ends_pop_empty {σ : St} (h0 : σ.size = 0) : Ends env cap σ (.act .pop) (.error .assert) := by
  refine ⟨1, fun f hf => ?_⟩
  obtain ⟨g, rfl⟩ := Nat.exists_eq_add_of_le' hf
  simp [run, Cpp.assert, h0]

private theorem ends_pop_dead {σ : St} (h0 : σ.size ≠ 0) (ha : ∀ n k, σ.slots (σ.size - 1) ≠ .alive n k) : Ends env cap σ (.act .pop) (.error .ub) := by
  refine ⟨2, fun f hf => ?_⟩
  obtain ⟨g, rfl⟩ := Nat.exists_eq_add_of_le' hf
  simp only [run, Cpp.assert, ne_eq, h0, not_false_eq_true, decide_true, if_true, ok_bind]

private def PopsOnly (env : Env) (pops : Nat → Nat) (l : List (Nat × Nat)) : Prop := ∀ x ∈ l, env.dtor x.2 = List.replicate (pops x.2) .pop

private theorem holds_take {σ : St} {b : Nat} {l : List (Nat × Nat)} {m : Nat} {ev : List (Nat × Nat)} (h : Holds σ b l) (hm : m ≤ l.length) :
    Holds (cut σ (b + m) ev) b (l.take m) := by
  refine ⟨by simp [cut]; omega, fun i hi => ?_⟩
  simp only [List.length_take] at hi
  simp only [cut]
  rw [if_neg (by omega), h.2 i (by omega)]
  simp only [List.getElem_take]

private theorem cut_cut {σ : St} {m m' : Nat} {u v : List (Nat × Nat)} (h : m' ≤ m) (hm : m ≤ σ.size) : cut (cut σ m u) m' v = cut σ m' (v ++ u) := by
  unfold cut
  simp only [St.mk.injEq, List.reverse_append, List.map_append, List.append_assoc, and_true]
  funext i
  by_cases h1 : m' ≤ i ∧ i < m
  · rw [if_pos h1, if_pos (by omega)]
  · rw [if_neg h1]
    by_cases h2 : m ≤ i ∧ i < σ.size
    · rw [if_pos h2, if_pos (by omega)]
    · rw [if_neg h2, if_neg (by omega)]

private theorem cut_self {σ : St} {m : Nat} (h : σ.size = m) : cut σ m [] = σ := by
  unfold cut
  cases σ
  simp only at h
  subst h
  simp only [List.reverse_nil, List.map_nil, List.append_nil, St.mk.injEq, and_true]
  funext i
  rw [if_neg (by omega)]

/-- The state in which the destructor of the last element runs. -/
private def closing (σ : St) (n k : Nat) : St := ⟨put σ.slots (σ.size - 1) (.dying n k), σ.size - 1, σ.next, σ.log ++ [.ended n]⟩

private theorem destroyed_cut {σ : St} {n k m : Nat} {u : List (Nat × Nat)} (hm : m < σ.size) :
    destroyed (σ.size - 1) n k (cut (closing σ n k) m u) = .ok (cut σ m (u ++ [(n, k)])) := by
  have h : (cut (closing σ n k) m u).slots (σ.size - 1) = .dying n k := by
    simp [cut, closing, put]
  unfold destroyed
  rw [if_pos h]
  congr 1
  simp only [cut, closing, St.mk.injEq, List.reverse_append, List.reverse_cons, List.reverse_nil, List.nil_append, List.singleton_append, List.map_cons, List.append_assoc, and_true]
  funext i
  simp only [put]
  split_ifs <;> first | rfl | (exfalso; omega)

private theorem pops_run {pops : Nat → Nat} : ∀ (N : Nat) (l : List (Nat × Nat)), l.length ≤ N → PopsOnly env pops l → ∀ (σ : St) (b p : Nat), Holds σ b l →
    (b = 0 ∨ ∀ n k, σ.slots (b - 1) ≠ .alive n k) →
    Ends env cap σ (.acts (List.replicate p .pop)) (match removed pops (l.map Prod.snd).reverse p with
      | some m => .ok (cut σ (b + m) (l.drop m))
      | none => .error (if b = 0 then .assert else .ub)) := by
  intro N
  induction N with
  | zero =>
    intro l hl hp σ b p hh hb
    obtain rfl : l = [] := List.length_eq_zero_iff.1 (by omega)
    have hs : σ.size = b := by simpa using hh.1
    cases p with
    | zero =>
      simp only [List.map_nil, List.reverse_nil, removed, List.length_nil, List.drop_nil, Nat.add_zero, cut_self hs]
      exact ends_nil σ
    | succ p =>
      rw [List.replicate_succ]
      simp only [List.map_nil, List.reverse_nil, removed]
      by_cases h0 : b = 0
      · rw [if_pos h0]
        exact ends_cons_err (ends_pop_empty (by omega))
      · rw [if_neg h0]
        refine ends_cons_err (ends_pop_dead (by omega) (fun n k h => (hb.resolve_left h0) n k ?_))
        rw [← hs]; exact h
  | succ N ih =>
    intro l hl hp σ b p hh hb
    rcases List.eq_nil_or_concat l with rfl | ⟨l', x, rfl⟩
    · exact ih [] (by simp) hp σ b p hh hb
    · simp only [List.concat_eq_append] at *
      simp only [List.length_append, List.length_singleton] at hl
      have hsz : σ.size = b + l'.length + 1 := by have := hh.1; simp at this; omega
      cases p with
      | zero =>
        simp only [removed, List.length_reverse, List.length_map]
        rw [List.drop_length, cut_self hh.1]
        exact ends_nil σ
      | succ p =>
        rw [List.replicate_succ, List.map_append, List.reverse_append]
        simp only [List.map_cons, List.map_nil, List.reverse_cons, List.reverse_nil, List.nil_append, List.singleton_append, removed]
        rw [removed_add]
        have hx : σ.slots (σ.size - 1) = .alive x.1 x.2 := by
          have := hh.2 l'.length (by simp)
          simp at this
          rw [hsz]; exact this
        have hd : Holds (closing σ x.1 x.2) b l' := by
          refine ⟨by simp only [closing]; omega, fun i hi => ?_⟩
          simp only [closing, put]
          rw [if_neg (by omega)]
          have := hh.2 i (by simp; omega)
          rw [this, List.getElem_append_left hi]
        have hb' : b = 0 ∨ ∀ n k, (closing σ x.1 x.2).slots (b - 1) ≠ .alive n k := by
          rcases hb with hb | hb
          · exact .inl hb
          · by_cases h0 : b = 0
            · exact .inl h0
            · right
              simp only [closing, put]
              rw [if_neg (by omega)]
              exact hb
        have hin := ih l' (by omega) (fun y hy => hp y (List.mem_append_left _ hy)) (closing σ x.1 x.2) b (pops x.2) hd hb'
        rw [← hp x (by simp)] at hin
        have hpop := ends_pop (by omega) hx hin
        cases h1 : removed pops (l'.map Prod.snd).reverse (pops x.2) with
        | none =>
          rw [h1] at hpop
          simp only [Option.bind_none]
          exact ends_cons_err hpop
        | some m1 =>
          rw [h1] at hpop
          have hm1 : m1 ≤ l'.length := by simpa using removed_le pops _ _ _ h1
          simp only at hpop
          rw [show (Except.ok (cut (closing σ x.1 x.2) (b + m1) (l'.drop m1)) : M St).bind (destroyed (σ.size - 1) x.1 x.2) =
            destroyed (σ.size - 1) x.1 x.2 (cut (closing σ x.1 x.2) (b + m1) (l'.drop m1)) from rfl, destroyed_cut (by omega)] at hpop
          refine ends_cons hpop ?_
          simp only [Option.bind_some, List.length_reverse, List.length_map]
          have hrest : ((l'.map Prod.snd).reverse).drop (l'.length - m1) = ((l'.take m1).map Prod.snd).reverse := by
            rw [List.map_take, List.reverse_take, List.length_map]
          rw [hrest]
          have hh' : Holds (cut σ (b + m1) (l'.drop m1 ++ [(x.1, x.2)])) b (l'.take m1) := by
            have := holds_take (ev := l'.drop m1 ++ [(x.1, x.2)]) hh (m := m1) (by simp; omega)
            rwa [List.take_append_of_le_length hm1] at this
          have hb'' : b = 0 ∨ ∀ n k, (cut σ (b + m1) (l'.drop m1 ++ [(x.1, x.2)])).slots (b - 1) ≠ .alive n k := by
            rcases hb with hb | hb
            · exact .inl hb
            · by_cases h0 : b = 0
              · exact .inl h0
              · right
                simp only [cut]
                rw [if_neg (by omega)]
                exact hb
          have hfin := ih (l'.take m1) (by simp; omega) (fun y hy => hp y (List.mem_append_left _ (List.mem_of_mem_take hy))) _ b p hh' hb''
          cases h2 : removed pops ((l'.take m1).map Prod.snd).reverse p with
          | none => rw [h2] at hfin; exact hfin
          | some m =>
            rw [h2] at hfin
            have hm : m ≤ m1 := by
              have := removed_le pops _ _ _ h2
              simp at this; omega
            simp only at hfin ⊢
            rw [cut_cut (by omega) (by omega)] at hfin
            have : (l'.take m1).drop m ++ (l'.drop m1 ++ [(x.1, x.2)]) = (l' ++ [x]).drop m := by
              rw [← List.append_assoc]
              conv_rhs => rw [← List.take_append_drop m1 l', List.append_assoc, List.drop_append_of_le_length (by simp; omega)]
              rw [List.append_assoc]
            rwa [this] at hfin

private theorem ends_clear_step {σ : St} {i n k : Nat} {r : M St} (hi : i < σ.size) (ha : σ.slots i = .alive n k)
    (h : Ends env cap { σ with slots := put σ.slots i (.dying n k), log := σ.log ++ [.ended n] } (.acts (env.dtor k)) r) :
    (∀ σ1 r', r.bind (destroyed i n k) = .ok σ1 → Ends env cap σ1 (.clearFrom (i + 1)) r' → Ends env cap σ (.clearFrom i) r') ∧
    (∀ e, r.bind (destroyed i n k) = .error e → Ends env cap σ (.clearFrom i) (.error e)) := by
  obtain ⟨F, h⟩ := h
  have hd : ∀ g, F + 1 ≤ g → run env cap g σ (.destroy i) = r.bind (destroyed i n k) := by
    intro g hg
    obtain ⟨g', rfl⟩ := Nat.exists_eq_add_of_le' (show 1 ≤ g by omega)
    simp only [run, ha, h g' (by omega)]
    cases r <;> rfl
  constructor
  · rintro σ1 r' h1 ⟨F2, h2⟩
    refine ⟨max F F2 + 2, fun f hf => ?_⟩
    obtain ⟨g, rfl⟩ := Nat.exists_eq_add_of_le' (show 1 ≤ f by omega)
    simp only [run, if_pos hi, hd g (by omega), h1, ok_bind, h2 g (by omega)]
  · intro e h1
    refine ⟨F + 2, fun f hf => ?_⟩
    obtain ⟨g, rfl⟩ := Nat.exists_eq_add_of_le' (show 1 ≤ f by omega)
    simp only [run, if_pos hi, hd g (by omega), h1, err_bind]

private theorem clears_run {pops : Nat → Nat} : ∀ (N : Nat) (l : List (Nat × Nat)), l.length ≤ N → PopsOnly env pops l → ∀ (σ : St) (i : Nat), Holds σ i l →
    (clears pops N (l.map Prod.snd) = true → ∃ (σ' : St) (evs : List Nat), Ends env cap σ (.clearFrom i) (.ok σ') ∧ evs.Perm (l.map Prod.fst) ∧
      σ'.slots = (fun j => if i ≤ j ∧ j < σ.size then .raw else σ.slots j) ∧ σ'.next = σ.next ∧ σ'.log = σ.log ++ evs.map .ended) ∧
    (clears pops N (l.map Prod.snd) = false → Ends env cap σ (.clearFrom i) (.error .ub)) := by
  intro N
  induction N with
  | zero =>
    intro l hl hp σ i hh
    obtain rfl : l = [] := List.length_eq_zero_iff.1 (by omega)
    have hs : σ.size = i := by simpa using hh.1
    refine ⟨fun _ => ⟨σ, [], ⟨1, fun f hf => ?_⟩, .refl _, ?_, rfl, by simp⟩, by simp [clears]⟩
    · obtain ⟨g, rfl⟩ := Nat.exists_eq_add_of_le' hf
      simp only [run, if_neg (show ¬ i < σ.size by omega)]
    · funext j; rw [if_neg (by omega)]
  | succ N ih =>
    intro l hl hp σ i hh
    cases l with
    | nil =>
      have hs : σ.size = i := by simpa using hh.1
      refine ⟨fun _ => ⟨σ, [], ⟨1, fun f hf => ?_⟩, .refl _, ?_, rfl, by simp⟩, by simp [clears]⟩
      · obtain ⟨g, rfl⟩ := Nat.exists_eq_add_of_le' hf
        simp only [run, if_neg (show ¬ i < σ.size by omega)]
      · funext j; rw [if_neg (by omega)]
    | cons x l =>
      have hsz : σ.size = i + 1 + l.length := by have := hh.1; simp at this; omega
      have ha : σ.slots i = .alive x.1 x.2 := by have := hh.2 0 (by simp); simpa using this
      let σd : St := { σ with slots := put σ.slots i (.dying x.1 x.2), log := σ.log ++ [.ended x.1] }
      have hd : Holds σd (i + 1) l := by
        refine ⟨hsz, fun j hj => ?_⟩
        show put σ.slots i (.dying x.1 x.2) (i + 1 + j) = _
        unfold put
        rw [if_neg (by omega)]
        have := hh.2 (j + 1) (by simp; omega)
        rw [show i + 1 + j = i + (j + 1) by omega, this]
        simp
      have hin := pops_run (cap := cap) l.length l (Nat.le_refl _) (fun y hy => hp y (List.mem_cons_of_mem _ hy)) σd (i + 1) (pops x.2) hd
        (.inr (fun n k => by show put σ.slots i (.dying x.1 x.2) (i + 1 - 1) ≠ _; simp [put]))
      rw [← hp x (by simp), if_neg (by omega)] at hin
      obtain ⟨s1, s2⟩ := ends_clear_step (by omega) ha hin
      simp only [List.map_cons, clears]
      cases h1 : removed pops (l.map Prod.snd).reverse (pops x.2) with
      | none =>
        rw [h1] at s2
        exact ⟨by simp, fun _ => s2 _ rfl⟩
      | some m =>
        have hm : m ≤ l.length := by simpa using removed_le pops _ _ _ h1
        rw [h1] at s1
        simp only
        let σ1 : St := { cut σd (i + 1 + m) (l.drop m) with slots := put (cut σd (i + 1 + m) (l.drop m)).slots i .raw }
        have hdes : destroyed i x.1 x.2 (cut σd (i + 1 + m) (l.drop m)) = .ok σ1 := by
          unfold destroyed
          rw [if_pos (by show (if i + 1 + m ≤ i ∧ i < σ.size then Slot.raw else put σ.slots i (.dying x.1 x.2) i) = _; rw [if_neg (by omega)]; simp [put])]
        have hh1 : Holds σ1 (i + 1) (l.take m) := by
          have := holds_take (ev := l.drop m) hd hm
          refine ⟨this.1, fun j hj => ?_⟩
          show put (cut σd (i + 1 + m) (l.drop m)).slots i .raw (i + 1 + j) = _
          unfold put
          rw [if_neg (by omega)]
          exact this.2 j hj
        have hslots : σ1.slots = fun j => if j = i then .raw else if i + 1 + m ≤ j ∧ j < σ.size then .raw else σ.slots j := by
          funext j
          show (if j = i then Slot.raw else if i + 1 + m ≤ j ∧ j < σ.size then Slot.raw else if j = i then _ else σ.slots j) = _
          split_ifs <;> rfl
        obtain ⟨i1, i2⟩ := ih (l.take m) (by simp at hl ⊢; omega) (fun y hy => hp y (List.mem_cons_of_mem _ (List.mem_of_mem_take hy))) σ1 (i + 1) hh1
        rw [← List.map_take]
        constructor
        · intro hc
          obtain ⟨σ', evs, e1, e2, e3, e4, e5⟩ := i1 hc
          refine ⟨σ', x.1 :: ((l.drop m).reverse.map Prod.fst ++ evs), s1 σ1 _ hdes e1, ?_, ?_, e4, ?_⟩
          · refine List.Perm.cons _ ?_
            have h3 : (l.map Prod.fst) = (l.take m).map Prod.fst ++ (l.drop m).map Prod.fst := by rw [← List.map_append, List.take_append_drop]
            rw [h3]
            refine (List.perm_append_comm).trans ?_
            refine List.Perm.append e2 ?_
            rw [List.map_reverse]
            exact List.reverse_perm _
          · rw [e3, hslots]
            have : σ1.size = i + 1 + m := rfl
            rw [this]
            funext j
            beta_reduce
            split_ifs <;> first | rfl | (exfalso; omega)
          · rw [e5]
            show (σ.log ++ [.ended x.1]) ++ (l.drop m).reverse.map (fun x => .ended x.1) ++ evs.map .ended = _
            simp [List.map_append, List.map_map, Function.comp_def]
        · intro hc
          exact s1 σ1 _ hdes (i2 hc)

/-! ## Theorems -/

/-- **C159** Constructors that append elements to the vector in which they are constructed, to any depth: the elements are in the order in which their constructors begin, each is constructed once, and the
objects that were there are as before.  If there is no room for all of them, an assertion fails. -/
theorem C159_append_partial {as : List Act} {ks : List Nat} (h : Appends env as ks) {σ : St} (ht : Tidy σ) (hc : σ.size ≤ cap) {l : List (Nat × Nat)} (hl : Holds σ 0 l) :
    (l.length + ks.length ≤ cap → ∃ σ', Ends env cap σ (.acts as) (.ok σ') ∧ Holds σ' 0 (l ++ objects σ.next ks) ∧ Tidy σ' ∧
      σ'.log = σ.log ++ (objects σ.next ks).map (fun x => .made x.1)) ∧
    (cap < l.length + ks.length → Ends env cap σ (.acts as) (.error .assert)) := by
  have hsz : σ.size = l.length := by simpa using hl.1
  have hlen : ∀ (n : Nat) (ks : List Nat), (objects n ks).length = ks.length := by
    intro n ks
    induction ks generalizing n with
    | nil => rfl
    | cons k ks ih => simp [objects, ih]
  have hget : ∀ (ks : List Nat) (n i : Nat) (h : i < ks.length), (objects n ks)[i]'(by rw [hlen]; exact h) = (n + i, ks[i]) := by
    intro ks
    induction ks with
    | nil => intro n i h; simp at h
    | cons k ks ih =>
      intro n i h
      cases i with
      | zero => rfl
      | succ i => simp only [objects, List.getElem_cons_succ]; rw [ih (n + 1) i (by simpa using h)]; congr 1; omega
  have hmade : ∀ (ks : List Nat) (n : Nat), (List.range' n ks.length).map Event.made = (objects n ks).map (fun x => .made x.1) := by
    intro ks
    induction ks with
    | nil => intro n; rfl
    | cons k ks ih => intro n; simp only [List.length_cons, List.range'_succ, List.map_cons, objects, ih]
  constructor
  · intro hr
    refine ⟨pushed σ ks, appends_ok h ht (by omega), ⟨?_, ?_⟩, tidy_pushed _ _, ?_⟩
    · simp only [pushed, List.length_append, hlen]; omega
    · intro i hi
      simp only [List.length_append, hlen] at hi
      simp only [pushed, Nat.zero_add]
      by_cases h1 : i < l.length
      · rw [if_pos (by omega), List.getElem_append_left h1]
        have := hl.2 i h1
        rwa [Nat.zero_add] at this
      · rw [if_neg (by omega), List.getElem_append_right (by omega), hsz, List.getElem?_eq_getElem (by omega)]
        simp only [hget ks σ.next (i - l.length) (by omega)]
    · simp only [pushed]; rw [hmade]
  · intro hr
    exact appends_full h ht (by omega) (by omega)

/-- **C159** Destructors that remove elements of the vector: `p` calls of `pop_back` remove the elements from the end on that the specification says, and each of them is destroyed once.  If there are not
enough elements, an assertion fails. -/
theorem C159_remove {pops : Nat → Nat} {l : List (Nat × Nat)} (hp : ∀ x ∈ l, env.dtor x.2 = List.replicate (pops x.2) .pop) {σ : St} (ht : Tidy σ) (hl : Holds σ 0 l) (p : Nat) :
    (∀ m, removed pops (l.map Prod.snd).reverse p = some m → ∃ σ', Ends env cap σ (.acts (List.replicate p .pop)) (.ok σ') ∧ Holds σ' 0 (l.take m) ∧ Tidy σ' ∧
      σ'.log = σ.log ++ (l.drop m).reverse.map (fun x => .ended x.1)) ∧
    (removed pops (l.map Prod.snd).reverse p = none → Ends env cap σ (.acts (List.replicate p .pop)) (.error .assert)) := by
  have h := pops_run (cap := cap) l.length l (Nat.le_refl _) hp σ 0 p hl (.inl rfl)
  constructor
  · intro m hm
    rw [hm] at h
    have hle : m ≤ l.length := by simpa using removed_le pops _ _ _ hm
    have hh := holds_take (ev := l.drop m) hl hle
    simp only [Nat.zero_add] at hh h
    refine ⟨_, h, hh, ?_, rfl⟩
    intro i hi
    simp only [cut] at hi ⊢
    split_ifs with h1
    · rfl
    · exact ht i (by omega)
  · intro hm
    rw [hm] at h
    exact h

/-- **C159** `clear()` of a vector whose elements remove others when they are destroyed, exactly: if each destructor finds enough elements behind its own, the vector is empty and every element is destroyed
once; otherwise the behaviour is undefined. -/
theorem C159_clear_partial {pops : Nat → Nat} {l : List (Nat × Nat)} (hp : ∀ x ∈ l, env.dtor x.2 = List.replicate (pops x.2) .pop) {σ : St} (ht : Tidy σ) (hl : Holds σ 0 l) :
    (clears pops l.length (l.map Prod.snd) = true → ∃ (σ' : St) (evs : List Nat), Ends env cap σ (.act .clear) (.ok σ') ∧ Holds σ' 0 [] ∧ Tidy σ' ∧
      evs.Perm (l.map Prod.fst) ∧ σ'.log = σ.log ++ evs.map .ended) ∧
    (clears pops l.length (l.map Prod.snd) = false → Ends env cap σ (.act .clear) (.error .ub)) := by
  obtain ⟨h1, h2⟩ := clears_run (cap := cap) l.length l (Nat.le_refl _) hp σ 0 hl
  constructor
  · intro hc
    obtain ⟨σ', evs, ⟨F, e1⟩, e2, e3, e4, e5⟩ := h1 hc
    refine ⟨{ σ' with size := 0 }, evs, ⟨F + 1, fun f hf => ?_⟩, ⟨rfl, by simp⟩, ?_, e2, e5⟩
    · obtain ⟨g, rfl⟩ := Nat.exists_eq_add_of_le' (show 1 ≤ f by omega)
      simp only [run, e1 g (by omega), ok_bind]
    · intro i _
      show σ'.slots i = .raw
      rw [e3]
      beta_reduce
      split_ifs with h
      · rfl
      · exact ht i (by omega)
  · intro hc
    obtain ⟨F, e1⟩ := h2 hc
    refine ⟨F + 1, fun f hf => ?_⟩
    obtain ⟨g, rfl⟩ := Nat.exists_eq_add_of_le' (show 1 ≤ f by omega)
    simp only [run, e1 g (by omega), err_bind]

/-- **C159, violated** A constructor that begins with `pop_back` destroys the element that is being constructed, whatever the vector holds. -/
theorem C159_constructor_pop_violated {k : Nat} {rest : List Act} (hk : env.ctor k = .pop :: rest) {σ : St} (ht : Tidy σ) (hc : σ.size < cap) :
    Ends env cap σ (.act (.push k)) (.error .ub) := by
  have h1 : Ends env cap (opened σ k) (.acts (env.ctor k)) (.error .ub) := by
    rw [hk]
    refine ends_cons_err (ends_pop_dead (by simp [opened]) ?_)
    intro n k'
    simp [opened, put]
  exact ends_push (ht _ (Nat.le_refl _)) hc h1

/-- **C159, violated** A destructor called by `pop_back` that appends an element: the new element is constructed over the one that is being destroyed. -/
theorem C159_destructor_push_violated {n k k' : Nat} {rest : List Act} {l : List (Nat × Nat)} (hk : env.dtor k = .push k' :: rest) {σ : St} (hl : Holds σ 0 (l ++ [(n, k)]))
    (hc : σ.size ≤ cap) : Ends env cap σ (.act .pop) (.error .ub) := by
  have hsz : σ.size = l.length + 1 := by have := hl.1; simp at this; omega
  have ha : σ.slots (σ.size - 1) = .alive n k := by
    have := hl.2 l.length (by simp)
    rw [hsz]; simpa using this
  refine ends_pop (by omega) ha (r := .error .ub) ?_
  rw [hk]
  refine ends_cons_err ⟨1, fun f hf => ?_⟩
  obtain ⟨g, rfl⟩ := Nat.exists_eq_add_of_le' hf
  have : σ.size - 1 < cap := by omega
  simp [run, Cpp.assert, this, guardUB, put]

/-- **C159, violated** A destructor called by `clear()` that calls `clear()` destroys its own element again; one that reads the elements before its own reads destroyed objects. -/
theorem C159_destructor_clear_violated {n k : Nat} {rest : List Act} {l : List (Nat × Nat)} {σ : St} :
    (env.dtor k = .clear :: rest → Holds σ 0 ((n, k) :: l) → Ends env cap σ (.act .clear) (.error .ub)) ∧
    (∀ n' k', env.dtor k' = [] → env.dtor k = .get 0 :: rest → Holds σ 0 ((n', k') :: (n, k) :: l) → Ends env cap σ (.act .clear) (.error .ub)) := by
  have lift : ∀ {σ : St}, Ends env cap σ (.clearFrom 0) (.error .ub) → Ends env cap σ (.act .clear) (.error .ub) := by
    rintro σ ⟨F, h⟩
    refine ⟨F + 1, fun f hf => ?_⟩
    obtain ⟨g, rfl⟩ := Nat.exists_eq_add_of_le' (show 1 ≤ f by omega)
    simp only [run, h g (by omega), err_bind]
  constructor
  · intro hk hl
    have h0 : σ.slots 0 = .alive n k := by have := hl.2 0 (by simp); simpa using this
    have hs : 0 < σ.size := by have := hl.1; simp at this; omega
    refine lift ((ends_clear_step hs h0 (r := .error .ub) ?_).2 _ rfl)
    rw [hk]
    refine ends_cons_err (lift ⟨2, fun f hf => ?_⟩)
    obtain ⟨g, rfl⟩ := Nat.exists_eq_add_of_le' hf
    simp only [run, if_pos hs, put, if_true, err_bind]
  · intro n' k' hk' hk hl
    have h0 : σ.slots 0 = .alive n' k' := by have := hl.2 0 (by simp); simpa using this
    have h1 : σ.slots 1 = .alive n k := by have := hl.2 1 (by simp); simpa using this
    have hs : 1 < σ.size := by have := hl.1; simp at this; omega
    refine lift ((ends_clear_step (by omega) h0 (r := .ok { σ with slots := put σ.slots 0 (.dying n' k'), log := σ.log ++ [.ended n'] }) ?_).1
      { σ with slots := put (put σ.slots 0 (.dying n' k')) 0 .raw, log := σ.log ++ [.ended n'] } _ ?_ ?_)
    · rw [hk']; exact ends_nil _
    · show destroyed 0 n' k' _ = _
      unfold destroyed
      rw [if_pos (by simp [put])]
    · refine (ends_clear_step (σ := { σ with slots := put (put σ.slots 0 (.dying n' k')) 0 .raw, log := σ.log ++ [.ended n'] }) hs (n := n) (k := k) ?_ (r := .error .ub) ?_).2 _ rfl
      · simp [put, h1]
      · rw [hk]
        refine ends_cons_err ⟨1, fun f hf => ?_⟩
        obtain ⟨g, rfl⟩ := Nat.exists_eq_add_of_le' hf
        have : 0 < σ.size := by omega
        simp [run, Cpp.assert, put, this]

/-! ### Examples -/

/-- Kind 2 appends an element of kind 1, whose constructor appends two of kind 0; elements of kind 3 remove one element when they are destroyed. -/
private def sample : Env :=
  ⟨fun k => match k with | 1 => [.push 0, .push 0] | 2 => [.push 1] | _ => [], fun k => match k with | 3 => [.pop] | _ => []⟩

private def none' : St := ⟨fun _ => .raw, 0, 0, []⟩

example : Appends sample [.push 2, .push 0] [2, 1, 0, 0, 0] ∧ Tidy none' ∧ Holds none' 0 [] :=
  ⟨.cons (ks := [1, 0, 0]) (.cons (ks := [0, 0]) (ls := []) (.cons (ks := []) .nil (.cons (ks := []) .nil .nil)) .nil) (.cons (ks := []) .nil .nil),
    fun _ _ => rfl, rfl, by simp⟩

/-- `[0, 3, 0, 0]`: the second element removes the last one when it is destroyed; `[0, 3]`: it would remove itself. -/
example : clears (fun k => if k = 3 then 1 else 0) 4 [0, 3, 0, 0] = true ∧ clears (fun k => if k = 3 then 1 else 0) 2 [0, 3] = false ∧
    removed (fun k => if k = 3 then 1 else 0) [3, 3, 0, 0] 1 = some 1 := by decide

end Verif.FixedVector.Reent
