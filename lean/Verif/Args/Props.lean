import Verif.Args.Spec

/-! # C149, C150: arguments through signals and function references -/

namespace Verif.Args
open Verif.Cpp

variable {V : Type}

/-! ## Helpers -/

theorem seen_append (a b : List (Event V)) : seen (a ++ b) = seen a ++ seen b := by
  induction a with
  | nil => rfl
  | cons e a ih => cases e <;> simp [seen, ih]

theorem copies_append (a b : List (Event V)) : copies (a ++ b) = copies a + copies b := by
  induction a with
  | nil => simp [copies]
  | cons e a ih => cases e <;> simp [copies, ih] <;> omega

theorem moves_append (a b : List (Event V)) : moves (a ++ b) = moves a + moves b := by
  induction a with
  | nil => simp [moves]
  | cons e a ih => cases e <;> simp [moves, ih] <;> omega

theorem rd_last (l : List V) (v : V) : rd (l ++ [v]) l.length = .ok v := by simp [rd]

theorem rd_last2 (l : List V) (u v : V) : rd (l ++ [u, v]) (l.length + 1) = .ok v := by simp [rd]

theorem wr_last (l : List V) (v x : V) : wr (l ++ [v]) l.length x = .ok (l ++ [x]) := by simp [wr]

theorem take_one (l : List V) (u : V) (r : List V) : (l ++ u :: r).take (l.length + 1) = l ++ [u] := by
  rw [List.take_append, List.take_of_length_le (by omega)]; simp

theorem pass_value (T : Ty V) {c : Cat} (h : binds T .value c = true) (r : Ref) (m : Mem V) : pass T .value c r m = construct T c r m := by
  simp [pass, h, guardUB]

theorem pass_ref (T : Ty V) {p : Param} {c : Cat} (h : binds T p c = true) (hp : p ≠ .value) (r : Ref) (m : Mem V) : pass T p c r m = .ok (r, m) := by
  simp [pass, h, guardUB, hp]

theorem pass_fails (T : Ty V) {p : Param} {c : Cat} (h : binds T p c = false) (r : Ref) (m : Mem V) : pass T p c r m = .error .ub := by
  simp [pass, h, guardUB]

/-- A function called with an rvalue that is the last parameter. -/
theorem direct_par (T : Ty V) (f : Fun V) (hf : binds T f.param .rvalue = true) (g : Nat → V) (l : List V) (v : V) (lg : List (Event V)) :
    ∃ u es, direct T f .rvalue (.par l.length) ⟨g, l ++ [v], lg⟩ = .ok ⟨(f.body g v).1, l ++ [u], lg ++ es⟩ ∧ seen es = [(f.id, v)] ∧ copies es = 0 ∧
      moves es = (if f.param = .value then 1 else 0) ∧ ∀ x ∈ objects es, ∀ k, x.2 ≠ .var k := by
  cases hp : f.param with
  | value =>
    refine ⟨T.movedFrom v, [.moved (.par l.length), .called f.id (.par (l.length + 1)) v], ?_, rfl, rfl, rfl, by simp [objects]⟩
    rw [hp] at hf
    simp [direct, hp, pass_value T hf, construct, Mem.get, Mem.set, Fun.run, Mem.leave, Mem.record, rd, wr, take_one]
  | lref => rw [hp] at hf; cases hf
  | clref =>
    refine ⟨v, [.called f.id (.par l.length) v], ?_, rfl, rfl, rfl, by simp [objects]⟩
    rw [hp] at hf
    simp [direct, hp, pass_ref T hf, Mem.get, rd_last, Fun.run, Mem.leave, take_one]
  | rref =>
    refine ⟨(f.body g v).2, [.called f.id (.par l.length) v], ?_, rfl, rfl, rfl, by simp [objects]⟩
    rw [hp] at hf
    simp [direct, hp, pass_ref T hf, Mem.get, Mem.set, rd_last, wr_last, Fun.run, Mem.leave, take_one]

/-- A call of a slot of a signal with a parameter by value, the parameter of `operator()` being the last one. -/
theorem callSlot_value (T : Ty V) (hT : T.copyable = true) (f : Fun V) (hf : connectable T .value f = true) (g : Nat → V) (l : List V) (v : V) (lg : List (Event V)) :
    ∃ es, callSlot T .value (.par l.length) f ⟨g, l ++ [v], lg⟩ = .ok ⟨(f.body g v).1, l ++ [v], lg ++ es⟩ ∧ seen es = [(f.id, v)] ∧ copies es = 1 ∧
      ∀ x ∈ objects es, ∀ k, x.2 ≠ .var k := by
  obtain ⟨u, es, h1, h2, h3, _, h4⟩ := direct_par T f hf g (l ++ [v]) v (lg ++ [.copied (.par l.length)])
  refine ⟨.copied (.par l.length) :: es, ?_, by simp [seen, h2], by simp [copies, h3], by simpa [objects] using h4⟩
  simp only [List.length_append, List.length_singleton] at h1
  have hb : binds T .value .lvalue = true := hT
  simp only [callSlot, named, pass_value T hb, construct, Mem.get, rd_last, ok_bind, Mem.record, forwarded, pure_ok, List.length_append, List.length_singleton, if_neg (by decide : ¬ Cat.lvalue = Cat.rvalue)]
  rw [h1]
  simp [Mem.leave, take_one]

theorem callSlots_value (T : Ty V) (hT : T.copyable = true) (fs : List (Fun V)) (hf : ∀ f ∈ fs, connectable T .value f = true) (g : Nat → V) (l : List V) (v : V) (lg : List (Event V)) :
    ∃ es, callSlots T .value (.par l.length) fs ⟨g, l ++ [v], lg⟩ = .ok ⟨afterCopies v g fs, l ++ [v], lg ++ es⟩ ∧ seen es = fs.map (fun f => (f.id, v)) ∧ copies es = fs.length ∧
      ∀ x ∈ objects es, ∀ k, x.2 ≠ .var k := by
  induction fs generalizing g lg with
  | nil => exact ⟨[], by simp [callSlots, afterCopies], rfl, rfl, by simp [objects]⟩
  | cons f fs ih =>
    obtain ⟨es, h1, h2, h3, h4⟩ := callSlot_value T hT f (hf f (by simp)) g l v lg
    obtain ⟨es', k1, k2, k3, k4⟩ := ih (fun f hm => hf f (by simp [hm])) (f.body g v).1 (lg ++ es)
    refine ⟨es ++ es', ?_, by simp [seen_append, h2, k2], by simp [copies_append, h3, k3]; omega, ?_⟩
    · simp [callSlots, h1, k1, afterCopies]
    · intro x hx
      simp only [objects, List.filterMap_append, List.mem_append] at hx
      exact hx.elim (h4 x) (k4 x)

/-- A call of a slot of a signal whose parameter is an lvalue reference. -/
theorem callSlot_shared (T : Ty V) {p : Param} (hp : p = .lref ∨ p = .clref) (f : Fun V) (hf : connectable T p f = true) (n : Nat) (m : Mem V) :
    ∃ es, callSlot T p (.var n) f m = .ok ⟨afterShared n m.vars f, m.pars, m.log ++ es⟩ ∧ seen es = [(f.id, m.vars n)] ∧
      copies es = (if f.param = .value then 1 else 0) ∧ moves es = 0 ∧ ∀ x ∈ objects es, f.param ≠ .value → x.2 = .var n := by
  have hpv : p ≠ .value := by rcases hp with rfl | rfl <;> decide
  have hnf : named p = forwarded p := by rcases hp with rfl | rfl <;> rfl
  have hnr : forwarded p ≠ .rvalue := by rcases hp with rfl | rfl <;> decide
  have hpass : pass T p (named p) (.var n) m = .ok (.var n, m) := pass_ref T (by rcases hp with rfl | rfl <;> rfl) hpv _ _
  have htake : m.pars.take m.pars.length = m.pars := List.take_of_length_le (Nat.le_refl _)
  cases hq : f.param with
  | value =>
    refine ⟨[.copied (.var n), .called f.id (.par m.pars.length) (m.vars n)], ?_, rfl, rfl, rfl, by simp⟩
    simp only [connectable, hq] at hf
    simp [callSlot, hpass, direct, hq, pass_value T hf, construct, Mem.get, if_neg hnr, Mem.record, Fun.run, rd, wr, Mem.set, Mem.leave, afterShared]
  | lref =>
    refine ⟨[.called f.id (.var n) (m.vars n)], ?_, rfl, rfl, rfl, by simp [objects]⟩
    simp only [connectable, hq] at hf
    simp [callSlot, hpass, direct, hq, pass_ref T hf, Mem.get, Fun.run, Mem.set, Mem.leave, afterShared]
    rfl
  | clref =>
    refine ⟨[.called f.id (.var n) (m.vars n)], ?_, rfl, rfl, rfl, by simp [objects]⟩
    simp only [connectable, hq] at hf
    simp [callSlot, hpass, direct, hq, pass_ref T hf, Mem.get, Fun.run, Mem.leave, afterShared]
  | rref =>
    exfalso
    simp only [connectable, hq] at hf
    rcases hp with rfl | rfl <;> cases hf

theorem callSlots_shared (T : Ty V) {p : Param} (hp : p = .lref ∨ p = .clref) (fs : List (Fun V)) (hf : ∀ f ∈ fs, connectable T p f = true) (n : Nat) (m : Mem V) :
    ∃ es, callSlots T p (.var n) fs m = .ok ⟨afterAllShared n m.vars fs, m.pars, m.log ++ es⟩ ∧ seen es = seenShared n m.vars fs ∧
      copies es = (fs.filter (fun f => f.param = .value)).length ∧ moves es = 0 ∧ ((∀ f ∈ fs, f.param ≠ .value) → ∀ x ∈ objects es, x.2 = .var n) := by
  induction fs generalizing m with
  | nil => exact ⟨[], by simp [callSlots, afterAllShared], rfl, rfl, rfl, by simp [objects]⟩
  | cons f fs ih =>
    obtain ⟨es, h1, h2, h3, h4, h5⟩ := callSlot_shared T hp f (hf f (by simp)) n m
    obtain ⟨es', k1, k2, k3, k4, k5⟩ := ih (fun f hm => hf f (by simp [hm])) ⟨afterShared n m.vars f, m.pars, m.log ++ es⟩
    refine ⟨es ++ es', ?_, by simp [seen_append, h2, k2, seenShared], ?_, by simp [moves_append, h4, k4], ?_⟩
    · simp [callSlots, h1, k1, afterAllShared]
    · rw [copies_append, h3, k3, List.filter_cons]
      split <;> simp_all <;> omega
    · intro hv x hx
      simp only [objects, List.filterMap_append, List.mem_append] at hx
      exact hx.elim (fun hx => h5 x hx (hv f (by simp))) (k5 (fun f hm => hv f (by simp [hm])) x)

/-! ## C149: signals -/

/-- A signal with a parameter by value: each slot gets an object of its own, which is none of the variables, with the value that the argument had when the signal was
emitted, whatever the slots before have done to their parameters and to the variables.  An argument that is an lvalue is left as it is, an rvalue is moved from once.  One copy for each slot
and one for the parameter of the signal if the argument is an lvalue. -/
theorem C149_value (T : Ty V) {c : Cat} (hc : emissionCompiles T .value c = true) (fs : List (Fun V)) (hf : ∀ f ∈ fs, connectable T .value f = true) (n : Nat) (m : Mem V) :
    ∃ m' es, emission T .value c (.var n) fs m = .ok m' ∧ m'.log = m.log ++ es ∧ m'.pars = m.pars ∧ seen es = fs.map (fun f => (f.id, m.vars n)) ∧
      (∀ x ∈ objects es, ∀ k, x.2 ≠ .var k) ∧ copies es = fs.length + (if c = .rvalue then 0 else 1) ∧
      m'.vars = afterCopies (m.vars n) (if c = .rvalue then assign m.vars n (T.movedFrom (m.vars n)) else m.vars) fs := by
  simp only [emissionCompiles, Bool.and_eq_true] at hc
  obtain ⟨hb, hT⟩ := hc
  have hT : T.copyable = true := hT
  by_cases h : c = .rvalue
  · obtain ⟨es, h1, h2, h3, h4⟩ := callSlots_value T hT fs hf (assign m.vars n (T.movedFrom (m.vars n))) m.pars (m.vars n) (m.log ++ [.moved (.var n)])
    refine ⟨⟨afterCopies (m.vars n) (if c = .rvalue then assign m.vars n (T.movedFrom (m.vars n)) else m.vars) fs, m.pars, m.log ++ .moved (.var n) :: es⟩, .moved (.var n) :: es, ?_, rfl, rfl, by simp [seen, h2], by simpa [objects] using h4, by simp [copies, h3, h], rfl⟩
    simp only [h, if_true]
    have h1' := h1
    unfold assign at h1'
    rw [h] at hb
    simp [emission, pass_value T hb, construct, Mem.get, Mem.set, Mem.record, h1', Mem.leave]
    rfl
  · obtain ⟨es, h1, h2, h3, h4⟩ := callSlots_value T hT fs hf m.vars m.pars (m.vars n) (m.log ++ [.copied (.var n)])
    refine ⟨⟨afterCopies (m.vars n) (if c = .rvalue then assign m.vars n (T.movedFrom (m.vars n)) else m.vars) fs, m.pars, m.log ++ .copied (.var n) :: es⟩, .copied (.var n) :: es, ?_, rfl, rfl, by simp [seen, h2], by simpa [objects] using h4, by simp [copies, h3, h], rfl⟩
    simp only [if_neg h]
    simp [emission, pass_value T hb, construct, Mem.get, Mem.record, h, h1, Mem.leave]

/-- In particular: if the slots change no variables but their own parameters, an lvalue argument has its value afterwards. -/
theorem C149_argument_kept (T : Ty V) {c : Cat} (hc : emissionCompiles T .value c = true) (hl : c ≠ .rvalue) (fs : List (Fun V)) (hf : ∀ f ∈ fs, connectable T .value f = true)
    (hb : ∀ f ∈ fs, ∀ g v, (f.body g v).1 = g) (n : Nat) (m : Mem V) :
    ∃ m', emission T .value c (.var n) fs m = .ok m' ∧ m'.vars = m.vars := by
  obtain ⟨m', es, h1, -, -, -, -, -, h2⟩ := C149_value T hc fs hf n m
  refine ⟨m', h1, ?_⟩
  rw [h2, if_neg hl]
  generalize m.vars n = v
  generalize m.vars = g
  clear h1 h2 hf
  induction fs with
  | nil => rfl
  | cons f fs ih => rw [afterCopies, hb f (by simp)]; exact ih (fun f hm => hb f (by simp [hm]))

/-- A signal with a parameter `T&` or `const T&`: every slot gets the argument itself and sees what the slots before have made of it; a slot that takes its parameter by value
gets a copy of it.  Nothing else is copied, nothing is moved. -/
theorem C149_reference (T : Ty V) {p : Param} (hp : p = .lref ∨ p = .clref) {c : Cat} (hc : emissionCompiles T p c = true) (fs : List (Fun V))
    (hf : ∀ f ∈ fs, connectable T p f = true) (n : Nat) (m : Mem V) :
    ∃ m' es, emission T p c (.var n) fs m = .ok m' ∧ m'.log = m.log ++ es ∧ m'.pars = m.pars ∧ seen es = seenShared n m.vars fs ∧
      m'.vars = afterAllShared n m.vars fs ∧ ((∀ f ∈ fs, f.param ≠ .value) → ∀ x ∈ objects es, x.2 = .var n) ∧
      copies es = (fs.filter (fun f => f.param = .value)).length ∧ moves es = 0 := by
  obtain ⟨es, h1, h2, h3, h4, h5⟩ := callSlots_shared T hp fs hf n m
  refine ⟨⟨afterAllShared n m.vars fs, m.pars, m.log ++ es⟩, es, ?_, rfl, rfl, h2, rfl, h5, h3, h4⟩
  simp only [emissionCompiles, Bool.and_eq_true] at hc
  have hpv : p ≠ .value := by rcases hp with rfl | rfl <;> decide
  simp [emission, pass_ref T hc.1 hpv, h1, Mem.leave]

/-- Through `const T&` no slot changes the argument, unless it changes it as a variable of the program. -/
theorem C149_constant (T : Ty V) {c : Cat} (hc : emissionCompiles T .clref c = true) (fs : List (Fun V)) (hf : ∀ f ∈ fs, connectable T .clref f = true)
    (n : Nat) (hb : ∀ f ∈ fs, ∀ g v, (f.body g v).1 n = g n) (m : Mem V) :
    ∃ m' es, emission T .clref c (.var n) fs m = .ok m' ∧ m'.log = m.log ++ es ∧ m'.vars n = m.vars n ∧ seen es = fs.map (fun f => (f.id, m.vars n)) := by
  obtain ⟨m', es, h1, h2, -, h3, h4, -⟩ := C149_reference T (.inr rfl) hc fs hf n m
  refine ⟨m', es, h1, h2, ?_⟩
  rw [h3, h4]
  generalize m.vars = g
  clear h1 h2 h3 h4
  induction fs generalizing g with
  | nil => exact ⟨rfl, rfl⟩
  | cons f fs ih =>
    have e : afterShared n g f n = g n := by
      have hl : f.param ≠ .lref := by intro h; have := hf f (by simp); simp [connectable, h, forwarded, binds] at this
      have e : afterShared n g f = (f.body g (g n)).1 := by
        unfold afterShared
        split
        · contradiction
        · rfl
      rw [e]; exact hb f (by simp) _ _
    obtain ⟨k1, k2⟩ := ih (fun f hm => hf f (by simp [hm])) (fun f hm => hb f (by simp [hm])) (afterShared n g f)
    exact ⟨by rw [afterAllShared, k1, e], by rw [seenShared, k2, e, List.map_cons]⟩

/-- Which signals can be emitted: with what, for each form of the parameter. -/
theorem C149_compiles (T : Ty V) (p : Param) (c : Cat) :
    emissionCompiles T p c = true ↔ (p = .value ∧ T.copyable = true) ∨ (p = .lref ∧ c = .lvalue) ∨ p = .clref := by
  cases p <;> cases c <;> simp [emissionCompiles, binds, named]

/-- The others fail in the model as soon as there is a slot. -/
theorem C149_compiles_only (T : Ty V) {p : Param} {c : Cat} (h : emissionCompiles T p c = false) (r : Ref) {fs : List (Fun V)} (hfs : fs ≠ []) (m : Mem V) :
    emission T p c r fs m = .error .ub := by
  cases hb : binds T p c with
  | false => simp [emission, pass_fails T hb]
  | true =>
    have hn : binds T p (named p) = false := by simpa [emissionCompiles, hb] using h
    obtain ⟨f, fs, rfl⟩ := List.exists_cons_of_ne_nil hfs
    have hcs : ∀ r (m : Mem V), callSlots T p r (f :: fs) m = .error .ub := by intro r m; simp [callSlots, callSlot, pass_fails T hn]
    by_cases hp : p = .value
    · subst hp
      have hc : c = .rvalue := by cases c <;> simp_all [binds, named]
      subst hc
      simp only [emission, pass_value T hb, construct]
      cases hg : m.get r with
      | error e =>
        cases r with
        | var n => cases hg
        | par i => simp only [Mem.get, rd] at hg; split at hg <;> cases hg; rfl
      | ok v =>
        simp only [ok_bind, if_true]
        cases hs : m.set r (T.movedFrom v) with
        | error e =>
          cases r with
          | var n => cases hs
          | par i =>
            simp only [Mem.set, wr] at hs
            split at hs <;> cases hs; rfl
        | ok m1 => simp [hcs]
    · simp [emission, pass_ref T hb hp, hcs]

/-- A signal with a parameter `T&&` cannot be emitted, whatever the argument. -/
theorem C149_rvalue_reference_violated (T : Ty V) (c : Cat) : emissionCompiles T .rref c = false := by
  cases c <;> rfl

/-- A signal with a parameter by value of a type that can only be moved cannot be emitted, not even with an rvalue and (at run time) a single slot, although functions can be
connected that take such a value. -/
theorem C149_move_only_violated (T : Ty V) (hT : T.copyable = false) (c : Cat) (f : Fun V) (hf : f.param = .value) :
    emissionCompiles T .value c = false ∧ connectable T .value f = true := by
  refine ⟨?_, by simp [connectable, hf, forwarded, binds]⟩
  cases c <;> simp [emissionCompiles, binds, named, hT]

/-- A member function connected to a signal, with the parameters of the signal, gets what a function with these parameters gets. -/
theorem C149_member (T : Ty V) (p : Param) (f : Fun V) (r : Ref) (m : Mem V) : callMember T p r f m = callSlot T p r f m := by
  have h : ∀ r (m : Mem V), pass T (collapsed p) (forwarded p) r m = .ok (r, m) :=
    fun r m => pass_ref T (by cases p <;> rfl) (by cases p <;> decide) r m
  simp only [callMember, callSlot, h, ok_bind]

/-! ## C150: function references -/

/-- A call through a `FunctionRef` with a parameter `T&` or `T&&` is a call of the function itself. -/
theorem C150_reference (T : Ty V) {p : Param} (hp : p = .lref ∨ p = .rref) (f : Fun V) {c : Cat} (hc : refCompiles T p f c = true) (r : Ref) (m : Mem V) :
    throughRef T p f c r m = direct T f c r m := by
  have hcf : c = forwarded p := by
    rcases hp with rfl | rfl <;> cases c <;> simp [refCompiles, binds] at hc <;> rfl
  have hl : ∀ x : Mem V, (x.leave m.pars.length).leave m.pars.length = x.leave m.pars.length := by
    intro x; simp only [Mem.leave, List.take_take, Nat.min_self]
  have hpass : pass T p c r m = .ok (r, m) := by
    simp only [refCompiles, Bool.and_eq_true] at hc
    exact pass_ref T hc.2 (by rcases hp with rfl | rfl <;> decide) r m
  simp only [throughRef, hpass, ok_bind, ← hcf]
  simp only [direct, bind_assoc, pure_bind, hl]

/-- A call through a `FunctionRef` with a parameter `const T&` is a call of the function with a constant. -/
theorem C150_constant (T : Ty V) (f : Fun V) (c : Cat) (r : Ref) (m : Mem V) : throughRef T .clref f c r m = direct T f .clvalue r m := by
  have hl : ∀ x : Mem V, (x.leave m.pars.length).leave m.pars.length = x.leave m.pars.length := by
    intro x; simp only [Mem.leave, List.take_take, Nat.min_self]
  have hb : binds T .clref c = true := by cases c <;> rfl
  simp only [throughRef, pass_ref T hb (by decide), ok_bind, forwarded]
  simp only [direct, bind_assoc, pure_bind, hl]

/-- A call through a `FunctionRef` with a parameter by value: the function sees the value of the argument, in an object of its own; an lvalue argument is left as it is and copied
once, an rvalue is moved from and not copied (so that types work that can only be moved); one more move if the function takes its parameter by value. -/
theorem C150_value (T : Ty V) (f : Fun V) {c : Cat} (hc : refCompiles T .value f c = true) (n : Nat) (m : Mem V) :
    ∃ m' es, throughRef T .value f c (.var n) m = .ok m' ∧ m'.log = m.log ++ es ∧ m'.pars = m.pars ∧ seen es = [(f.id, m.vars n)] ∧ (∀ x ∈ objects es, ∀ k, x.2 ≠ .var k) ∧
      copies es = (if c = .rvalue then 0 else 1) ∧ moves es = (if c = .rvalue then 1 else 0) + (if f.param = .value then 1 else 0) ∧
      m'.vars = (f.body (if c = .rvalue then assign m.vars n (T.movedFrom (m.vars n)) else m.vars) (m.vars n)).1 := by
  have hb : binds T f.param .rvalue = true := by simp only [refCompiles, Bool.and_eq_true] at hc; exact hc.1
  have hv : binds T .value c = true := by simp only [refCompiles, Bool.and_eq_true] at hc; exact hc.2
  by_cases h : c = .rvalue
  · obtain ⟨u, es, h1, h2, h3, h4, h5⟩ := direct_par T f hb (assign m.vars n (T.movedFrom (m.vars n))) m.pars (m.vars n) (m.log ++ [.moved (.var n)])
    refine ⟨⟨(f.body (if c = .rvalue then assign m.vars n (T.movedFrom (m.vars n)) else m.vars) (m.vars n)).1, m.pars, m.log ++ .moved (.var n) :: es⟩, .moved (.var n) :: es, ?_, rfl, rfl, by simp [seen, h2], by simpa [objects] using h5, by simp [copies, h3, h], by simp [moves, h4, h]; omega, rfl⟩
    simp only [h, if_true]
    have h1' := h1
    unfold assign at h1'
    rw [h] at hv
    simp [throughRef, pass_value T hv, construct, Mem.get, Mem.set, Mem.record, h1', Mem.leave, forwarded]
    rfl
  · obtain ⟨u, es, h1, h2, h3, h4, h5⟩ := direct_par T f hb m.vars m.pars (m.vars n) (m.log ++ [.copied (.var n)])
    refine ⟨⟨(f.body (if c = .rvalue then assign m.vars n (T.movedFrom (m.vars n)) else m.vars) (m.vars n)).1, m.pars, m.log ++ .copied (.var n) :: es⟩, .copied (.var n) :: es, ?_, rfl, rfl, by simp [seen, h2], by simpa [objects] using h5, by simp [copies, h3, h], by simp [moves, h4, h], rfl⟩
    simp only [if_neg h]
    simp [throughRef, pass_value T hv, construct, Mem.get, Mem.record, h, h1, Mem.leave, forwarded]

/-- For a function that takes its parameter by value this is, but for one move, what a call of the function itself does. -/
theorem C150_same (T : Ty V) (f : Fun V) (hf : f.param = .value) {c : Cat} (hc : refCompiles T .value f c = true) (n : Nat) (m : Mem V) :
    ∃ m1 es1 m2 es2, throughRef T .value f c (.var n) m = .ok m1 ∧ direct T f c (.var n) m = .ok m2 ∧ m1.vars = m2.vars ∧ m1.pars = m2.pars ∧
      m1.log = m.log ++ es1 ∧ m2.log = m.log ++ es2 ∧ seen es1 = seen es2 ∧ copies es1 = copies es2 ∧ moves es1 = moves es2 + 1 := by
  obtain ⟨m1, es1, h1, h2, h3, h4, _, h5, h6, h7⟩ := C150_value T f hc n m
  have hv : binds T .value c = true := by simp only [refCompiles, Bool.and_eq_true] at hc; exact hc.2
  by_cases h : c = .rvalue
  · refine ⟨m1, es1, ⟨(f.body (assign m.vars n (T.movedFrom (m.vars n))) (m.vars n)).1, m.pars, m.log ++ [.moved (.var n), .called f.id (.par m.pars.length) (m.vars n)]⟩,
      [.moved (.var n), .called f.id (.par m.pars.length) (m.vars n)], h1, ?_, by rw [h7, if_pos h], h3, h2, rfl, h4, by rw [h5, if_pos h]; rfl, by rw [h6, if_pos h, if_pos hf]; rfl⟩
    rw [h] at hv
    simp [direct, hf, pass_value T hv, construct, Mem.get, Mem.set, h, Mem.record, Fun.run, rd, wr, Mem.leave]
    rfl
  · refine ⟨m1, es1, ⟨(f.body m.vars (m.vars n)).1, m.pars, m.log ++ [.copied (.var n), .called f.id (.par m.pars.length) (m.vars n)]⟩,
      [.copied (.var n), .called f.id (.par m.pars.length) (m.vars n)], h1, ?_, by rw [h7, if_neg h], h3, h2, rfl, h4, by rw [h5, if_neg h]; rfl, by rw [h6, if_neg h, if_pos hf]; rfl⟩
    simp [direct, hf, pass_value T hv, construct, Mem.get, Mem.set, h, Mem.record, Fun.run, rd, wr, Mem.leave]

/-! ## The hypotheses can be met -/

/-- Objects that hold a number, and 0 after they have been moved from. -/
def exampleTy : Ty Nat := ⟨true, fun _ => 0⟩

/-- Three slots: the first changes its own copy and variable 5, the second takes the value out of its parameter, the third only looks at it. -/
def exampleSlots : List (Fun Nat) := [⟨1, .value, fun g v => (assign g 5 77, v + 1)⟩, ⟨2, .rref, fun g _ => (g, 0)⟩, ⟨3, .clref, fun g v => (g, v)⟩]

/-- The argument is variable 5 itself, which the first slot changes: all slots see 42. -/
example : ∃ m' es, emission exampleTy .value .lvalue (.var 5) exampleSlots ⟨fun _ => 42, [], []⟩ = .ok m' ∧ m'.log = es ∧ seen es = [(1, 42), (2, 42), (3, 42)] ∧ copies es = 4 ∧
    m'.vars 5 = 77 := by
  obtain ⟨m', es, h1, h2, _, h3, _, h4, h5⟩ := C149_value exampleTy (c := .lvalue) rfl exampleSlots (by decide) 5 ⟨fun _ => 42, [], []⟩
  exact ⟨m', es, h1, h2, h3, h4, by rw [h5]; rfl⟩

/-- Slots that share the argument: the first changes it, the second changes a copy, the third sees what the first has made. -/
def exampleShared : List (Fun Nat) := [⟨1, .lref, fun g v => (g, v + 1)⟩, ⟨2, .value, fun g _ => (g, 0)⟩, ⟨3, .clref, fun g v => (g, v)⟩]

example : ∃ m' es, emission exampleTy .lref .lvalue (.var 5) exampleShared ⟨fun _ => 42, [], []⟩ = .ok m' ∧ m'.log = es ∧ seen es = [(1, 42), (2, 43), (3, 43)] ∧ copies es = 1 ∧
    m'.vars 5 = 43 := by
  obtain ⟨m', es, h1, h2, _, h3, h4, _, h5, _⟩ := C149_reference exampleTy (.inl rfl) (c := .lvalue) rfl exampleShared (by decide) 5 ⟨fun _ => 42, [], []⟩
  exact ⟨m', es, h1, h2, h3, h5, by rw [h4]; rfl⟩

/-- A type that can only be moved, through a `FunctionRef`. -/
example : ∃ m' es, throughRef ⟨false, fun _ => 0⟩ .value ⟨1, .value, fun g v => (assign g 6 v, 0)⟩ .rvalue (.var 5) ⟨fun _ => 42, [], []⟩ = .ok m' ∧ m'.log = es ∧ seen es = [(1, 42)] ∧
    copies es = 0 ∧ moves es = 2 ∧ m'.vars 5 = 0 ∧ m'.vars 6 = 42 := by
  obtain ⟨m', es, h1, h2, _, h3, _, h4, h5, h6⟩ := C150_value ⟨false, fun _ => 0⟩ (⟨1, .value, fun g v => (assign g 6 v, 0)⟩ : Fun Nat) (c := .rvalue) rfl 5 ⟨fun _ => 42, [], []⟩
  exact ⟨m', es, h1, h2, h3, h4, h5, by rw [h6]; rfl, by rw [h6]; rfl⟩

end Verif.Args
