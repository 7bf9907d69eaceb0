import Verif.Signal.LemmasLife
import Verif.Signal.Props

/-! # Signals: programs whose callbacks create, destroy and move signals (C127) -/

namespace Verif.Signal
open Verif.Cpp

/-! ## C127 -/

/-- **C127**.  A program whose callbacks, like its main function, create, destroy, move, connect to, disconnect from, clear and emit signals, and throw exceptions, in any order and at any depth, but
neither destroy a signal nor move from it during its own emission: no undefined behaviour, no failed assertion.  If the program ends, then in all that happened new slots were numbered in order
and only connected slots were called, each with its callback, by the innermost emission and with its argument; all emissions have ended; the connections say what is connected, and
the signals that are there are those that were created (or moved to) and not destroyed. -/
theorem C127_safe_partial {p : Program} (hp : p.Ok) (fuel : Nat) :
    runMain p fuel = .error .diverge ∨
    ∃ w log b, runMain p fuel = .ok ((w, log), b) ∧ Sensible log ∧ Follows p log ∧ active log = [] ∧
      (∀ id, isConnected (some id) w = true ↔ ∃ s, id ∈ (after log).slots s) ∧ ∀ s, (w.sigs s).isSome = true ↔ (after log).conn s ≠ .absent := by
  rcases runMain_good hp fuel with h | ⟨⟨w, log⟩, b, h1, h2, h3⟩
  · exact Or.inl h
  · refine Or.inr ⟨w, log, b, h1, h2.sensible, h2.follows, h3, fun id => (h2.rel.connected id).symm, ?_⟩
    intro s
    have hs := h2.rel.sig s
    simp only at hs
    cases hc : (after log).conn s with
    | absent => rw [hc] at hs; simp only [SigRel] at hs; simp [hs]
    | hollow => rw [hc] at hs; obtain ⟨_, it, hs⟩ := hs; simp [hs]
    | live l => rw [hc] at hs; obtain ⟨ids, it, hs, _⟩ := hs; simp [hs]

theorem Sensible.init {l1 l2 : List EventL} (h : Sensible (l1 ++ l2)) : Sensible l1 := by
  intro m1 e m2 hm
  exact h m1 e (m2 ++ l2) (by rw [hm]; simp)

/-- The emission of signal `s` that goes on has the argument with which it began. -/
theorem active_arg {l1 : List EventL} {s arg : Nat} {l2 : List EventL} (hs : Sensible (l1 ++ .ev (.emit s arg) :: l2)) (hd : ∀ e ∈ l2, e.disturbs s = false) :
    (active (l1 ++ .ev (.emit s arg) :: l2)).find? (fun k => k.1 = s) = some (s, arg) := by
  induction hn : l2.length generalizing l2 with
  | zero =>
    rw [List.length_eq_zero_iff.mp hn, active_snoc]
    simp [activeStep]
  | succ n ih =>
    rcases List.eq_nil_or_concat l2 with rfl | ⟨l, e, rfl⟩
    · simp at hn
    · rw [List.concat_eq_append] at hs hd hn ⊢
      have e1 : l1 ++ EventL.ev (.emit s arg) :: (l ++ [e]) = (l1 ++ EventL.ev (.emit s arg) :: l) ++ [e] := by simp
      rw [e1] at hs ⊢
      have h1 := ih hs.init (fun f hf => hd f (by simp [hf])) (by simpa using hn)
      have h2 := hs _ e [] rfl
      have h3 := hd e (by simp)
      rw [active_snoc]
      have hpop : ∀ t, (∃ b, (active (l1 ++ EventL.ev (.emit s arg) :: l)).head? = some (t, b)) → t ≠ s →
          (active (l1 ++ EventL.ev (.emit s arg) :: l)).tail.find? (fun k => k.1 = s) = some (s, arg) := by
        rintro t ⟨b, hb⟩ ht
        cases hc : active (l1 ++ EventL.ev (.emit s arg) :: l) with
        | nil => rw [hc] at hb; cases hb
        | cons k ks =>
          rw [hc] at hb h1
          cases hb
          rw [List.find?_cons_of_neg (by simpa using ht)] at h1
          exact h1
      cases e with
      | ev e =>
        cases e with
        | emit t b =>
          have ht : t ≠ s := by simpa [EventL.disturbs] using h3
          simp only [activeStep]
          rw [List.find?_cons_of_neg (by simpa using ht)]
          exact h1
        | done t => exact hpop t h2 (by simpa [EventL.disturbs] using h3)
        | _ => exact h1
      | threw t => exact hpop t h2 (by simpa [EventL.disturbs] using h3)
      | _ => exact h1

/-- In such a program, an emission of signal `s` that ends calls no slot twice, and calls each slot that was connected to the signal when the emission began and still is when it
ends, whatever the callbacks do to other signals, and whatever they connect to this signal or disconnect from it, provided that the signal is not cleared, emitted
or moved meanwhile and no callback disconnects a slot of the signal and then connects one to it. -/
theorem C127_exact_partial {p : Program} (hp : p.Ok) {fuel : Nat} {w : World} {log : List EventL} {b : Bool} (hrun : runMain p fuel = .ok ((w, log), b))
    {l1 : List EventL} {s arg : Nat} {l2 l3 : List EventL} (hlog : log = l1 ++ .ev (.emit s arg) :: (l2 ++ .ev (.done s) :: l3)) (hd : ∀ e ∈ l2, e.disturbs s = false)
    (ho : Orderly (l1 ++ [.ev (.emit s arg)]) s l2) :
    (callsL s l2).Nodup ∧ (∀ id, id ∈ (after l1).slots s → id ∈ (after (l1 ++ .ev (.emit s arg) :: l2)).slots s → id ∈ callsL s l2) ∧
      ∀ id cb b, .ev (.call s id cb b) ∈ l2 → b = arg := by
  rcases runMain_good hp fuel with h | ⟨⟨w', log'⟩, b', h1, h2, h3⟩
  · rw [h] at hrun; cases hrun
  · rw [hrun] at h1
    cases h1
    obtain ⟨k1, k2⟩ := h2.finished l1 s arg l2 l3 hlog hd ho
    refine ⟨k1, k2, ?_⟩
    intro id cb c hm
    obtain ⟨m1, m2, hm⟩ := List.append_of_mem hm
    have hs : Sensible ((l1 ++ .ev (.emit s arg) :: m1) ++ .ev (.call s id cb c) :: (m2 ++ .ev (.done s) :: l3)) := by
      have := h2.sensible
      simp only at this
      rw [hlog, hm] at this
      simpa using this
    have h4 := active_arg hs.init (fun e he => hd e (by rw [hm]; simp [he]))
    obtain ⟨_, _, h5⟩ := hs _ _ _ rfl
    cases hc : active (l1 ++ EventL.ev (.emit s arg) :: m1) with
    | nil => rw [hc] at h5; cases h5
    | cons k ks =>
      rw [hc] at h4 h5
      cases h5
      simp at h4
      exact h4

theorem setIter_sig {w : World} {s : Nat} {g : Sig} (hg : w.sigs s = some g) (f : Option Nat → Option Nat) :
    setIter s f w = .ok (w.setSig s (some ⟨g.slots, g.fallback, f g.iter⟩)) := by simp [setIter, sig_some hg]

/-- Destroying a signal in the first callback of its emission, with nothing put in its place, is undefined behaviour. -/
theorem C127_destroy_violated {w : World} {a : Abs} (h : Reached w a) {s : Nat} {l : List Nat} (hs : a.conn s = .live l) (hl : l ≠ []) (arg : Nat) (log : List EventL)
    {p : Program} (h1 : ∀ id cb, p (log ++ [.ev (.emit s arg), .ev (.call s id cb arg)]) = some (.destroy s))
    (h2 : ∀ id cb, p (log ++ [.ev (.emit s arg), .ev (.call s id cb arg), .destroy s]) = none) {fuel : Nat} (hf : 3 ≤ fuel) :
    emitL p fuel s arg (w, log) = .error .ub := by
  have hr := reached_rel h
  obtain ⟨ids, it, hg, hperm, _⟩ := hr.live hs
  obtain ⟨k1, k2⟩ := hr.setIter (fun _ => some 0) hg
  obtain ⟨id, hid⟩ : ∃ id, ids[0]? = some id := by
    cases ids with
    | nil => exact absurd hperm.symm.eq_nil hl
    | cons x xs => exact ⟨x, rfl⟩
  obtain ⟨n, rfl⟩ : ∃ n, fuel = n + 3 := ⟨fuel - 3, by omega⟩
  simp only [emitL, k1, ok_bind, emitLoopL]
  have hsig : (w.setSig s (some ⟨ids.map some, a.grown s, some 0⟩)).sigs s = some ⟨ids.map some, a.grown s, some 0⟩ := by simp [World.setSig, update]
  rw [currentSlot_ok k2 hsig]
  simp only [hid, Option.map_some, ok_bind, List.append_assoc, List.cons_append, List.nil_append, runProgram, h1, ActionL.run]
  obtain ⟨w', d1, d2, _⟩ := k2.destroy (s := s) (by rw [hs]; simp)
  simp only at d1
  simp only [d1, ok_bind, pure_bind, Bool.false_eq_true, if_false, List.append_assoc, List.cons_append, List.nil_append, h2]
  have habs : w'.sigs s = none := by
    have := d2.sig s
    simpa [Abs.destroy, update, SigRel] using this
  simp [setIter, World.sig, habs]

/-- Moving the slots of a signal to a new signal in the first callback of its emission ends the emission: the other slots are not called, although they all are connected (to the new
signal). -/
theorem C127_move_violated {w : World} {a : Abs} (h : Reached w a) {s t : Nat} {l : List Nat} (hs : a.conn s = .live l) (hl : 2 ≤ l.length) (ht : a.conn t = .absent) (arg : Nat)
    (log : List EventL) {p : Program} (h1 : ∀ id cb, p (log ++ [.ev (.emit s arg), .ev (.call s id cb arg)]) = some (.moveConstruct t s))
    (h2 : ∀ id cb, p (log ++ [.ev (.emit s arg), .ev (.call s id cb arg), .moveConstruct t s]) = none) {fuel : Nat} (hf : 3 ≤ fuel) :
    ∃ w' id, id ∈ l ∧ emitL p fuel s arg (w, log) =
        .ok ((w', log ++ [.ev (.emit s arg), .ev (.call s id (a.cb id) arg), .moveConstruct t s, .ev (.done s)]), false) ∧
      ∀ j ∈ l, isConnected (some j) w' = true := by
  have hr := reached_rel h
  obtain ⟨ids, it, hg, hperm, hgrow⟩ := hr.live hs
  have hlen := hperm.length_eq
  have hgr : a.grown s = true := by
    cases hgs : a.grown s with
    | true => rfl
    | false => have := hgrow hgs; omega
  have hst : t ≠ s := by rintro rfl; rw [hs] at ht; cases ht
  obtain ⟨k1, k2⟩ := hr.setIter (fun _ => some 0) hg
  obtain ⟨id, hid⟩ : ∃ id, ids[0]? = some id := ⟨_, List.getElem?_eq_getElem (by omega)⟩
  obtain ⟨n, rfl⟩ : ∃ n, fuel = n + 3 := ⟨fuel - 3, by omega⟩
  have hsig : (w.setSig s (some ⟨ids.map some, a.grown s, some 0⟩)).sigs s = some ⟨ids.map some, a.grown s, some 0⟩ := by simp [World.setSig, update]
  obtain ⟨w1, d1, d2, _⟩ := k2.moveConstruct ht ⟨l, hs⟩
  simp only at d1
  have hc : ((a.create t).move t s).conn s = .live [] := by simp [Abs.move, Abs.create, hgr, update, Ne.symm hst]
  obtain ⟨ids', it', hg', hp', _⟩ := d2.live hc
  have hnil := hp'.eq_nil
  subst hnil
  obtain ⟨q1, q2⟩ := d2.setIter iterInc hg'
  have hcur := currentSlot_ok q2 (s := s) (ids := []) (fb := ((a.create t).move t s).grown s) (it := iterInc it') (by simp [World.setSig, update])
  have hcur : currentSlot s (w1.setSig s (some ⟨[], ((a.create t).move t s).grown s, iterInc it'⟩)) = .ok none := by
    refine hcur.trans ?_
    cases it' <;> rfl
  refine ⟨w1.setSig s (some ⟨[], ((a.create t).move t s).grown s, iterInc it'⟩), id, hperm.mem_iff.mp (List.mem_of_getElem? hid), ?_, ?_⟩
  · simp only [emitL, k1, ok_bind]
    rw [emitLoopL, currentSlot_ok k2 hsig]
    simp only [hid, Option.map_some, ok_bind, List.append_assoc, List.cons_append, List.nil_append, runProgram, h1, ActionL.run, d1, pure_bind, Bool.false_eq_true, if_false, h2, q1]
    rw [emitLoopL]
    simp only [List.map_nil, hcur, ok_bind, List.append_assoc, List.cons_append, List.nil_append]
    rfl
  · intro j hj
    refine (q2.connected j).mp ?_
    refine ⟨t, ?_⟩
    have : ((a.create t).move t s).slots t = l := by simp [Abs.slots, Abs.move, Abs.create, update, hst, Ne.symm hst, hs]
    rw [this]; exact hj

/-! ## Examples -/

/-- The events of an example. -/
def demoLog : List EventL :=
  [.create 0, .ev (.connect 0 0 7), .ev (.connect 0 1 8), .create 1, .ev (.connect 1 2 9), .ev (.connect 1 3 9), .ev (.emit 0 5), .ev (.call 0 0 7 5),
    .moveConstruct 2 1, .ev (.emit 2 6), .ev (.call 2 2 9 6), .destroy 1, .threw 2, .ev (.call 0 1 8 5), .destroy 2, .ev (.disconnect 0), .ev (.done 0)]

/-- What a program does after which events: signals 0 and 1 with two slots each; the first callback of the emission of signal 0 moves signal 1 to signal 2 and emits the latter (in a `try` block), the callback of which
destroys signal 1 and throws; the second one destroys signal 2 and disconnects the first slot. -/
def demoTable : List (List EventL × ActionL) :=
  [([], .create 0), (demoLog.take 1, .act (.connect 0 7)), (demoLog.take 2, .act (.connect 0 8)), (demoLog.take 3, .create 1), (demoLog.take 4, .act (.connect 1 9)),
    (demoLog.take 5, .act (.connect 1 9)), (demoLog.take 6, .act (.emit 0 5)), (demoLog.take 8, .moveConstruct 2 1), (demoLog.take 9, .tryEmit 2 6),
    (demoLog.take 11, .destroy 1), (demoLog.take 12, .throw), (demoLog.take 14, .destroy 2), (demoLog.take 15, .act (.disconnect 0))]

def demo : Program := fun log => (demoTable.find? (fun e => e.1 = log)).map Prod.snd

theorem demo_ok : demo.Ok := by
  have hall : ∀ e ∈ demoTable, e.2.ok (after e.1) (active e.1) := by
    simp only [demoTable, List.forall_mem_cons]
    refine ⟨rfl, ⟨_, rfl⟩, ⟨_, rfl⟩, rfl, ⟨_, rfl⟩, ⟨_, rfl⟩, ⟨_, rfl⟩, ⟨rfl, ⟨_, rfl⟩, by decide⟩, ⟨_, rfl⟩, ⟨by decide, by decide⟩, trivial, ⟨by decide, by decide⟩, trivial, ?_⟩
    intro e he; cases he
  intro log x _ _ h
  simp only [demo, Option.map_eq_some_iff] at h
  obtain ⟨e, h1, rfl⟩ := h
  have h2 : e.1 = log := by simpa using List.find?_some h1
  rw [← h2]
  exact hall e (List.mem_of_find?_eq_some h1)

/-- What the program does. -/
example : (runMain demo 20).toOption.map (fun r => (r.1.2, r.2)) = some (demoLog, false) := by decide +kernel

/-- The emission of signal 0 calls both of its slots, one of which is disconnected when it ends; that of signal 2 is left by an exception. -/
example : callsL 0 demoLog = [0, 1] ∧ (after demoLog).slots 0 = [1] ∧ callsL 2 demoLog = [2] ∧ (after demoLog).conn 1 = .absent := by decide

/-- The hypotheses of `C127_exact_partial` are met. -/
example : demoLog = demoLog.take 6 ++ .ev (.emit 0 5) :: ((demoLog.drop 7).take 9 ++ .ev (.done 0) :: []) ∧ (∀ e ∈ (demoLog.drop 7).take 9, e.disturbs 0 = false) := by
  decide

example : Orderly (demoLog.take 6 ++ [.ev (.emit 0 5)]) 0 ((demoLog.drop 7).take 9) := by
  intro m1 id m2 k cb m3 h
  have : EventL.ev (.connect 0 k cb) ∈ (demoLog.drop 7).take 9 := by rw [h]; simp
  simp [demoLog] at this

/-- A program meets the hypotheses of `C127_destroy_violated`: two slots are connected to signal 0, and the callback destroys it. -/
example : ∃ w a, Reached w a ∧ a.conn 0 = .live [0, 1] ∧ ∃ p : Program,
    (∀ id cb, p [.ev (.emit 0 5), .ev (.call 0 id cb 5)] = some (.destroy 0)) ∧ (∀ id cb, p [.ev (.emit 0 5), .ev (.call 0 id cb 5), .destroy 0] = none) ∧
    emitL p 3 0 5 (w, []) = .error .ub := by
  have r0 := Reached.step (w' := newSignal 0 .empty) (.create 0) [] Reached.empty rfl rfl rfl
  obtain ⟨w1, h1, r1⟩ := reached_op r0 (o := .connect 0 7) ⟨[], rfl⟩ (by intros; simp)
  obtain ⟨w2, h2, r2⟩ := reached_op r1 (o := .connect 0 8) ⟨[0], rfl⟩ (by intros; simp)
  let p : Program := fun log => if log.length = 2 then some (.destroy 0) else none
  refine ⟨w2, _, r2, rfl, p, fun _ _ => rfl, fun _ _ => rfl, ?_⟩
  exact C127_destroy_violated r2 (s := 0) (l := [0, 1]) rfl (by simp) 5 [] (p := p) (fun _ _ => rfl) (fun _ _ => rfl) (Nat.le_refl 3)

end Verif.Signal
