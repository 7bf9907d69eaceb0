import Verif.Signal.SpecVars
import Verif.Signal.PropsMore

/-! # Signals: the property C129 -/

namespace Verif.Signal
open Verif.Cpp

/-- What the induction over the statements shows. -/
structure VGood (p : Vars) (A : VAbs) : Prop where
  reached : Reached p.w A.abs
  conn : p.conn = A.conn
  guard : p.guard = A.guard
  old : ∀ id ∈ A.owned, id < A.abs.next

theorem disconnect_off {w : World} {a : Abs} (h : Reached w a) (c : Option Nat) :
    ∃ w', disconnect c w = .ok w' ∧ w'.trace = w.trace ∧ Reached w' (a.off c) := by
  cases c with
  | none => exact ⟨w, rfl, rfl, h⟩
  | some id =>
    obtain ⟨w2, h1, _, h3, _⟩ := (reached_rel h).disconnect id
    exact ⟨w2, h1, h3, Reached.step (.disconnect id) [] h trivial h1 (by simp [h3])⟩

theorem connect_on {w : World} {a : Abs} (h : Reached w a) {s : Nat} (hs : a.Live s) (cb : Nat) :
    ∃ w', connect s cb w = .ok (w', a.next) ∧ w'.trace = w.trace ∧ Reached w' (a.connect s cb) := by
  obtain ⟨w2, h1, _, h3, _⟩ := (reached_rel h).connect hs cb
  exact ⟨w2, h1, h3, Reached.step (.connect s cb) [] h hs (by simp [Op.run, h1]) (by simp [h3])⟩

theorem Abs.off_next (a : Abs) (c : Option Nat) : (a.off c).next = a.next := by cases c <;> rfl

theorem Abs.off_live {a : Abs} {s : Nat} (hs : a.Live s) (c : Option Nat) : (a.off c).Live s := by
  cases c with
  | none => exact hs
  | some id => obtain ⟨l, hl⟩ := hs; exact ⟨l.filter (· ≠ id), by simp [Abs.off, Abs.disconnect, hl, Status.map]⟩

theorem sig_there {w : World} {a : Abs} (h : Rel w a) {s : Nat} (hs : a.conn s ≠ .absent) : ∃ g, w.sig s = .ok g := by
  have := h.sig s
  cases hc : a.conn s with
  | absent => exact absurd hc hs
  | hollow => rw [hc] at this; obtain ⟨_, it, hg⟩ := this; exact ⟨⟨[none], false, it⟩, by simp [World.sig, hg]⟩
  | live l => rw [hc] at this; obtain ⟨ids, it, hg, _⟩ := this; exact ⟨⟨ids.map some, a.grown s, it⟩, by simp [World.sig, hg]⟩

theorem VGood.held {p : Vars} {A : VAbs} (h : VGood p A) {g : Nat} (hg : A.guard g ≠ none) : p.held g = .ok (A.names g) ∧ A.guard g = some (A.names g) := by
  cases hc : A.guard g with
  | none => exact absurd hc hg
  | some x => exact ⟨by simp [Vars.held, h.guard, hc, VAbs.names], by simp [VAbs.names, hc]⟩

/-- A statement that is no emission, in a good state. -/
theorem VGood.run {p : Vars} {A : VAbs} (h : VGood p A) {o : Stmt} (hok : o.ok A) (hne : o.NoEmission) :
    ∃ p', o.run p = .ok p' ∧ p'.w.trace = p.w.trace ∧ VGood p' (o.spec [] A) := by
  obtain ⟨w, conn, guard⟩ := p
  obtain ⟨hr, hc, hg, hold⟩ := h
  obtain ⟨abs, conn', guard', owned⟩ := A
  simp only at hr hc hg hold
  subst hc hg
  have held : ∀ g, guard g ≠ none → (Vars.mk w conn guard).held g = .ok (guard g).join := by
    intro g hg
    cases hc : guard g with
    | none => exact absurd hc hg
    | some x => simp [Vars.held, hc]
  cases o with
  | sig o =>
    obtain ⟨w', h1, h2⟩ := reached_op hr hok.1 (fun sc f s x e => hne.1 sc f s x (by rw [e])) (fun sc f s x e => hne.2 sc f s x (by rw [e]))
    have h3 : w'.trace = w.trace ∧ abs.next ≤ (o.spec [] abs).next := by
      have hrel := reached_rel hr
      have ho := hok.1
      cases o with
      | create s => simp only [Op.run, pure_ok, Except.ok.injEq] at h1; subst h1; exact ⟨rfl, Nat.le_refl _⟩
      | destroy s => obtain ⟨w2, k1, _, k3⟩ := hrel.destroy ho; simp only [Op.run, k1, Except.ok.injEq] at h1; subst h1; exact ⟨k3, Nat.le_refl _⟩
      | connect s cb =>
        obtain ⟨w2, k1, _, k3, _⟩ := hrel.connect ho cb
        simp only [Op.run, k1, ok_bind, pure_ok, Except.ok.injEq] at h1; subst h1; exact ⟨k3, Nat.le_succ _⟩
      | disconnect id => exact absurd rfl (hok.2 id)
      | clear s => obtain ⟨w2, k1, _, k3, _⟩ := hrel.clear ho; simp only [Op.run, k1, Except.ok.injEq] at h1; subst h1; exact ⟨k3, Nat.le_refl _⟩
      | emit sc f s x => exact absurd rfl (hne.1 sc f s x)
      | emitX sc f s x => exact absurd rfl (hne.2 sc f s x)
      | moveConstruct s t =>
        obtain ⟨w2, k1, _, k3⟩ := hrel.moveConstruct ho.1 ho.2
        simp only [Op.run, k1, Except.ok.injEq] at h1; subst h1; exact ⟨k3, Nat.le_refl _⟩
      | moveAssign s t =>
        obtain ⟨w2, k1, _, k3⟩ := hrel.moveAssign ho.1 ho.2.1 ho.2.2.1 ho.2.2.2.1 ho.2.2.2.2
        simp only [Op.run, k1, Except.ok.injEq] at h1; subst h1; exact ⟨k3, Nat.le_refl _⟩
    exact ⟨⟨w', conn, guard⟩, by simp only [Stmt.run, h1, ok_bind, pure_ok], h3.1, h2, rfl, rfl, fun id hid => Nat.lt_of_lt_of_le (hold id hid) h3.2⟩
  | copySignal s t =>
    obtain ⟨g, hg⟩ := sig_there (reached_rel hr) hok.2
    exact ⟨⟨newSignal s w, conn, guard⟩, by simp only [Stmt.run, copySignal, hg, ok_bind, pure_ok], rfl, Reached.step (.create s) [] hr hok.1 rfl (by simp [newSignal, World.setSig]), rfl, rfl, hold⟩
  | assignSignal s t =>
    obtain ⟨g, hg⟩ := sig_there (reached_rel hr) hok.1
    obtain ⟨g', hg'⟩ := sig_there (reached_rel hr) hok.2
    exact ⟨⟨w, conn, guard⟩, by simp only [Stmt.run, assignSignal, hg, hg', ok_bind, pure_ok], rfl, hr, rfl, rfl, hold⟩
  | connect c s cb =>
    obtain ⟨w', h1, h2, h3⟩ := connect_on hr hok cb
    exact ⟨⟨w', update conn c (some abs.next), guard⟩, by simp only [Stmt.run, h1, ok_bind, pure_ok], h2, h3, rfl, rfl, fun id hid => Nat.lt_succ_of_lt (hold id hid)⟩
  | copyConn c d => exact ⟨_, rfl, rfl, hr, rfl, rfl, hold⟩
  | moveConn c d =>
    refine ⟨_, rfl, rfl, hr, ?_, rfl, hold⟩
    funext x
    simp only [moveConn, Stmt.spec, update]
  | disconnect c =>
    obtain ⟨w', h1, h2, h3⟩ := disconnect_off hr (conn c)
    exact ⟨⟨w', conn, guard⟩, by simp only [Stmt.run, h1, ok_bind, pure_ok], h2, h3, rfl, rfl, fun id hid => by simp only [Stmt.spec, Abs.off_next]; exact hold id hid⟩
  | newGuard g => exact ⟨_, rfl, rfl, hr, rfl, rfl, hold⟩
  | guardOf g c => exact ⟨_, rfl, rfl, hr, rfl, rfl, hold⟩
  | guardOfMoved g c => exact ⟨_, rfl, rfl, hr, rfl, rfl, hold⟩
  | guardFrom g h =>
    refine ⟨⟨w, conn, update (update guard h (some none)) g (some (guard h).join)⟩, by simp only [Stmt.run, held h hok.2, ok_bind, pure_ok, guardMoveConstruct], rfl, hr, rfl, ?_, hold⟩
    funext x
    simp only [Stmt.spec, update, VAbs.names]
  | guardConnect g s cb =>
    obtain ⟨w', h1, h2, h3⟩ := disconnect_off hr (guard g).join
    obtain ⟨w'', k1, k2, k3⟩ := connect_on h3 (Abs.off_live hok.2 _) cb
    refine ⟨⟨w'', conn, update guard g (some (some (abs.off (guard g).join).next))⟩, by simp only [Stmt.run, held g hok.1, guardConnect, h1, k1, ok_bind, pure_ok], k2.trans h2, k3, rfl, ?_, ?_⟩
    · simp only [Stmt.spec, Abs.off_next]
    · intro id hid
      simp only [Stmt.spec, List.mem_cons] at hid
      show id < (abs.off _).next + 1
      rw [Abs.off_next]
      rcases hid with rfl | hid
      · exact Nat.lt_succ_self _
      · exact Nat.lt_succ_of_lt (hold id hid)
  | guardDisconnect g =>
    obtain ⟨w', h1, h2, h3⟩ := disconnect_off hr (guard g).join
    exact ⟨⟨w', conn, guard⟩, by simp only [Stmt.run, held g hok, guardDisconnect, h1, ok_bind, pure_ok], h2, h3, rfl, rfl, fun id hid => by simp only [Stmt.spec, Abs.off_next]; exact hold id hid⟩
  | guardAssign g c =>
    obtain ⟨w', h1, h2, h3⟩ := disconnect_off hr (guard g).join
    exact ⟨⟨w', conn, update guard g (some (conn c))⟩, by simp only [Stmt.run, held g hok, guardAssign, h1, ok_bind, pure_ok], h2, h3, rfl, rfl, fun id hid => by simp only [Stmt.spec, Abs.off_next]; exact hold id hid⟩
  | guardMove g h =>
    by_cases hgh : g = h
    · subst hgh
      exact ⟨⟨w, conn, guard⟩, by simp only [Stmt.run, held g hok.1, ok_bind, pure_ok, if_true], rfl, by simpa [Stmt.spec] using hr, by simp [Stmt.spec], by simp [Stmt.spec],
        by simpa [Stmt.spec] using hold⟩
    · obtain ⟨w', h1, h2, h3⟩ := disconnect_off hr (guard g).join
      refine ⟨⟨w', conn, update (update guard g (some (guard h).join)) h (some none)⟩, by simp only [Stmt.run, held g hok.1, held h hok.2, if_neg hgh, guardMoveAssign, h1, ok_bind, pure_ok], h2, ?_, ?_, ?_, ?_⟩
      · simp only [Stmt.spec, if_neg hgh]; exact h3
      · simp only [Stmt.spec, if_neg hgh]
      · simp only [Stmt.spec, if_neg hgh]
        funext x
        simp only [update, VAbs.names]
        by_cases hx : x = h
        · subst hx; simp [Ne.symm hgh]
        · simp [hx]
      · intro id hid
        simp only [Stmt.spec, if_neg hgh, Abs.off_next] at hid ⊢
        exact hold id hid
  | peek c g => exact ⟨⟨w, update conn c (guard g).join, guard⟩, by simp only [Stmt.run, held g hok, ok_bind, pure_ok], rfl, hr, rfl, rfl, hold⟩
  | take c g => exact ⟨⟨w, update conn c (guard g).join, update guard g (some none)⟩, by simp only [Stmt.run, held g hok, ok_bind, pure_ok], rfl, hr, rfl, rfl, fun id hid => hold id (List.mem_of_mem_filter hid)⟩
  | put g c => exact ⟨⟨w, conn, update guard g (some (conn c))⟩, by simp only [Stmt.run, held g hok, ok_bind, pure_ok], rfl, hr, rfl, rfl, fun id hid => hold id (List.mem_of_mem_filter hid)⟩
  | destroyGuard g =>
    obtain ⟨w', h1, h2, h3⟩ := disconnect_off hr (guard g).join
    exact ⟨⟨w', conn, update guard g none⟩, by simp only [Stmt.run, held g hok, guardDisconnect, h1, ok_bind, pure_ok], h2, h3, rfl, rfl, fun id hid => by simp only [Stmt.spec, Abs.off_next]; exact hold id hid⟩

theorem spec_nil (o : Stmt) (hne : o.NoEmission) (es : List Event) (A : VAbs) : o.spec es A = o.spec [] A := by
  cases o with
  | sig o =>
    cases o with
    | emit sc f s x => exact absurd rfl (hne.1 sc f s x)
    | emitX sc f s x => exact absurd rfl (hne.2 sc f s x)
    | _ => rfl
  | _ => rfl

theorem emission_or (o : Stmt) : o.NoEmission ∨ (∃ sc f s x, o = .sig (.emit sc f s x)) ∨ ∃ sc f s x, o = .sig (.emitX sc f s x) := by
  by_cases h1 : ∃ sc f s x, o = .sig (.emit sc f s x)
  · exact Or.inr (Or.inl h1)
  · by_cases h2 : ∃ sc f s x, o = .sig (.emitX sc f s x)
    · exact Or.inr (Or.inr h2)
    · exact Or.inl ⟨fun sc f s x e => h1 ⟨sc, f, s, x, e⟩, fun sc f s x e => h2 ⟨sc, f, s, x, e⟩⟩

/-- A statement about signals only, in a good state. -/
theorem VGood.sig {p p' : Vars} {A : VAbs} (h : VGood p A) {o : Op} (hok : o.ok A.abs) (hrun : (Stmt.sig o).run p = .ok p') :
    ∃ w', o.run p.w = .ok w' ∧ p' = ⟨w', p.conn, p.guard⟩ ∧ ∀ es, w'.trace = p.w.trace ++ es → Reached w' (o.spec es A.abs) := by
  cases hr : o.run p.w with
  | error e => simp only [Stmt.run, hr] at hrun; cases hrun
  | ok w' =>
    simp only [Stmt.run, hr, ok_bind, pure_ok, Except.ok.injEq] at hrun
    exact ⟨w', rfl, hrun.symm, fun es hes => Reached.step o es h.reached hok hr hes⟩

/-- Numbers of slots stay used. -/
theorem stays_next (a : Abs) (o : Op) (es : List Event) :
    a.next ≤ (o.spec es a).next := by
  have hmono : ∀ (es : List Event) (b : Abs), b.next ≤ (b.events es).next := by
    intro es
    induction es with
    | nil => intro b; exact Nat.le_refl _
    | cons e es ih => intro b; exact Nat.le_trans (next_event b e) (ih (b.event e))
  cases o with
  | connect s cb => exact Nat.le_succ _
  | emit sc f s x => exact hmono _ _
  | emitX sc f s x => exact hmono _ _
  | _ => exact Nat.le_refl _

theorem VReached.good {p : Vars} {A : VAbs} (h : VReached p A) : VGood p A := by
  induction h with
  | start => exact ⟨.empty, rfl, rfl, by simp [VAbs.start]⟩
  | @step p A p' o es _ hok hrun hes ih =>
    rcases emission_or o with hne | hem
    · obtain ⟨p1, h1, _, h3⟩ := ih.run hok hne
      rw [h1] at hrun
      cases hrun
      rw [spec_nil o hne]
      exact h3
    · obtain ⟨o', rfl⟩ : ∃ o', o = .sig o' := by rcases hem with ⟨_, _, _, _, rfl⟩ | ⟨_, _, _, _, rfl⟩ <;> exact ⟨_, rfl⟩
      obtain ⟨w', h1, rfl, h2⟩ := ih.sig hok.1 hrun
      refine ⟨h2 es hes, ih.conn, ih.guard, fun id hid => ?_⟩
      exact Nat.lt_of_lt_of_le (ih.old id hid) (stays_next A.abs o' es)

/-! ## What the statements do to the connected slots -/

theorem off_connected (a : Abs) (c : Option Nat) (id : Nat) : (a.off c).Connected id ↔ a.Connected id ∧ c ≠ some id := by
  cases c with
  | none => simp [Abs.off]
  | some i =>
    have : ∀ s, id ∈ (a.disconnect i).slots s ↔ id ∈ a.slots s ∧ id ≠ i := by
      intro s
      simp only [Abs.disconnect, Abs.slots]
      cases a.conn s <;> simp [Status.map]
    simp only [Abs.off, Abs.Connected, this]
    constructor
    · rintro ⟨s, h1, h2⟩; exact ⟨⟨s, h1⟩, by simpa using fun e => h2 e.symm⟩
    · rintro ⟨⟨s, h1⟩, h2⟩; exact ⟨s, h1, fun e => h2 (by rw [e])⟩

theorem connect_connected (a : Abs) (s cb id : Nat) : (a.connect s cb).Connected id ↔ a.Connected id ∨ id = a.next := by
  have : ∀ t, id ∈ (a.connect s cb).slots t ↔ id ∈ a.slots t ∨ (t = s ∧ id = a.next) := by
    intro t
    by_cases hts : t = s
    · subst hts; simp [Abs.connect, Abs.slots]
    · simp [Abs.connect, Abs.slots, update_ne _ _ hts, hts]
  simp only [Abs.Connected, this]
  constructor
  · rintro ⟨t, h | ⟨_, h⟩⟩
    · exact Or.inl ⟨t, h⟩
    · exact Or.inr h
  · rintro (⟨t, h⟩ | h)
    · exact ⟨t, Or.inl h⟩
    · exact ⟨s, Or.inr ⟨rfl, h⟩⟩

/-- Signal `s` has no slots any more, the others are as they were. -/
theorem emptied_connected {a a' : Abs} {s : Nat} (huniq : ∀ id t u, id ∈ a.slots t → id ∈ a.slots u → t = u) (hs : a'.slots s = []) (ho : ∀ t, t ≠ s → a'.slots t = a.slots t)
    (id : Nat) : a'.Connected id ↔ a.Connected id ∧ id ∉ a.slots s := by
  constructor
  · rintro ⟨t, ht⟩
    by_cases hts : t = s
    · subst hts; rw [hs] at ht; simp at ht
    · rw [ho t hts] at ht
      exact ⟨⟨t, ht⟩, fun hm => hts (huniq id t s ht hm)⟩
  · rintro ⟨⟨t, ht⟩, hn⟩
    have hts : t ≠ s := fun e => hn (e ▸ ht)
    exact ⟨t, by rw [ho t hts]; exact ht⟩

/-- The slots of `s` are replaced by those of `t`, which has none any more. -/
theorem move_connected {a : Abs} {s t : Nat} (hst : s ≠ t) (huniq : ∀ id t u, id ∈ a.slots t → id ∈ a.slots u → t = u)
    (id : Nat) : (a.move s t).Connected id ↔ a.Connected id ∧ id ∉ a.slots s := by
  have h1 : (a.move s t).slots s = a.slots t := by simp [Abs.move, Abs.slots, update_ne _ _ hst]
  have h2 : (a.move s t).slots t = [] := by
    have : (a.move s t).conn t = .hollow ∨ (a.move s t).conn t = .live [] := by
      by_cases hg : a.grown t = false ∧ a.slots t ≠ []
      · exact Or.inl (by simp only [Abs.move, update_same]; rw [if_pos hg])
      · exact Or.inr (by simp only [Abs.move, update_same]; rw [if_neg hg])
    rcases this with e | e <;> simp only [Abs.slots] <;> rw [e]
  have h3 : ∀ u, u ≠ s → u ≠ t → (a.move s t).slots u = a.slots u := by
    intro u hu hu'; simp [Abs.move, Abs.slots, update_ne _ _ hu, update_ne _ _ hu']
  constructor
  · rintro ⟨u, hu⟩
    by_cases hus : u = s
    · subst hus; rw [h1] at hu; exact ⟨⟨t, hu⟩, fun hm => hst (huniq id _ _ hm hu)⟩
    · by_cases hut : u = t
      · subst hut; rw [h2] at hu; simp at hu
      · rw [h3 u hus hut] at hu; exact ⟨⟨u, hu⟩, fun hm => hus (huniq id _ _ hu hm)⟩
  · rintro ⟨⟨u, hu⟩, hn⟩
    by_cases hut : u = t
    · subst hut; exact ⟨s, by rw [h1]; exact hu⟩
    · have hus : u ≠ s := fun e => hn (e ▸ hu)
      exact ⟨u, by rw [h3 u hus hut]; exact hu⟩

/-! ## C129 -/

/-- After any history of statements, each allowed statement has an ordinary outcome (an emission may run forever), and leads to a state that the specification describes. -/
theorem C129_defined {p : Vars} {A : VAbs} (h : VReached p A) {o : Stmt} (hok : o.ok A) :
    (∃ p' es, o.run p = .ok p' ∧ p'.w.trace = p.w.trace ++ es ∧ VReached p' (o.spec es A)) ∨ (¬ o.NoEmission ∧ o.run p = .error .diverge) := by
  rcases emission_or o with hne | hem
  · obtain ⟨p', h1, h2, _⟩ := h.good.run hok hne
    exact Or.inl ⟨p', [], h1, by simp [h2], .step o [] h hok h1 (by simp [h2])⟩
  · have hno : ¬ o.NoEmission := by
      rintro ⟨k1, k2⟩
      rcases hem with ⟨sc, f, s, x, e⟩ | ⟨sc, f, s, x, e⟩
      · exact k1 _ _ _ _ e
      · exact k2 _ _ _ _ e
    rcases hem with ⟨sc, f, s, x, rfl⟩ | ⟨sc, f, s, x, rfl⟩
    · rcases emit_good sc f x (reached_rel h.good.reached) hok.1.1 hok.1.2 with e | ⟨w1, es1, h1, h2, _⟩
      · exact Or.inr ⟨hno, by simp only [Stmt.run, Op.run, e]; rfl⟩
      · have hr : (Stmt.sig (.emit sc f s x)).run p = .ok ⟨w1, p.conn, p.guard⟩ := by simp only [Stmt.run, Op.run, h1, ok_bind, pure_ok]
        exact Or.inl ⟨_, es1, hr, h2, .step _ es1 h hok hr h2⟩
    · rcases emitX_good sc f x (reached_rel h.good.reached) hok.1.1 hok.1.2 with e | ⟨w1, b, es1, h1, h2, _⟩
      · exact Or.inr ⟨hno, by simp only [Stmt.run, Op.run, e]; rfl⟩
      · have hr : (Stmt.sig (.emitX sc f s x)).run p = .ok ⟨w1, p.conn, p.guard⟩ := by simp only [Stmt.run, Op.run, h1, ok_bind, pure_ok]
        exact Or.inl ⟨_, es1, hr, h2, .step _ es1 h hok hr h2⟩

/-- A connection, or an existing guard, says that it is connected exactly if the slot it names is connected. -/
theorem C129_isConnected {p : Vars} {A : VAbs} (h : VReached p A) :
    (∀ c, isConnected (p.conn c) p.w = true ↔ ∃ id, A.conn c = some id ∧ A.abs.Connected id) ∧
    ∀ g, (p.guard g = none ↔ A.guard g = none) ∧ ∀ x, p.guard g = some x → (isConnected x p.w = true ↔ ∃ id, A.guard g = some (some id) ∧ A.abs.Connected id) := by
  have hg := h.good
  refine ⟨fun c => ?_, fun g => ⟨by rw [hg.guard], fun x hx => ?_⟩⟩
  · rw [hg.conn]
    cases A.conn c with
    | none => simp [isConnected]
    | some id => rw [← (reached_rel hg.reached).connected]; simp
  · rw [hg.guard] at hx
    rw [hx]
    cases x with
    | none => simp [isConnected]
    | some id => rw [← (reached_rel hg.reached).connected]; simp

/-- A statement other than an emission disconnects exactly the slots that it ends (`Stmt.Ends`), and connects one exactly if it is a `Connect`: any number of connections and guards may name a slot,
and may be copied, moved, overwritten and destroyed. -/
theorem C129_connected {p p' : Vars} {A : VAbs} (h : VReached p A) {o : Stmt} (hok : o.ok A) (hne : o.NoEmission) (hrun : o.run p = .ok p') (id : Nat) :
    isConnected (some id) p'.w = true ↔ (isConnected (some id) p.w = true ∧ ¬ o.Ends A id) ∨ (o.Begins ∧ id = A.abs.next) := by
  obtain ⟨p1, h1, _, hg'⟩ := h.good.run hok hne
  rw [h1] at hrun
  cases hrun
  have hr := h.good.reached
  rw [← (reached_rel hr).connected, ← (reached_rel hg'.reached).connected]
  have huniq : ∀ id t u, id ∈ A.abs.slots t → id ∈ A.abs.slots u → t = u := fun _ _ _ ht hu => C40_one_signal hr ht hu
  have names : ∀ g, A.guard g ≠ none → (A.names g ≠ some id ↔ ¬ A.guard g = some (some id)) := by
    intro g hg
    cases hc : A.guard g with
    | none => exact absurd hc hg
    | some x => simp [VAbs.names, hc]
  cases o with
  | sig o =>
    have ho := hok.1
    cases o with
    | create s =>
      have hs : A.abs.slots s = [] := by simp [Abs.slots, show A.abs.conn s = .absent from ho]
      have := emptied_connected (a := A.abs) (a' := A.abs.create s) (s := s) huniq (by simp [Abs.create, Abs.slots]) (fun t ht => by simp [Abs.create, Abs.slots, update_ne _ _ ht]) id
      simpa [Stmt.spec, Op.spec, Stmt.Ends, Stmt.Begins, hs] using this
    | destroy s =>
      have := emptied_connected (a := A.abs) (a' := A.abs.destroy s) (s := s) huniq (by simp [Abs.destroy, Abs.slots]) (fun t ht => by simp [Abs.destroy, Abs.slots, update_ne _ _ ht]) id
      simpa [Stmt.spec, Op.spec, Stmt.Ends, Stmt.Begins] using this
    | connect s cb => simpa [Stmt.spec, Op.spec, Stmt.Ends, Stmt.Begins] using connect_connected A.abs s cb id
    | disconnect i => exact absurd rfl (hok.2 i)
    | clear s =>
      have := emptied_connected (a := A.abs) (a' := A.abs.clear s) (s := s) huniq (by simp [Abs.clear, Abs.slots]) (fun t ht => by simp [Abs.clear, Abs.slots, update_ne _ _ ht]) id
      simpa [Stmt.spec, Op.spec, Stmt.Ends, Stmt.Begins] using this
    | emit sc f s x => exact absurd rfl (hne.1 sc f s x)
    | emitX sc f s x => exact absurd rfl (hne.2 sc f s x)
    | moveConstruct s t =>
      have hs : A.abs.slots s = [] := by simp [Abs.slots, show A.abs.conn s = .absent from ho.1]
      have hst : s ≠ t := by
        rintro rfl
        obtain ⟨l, hl⟩ := ho.2
        rw [ho.1] at hl; cases hl
      have hsl : ∀ t, (A.abs.create s).slots t = A.abs.slots t := by
        intro t
        by_cases hts : t = s
        · subst hts; rw [hs]; simp [Abs.create, Abs.slots]
        · simp [Abs.create, Abs.slots, update_ne _ _ hts]
      have := move_connected (a := A.abs.create s) hst (by simpa only [hsl] using huniq) id
      simpa [Stmt.spec, Op.spec, Stmt.Ends, Stmt.Begins, hsl, hs, Abs.Connected] using this
    | moveAssign s t => simpa [Stmt.spec, Op.spec, Stmt.Ends, Stmt.Begins] using move_connected (a := A.abs) ho.1 huniq id
  | copySignal s t =>
    have hs : A.abs.slots s = [] := by simp [Abs.slots, show A.abs.conn s = .absent from hok.1]
    have := emptied_connected (a := A.abs) (a' := A.abs.create s) (s := s) huniq (by simp [Abs.create, Abs.slots]) (fun t ht => by simp [Abs.create, Abs.slots, update_ne _ _ ht]) id
    simpa [Stmt.spec, Stmt.Ends, Stmt.Begins, hs] using this
  | connect c s cb => simpa [Stmt.spec, Stmt.Ends, Stmt.Begins] using connect_connected A.abs s cb id
  | disconnect c => simpa [Stmt.spec, Stmt.Ends, Stmt.Begins] using off_connected A.abs (A.conn c) id
  | guardConnect g s cb =>
    simp only [Stmt.spec, Stmt.Ends, Stmt.Begins, connect_connected, off_connected, names g hok.1, Abs.off_next, true_and]
  | guardDisconnect g => simp only [Stmt.spec, Stmt.Ends, Stmt.Begins, off_connected, names g hok, false_and, or_false]
  | guardAssign g c => simp only [Stmt.spec, Stmt.Ends, Stmt.Begins, off_connected, names g hok, false_and, or_false]
  | destroyGuard g => simp only [Stmt.spec, Stmt.Ends, Stmt.Begins, off_connected, names g hok, false_and, or_false]
  | guardMove g h' =>
    by_cases hgh : g = h'
    · simp [Stmt.spec, Stmt.Ends, Stmt.Begins, hgh]
    · simp only [Stmt.spec, Stmt.Ends, Stmt.Begins, if_neg hgh, off_connected, names g hok.1, false_and, or_false, show (g ≠ h') = True from eq_true hgh, true_and]
  | assignSignal s t => simp [Stmt.spec, Stmt.Ends, Stmt.Begins]
  | copyConn c d => simp [Stmt.spec, Stmt.Ends, Stmt.Begins]
  | moveConn c d => simp [Stmt.spec, Stmt.Ends, Stmt.Begins]
  | newGuard g => simp [Stmt.spec, Stmt.Ends, Stmt.Begins]
  | guardOf g c => simp [Stmt.spec, Stmt.Ends, Stmt.Begins]
  | guardOfMoved g c => simp [Stmt.spec, Stmt.Ends, Stmt.Begins]
  | guardFrom g c => simp [Stmt.spec, Stmt.Ends, Stmt.Begins]
  | peek c g => simp [Stmt.spec, Stmt.Ends, Stmt.Begins]
  | take c g => simp [Stmt.spec, Stmt.Ends, Stmt.Begins]
  | put g c => simp [Stmt.spec, Stmt.Ends, Stmt.Begins]

/-- A slot that is not connected, of a number that was used, stays so. -/
theorem stays_off {p p' : Vars} {A : VAbs} (h : VReached p A) {o : Stmt} {es : List Event} (hok : o.ok A) (hrun : o.run p = .ok p') (hes : p'.w.trace = p.w.trace ++ es)
    {id : Nat} (hid : id < A.abs.next) (hon : isConnected (some id) p'.w = true) : isConnected (some id) p.w = true := by
  rcases emission_or o with hne | hem
  · rcases (C129_connected h hok hne hrun id).mp hon with ⟨h1, _⟩ | ⟨_, e⟩
    · exact h1
    · omega
  · obtain ⟨o', rfl⟩ : ∃ o', o = .sig o' := by rcases hem with ⟨_, _, _, _, rfl⟩ | ⟨_, _, _, _, rfl⟩ <;> exact ⟨_, rfl⟩
    obtain ⟨w', h1, rfl, _⟩ := h.good.sig hok.1 hrun
    by_contra hoff
    rw [Bool.not_eq_true] at hoff
    have := (C41_stays_disconnected h.good.reached hid hoff o' es hok.1 h1 hes rfl).1
    simp only at hon
    rw [this] at hon; cases hon

/-- No slot outlives its guards: a slot connected by `ConnectionGuard::Connect`, whose connection the program did not take out of the guard, is connected only as long as some guard names it.
In particular it is never called again once all guards are gone. -/
theorem C129_no_leak {p : Vars} {A : VAbs} (h : VReached p A) {id : Nat} (hid : id ∈ A.owned) (hon : isConnected (some id) p.w = true) : ∃ g, p.guard g = some (some id) := by
  induction h with
  | start => simp [VAbs.start] at hid
  | @step p A p' o es h hok hrun hes ih =>
    have hg := (VReached.step o es h hok hrun hes).good
    rw [hg.guard]
    have main : id ∈ A.owned → (∀ g, A.guard g = some (some id) → (o.spec es A).guard g = some (some id) ∨ (∃ g', (o.spec es A).guard g' = some (some id)) ∨ (o.NoEmission ∧ o.Ends A id)) →
        ∃ g, (o.spec es A).guard g = some (some id) := by
      intro hold hstep
      have hlt := h.good.old id hold
      obtain ⟨g, hgd⟩ := ih hold (stays_off h hok hrun hes hlt hon)
      rw [h.good.guard] at hgd
      rcases hstep g hgd with e | e | ⟨hne, hend⟩
      · exact ⟨g, e⟩
      · exact e
      · rcases (C129_connected h hok hne hrun id).mp hon with ⟨_, hn⟩ | ⟨_, e⟩
        · exact absurd hend hn
        · omega
    have fresh : ∀ (g : Nat) (x : Option (Option Nat)), A.guard g = none → (o.spec es A).guard = update A.guard g x → ∀ g', A.guard g' = some (some id) → (o.spec es A).guard g' = some (some id) := by
      intro g x hn e g' hg'
      have : g' ≠ g := by rintro rfl; rw [hn] at hg'; cases hg'
      rw [e, update_ne _ _ this]; exact hg'
    cases o with
    | sig o => exact main hid (fun g hg => Or.inl hg)
    | copySignal s t => exact main hid (fun g hg => Or.inl hg)
    | assignSignal s t => exact main hid (fun g hg => Or.inl hg)
    | connect c s cb => exact main hid (fun g hg => Or.inl hg)
    | copyConn c d => exact main hid (fun g hg => Or.inl hg)
    | moveConn c d => exact main hid (fun g hg => Or.inl hg)
    | disconnect c => exact main hid (fun g hg => Or.inl hg)
    | newGuard g => exact main hid (fun g' hg' => Or.inl (fresh g _ hok rfl g' hg'))
    | guardOf g c => exact main hid (fun g' hg' => Or.inl (fresh g _ hok rfl g' hg'))
    | guardOfMoved g c => exact main hid (fun g' hg' => Or.inl (fresh g _ hok rfl g' hg'))
    | guardFrom g h' =>
      refine main hid (fun g' hg' => ?_)
      simp only [Stmt.spec]
      by_cases hgh : g' = h'
      · subst hgh; exact Or.inr (Or.inl ⟨g, by simp [VAbs.names, hg']⟩)
      · have : g' ≠ g := by rintro rfl; rw [hok.1] at hg'; cases hg'
        exact Or.inl (by simp [this, hgh, hg'])
    | guardConnect g s cb =>
      simp only [Stmt.spec, List.mem_cons] at hid
      rcases hid with rfl | hid
      · exact ⟨g, by simp [Stmt.spec]⟩
      · refine main hid (fun g' hg' => ?_)
        by_cases hgg : g' = g
        · subst hgg; exact Or.inr (Or.inr ⟨⟨by simp, by simp⟩, hg'⟩)
        · exact Or.inl (by simp [Stmt.spec, update_ne _ _ hgg, hg'])
    | guardDisconnect g => exact main hid (fun g hg => Or.inl hg)
    | guardAssign g c =>
      refine main hid (fun g' hg' => ?_)
      by_cases hgg : g' = g
      · subst hgg; exact Or.inr (Or.inr ⟨⟨by simp, by simp⟩, hg'⟩)
      · exact Or.inl (by simp [Stmt.spec, update_ne _ _ hgg, hg'])
    | guardMove g h' =>
      by_cases hgh : g = h'
      · have e : (Stmt.guardMove g h').spec es A = A := by simp [Stmt.spec, hgh]
        rw [e] at hid
        exact main hid (fun g' hg' => Or.inl (by rw [e]; exact hg'))
      · have hid' : id ∈ A.owned := by simpa [Stmt.spec, if_neg hgh] using hid
        refine main hid' (fun g' hg' => ?_)
        by_cases h1 : g' = g
        · subst h1; exact Or.inr (Or.inr ⟨⟨by simp, by simp⟩, ⟨hgh, hg'⟩⟩)
        · by_cases h2 : g' = h'
          · subst h2; exact Or.inr (Or.inl ⟨g, by simp [Stmt.spec, if_neg hgh, VAbs.names, hg']⟩)
          · exact Or.inl (by simp [Stmt.spec, if_neg hgh, h1, h2, hg'])
    | peek c g => exact main hid (fun g hg => Or.inl hg)
    | take c g =>
      obtain ⟨hid', hnot⟩ := List.mem_filter.mp (show id ∈ A.owned.filter (fun i => some i ≠ A.names g) from hid)
      refine main hid' (fun g' hg' => ?_)
      have : g' ≠ g := by rintro rfl; simp [VAbs.names, hg'] at hnot
      exact Or.inl (by simp [Stmt.spec, update_ne _ _ this, hg'])
    | put g c =>
      obtain ⟨hid', hnot⟩ := List.mem_filter.mp (show id ∈ A.owned.filter (fun i => some i ≠ A.names g) from hid)
      refine main hid' (fun g' hg' => ?_)
      have : g' ≠ g := by rintro rfl; simp [VAbs.names, hg'] at hnot
      exact Or.inl (by simp [Stmt.spec, update_ne _ _ this, hg'])
    | destroyGuard g =>
      refine main hid (fun g' hg' => ?_)
      by_cases hgg : g' = g
      · subst hgg; exact Or.inr (Or.inr ⟨⟨by simp, by simp⟩, hg'⟩)
      · exact Or.inl (by simp [Stmt.spec, update_ne _ _ hgg, hg'])

/-- Copies of signals.  A copy-constructed signal has no slot; the source and all other signals keep theirs, in any state. -/
theorem C129_copy {p : Vars} {A : VAbs} (h : VReached p A) {s t : Nat} (hs : A.abs.conn s = .absent) (ht : A.abs.conn t ≠ .absent) :
    ∃ p', (Stmt.copySignal s t).run p = .ok p' ∧ p'.conn = p.conn ∧ p'.guard = p.guard ∧ (∀ id, isConnected (some id) p'.w = isConnected (some id) p.w) ∧
      EmissionCalls p'.w s [] A.abs.cb ∧ ∀ u l, A.abs.conn u = .live l → EmissionCalls p'.w u l A.abs.cb := by
  have hne : (Stmt.copySignal s t).NoEmission := ⟨by simp, by simp⟩
  obtain ⟨p', h1, _, h3⟩ := h.good.run (o := .copySignal s t) ⟨hs, ht⟩ hne
  refine ⟨p', h1, ?_, ?_, fun id => ?_, ?_, fun u l hu => ?_⟩
  · rw [h3.conn, h.good.conn]; rfl
  · rw [h3.guard, h.good.guard]; rfl
  · have := C129_connected h (o := .copySignal s t) ⟨hs, ht⟩ hne h1 id
    rw [Bool.eq_iff_iff, this]; simp [Stmt.Ends, Stmt.Begins]
  · exact emissionCalls (a := A.abs.create s) h3.reached (by simp [Abs.create])
  · have hus : u ≠ s := by rintro rfl; rw [hs] at hu; cases hu
    exact emissionCalls (a := A.abs.create s) h3.reached (by simp [Abs.create, update_ne _ _ hus, hu])

/-- Copy assignment of signals, also to itself, changes nothing at all: the target keeps its own slots. -/
theorem C129_assign {p : Vars} {A : VAbs} (h : VReached p A) {s t : Nat} (hs : A.abs.conn s ≠ .absent) (ht : A.abs.conn t ≠ .absent) :
    (Stmt.assignSignal s t).run p = .ok p ∧ ∀ u l, A.abs.conn u = .live l → EmissionCalls p.w u l A.abs.cb := by
  obtain ⟨g, hg⟩ := sig_there (reached_rel h.good.reached) hs
  obtain ⟨g', hg'⟩ := sig_there (reached_rel h.good.reached) ht
  exact ⟨by simp only [Stmt.run, assignSignal, hg, hg', ok_bind, pure_ok], fun u l hu => emissionCalls h.good.reached hu⟩

/-- Signals that have ended (or do not exist yet) can be neither copied nor assigned nor assigned to. -/
theorem C129_ended {p : Vars} {A : VAbs} (h : VReached p A) {s : Nat} (hs : A.abs.conn s = .absent) (t : Nat) :
    (Stmt.copySignal t s).run p = .error .ub ∧ (Stmt.assignSignal t s).run p = .error .ub ∧ (Stmt.assignSignal s t).run p = .error .ub := by
  have hn : p.w.sig s = .error .ub := by
    have := (reached_rel h.good.reached).sig s
    rw [hs] at this
    simp only [World.sig, show p.w.sigs s = none from this]
  have ht : ∀ u, p.w.sig u = .error .ub ∨ ∃ g, p.w.sig u = .ok g := by
    intro u
    unfold World.sig
    cases p.w.sigs u with
    | none => exact .inl rfl
    | some g => exact .inr ⟨g, rfl⟩
  refine ⟨?_, ?_, ?_⟩
  · simp only [Stmt.run, copySignal, hn]; rfl
  · rcases ht t with e | ⟨g, e⟩ <;> simp only [Stmt.run, assignSignal, hn, e] <;> rfl
  · simp only [Stmt.run, assignSignal, hn]; rfl

/-- The same for guards: one that has ended can be used in no way. -/
theorem C129_ended_guard {p : Vars} {A : VAbs} (h : VReached p A) {g : Nat} (hg : A.guard g = none) (o : Stmt)
    (ho : (∃ g', o = .guardFrom g' g) ∨ (∃ s cb, o = .guardConnect g s cb) ∨ o = .guardDisconnect g ∨ (∃ c, o = .guardAssign g c) ∨ (∃ g', o = .guardMove g g' ∨ o = .guardMove g' g) ∨
      (∃ c, o = .peek c g ∨ o = .take c g ∨ o = .put g c) ∨ o = .destroyGuard g) : o.run p = .error .ub := by
  have hn : p.held g = .error .ub := by simp only [Vars.held, h.good.guard, hg]
  rcases ho with ⟨g', rfl⟩ | ⟨s, cb, rfl⟩ | rfl | ⟨c, rfl⟩ | ⟨g', rfl | rfl⟩ | ⟨c, rfl | rfl | rfl⟩ | rfl
  case inr.inr.inr.inr.inl.inr =>
    cases hc : p.guard g' with
    | none => simp only [Stmt.run, Vars.held, hc]; rfl
    | some x =>
      have hx : p.held g' = .ok x := by simp only [Vars.held, hc]; rfl
      simp only [Stmt.run, hn, hx]; rfl
  all_goals (simp only [Stmt.run, hn]; rfl)

/-- Moving a connection: the target names the slot of the source, which names none; no slot is connected or disconnected.  A connection that is moved to itself forgets its slot, which stays
connected; a guard that is moved to itself keeps its slot. -/
theorem C129_move (p : Vars) (c d : Nat) :
    ∃ p', (Stmt.moveConn c d).run p = .ok p' ∧ p'.w = p.w ∧ p'.guard = p.guard ∧ isConnected (p'.conn d) p'.w = false ∧ (c ≠ d → p'.conn c = p.conn d) ∧
      (∀ e, e ≠ c → e ≠ d → p'.conn e = p.conn e) ∧ ∀ g, p.guard g ≠ none → (Stmt.guardMove g g).run p = .ok p := by
  refine ⟨_, rfl, rfl, rfl, ?_, ?_, ?_, ?_⟩
  · simp [moveConn, isConnected]
  · intro hcd; simp [moveConn, update, hcd]
  · intro e h1 h2; simp [moveConn, update, h1, h2]
  · intro g hg
    cases hc : p.guard g with
    | none => exact absurd hc hg
    | some x => simp [Stmt.run, Vars.held, hc]

/-! ## A program -/

theorem vstep {p : Vars} {A : VAbs} (h : VReached p A) {o : Stmt} (hok : o.ok A) (hne : o.NoEmission := by exact ⟨by simp, by simp⟩) :
    ∃ p', o.run p = .ok p' ∧ VReached p' (o.spec [] A) := by
  obtain ⟨p', h1, h2, _⟩ := h.good.run hok hne
  exact ⟨p', h1, .step o [] h hok h1 (by simp [h2])⟩

/-- Signal 7 has the slots 0 (connected by guard 0, which is moved to guard 1) and 1 (named by connection 5 and by guard 2); connection 3 is a copy of the one in guard 0, made before. -/
theorem vars_demo : ∃ p A, VReached p A ∧ A.abs.conn 7 = .live [0, 1] ∧ A.abs.conn 8 = .absent ∧ A.conn 3 = some 0 ∧ A.conn 5 = some 1 ∧ A.guard 0 = some none ∧
    A.guard 1 = some (some 0) ∧ A.guard 2 = some (some 1) ∧ A.owned = [0] ∧ A.abs.next = 2 := by
  obtain ⟨p1, _, h1⟩ := vstep .start (o := .sig (.create 7)) ⟨rfl, by simp⟩
  obtain ⟨p2, _, h2⟩ := vstep h1 (o := .newGuard 0) rfl
  obtain ⟨p3, _, h3⟩ := vstep h2 (o := .guardConnect 0 7 10) ⟨by simp [Stmt.spec], ⟨[], rfl⟩⟩
  obtain ⟨p4, _, h4⟩ := vstep h3 (o := .peek 3 0) (by simp [Stmt.ok, Stmt.spec])
  obtain ⟨p5, _, h5⟩ := vstep h4 (o := .guardFrom 1 0) ⟨rfl, by simp [Stmt.spec]⟩
  obtain ⟨p6, _, h6⟩ := vstep h5 (o := .connect 5 7 11) ⟨[0], rfl⟩
  obtain ⟨p7, _, h7⟩ := vstep h6 (o := .guardOf 2 5) rfl
  exact ⟨p7, _, h7, rfl, rfl, rfl, rfl, rfl, rfl, rfl, rfl, rfl⟩

/-- The destruction of guard 0 changes nothing; that of guard 1 disconnects slot 0, which connection 3 still names. -/
example : ∃ p A, VReached p A ∧ isConnected (p.conn 3) p.w = true ∧ ∃ p' p'', (Stmt.destroyGuard 0).run p = .ok p' ∧ isConnected (p'.conn 3) p'.w = true ∧
    (Stmt.destroyGuard 1).run p' = .ok p'' ∧ isConnected (p''.conn 3) p''.w = false ∧ isConnected (p''.conn 5) p''.w = true := by
  obtain ⟨p, A, h, h7, h8, c3, c5, g0, g1, g2, ho, hn⟩ := vars_demo
  have k0 : (Stmt.destroyGuard 0).ok A := by simp [Stmt.ok, g0]
  obtain ⟨p', r1, v1⟩ := vstep h k0
  have k1 : (Stmt.destroyGuard 1).ok ((Stmt.destroyGuard 0).spec [] A) := by simp [Stmt.ok, Stmt.spec, update, g1]
  obtain ⟨p'', r2, v2⟩ := vstep v1 k1
  have con : ∀ id, id ∈ [0, 1] → A.abs.Connected id := fun id hid => ⟨7, by simpa [Abs.slots, h7] using hid⟩
  have e1 : ((Stmt.destroyGuard 0).spec [] A).abs = A.abs := by simp [Stmt.spec, VAbs.names, g0, Abs.off]
  have e2 : ((Stmt.destroyGuard 1).spec [] ((Stmt.destroyGuard 0).spec [] A)).abs = A.abs.disconnect 0 := by simp [Stmt.spec, VAbs.names, g0, g1, update, Abs.off]
  refine ⟨p, A, h, ((C129_isConnected h).1 3).mpr ⟨0, c3, con 0 (by simp)⟩, p', p'', r1, ((C129_isConnected v1).1 3).mpr ⟨0, c3, by rw [e1]; exact con 0 (by simp)⟩, r2, ?_, ?_⟩
  · rw [← Bool.not_eq_true, (C129_isConnected v2).1 3]
    rintro ⟨id, hc, hid⟩
    have hc' : A.conn 3 = some id := hc
    rw [c3] at hc'; cases hc'
    rw [e2] at hid
    exact disconnect_gone A.abs 0 hid
  · refine ((C129_isConnected v2).1 5).mpr ⟨1, c5, ?_⟩
    rw [e2]
    exact (off_connected A.abs (some 0) 1).mpr ⟨con 1 (by simp), by simp⟩

/-- The hypotheses of `C129_copy`, `C129_assign` and `C129_no_leak` hold in this program. -/
example : ∃ p A, VReached p A ∧ A.abs.conn 8 = .absent ∧ A.abs.conn 7 ≠ .absent ∧ 0 ∈ A.owned ∧ isConnected (some 0) p.w = true ∧ ∃ g, p.guard g = some (some 0) := by
  obtain ⟨p, A, h, h7, h8, c3, c5, g0, g1, g2, ho, hn⟩ := vars_demo
  have hon : isConnected (some 0) p.w = true := (C40_isConnected h.good.reached 0).mpr ⟨7, _, h7, by simp⟩
  exact ⟨p, A, h, h8, by simp [h7], by simp [ho], hon, C129_no_leak h (by simp [ho]) hon⟩

/-- After the end of guard 1 every use of it is undefined, as is the assignment of a signal that does not exist. -/
example : ∃ p, (∃ A, VReached p A ∧ A.guard 1 = none ∧ A.guard 2 = some (some 1)) ∧ (Stmt.put 1 5).run p = .error .ub ∧ (Stmt.guardMove 2 1).run p = .error .ub ∧
    (Stmt.assignSignal 7 8).run p = .error .ub := by
  obtain ⟨p, A, h, h7, h8, c3, c5, g0, g1, g2, ho, hn⟩ := vars_demo
  obtain ⟨p', _, h'⟩ := vstep h (o := .destroyGuard 1) (by simp [Stmt.ok, g1])
  have hg : ((Stmt.destroyGuard 1).spec [] A).guard 1 = none := by simp [Stmt.spec]
  refine ⟨p', ⟨_, h', hg, by simp [Stmt.spec, update, g2]⟩, C129_ended_guard h' hg _ (by simp), C129_ended_guard h' hg _ (by simp), ?_⟩
  exact (C129_ended h' (s := 8) (by simp [Stmt.spec, VAbs.names, g1, Abs.off, Abs.disconnect, h8, Status.map]) 7).2.1

end Verif.Signal
