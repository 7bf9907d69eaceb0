import Verif.FixedVectorAlloc.Spec

/-!
# The calls, on the states that represent a sequence
-/

namespace Verif.FixedVectorAlloc
open Verif.Cpp Verif.FixedVector

variable {α : Type} {K : Cfg α} {L : Lib} {grant : Nat → Bool}

theorem lift_done {β : Type} {m : X (St α) β} {s s' : St α} {b : Buf} {t : Nat} {a : β} (h : m s = .done s' a) :
    lift m ⟨s, b, t⟩ = .done ⟨s', b, t⟩ a := by
  simp [lift, X.zoom, h]

theorem lift_bind {β γ : Type} (m : X (St α) β) (f : β → X (St α) γ) :
    lift (m >>= f) = (lift m >>= fun a => lift (f a) : X (HSt α) γ) := by
  funext h
  simp only [lift, X.zoom, X.bind_run]
  cases m h.st <;> rfl

theorem lift_pure {β : Type} (a : β) : lift (pure a : X (St α) β) = (pure a : X (HSt α) β) := rfl

theorem room_le {n : Nat} {s : St α} {b : Buf} {t : Nat} (h : n ≤ b.cap) : room L grant n ⟨s, b, t⟩ = .done ⟨s, b, t⟩ () := by
  simp [room, X.bind_run, h]

theorem room_gt {n : Nat} {s : St α} {b : Buf} {t : Nat} (h : b.cap < n) :
    room L grant n ⟨s, b, t⟩ = if grant t then .done ⟨s, ⟨L.grow b.cap n, t + 1⟩, t + 1⟩ () else .thrown ⟨s, b, t + 1⟩ := by
  simp [room, X.bind_run, Nat.not_le.mpr h, allocate]

theorem reserveFallback_le {n : Nat} {s : St α} {b : Buf} {t : Nat} (h : n ≤ b.cap) :
    reserveFallback L grant n ⟨s, b, t⟩ = .done ⟨s, b, t⟩ () := by
  simp [reserveFallback, X.bind_run, h]

theorem reserveFallback_gt {n : Nat} {s : St α} {b : Buf} {t : Nat} (h : b.cap < n) :
    reserveFallback L grant n ⟨s, b, t⟩ =
      if grant t then .done ⟨s, ⟨L.reserve b.cap n, t + 1⟩, t + 1⟩ () else .thrown ⟨s, b, t + 1⟩ := by
  simp [reserveFallback, X.bind_run, Nat.not_le.mpr h, allocate]

/-- The state of the elements in the loop of `MoveStorageToFallback`, after `k` iterations. -/
def halfway (K : Cfg α) (l : List α) (k : Nat) : St α :=
  ⟨⟨some l.length, Slots.mk K.capacity (fun p => if p < k then none else l[p]?), l.take k⟩, none⟩

theorem moveOne_halfway {l : List α} {k : Nat} (hl : l.length ≤ K.capacity) (hk : k < l.length) :
    FixedVector.moveOneToFallback K k (halfway K l k) = .done (halfway K l (k + 1)) () := by
  rw [FixedVector.moveOneToFallback, halfway]
  rw [X.bind_done (ofData_run (x := l[k]) (Slots.read_mk (by omega) (by simp [hk])))]
  simp only [getFallback, setFallback, X.bind_run, X.modify_run]
  rw [onData_run (Slots.assign_mk (u := l[k]) (K.mv l[k]) (by omega) (by simp [hk]))]
  simp only
  rw [onData_run (Slots.destroy_mk (v := K.mv l[k]) (by omega) (by simp [Slots.upd]))]
  rw [halfway]
  congr 3
  · apply Slots.mk_congr
    intro p hp
    simp only [Slots.upd]
    by_cases h : p = k
    · simp [h]
    · have : p < k ↔ p < k + 1 := by omega
      simp [h, this]
  · rw [List.take_succ_eq_append_getElem hk]

theorem halfway_zero (K : Cfg α) (l : List α) : halfway K l 0 = inl K l none := by simp [halfway, inl, Slots.ofList]

theorem halfway_end (K : Cfg α) (l : List α) : setSize none (halfway K l l.length) = .done (fb K l none) () := by
  simp only [setSize, X.modify_run, fb, halfway, List.take_length]
  congr 3
  apply Slots.mk_congr
  intro p hp
  simp only [List.getElem?_nil, ite_eq_left_iff, Nat.not_lt]
  intro h
  exact List.getElem?_eq_none h

theorem moveStorage_alloc {l : List α} {n : Nat} {b : Buf} {t : Nat} (hl : l.length ≤ K.capacity) (hn : l.length ≤ n) (hb : b.cap < n) :
    moveStorageToFallback K L grant n ⟨inl K l none, b, t⟩ =
      if grant t then .done ⟨fb K l none, ⟨L.reserve b.cap n, t + 1⟩, t + 1⟩ () else .thrown ⟨inl K l none, b, t + 1⟩ := by
  rw [moveStorageToFallback, X.bind_done (lift_done (using_inl _ _))]
  simp only [Bool.not_false, X.assert_true, X.pure_bind']
  cases hg : grant t with
  | false =>
    rw [X.bind_thrown (s' := ⟨inl K l none, b, t + 1⟩) (by rw [reserveFallback_gt hb, hg]; rfl)]
    rfl
  | true =>
    rw [X.bind_done (s' := ⟨inl K l none, ⟨L.reserve b.cap n, t + 1⟩, t + 1⟩) (a := ()) (by rw [reserveFallback_gt hb, hg]; rfl)]
    rw [X.bind_done (lift_done (mSize_inl _ _))]
    have hr := L.le_reserve b.cap n
    have := X.forUp_done (lo := 0) (n := l.length) (f := moveOneToFallback K L grant)
      (fun k => (⟨halfway K l k, ⟨L.reserve b.cap n, t + 1⟩, t + 1⟩ : HSt α)) (by
        intro k hk
        rw [Nat.zero_add, moveOneToFallback]
        rw [X.bind_done (lift_done (a := l.take k) (s' := halfway K l k) rfl)]
        rw [X.bind_done (room_le (by simp only [List.length_take]; omega))]
        exact lift_done (moveOne_halfway hl hk))
    rw [halfway_zero] at this
    rw [X.bind_done this, if_pos rfl]
    exact lift_done (halfway_end K l)

/-- The states of vectors in a program. -/
def HRepr (K : Cfg α) (u : Bool) (h : HSt α) (l : List α) : Prop :=
  ReprU K u h.st l none ∧ (u = false → h.buf = ⟨0, 0⟩) ∧ (u = true → l.length ≤ h.buf.cap) ∧ h.buf.id ≤ h.tries

/-- `capacity()`. -/
def capOf (K : Cfg α) (u : Bool) (h : HSt α) : Nat := if u then h.buf.cap else K.capacity

theorem uses_reprU {u : Bool} {s : St α} {l : List α} {fu : Option Nat} (h : ReprU K u s l fu) : s.vec.usesFallback K = u := by
  rcases h with ⟨rfl, rfl, _⟩ | ⟨rfl, rfl, hF⟩
  · exact usesFallback_inl _ _
  · exact usesFallback_fb hF _ _

theorem capacity_repr {u : Bool} {h : HSt α} {l : List α} (hr : HRepr K u h l) : capacity K h = .done h (capOf K u h) := by
  obtain ⟨s, b, t⟩ := h
  obtain ⟨r, _⟩ := hr
  rcases r with ⟨rfl, rfl, hl⟩ | ⟨rfl, rfl, hF⟩
  · rw [capacity, X.bind_done (lift_done (using_inl _ _))]; rfl
  · rw [capacity, X.bind_done (lift_done (using_fb hF _ _))]; rfl

theorem storage_repr {u : Bool} {h : HSt α} {l : List α} (hr : HRepr K u h l) :
    storage K h = if u then .buffer h.buf.id else .inline := by
  rw [storage, uses_reprU hr.1]

/-- What a call that may allocate does: it succeeds with the same buffer and without an allocation; or it allocates once and succeeds, or fails. -/
def Outcome (K : Cfg α) (grant : Nat → Bool) (u : Bool) (h : HSt α) (need : Nat) (l' : List α) {β : Type} (x : β) (r : Out (HSt α) β) : Prop :=
  (need ≤ capOf K u h → ∃ s', r = .done ⟨s', h.buf, h.tries⟩ x ∧ HRepr K u ⟨s', h.buf, h.tries⟩ l') ∧
  (capOf K u h < need →
    (grant h.tries = true → ∃ s' c, need ≤ c ∧ r = .done ⟨s', ⟨c, h.tries + 1⟩, h.tries + 1⟩ x ∧ HRepr K true ⟨s', ⟨c, h.tries + 1⟩, h.tries + 1⟩ l') ∧
    (grant h.tries = false → r = .thrown ⟨h.st, h.buf, h.tries + 1⟩))

theorem check_alloc {l : List α} {t : Nat} (hF : K.hasFallback = true) (hl : l.length ≤ K.capacity) (hc : K.capacity ≤ l.length) :
    checkFallbackOnGrow K L grant ⟨inl K l none, ⟨0, 0⟩, t⟩ =
      if grant t then .done ⟨fb K l none, ⟨L.reserve 0 (l.length + 1), t + 1⟩, t + 1⟩ true else .thrown ⟨inl K l none, ⟨0, 0⟩, t + 1⟩ := by
  unfold checkFallbackOnGrow
  simp only [hF, if_true]
  rw [X.bind_done (lift_done (using_inl _ _))]
  simp only [Bool.false_eq_true, if_false]
  rw [X.bind_done (lift_done (mSize_inl _ _))]
  simp only [ge_iff_le, hc, if_true]
  have := moveStorage_alloc (L := L) (grant := grant) (t := t) (b := ⟨0, 0⟩) hl (Nat.le_succ _) (Nat.succ_pos _)
  cases hg : grant t with
  | true => rw [hg, if_pos rfl] at this; rw [X.bind_done this]; rfl
  | false => rw [hg, if_neg (by simp)] at this; rw [X.bind_thrown this]; rfl

theorem check_inl {l : List α} {b : Buf} {t : Nat} (hl : l.length < K.capacity) :
    checkFallbackOnGrow K L grant ⟨inl K l none, b, t⟩ = .done ⟨inl K l none, b, t⟩ false := by
  unfold checkFallbackOnGrow
  cases hF : K.hasFallback with
  | false => simp
  | true =>
    simp only [if_true]
    rw [X.bind_done (lift_done (using_inl _ _))]
    simp only [Bool.false_eq_true, if_false]
    rw [X.bind_done (lift_done (mSize_inl _ _))]
    simp [Nat.not_le.mpr hl]

theorem check_fb {l : List α} {b : Buf} {t : Nat} (hF : K.hasFallback = true) :
    checkFallbackOnGrow K L grant ⟨fb K l none, b, t⟩ = .done ⟨fb K l none, b, t⟩ true := by
  unfold checkFallbackOnGrow
  simp only [hF, if_true]
  rw [X.bind_done (lift_done (using_fb hF _ _))]
  rfl

/-- `emplace` or `emplace_back` in the fallback. -/
theorem emplaceInFallback_out {l : List α} {b : Buf} {t i : Nat} {v : α} (hi : i ≤ l.length) :
    emplaceInFallback L grant i v ⟨fb K l none, b, t⟩ =
      if l.length + 1 ≤ b.cap then .done ⟨fb K (l.insertIdx i v) none, b, t⟩ ()
      else if grant t then .done ⟨fb K (l.insertIdx i v) none, ⟨L.grow b.cap (l.length + 1), t + 1⟩, t + 1⟩ ()
      else .thrown ⟨fb K l none, b, t + 1⟩ := by
  rw [emplaceInFallback, X.bind_done (lift_done (getFallback_fb _ _))]
  by_cases hb : l.length + 1 ≤ b.cap
  · rw [X.bind_done (room_le hb), if_pos hb]
    exact lift_done (emplaceInFallback_fb hi)
  · rw [if_neg hb, X.bind_run, room_gt (by omega)]
    cases hg : grant t with
    | true =>
      simp only [if_true]
      exact lift_done (emplaceInFallback_fb hi)
    | false => rfl

theorem emplaceBack_out {u : Bool} {h : HSt α} {l : List α} {v : α} (hr : HRepr K u h l) (hok : K.hasFallback = true ∨ l.length < K.capacity) :
    Outcome K grant u h (l.length + 1) (l ++ [v]) l.length (emplaceBack K L grant v h) := by
  obtain ⟨s, b, t⟩ := h
  obtain ⟨r, hb0, hcap, hid⟩ := hr
  rcases r with ⟨rfl, rfl, hl⟩ | ⟨rfl, rfl, hF⟩
  · have hb : b = ⟨0, 0⟩ := hb0 rfl
    subst hb
    by_cases hroom : l.length < K.capacity
    · refine ⟨fun _ => ⟨inl K (l ++ [v]) none, ?_, .inl ⟨rfl, rfl, by simp; omega⟩, fun _ => rfl, by simp, hid⟩,
        fun hc => absurd hc (by simp only [capOf, Bool.false_eq_true, if_false]; omega)⟩
      have e := lift_done (b := ⟨0, 0⟩) (t := t) (emplaceBack_inl (v := v) hroom)
      rw [← e, emplaceBack, X.bind_done (check_inl hroom), FixedVector.emplaceBack, lift_bind, X.bind_done (lift_done (check_room hroom))]
      simp only [Bool.false_eq_true, if_false]
      rw [lift_bind, X.bind_done (lift_done (mSize_inl _ _)), X.bind_done (lift_done (mSize_inl _ _))]
      simp only [hroom, decide_true, X.assert_true, X.pure_bind']
      simp only [lift_bind, lift_pure]
    · have hF : K.hasFallback = true := hok.resolve_right hroom
      refine ⟨fun hn => absurd hn (by simp only [capOf, Bool.false_eq_true, if_false]; omega), fun _ => ⟨fun hg => ?_, fun hg => ?_⟩⟩
      · have hres := L.le_reserve 0 (l.length + 1)
        refine ⟨fb K (l ++ [v]) none, L.reserve 0 (l.length + 1), hres, ?_, .inr ⟨rfl, rfl, hF⟩, by simp, fun _ => by simpa using hres,
          Nat.le_refl _⟩
        have hg' : grant t = true := hg
        rw [emplaceBack, X.bind_done (s' := ⟨fb K l none, ⟨L.reserve 0 (l.length + 1), t + 1⟩, t + 1⟩) (a := true)
          (by rw [check_alloc hF hl (by omega), hg']; rfl)]
        simp only [if_true]
        rw [X.bind_done (lift_done (getFallback_fb _ _)),
          X.bind_done (s' := ⟨fb K (l ++ [v]) none, ⟨L.reserve 0 (l.length + 1), t + 1⟩, t + 1⟩) (a := ())
            (by rw [emplaceInFallback_out (Nat.le_refl _), if_pos hres, List.insertIdx_length_self])]
        rfl
      · have hg' : grant t = false := hg
        rw [emplaceBack, X.bind_thrown (s' := ⟨inl K l none, ⟨0, 0⟩, t + 1⟩) (by rw [check_alloc hF hl (by omega), hg']; rfl)]
  · have key := emplaceInFallback_out (K := K) (L := L) (grant := grant) (b := b) (t := t) (v := v) (Nat.le_refl l.length)
    rw [List.insertIdx_length_self] at key
    have e0 : emplaceBack K L grant v ⟨fb K l none, b, t⟩ = (emplaceInFallback L grant l.length v >>= fun _ => pure l.length) ⟨fb K l none, b, t⟩ := by
      rw [emplaceBack, X.bind_done (check_fb hF)]
      simp only [if_true]
      rw [X.bind_done (lift_done (getFallback_fb _ _))]
    rw [e0]
    refine ⟨fun hn => ?_, fun hn => ⟨fun hg => ?_, fun hg => ?_⟩⟩
    · simp only [capOf, if_true] at hn
      rw [if_pos hn] at key
      refine ⟨fb K (l ++ [v]) none, ?_, .inr ⟨rfl, rfl, hF⟩, by simp, fun _ => by simpa using hn, hid⟩
      rw [X.bind_done key]; rfl
    · simp only [capOf, if_true] at hn
      have hg' : grant t = true := hg
      rw [if_neg (by omega), if_pos hg'] at key
      have := L.le_grow b.cap (l.length + 1)
      refine ⟨fb K (l ++ [v]) none, _, this, ?_, .inr ⟨rfl, rfl, hF⟩, by simp, fun _ => by simpa using this, Nat.le_refl _⟩
      rw [X.bind_done key]; rfl
    · simp only [capOf, if_true] at hn
      have hg' : grant t = false := hg
      rw [if_neg (by omega), hg', if_neg (by simp)] at key
      rw [X.bind_thrown key]

theorem emplace_out {u : Bool} {h : HSt α} {l : List α} {v : α} {i : Nat} (hr : HRepr K u h l) (hi : i ≤ l.length)
    (hok : K.hasFallback = true ∨ l.length < K.capacity) :
    Outcome K grant u h (l.length + 1) (l.insertIdx i v) i (emplace K L grant i v h) := by
  have hlen : (l.insertIdx i v).length = l.length + 1 := List.length_insertIdx_of_le_length hi _
  obtain ⟨s, b, t⟩ := h
  obtain ⟨r, hb0, hcap, hid⟩ := hr
  rcases r with ⟨rfl, rfl, hl⟩ | ⟨rfl, rfl, hF⟩
  · have hb : b = ⟨0, 0⟩ := hb0 rfl
    subst hb
    by_cases hroom : l.length < K.capacity
    · refine ⟨fun _ => ⟨inl K (l.insertIdx i v) none, ?_, .inl ⟨rfl, rfl, by omega⟩, fun _ => rfl, by simp, hid⟩,
        fun hc => absurd hc (by simp only [capOf, Bool.false_eq_true, if_false]; omega)⟩
      have e := lift_done (b := ⟨0, 0⟩) (t := t) (emplace_inl (v := v) hi hroom)
      rw [← e, emplace, X.bind_done (lift_done (size_inl _ _)), FixedVector.emplace, lift_bind, X.bind_done (lift_done (size_inl _ _))]
      simp only [hi, decide_true, X.assert_true, X.pure_bind']
      rw [X.bind_done (check_inl hroom), lift_bind, X.bind_done (lift_done (check_room hroom))]
      simp only [Bool.false_eq_true, if_false]
      rw [lift_bind, X.bind_done (lift_done (mSize_inl _ _)), X.bind_done (lift_done (mSize_inl _ _))]
      simp only [hroom, decide_true, X.assert_true, X.pure_bind']
      have key : (lift (setSize (some (l.length + 1))) >>= fun _ => lift (construct i (.value v)) >>= fun _ => (pure i : X (HSt α) Nat)) =
          lift (setSize (some (l.length + 1)) >>= fun _ => construct i (.value v) >>= fun _ => pure i) := by
        simp only [lift_bind, lift_pure]
      split
      · rw [lift_bind, key]
      · exact congrFun key _
    · have hF : K.hasFallback = true := hok.resolve_right hroom
      have e0 : emplace K L grant i v ⟨inl K l none, ⟨0, 0⟩, t⟩ = (checkFallbackOnGrow K L grant >>= fun c =>
          if c = true then (emplaceInFallback L grant i v >>= fun _ => pure i) else (do
            let n ← lift mSize
            X.assert (n < K.capacity)
            if i < n then lift (emplaceShift K i n) else pure ()
            lift (setSize (some (n + 1)))
            lift (construct i (.value v))
            pure i)) ⟨inl K l none, ⟨0, 0⟩, t⟩ := by
        rw [emplace, X.bind_done (lift_done (size_inl _ _))]
        simp only [hi, decide_true, X.assert_true, X.pure_bind']
      rw [e0]
      refine ⟨fun hn => absurd hn (by simp only [capOf, Bool.false_eq_true, if_false]; omega), fun _ => ⟨fun hg => ?_, fun hg => ?_⟩⟩
      · have hres := L.le_reserve 0 (l.length + 1)
        refine ⟨fb K (l.insertIdx i v) none, L.reserve 0 (l.length + 1), hres, ?_, .inr ⟨rfl, rfl, hF⟩, by simp, fun _ => by rw [hlen]; exact hres,
          Nat.le_refl _⟩
        have hg' : grant t = true := hg
        rw [X.bind_done (s' := ⟨fb K l none, ⟨L.reserve 0 (l.length + 1), t + 1⟩, t + 1⟩) (a := true)
          (by rw [check_alloc hF hl (by omega), hg']; rfl)]
        simp only [if_true]
        rw [X.bind_done (s' := ⟨fb K (l.insertIdx i v) none, ⟨L.reserve 0 (l.length + 1), t + 1⟩, t + 1⟩) (a := ())
            (by rw [emplaceInFallback_out hi, if_pos hres])]
        rfl
      · have hg' : grant t = false := hg
        rw [X.bind_thrown (s' := ⟨inl K l none, ⟨0, 0⟩, t + 1⟩) (by rw [check_alloc hF hl (by omega), hg']; rfl)]
  · have key := emplaceInFallback_out (K := K) (L := L) (grant := grant) (b := b) (t := t) (v := v) hi
    have e0 : emplace K L grant i v ⟨fb K l none, b, t⟩ = (emplaceInFallback L grant i v >>= fun _ => pure i) ⟨fb K l none, b, t⟩ := by
      rw [emplace, X.bind_done (lift_done (size_fb hF _ _))]
      simp only [hi, decide_true, X.assert_true, X.pure_bind']
      rw [X.bind_done (check_fb hF)]
      simp only [if_true]
    rw [e0]
    refine ⟨fun hn => ?_, fun hn => ⟨fun hg => ?_, fun hg => ?_⟩⟩
    · simp only [capOf, if_true] at hn
      rw [if_pos hn] at key
      refine ⟨fb K (l.insertIdx i v) none, ?_, .inr ⟨rfl, rfl, hF⟩, by simp, fun _ => by rw [hlen]; exact hn, hid⟩
      rw [X.bind_done key]; rfl
    · simp only [capOf, if_true] at hn
      have hg' : grant t = true := hg
      rw [if_neg (by omega), if_pos hg'] at key
      have := L.le_grow b.cap (l.length + 1)
      refine ⟨fb K (l.insertIdx i v) none, _, this, ?_, .inr ⟨rfl, rfl, hF⟩, by simp, fun _ => by rw [hlen]; exact this, Nat.le_refl _⟩
      rw [X.bind_done key]; rfl
    · simp only [capOf, if_true] at hn
      have hg' : grant t = false := hg
      rw [if_neg (by omega), hg', if_neg (by simp)] at key
      rw [X.bind_thrown key]

theorem resizeFallback_out {l : List α} {b : Buf} {t n : Nat} {v : α} :
    resizeFallback L grant n v ⟨fb K l none, b, t⟩ =
      if n ≤ b.cap then .done ⟨fb K (l.take n ++ List.replicate (n - l.length) v) none, b, t⟩ ()
      else if grant t then .done ⟨fb K (l.take n ++ List.replicate (n - l.length) v) none, ⟨L.grow b.cap n, t + 1⟩, t + 1⟩ ()
      else .thrown ⟨fb K l none, b, t + 1⟩ := by
  rw [resizeFallback]
  by_cases hb : n ≤ b.cap
  · rw [X.bind_done (room_le hb), if_pos hb]
    exact lift_done resizeFallback_fb
  · rw [if_neg hb, X.bind_run, room_gt (by omega)]
    cases hg : grant t with
    | true =>
      simp only [if_true]
      exact lift_done resizeFallback_fb
    | false => rfl

theorem resize_out {u : Bool} {h : HSt α} {l : List α} {v : α} {n : Nat} (hr : HRepr K u h l) (hok : K.hasFallback = true ∨ n ≤ K.capacity) :
    Outcome K grant u h n (l.take n ++ List.replicate (n - l.length) v) () (resize K L grant n v h) := by
  have hlen : (l.take n ++ List.replicate (n - l.length) v).length = n := by simp; omega
  obtain ⟨s, b, t⟩ := h
  obtain ⟨r, hb0, hcap, hid⟩ := hr
  rcases r with ⟨rfl, rfl, hl⟩ | ⟨rfl, rfl, hF⟩
  · have hb : b = ⟨0, 0⟩ := hb0 rfl
    subst hb
    by_cases hn : n ≤ K.capacity
    · refine ⟨fun _ => ⟨inl K (l.take n ++ List.replicate (n - l.length) v) none, ?_, .inl ⟨rfl, rfl, by rw [hlen]; exact hn⟩, fun _ => rfl, by simp, hid⟩,
        fun hc => absurd hc (by simp only [capOf, Bool.false_eq_true, if_false]; omega)⟩
      have e := lift_done (b := ⟨0, 0⟩) (t := t) (resize_inl (v := v) hl hn)
      rw [← e, resize, X.bind_done (lift_done (using_inl _ _)), FixedVector.resize, lift_bind, X.bind_done (lift_done (using_inl _ _))]
      simp [Nat.not_lt.mpr hn]
    · have hF : K.hasFallback = true := hok.resolve_right hn
      have e0 : resize K L grant n v ⟨inl K l none, ⟨0, 0⟩, t⟩ =
          (moveStorageToFallback K L grant n >>= fun _ => resizeFallback L grant n v) ⟨inl K l none, ⟨0, 0⟩, t⟩ := by
        rw [resize, X.bind_done (lift_done (using_inl _ _))]
        have : n > K.capacity := by omega
        simp only [Bool.false_eq_true, if_false, hF, this, decide_true, Bool.and_true, if_true]
      have hms := moveStorage_alloc (L := L) (grant := grant) (t := t) (b := ⟨0, 0⟩) (n := n) hl (by omega) (by simp only; omega)
      rw [e0]
      refine ⟨fun hn => absurd hn (by simp only [capOf, Bool.false_eq_true, if_false]; omega), fun _ => ⟨fun hg => ?_, fun hg => ?_⟩⟩
      · have hres := L.le_reserve 0 n
        have hg' : grant t = true := hg
        rw [if_pos hg'] at hms
        refine ⟨fb K (l.take n ++ List.replicate (n - l.length) v) none, L.reserve 0 n, hres, ?_, .inr ⟨rfl, rfl, hF⟩, by simp,
          fun _ => by rw [hlen]; exact hres, Nat.le_refl _⟩
        rw [X.bind_done hms, resizeFallback_out, if_pos hres]
      · have hg' : grant t = false := hg
        rw [hg', if_neg (by simp)] at hms
        rw [X.bind_thrown hms]
  · have e0 : resize K L grant n v ⟨fb K l none, b, t⟩ = resizeFallback L grant n v ⟨fb K l none, b, t⟩ := by
      rw [resize, X.bind_done (lift_done (using_fb hF _ _))]
      simp only [if_true]
    rw [e0, resizeFallback_out]
    refine ⟨fun hn => ?_, fun hn => ⟨fun hg => ?_, fun hg => ?_⟩⟩
    · simp only [capOf, if_true] at hn
      rw [if_pos hn]
      exact ⟨fb K (l.take n ++ List.replicate (n - l.length) v) none, rfl, .inr ⟨rfl, rfl, hF⟩, by simp, fun _ => by rw [hlen]; exact hn, hid⟩
    · simp only [capOf, if_true] at hn
      have hg' : grant t = true := hg
      have := L.le_grow b.cap n
      rw [if_neg (by omega), if_pos hg']
      exact ⟨fb K (l.take n ++ List.replicate (n - l.length) v) none, _, this, rfl, .inr ⟨rfl, rfl, hF⟩, by simp,
        fun _ => by rw [hlen]; exact this, Nat.le_refl _⟩
    · simp only [capOf, if_true] at hn
      have hg' : grant t = false := hg
      rw [if_neg (by omega), hg', if_neg (by simp)]

theorem reserve_small {h : HSt α} {n : Nat} (hn : n ≤ K.capacity) : reserve K L grant n h = .done h () := by
  unfold reserve
  cases K.hasFallback <;> simp [hn]

theorem reserve_out {u : Bool} {h : HSt α} {l : List α} {n : Nat} (hr : HRepr K u h l) (hF : K.hasFallback = true) (hn : K.capacity < n) :
    Outcome K grant u h n l () (reserve K L grant n h) := by
  obtain ⟨s, b, t⟩ := h
  obtain ⟨r, hb0, hcap, hid⟩ := hr
  have hn' : ¬ n ≤ K.capacity := by omega
  rcases r with ⟨rfl, rfl, hl⟩ | ⟨rfl, rfl, _⟩
  · have hb : b = ⟨0, 0⟩ := hb0 rfl
    subst hb
    have e0 : reserve K L grant n ⟨inl K l none, ⟨0, 0⟩, t⟩ = moveStorageToFallback K L grant n ⟨inl K l none, ⟨0, 0⟩, t⟩ := by
      unfold reserve
      simp only [hF, if_true, hn', if_false]
      rw [X.bind_done (lift_done (using_inl _ _))]
      rfl
    have hms := moveStorage_alloc (L := L) (grant := grant) (t := t) (b := ⟨0, 0⟩) (n := n) hl (by omega) (by simp only; omega)
    rw [e0, hms]
    refine ⟨fun hn => absurd hn (by simp only [capOf, Bool.false_eq_true, if_false]; omega), fun _ => ⟨fun hg => ?_, fun hg => ?_⟩⟩
    · have hres := L.le_reserve 0 n
      have hg' : grant t = true := hg
      rw [if_pos hg']
      exact ⟨fb K l none, L.reserve 0 n, hres, rfl, .inr ⟨rfl, rfl, hF⟩, by simp, fun _ => by simp only; omega, Nat.le_refl _⟩
    · have hg' : grant t = false := hg
      rw [hg', if_neg (by simp)]
  · have e0 : reserve K L grant n ⟨fb K l none, b, t⟩ = reserveFallback L grant n ⟨fb K l none, b, t⟩ := by
      unfold reserve
      simp only [hF, if_true, hn', if_false]
      rw [X.bind_done (lift_done (using_fb hF _ _))]
      rfl
    rw [e0]
    refine ⟨fun hn => ?_, fun hn => ⟨fun hg => ?_, fun hg => ?_⟩⟩
    · simp only [capOf, if_true] at hn
      exact ⟨fb K l none, reserveFallback_le hn, .inr ⟨rfl, rfl, hF⟩, by simp, hcap, hid⟩
    · simp only [capOf, if_true] at hn
      have hg' : grant t = true := hg
      have := L.le_reserve b.cap n
      have hc := hcap rfl
      refine ⟨fb K l none, _, this, ?_, .inr ⟨rfl, rfl, hF⟩, by simp, fun _ => by simp only at hc ⊢; omega, Nat.le_refl _⟩
      rw [reserveFallback_gt hn, if_pos hg']
    · simp only [capOf, if_true] at hn
      have hg' : grant t = false := hg
      rw [reserveFallback_gt hn, hg', if_neg (by simp)]

/-- A call that does not make the vector longer. -/
theorem lift_out {u : Bool} {h : HSt α} {l l' : List α} {β : Type} {x : β} {m : X (St α) β} (hr : HRepr K u h l)
    (hm : ∃ s', m h.st = .done s' x ∧ ReprU K u s' l' none) (hlen : l'.length ≤ l.length) :
    Outcome K grant u h 0 l' x (lift m h) := by
  obtain ⟨s', e, r⟩ := hm
  obtain ⟨s, b, t⟩ := h
  refine ⟨fun _ => ⟨s', lift_done e, r, hr.2.1, fun hu => Nat.le_trans hlen (hr.2.2.1 hu), hr.2.2.2⟩, fun h => absurd h (Nat.not_lt_zero _)⟩

theorem Outcome.map {u : Bool} {h : HSt α} {n : Nat} {l' : List α} {β γ : Type} {x : β} {y : γ} {m : X (HSt α) β}
    (ho : Outcome K grant u h n l' x (m h)) (f : β → γ) (hy : f x = y) : Outcome K grant u h n l' y ((m >>= fun a => pure (f a)) h) := by
  refine ⟨fun hn => ?_, fun hn => ⟨fun hg => ?_, fun hg => ?_⟩⟩
  · obtain ⟨s', e, r⟩ := ho.1 hn
    exact ⟨s', by rw [X.bind_done e]; simp [hy], r⟩
  · obtain ⟨s', c, hc, e, r⟩ := (ho.2 hn).1 hg
    exact ⟨s', c, hc, by rw [X.bind_done e]; simp [hy], r⟩
  · rw [X.bind_thrown ((ho.2 hn).2 hg)]

/-- The need of a call, as the code sees it: `reserve` ignores requests up to the inline capacity. -/
def needs' (K : Cfg α) (o : Op α) (l : List α) : Nat :=
  match o with
  | .reserve n => if n ≤ K.capacity then 0 else n
  | o => needs o l

theorem run_out {u : Bool} {h : HSt α} {l : List α} (o : Op α) (hr : HRepr K u h l) (hok : o.ok K.capacity K.hasFallback l) :
    Outcome K grant u h (needs' K o l) (o.spec l).1 (o.spec l).2 (run K L grant o h) := by
  cases o with
  | pushBack v => exact (emplaceBack_out hr hok).map some rfl
  | emplace i v =>
    have := (emplace_out (L := L) (grant := grant) (v := v) hr hok.1 hok.2).map some rfl
    rw [insertIdx_eq hok.1] at this
    exact this
  | resize n v => exact (resize_out hr hok).map (fun _ => none) rfl
  | reserve n =>
    by_cases hn : n ≤ K.capacity
    · rw [show needs' K (.reserve n) l = 0 by simp [needs', hn]]
      refine ⟨fun _ => ⟨h.st, ?_, hr⟩, fun h => absurd h (Nat.not_lt_zero _)⟩
      simp only [run]
      rw [X.bind_done (reserve_small hn)]
      rfl
    · rw [show needs' K (.reserve n) l = n by simp [needs', hn]]
      exact (reserve_out hr (Or.resolve_right hok hn) (by omega)).map (fun _ => none) rfl
  | erase i =>
    obtain ⟨s', e, r⟩ := erase_reprU i hr.1 hok
    exact lift_out hr ⟨s', by simp only [Op.run]; rw [X.bind_done e]; rfl, r⟩ (by simp [Op.spec]; omega)
  | eraseRange f t =>
    obtain ⟨s', e, r⟩ := eraseRange_reprU f t hr.1 hok.1 hok.2
    have h1 := hok.1
    have h2 := hok.2
    exact lift_out hr ⟨s', by simp only [Op.run]; rw [X.bind_done e]; rfl, r⟩ (by simp [Op.spec]; omega)
  | popBack =>
    obtain ⟨s', e, r⟩ := popBack_reprU hr.1 hok
    exact lift_out hr ⟨s', by simp only [Op.run]; rw [X.bind_done e]; rfl, by simpa only [Op.spec, List.dropLast_eq_take] using r⟩ (by simp [Op.spec])
  | assignAt i v =>
    obtain ⟨s', e, r⟩ := assignAt_reprU i v hr.1 hok
    exact lift_out hr ⟨s', by simp only [Op.run]; rw [X.bind_done e]; rfl, r⟩ (by simp [Op.spec])
  | clear =>
    obtain ⟨s', e, r⟩ := clear_reprU hr.1
    exact lift_out hr ⟨s', by simp only [Op.run]; rw [X.bind_done e]; rfl, r⟩ (by simp [Op.spec])

end Verif.FixedVectorAlloc
