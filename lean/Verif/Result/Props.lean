import Verif.Result.Spec

/-!
# Properties C51 and C71 of `Result`
-/

namespace Verif.Result

variable {V E W : Type}

@[simp] theorem noexcept_ret {α : Type} (b : Bool) (a : α) : noexcept b (.ret a) = .ret a := rfl

theorem copy_quiet {T : Type} {ty : Ty T} {x : T} (h : ty.copyThrows x = none) : ty.copy x = .ret x := by simp [Ty.copy, h]
theorem move_quiet {T : Type} {ty : Ty T} {x : T} (h : ty.moveThrows x = none) : ty.move x = (ty.movedFrom x, .ret x) := by simp [Ty.move, h]

/-! ## Observers -/

/-- C51: a result that holds `x` answers as `x`: exactly one of `IsOk` and `IsErr`, `GetValue` and
`GetError` return what is held and throw otherwise, `Expect` throws its message on errors. -/
theorem C51_observers (r : Var V E) (x : Except E V) (h : content r = some x) :
    isErr r = !isOk r ∧
    (∀ v, x = .ok v → isOk r = true ∧ getValue r = .ret v ∧ getError r = .thrown .notAnError ∧
      (∀ m, expect r m = .ret ()) ∧ (∀ w, putValue r w = .ret (.value w))) ∧
    (∀ e, x = .error e → isErr r = true ∧ getError r = .ret e ∧ getValue r = .thrown .notAValue ∧
      (∀ m, expect r m = .thrown (.expect m)) ∧ (∀ w, putValue r w = .thrown .notAValue)) := by
  cases r with
  | value v => simp only [content, Option.some.injEq] at h; subst h; simp [isErr, isOk, Var.index, getValue, getError, ensureValue, ensureError, expect, putValue, Var.get0]
  | error e => simp only [content, Option.some.injEq] at h; subst h; simp [isErr, isOk, Var.index, getValue, getError, ensureValue, ensureError, expect, putValue, Var.get1]
  | valueless => simp [content] at h

/-- C51: the same for `Result<void, E>`, in all its states. -/
theorem C51_void_observers (r : Option E) :
    isErrV r = !isOkV r ∧
    (contentV r = .ok () → isOkV r = true ∧ getErrorV r = .thrown .notAnError ∧ ∀ m, expectV r m = .ret ()) ∧
    (∀ e, contentV r = .error e → isErrV r = true ∧ getErrorV r = .ret e ∧ ∀ m, expectV r m = .thrown (.expect m)) := by
  cases r <;> simp [isErrV, isOkV, getErrorV, ensureErrorV, expectV, contentV]

/-- C51: construction stores the value or the error; conversion converts what is held. -/
theorem C51_construct (tyV : Ty V) (tyE : Ty E) (hV : tyV.Quiet) (hE : tyE.Quiet) (cat : Cat) (v : V) (e : E) :
    (∃ r, (fromValue tyV cat v : V × Eff (Var V E)).2 = .ret r ∧ content r = some (.ok v)) ∧
    (∃ r, (fromError tyE cat e : E × Eff (Var V E)).2 = .ret r ∧ content r = some (.error e)) ∧
    (∃ r, (fromErrorV tyE cat e).2 = .ret r ∧ contentV r = .error e) := by
  refine ⟨⟨.value v, ?_, rfl⟩, ⟨.error e, ?_, rfl⟩, ⟨some e, ?_, rfl⟩⟩
  · cases cat <;> simp [fromValue, forward, copy_quiet (hV v).1, move_quiet (hV v).2]
  · cases cat <;> simp [fromError, forward, copy_quiet (hE e).1, move_quiet (hE e).2]
  · simp [fromErrorV, move_quiet (hE e).2]

theorem C51_convert {V2 E2 : Type} (cv : V2 → V) (ce : E2 → E) (r : Var V2 E2) (x : Except E2 V2) (h : content r = some x) :
    ∃ r', convert (fun v => .ret (cv v)) (fun e => .ret (ce e)) r = .ret r' ∧ content r' = some ((x.map cv).mapError ce) := by
  cases r with
  | value v =>
    simp only [content, Option.some.injEq] at h; subst h
    exact ⟨.value (cv v), by simp [convert, isOk, getValue, ensureValue, Var.index, Var.get0], by simp [content, Except.map, Except.mapError]⟩
  | error e =>
    simp only [content, Option.some.injEq] at h; subst h
    exact ⟨.error (ce e), by simp [convert, isOk, isErr, getError, ensureError, Var.index, Var.get1], by simp [content, Except.map, Except.mapError]⟩
  | valueless => simp [content] at h

theorem C51_void_convert {E2 : Type} (ce : E2 → E) (r : Option E2) :
    ∃ r', convertV (fun e => .ret (ce e)) r = .ret r' ∧ contentV r' = (contentV r).mapError ce := by
  cases r with
  | none => exact ⟨none, by simp [convertV, isOkV, isErrV], rfl⟩
  | some e => exact ⟨some (ce e), by simp [convertV, isOkV, isErrV, getErrorV, ensureErrorV], rfl⟩

/-- C51: `GetValueOr` gives the value held, else the default; the source of the `&&` form keeps its
kind and the state of a moved object. -/
theorem C51_getValueOr (tyV : Ty V) (hV : tyV.Quiet) (r : Var V E) (d : V) :
    getValueOr tyV r (.ret d) = .ret (match content r with | some (.ok v) => v | _ => d) ∧
    (getValueOrMove tyV r (.ret d)).2 = .ret (match content r with | some (.ok v) => v | _ => d) ∧
    content (getValueOrMove tyV r (.ret d)).1 = (content r).map (movedExcept tyV.movedFrom id) := by
  cases r with
  | value v => simp [getValueOr, getValueOrMove, isOk, Var.index, content, Var.get0, copy_quiet (hV v).1, move_quiet (hV v).2, movedExcept]
  | error e => simp [getValueOr, getValueOrMove, isOk, Var.index, content, movedExcept]
  | valueless => simp [getValueOr, getValueOrMove, isOk, Var.index, content]

/-! ## Map -/

/-- C51: `Map` runs the function on the value, exactly once and with all its effects, and holds its result; errors are handed on and the
function is not run; exceptions of the function leave `Map`. -/
theorem C51_map {S : Type} (tyW : Ty W) (tyE : Ty E) (hW : tyW.Quiet) (hE : tyE.Quiet) (f : Fn S V W) (hf : f.Wf)
    (r : Var V E) (x : Except E V) (h : content r = some x) (s : S) :
    (map tyW tyE f r s).1 = (specMap f.call x s).1 ∧ (map tyW tyE f r s).2.Stands (fun r' x' => content r' = some x') (specMap f.call x s).2 := by
  cases r with
  | value v =>
    simp only [content, Option.some.injEq] at h; subst h
    have hw := hf
    simp only [Fn.Wf] at hw
    rcases hc : f.call v s with ⟨s', y⟩
    cases y with
    | ret w => simp [map, noexceptAt, andThen, specMap, hc, isOk, getValue, ensureValue, Var.index, Var.get0, move_quiet (hW _).2, Eff.Stands, content]
    | terminate => simp [map, noexceptAt, andThen, specMap, hc, isOk, getValue, ensureValue, Var.index, Var.get0, Eff.Stands, noexcept]
    | thrown e =>
      cases hn : f.nothrow with
      | true => obtain ⟨b, hb⟩ := hw hn v s; rw [hc] at hb; simp at hb
      | false => simp [map, noexceptAt, andThen, specMap, hc, hn, isOk, getValue, ensureValue, Var.index, Var.get0, Eff.Stands, noexcept]
  | error e =>
    simp only [content, Option.some.injEq] at h; subst h
    simp [map, noexceptAt, specMap, isOk, isErr, getError, ensureError, Var.index, Var.get1, copy_quiet (hE e).1, Eff.Stands, content]
  | valueless => simp [content] at h

/-- C51: the `&&` form of `Map` gives the same; a value is left as the function leaves its argument, and an error is moved out of the source. -/
theorem C51_mapMove {S : Type} (tyW : Ty W) (tyE : Ty E) (hW : tyW.Quiet) (hE : tyE.Quiet) (f : FnMove S V W)
    (hf : f.nothrow = true → ∀ v s, ∃ w, (f.call v s).2.2 = .ret w) (r : Var V E) (x : Except E V) (h : content r = some x) (s : S) :
    (mapMove tyW tyE f r s).1 = (specMap (fun v s => ((f.call v s).1, (f.call v s).2.2)) x s).1 ∧
    (mapMove tyW tyE f r s).2.2.Stands (fun r' x' => content r' = some x') (specMap (fun v s => ((f.call v s).1, (f.call v s).2.2)) x s).2 ∧
    content (mapMove tyW tyE f r s).2.1 = some (movedExcept (fun v => (f.call v s).2.1) tyE.movedFrom x) := by
  cases r with
  | value v =>
    simp only [content, Option.some.injEq] at h; subst h
    rcases hc : f.call v s with ⟨s', v', y⟩
    cases y with
    | ret w => simp [mapMove, specMap, hc, isOk, getValue, ensureValue, Var.index, Var.get0, move_quiet (hW _).2, Eff.Stands, content, movedExcept]
    | terminate => simp [mapMove, specMap, hc, isOk, getValue, ensureValue, Var.index, Var.get0, Eff.Stands, noexcept, content, movedExcept]
    | thrown e =>
      cases hn : f.nothrow with
      | true => obtain ⟨b, hb⟩ := hf hn v s; rw [hc] at hb; simp at hb
      | false => simp [mapMove, specMap, hc, hn, isOk, getValue, ensureValue, Var.index, Var.get0, Eff.Stands, noexcept, content, movedExcept]
  | error e =>
    simp only [content, Option.some.injEq] at h; subst h
    simp [mapMove, specMap, isOk, isErr, getError, ensureError, Var.index, Var.get1, move_quiet (hE e).2, Eff.Stands, content, movedExcept]
  | valueless => simp [content] at h

/-- C51: `Map` with functions without result, and `Map` of `Result<void, E>`. -/
theorem C51_map_void {S : Type} (tyW : Ty W) (tyE : Ty E) (hW : tyW.Quiet) (hE : tyE.Quiet) (s : S) :
    (∀ f : Fn S V Unit, f.Wf → ∀ (r : Var V E) (x : Except E V), content r = some x →
      (mapVoid tyE f r s).1 = (specMap f.call x s).1 ∧ (mapVoid tyE f r s).2.Stands (fun r' x' => contentV r' = x') (specMap f.call x s).2) ∧
    (∀ f : Fn S Unit W, f.Wf → ∀ r : Option E,
      (mapV tyW tyE f r s).1 = (specMap f.call (contentV r) s).1 ∧
      (mapV tyW tyE f r s).2.Stands (fun r' x' => content r' = some x') (specMap f.call (contentV r) s).2) ∧
    (∀ f : Fn S Unit Unit, f.Wf → ∀ r : Option E,
      (mapVVoid tyE f r s).1 = (specMap f.call (contentV r) s).1 ∧
      (mapVVoid tyE f r s).2.Stands (fun r' x' => contentV r' = x') (specMap f.call (contentV r) s).2) := by
  refine ⟨?_, ?_, ?_⟩
  · intro f hf r x h
    cases r with
    | value v =>
      simp only [content, Option.some.injEq] at h; subst h
      rcases hc : f.call v s with ⟨s', y⟩
      cases y with
      | ret w => simp [mapVoid, noexceptAt, andThen, specMap, hc, isOk, getValue, ensureValue, Var.index, Var.get0, Eff.Stands, contentV]
      | terminate => simp [mapVoid, noexceptAt, andThen, specMap, hc, isOk, getValue, ensureValue, Var.index, Var.get0, Eff.Stands, noexcept]
      | thrown e =>
        cases hn : f.nothrow with
        | true => obtain ⟨b, hb⟩ := hf hn v s; rw [hc] at hb; simp at hb
        | false => simp [mapVoid, noexceptAt, andThen, specMap, hc, hn, isOk, getValue, ensureValue, Var.index, Var.get0, Eff.Stands, noexcept]
    | error e =>
      simp only [content, Option.some.injEq] at h; subst h
      simp [mapVoid, noexceptAt, specMap, isOk, isErr, getError, ensureError, Var.index, Var.get1, copy_quiet (hE e).1, Eff.Stands, contentV]
    | valueless => simp [content] at h
  · intro f hf r
    cases r with
    | none =>
      rcases hc : f.call () s with ⟨s', y⟩
      cases y with
      | ret w => simp [mapV, noexceptAt, andThen, specMap, hc, isOkV, isErrV, move_quiet (hW w).2, Eff.Stands, contentV, content]
      | terminate => simp [mapV, noexceptAt, andThen, specMap, hc, isOkV, isErrV, Eff.Stands, noexcept, contentV]
      | thrown e =>
        cases hn : f.nothrow with
        | true => obtain ⟨b, hb⟩ := hf hn () s; rw [hc] at hb; simp at hb
        | false => simp [mapV, noexceptAt, andThen, specMap, hc, hn, isOkV, isErrV, Eff.Stands, noexcept, contentV]
    | some e => simp [mapV, noexceptAt, specMap, isOkV, isErrV, getErrorV, ensureErrorV, copy_quiet (hE e).1, Eff.Stands, contentV, content]
  · intro f hf r
    cases r with
    | none =>
      rcases hc : f.call () s with ⟨s', y⟩
      cases y with
      | ret w => simp [mapVVoid, noexceptAt, andThen, specMap, hc, isOkV, isErrV, Eff.Stands, contentV]
      | terminate => simp [mapVVoid, noexceptAt, andThen, specMap, hc, isOkV, isErrV, Eff.Stands, noexcept, contentV]
      | thrown e =>
        cases hn : f.nothrow with
        | true => obtain ⟨b, hb⟩ := hf hn () s; rw [hc] at hb; simp at hb
        | false => simp [mapVVoid, noexceptAt, andThen, specMap, hc, hn, isOkV, isErrV, Eff.Stands, noexcept, contentV]
    | some e => simp [mapVVoid, noexceptAt, specMap, isOkV, isErrV, getErrorV, ensureErrorV, copy_quiet (hE e).1, Eff.Stands, contentV]

/-- C51: the `&&` forms of `Map` with `void`. -/
theorem C51_mapMove_void {S : Type} (tyW : Ty W) (tyE : Ty E) (hW : tyW.Quiet) (hE : tyE.Quiet) (s : S) :
    (∀ f : FnMove S V Unit, (f.nothrow = true → ∀ v s, ∃ w, (f.call v s).2.2 = .ret w) → ∀ (r : Var V E) (x : Except E V), content r = some x →
      (mapMoveVoid tyE f r s).1 = (specMap (fun v s => ((f.call v s).1, (f.call v s).2.2)) x s).1 ∧
      (mapMoveVoid tyE f r s).2.2.Stands (fun r' x' => contentV r' = x') (specMap (fun v s => ((f.call v s).1, (f.call v s).2.2)) x s).2 ∧
      content (mapMoveVoid tyE f r s).2.1 = some (movedExcept (fun v => (f.call v s).2.1) tyE.movedFrom x)) ∧
    (∀ f : Fn S Unit W, f.Wf → ∀ r : Option E,
      (mapVMove tyW tyE f r s).1 = (specMap f.call (contentV r) s).1 ∧
      (mapVMove tyW tyE f r s).2.2.Stands (fun r' x' => content r' = some x') (specMap f.call (contentV r) s).2 ∧
      (mapVMove tyW tyE f r s).2.1 = r.map tyE.movedFrom) ∧
    (∀ f : Fn S Unit Unit, f.Wf → ∀ r : Option E,
      (mapVMoveVoid tyE f r s).1 = (specMap f.call (contentV r) s).1 ∧
      (mapVMoveVoid tyE f r s).2.2.Stands (fun r' x' => contentV r' = x') (specMap f.call (contentV r) s).2 ∧
      (mapVMoveVoid tyE f r s).2.1 = r.map tyE.movedFrom) := by
  refine ⟨?_, ?_, ?_⟩
  · intro f hf r x h
    cases r with
    | value v =>
      simp only [content, Option.some.injEq] at h; subst h
      rcases hc : f.call v s with ⟨s', v', y⟩
      cases y with
      | ret w => simp [mapMoveVoid, specMap, hc, isOk, getValue, ensureValue, Var.index, Var.get0, Eff.Stands, content, contentV, movedExcept]
      | terminate => simp [mapMoveVoid, specMap, hc, isOk, getValue, ensureValue, Var.index, Var.get0, Eff.Stands, noexcept, content, movedExcept]
      | thrown e =>
        cases hn : f.nothrow with
        | true => obtain ⟨b, hb⟩ := hf hn v s; rw [hc] at hb; simp at hb
        | false => simp [mapMoveVoid, specMap, hc, hn, isOk, getValue, ensureValue, Var.index, Var.get0, Eff.Stands, noexcept, content, movedExcept]
    | error e =>
      simp only [content, Option.some.injEq] at h; subst h
      simp [mapMoveVoid, specMap, isOk, isErr, getError, ensureError, Var.index, Var.get1, move_quiet (hE e).2, Eff.Stands, content, contentV, movedExcept]
    | valueless => simp [content] at h
  · intro f hf r
    cases r with
    | none =>
      rcases hc : f.call () s with ⟨s', y⟩
      cases y with
      | ret w => simp [mapVMove, specMap, hc, isOkV, isErrV, move_quiet (hW w).2, Eff.Stands, contentV, content]
      | terminate => simp [mapVMove, specMap, hc, isOkV, isErrV, Eff.Stands, noexcept, contentV]
      | thrown e =>
        cases hn : f.nothrow with
        | true => obtain ⟨b, hb⟩ := hf hn () s; rw [hc] at hb; simp at hb
        | false => simp [mapVMove, specMap, hc, hn, isOkV, isErrV, Eff.Stands, noexcept, contentV]
    | some e => simp [mapVMove, specMap, isOkV, isErrV, getErrorV, ensureErrorV, move_quiet (hE e).2, Eff.Stands, contentV, content]
  · intro f hf r
    cases r with
    | none =>
      rcases hc : f.call () s with ⟨s', y⟩
      cases y with
      | ret w => simp [mapVMoveVoid, specMap, hc, isOkV, isErrV, Eff.Stands, contentV]
      | terminate => simp [mapVMoveVoid, specMap, hc, isOkV, isErrV, Eff.Stands, noexcept, contentV]
      | thrown e =>
        cases hn : f.nothrow with
        | true => obtain ⟨b, hb⟩ := hf hn () s; rw [hc] at hb; simp at hb
        | false => simp [mapVMoveVoid, specMap, hc, hn, isOkV, isErrV, Eff.Stands, noexcept, contentV]
    | some e => simp [mapVMoveVoid, specMap, isOkV, isErrV, getErrorV, ensureErrorV, move_quiet (hE e).2, Eff.Stands, contentV]

/-- The functions of the theorems above may have effects, e.g. count their calls. -/
example : Fn.Wf (⟨fun v n => (n + 1, .ret (v + n)), true⟩ : Fn Nat Nat Nat) := fun _ a s => ⟨a + s, rfl⟩

/-- C51: mapping the identity gives the same result, and mapping twice is mapping the composition, effects included. -/
theorem C51_map_laws {S U : Type} (tyV : Ty V) (tyW : Ty W) (tyU : Ty U) (tyE : Ty E) (hV : tyV.Quiet) (hW : tyW.Quiet) (hU : tyU.Quiet)
    (hE : tyE.Quiet) (g : V → S → S × W) (k : W → S → S × U) (b1 b2 b3 b4 : Bool) (r : Var V E) (hr : r ≠ .valueless) (s : S) :
    map tyV tyE ⟨fun v s => (s, .ret v), b1⟩ r s = (s, .ret r) ∧
    andThen (map tyW tyE ⟨fun v s => ((g v s).1, .ret (g v s).2), b2⟩ r s) (map tyU tyE ⟨fun w s => ((k w s).1, .ret (k w s).2), b3⟩) =
      map tyU tyE ⟨fun v s => ((k (g v s).2 (g v s).1).1, .ret (k (g v s).2 (g v s).1).2), b4⟩ r s := by
  cases r with
  | value v => simp [map, andThen, noexceptAt, isOk, getValue, ensureValue, Var.index, Var.get0, move_quiet (hV _).2, move_quiet (hW _).2, move_quiet (hU _).2]
  | error e => simp [map, andThen, noexceptAt, isOk, isErr, getError, ensureError, Var.index, Var.get1, copy_quiet (hE e).1]
  | valueless => exact absurd rfl hr

/-- C51: an exception of the function leaves `Map`, also if copies of the contents throw. -/
theorem C51_map_throw {S : Type} (tyW : Ty W) (tyE : Ty E) (f : Fn S V W) (hf : f.nothrow = false) (v : V) (x : Exc) (s s' : S)
    (h : f.call v s = (s', .thrown x)) : map tyW tyE f (.value v : Var V E) s = (s', .thrown x) := by
  simp [map, andThen, noexceptAt, isOk, getValue, ensureValue, Var.index, Var.get0, h, noexcept, hf]

/-- C51 fails for errors whose copy throws: `Map` is `noexcept` if the function is, so the exception of
copying the error ends the program. -/
theorem C51_map_terminate_violated {S : Type} (tyW : Ty W) (tyE : Ty E) (f : Fn S V W) (hf : f.nothrow = true) (e : E) (n : Nat)
    (h : tyE.copyThrows e = some n) (s : S) : (map tyW tyE f (.error e) s).2 = .terminate := by
  simp [map, noexceptAt, isOk, isErr, getError, ensureError, Var.index, Var.get1, Ty.copy, h, noexcept, hf]

example : ∃ (ty : Ty Nat), ty.Wf ∧ ty.copyThrows 5 = some 1 :=
  ⟨⟨id, fun x => if x = 5 then some 1 else none, fun _ => none, false, true⟩, by simp [Ty.Wf], by simp⟩

/-! ## Histories -/

theorem create_inv {P : Var V E → Prop} {σ : Store V E} (hσ : ∀ i r, σ i = some r → P r) (i : Nat) (x : Eff (Var V E))
    (hx : ∀ r, x = .ret r → P r) : ∀ k r, σ.create i x k = some r → P r := by
  intro k r h
  cases x with
  | ret r' =>
    simp only [Store.create, Store.set] at h
    by_cases hk : k = i
    · simp only [hk, if_true, Option.some.injEq] at h; exact h ▸ hx r' rfl
    · simp only [hk, if_false] at h; exact hσ k r h
  | thrown => exact hσ k r h
  | terminate => exact hσ k r h

theorem set_inv {P : Var V E → Prop} {σ : Store V E} (hσ : ∀ i r, σ i = some r → P r) (i : Nat) (r' : Var V E) (hx : P r') :
    ∀ k r, σ.set i r' k = some r → P r := by
  intro k r h
  simp only [Store.set] at h
  by_cases hk : k = i
  · simp only [hk, if_true, Option.some.injEq] at h; exact h ▸ hx
  · simp only [hk, if_false] at h; exact hσ k r h

theorem copyAssign_notValueless (tyV : Ty V) (tyE : Ty E) (hV : tyV.Wf) (hE : tyE.Wf) (mV : tyV.nothrowMove = true) (mE : tyE.nothrowMove = true)
    (d r : Var V E) (hd : d ≠ .valueless) (hr : r ≠ .valueless) : (copyAssign tyV tyE d r).1 ≠ .valueless := by
  have key : ∀ {T : Type} (ty : Ty T) (_ : ty.Wf) (_ : ty.nothrowMove = true) (v : T) (k : T → Var V E) (_ : ∀ v, k v ≠ .valueless) (d : Var V E) (_ : d ≠ .valueless),
      (if ty.nothrowCopy || !ty.nothrowMove then emplace (ty.copy v >>= fun v => .ret (k v))
        else match ty.copy v with
          | .ret t => emplace ((ty.move t).2 >>= fun v => .ret (k v))
          | .thrown e => (d, .thrown e)
          | .terminate => (d, .terminate)).1 ≠ .valueless := by
    intro T ty hw hm v k hk d hd
    cases hc : ty.nothrowCopy
    · rw [hm]
      simp only [Bool.not_true, Bool.or_self, Bool.false_eq_true, if_false]
      cases hcp : ty.copyThrows v with
      | none =>
        simp only [Ty.copy, hcp, move_quiet (hw.2 hm v), Eff.ret_bind, emplace]
        exact hk v
      | some n => simp only [Ty.copy, hcp]; exact hd
    · simp only [Bool.true_or, if_true, copy_quiet (hw.1 hc v), Eff.ret_bind, emplace]
      exact hk v
  have same : ∀ {T : Type} (ty : Ty T) (v : T) (k : T → Var V E) (_ : ∀ v, k v ≠ .valueless) (d : Var V E) (_ : d ≠ .valueless),
      (assignSame d (ty.copy v >>= fun v => .ret (k v))).1 ≠ .valueless := by
    intro T ty v k hk d hd
    cases hcp : ty.copyThrows v with
    | none => simp only [Ty.copy, hcp, Eff.ret_bind, assignSame]; exact hk v
    | some n => simp only [Ty.copy, hcp, Eff.thrown_bind, assignSame]; exact hd
  cases r with
  | valueless => exact absurd rfl hr
  | value v =>
    cases d with
    | valueless => exact absurd rfl hd
    | value w => exact same tyV v .value (by simp) _ hd
    | error w => exact key tyV hV mV v .value (by simp) _ hd
  | error e =>
    cases d with
    | valueless => exact absurd rfl hd
    | value w => exact key tyE hE mE e .error (by simp) _ hd
    | error w => exact same tyE e .error (by simp) _ hd

/-- C51: if the moves of both types are declared not to throw, then in every program, whatever copies
throw, each result is either a value or an error.  Missing (see the `_violated` theorem): other types. -/
theorem C51_history_partial (tyV : Ty V) (tyE : Ty E) (hV : tyV.Wf) (hE : tyE.Wf) (mV : tyV.nothrowMove = true) (mE : tyE.nothrowMove = true)
    (ops : List (Op V E)) (i : Nat) (r : Var V E) (h : run tyV tyE ops i = some r) :
    (∃ x, content r = some x) ∧ isErr r = !isOk r := by
  have inv : ∀ (ops : List (Op V E)) (σ : Store V E), (∀ i r, σ i = some r → r ≠ .valueless) →
      ∀ i r, ops.foldl (step tyV tyE) σ i = some r → r ≠ .valueless := by
    intro ops
    induction ops with
    | nil => exact fun σ h => h
    | cons op ops ih =>
      intro σ hσ
      refine ih _ ?_
      cases op with
      | newValue i cat v =>
        refine create_inv hσ i _ ?_
        intro r hr
        simp only [fromValue] at hr
        cases hf : (forward tyV cat v).2 with
        | ret a => rw [hf] at hr; simp only [Eff.ret_bind, Eff.ret.injEq] at hr; rw [← hr]; simp
        | thrown a => rw [hf] at hr; simp at hr
        | terminate => rw [hf] at hr; simp at hr
      | newError i cat v =>
        refine create_inv hσ i _ ?_
        intro r hr
        simp only [fromError] at hr
        cases hf : (forward tyE cat v).2 with
        | ret a => rw [hf] at hr; simp only [Eff.ret_bind, Eff.ret.injEq] at hr; rw [← hr]; simp
        | thrown a => rw [hf] at hr; simp at hr
        | terminate => rw [hf] at hr; simp at hr
      | copyNew i j =>
        simp only [step]
        cases hj : σ j with
        | none => exact hσ
        | some r =>
          refine create_inv hσ i _ ?_
          intro r' hr'
          have hnv := hσ j r hj
          cases r with
          | valueless => exact absurd rfl hnv
          | value v =>
            cases hc : tyV.copyThrows v with
            | none => simp only [copyNew, copy_quiet hc, Eff.ret_bind, Eff.ret.injEq] at hr'; rw [← hr']; simp
            | some n => simp [copyNew, Ty.copy, hc] at hr'
          | error v =>
            cases hc : tyE.copyThrows v with
            | none => simp only [copyNew, copy_quiet hc, Eff.ret_bind, Eff.ret.injEq] at hr'; rw [← hr']; simp
            | some n => simp [copyNew, Ty.copy, hc] at hr'
      | moveNew i j =>
        simp only [step]
        cases hj : σ j with
        | none => exact hσ
        | some r =>
          dsimp only
          by_cases hij : i = j
          · rw [if_pos hij]; exact hσ
          · rw [if_neg hij]
            have hnv := hσ j r hj
            cases r with
            | valueless => exact absurd rfl hnv
            | value v =>
              simp only [moveNew, move_quiet (hV.2 mV v), Eff.ret_bind]
              exact create_inv (set_inv hσ j _ (by simp)) i _ (by intro r hr; simp only [Eff.ret.injEq] at hr; rw [← hr]; simp)
            | error v =>
              simp only [moveNew, move_quiet (hE.2 mE v), Eff.ret_bind]
              exact create_inv (set_inv hσ j _ (by simp)) i _ (by intro r hr; simp only [Eff.ret.injEq] at hr; rw [← hr]; simp)
      | copyAssign i j =>
        simp only [step]
        cases hi : σ i with
        | none => exact hσ
        | some d =>
          cases hj : σ j with
          | none => exact hσ
          | some r => exact set_inv hσ i _ (copyAssign_notValueless tyV tyE hV hE mV mE d r (hσ i d hi) (hσ j r hj))
      | moveAssign i j =>
        simp only [step]
        cases hi : σ i with
        | none => exact hσ
        | some d =>
          cases hj : σ j with
          | none => exact hσ
          | some r =>
            dsimp only
            by_cases hij : i = j
            · rw [if_pos hij]; exact hσ
            · rw [if_neg hij]
              have hnd := hσ i d hi
              have hnr := hσ j r hj
              cases r with
              | valueless => exact absurd rfl hnr
              | value v =>
                cases d with
                | valueless => exact absurd rfl hnd
                | value w =>
                  simp only [moveAssign, move_quiet (hV.2 mV v), Eff.ret_bind, assignSame]
                  exact set_inv (set_inv hσ i _ (by simp)) j _ (by simp)
                | error w =>
                  simp only [moveAssign, move_quiet (hV.2 mV v), Eff.ret_bind, emplace]
                  exact set_inv (set_inv hσ i _ (by simp)) j _ (by simp)
              | error v =>
                cases d with
                | valueless => exact absurd rfl hnd
                | value w =>
                  simp only [moveAssign, move_quiet (hE.2 mE v), Eff.ret_bind, emplace]
                  exact set_inv (set_inv hσ i _ (by simp)) j _ (by simp)
                | error w =>
                  simp only [moveAssign, move_quiet (hE.2 mE v), Eff.ret_bind, assignSame]
                  exact set_inv (set_inv hσ i _ (by simp)) j _ (by simp)
      | put i v =>
        simp only [step]
        cases hi : σ i with
        | none => exact hσ
        | some d =>
          dsimp only
          cases hp : putValue d v with
          | ret r' =>
            refine set_inv hσ i _ ?_
            simp only [putValue] at hp
            cases hg : getValue d with
            | ret a => rw [hg] at hp; simp only [Eff.ret_bind, Eff.pure_eq, Eff.ret.injEq] at hp; rw [← hp]; simp
            | thrown a => rw [hg] at hp; simp at hp
            | terminate => rw [hg] at hp; simp at hp
          | thrown => exact hσ
          | terminate => exact hσ
      | take i =>
        simp only [step]
        cases hi : σ i with
        | none => exact hσ
        | some d =>
          dsimp only
          cases getValue d with
          | ret a => exact set_inv hσ i _ (by simp)
          | thrown => exact hσ
          | terminate => exact hσ
  have hnv := inv ops (fun _ => none) (by simp) i r h
  cases r with
  | value v => exact ⟨⟨_, rfl⟩, by simp [isErr, isOk, Var.index]⟩
  | error e => exact ⟨⟨_, rfl⟩, by simp [isErr, isOk, Var.index]⟩
  | valueless => exact absurd rfl hnv

theorem content_create (σ : Store V E) (i : Nat) (r : Var V E) (x : Except E V) (h : content r = some x) (τ : SpecStore V E)
    (hσ : (fun k => (σ k).bind content) = τ) : (fun k => (σ.set i r k).bind content) = τ.set i x := by
  funext k
  have := congrFun hσ k
  by_cases hk : k = i <;> simp_all [Store.set, SpecStore.set]

/-- C51: if no copy and no move throws, every program over any number of results behaves as the same
program over plain `Except` values: construction, copies, moves, assignments and access. -/
theorem C51_history (tyV : Ty V) (tyE : Ty E) (hV : tyV.Quiet) (hE : tyE.Quiet) (ops : List (Op V E)) :
    (∀ i, (run tyV tyE ops i).bind content = specRun tyV.movedFrom tyE.movedFrom ops i) ∧
    (∀ i r, run tyV tyE ops i = some r → r ≠ .valueless) := by
  have inv : ∀ (ops : List (Op V E)) (σ : Store V E) (τ : SpecStore V E), (fun k => (σ k).bind content) = τ →
      (∀ i r, σ i = some r → r ≠ .valueless) →
      (fun k => (ops.foldl (step tyV tyE) σ k).bind content) = ops.foldl (specStep tyV.movedFrom tyE.movedFrom) τ ∧
      (∀ i r, ops.foldl (step tyV tyE) σ i = some r → r ≠ .valueless) := by
    intro ops
    induction ops with
    | nil => exact fun σ τ h h2 => ⟨h, h2⟩
    | cons op ops ih =>
      intro σ τ hτ hσ
      suffices h : (fun k => (step tyV tyE σ op k).bind content) = specStep tyV.movedFrom tyE.movedFrom τ op ∧
          (∀ i r, step tyV tyE σ op i = some r → r ≠ .valueless) from ih _ _ h.1 h.2
      have lookup : ∀ k, (σ k = none ∧ τ k = none) ∨ (∃ v, σ k = some (.value v) ∧ τ k = some (.ok v)) ∨
          (∃ e, σ k = some (.error e) ∧ τ k = some (.error e)) := by
        intro k
        have h1 : (σ k).bind content = τ k := congrFun hτ k
        cases hk : σ k with
        | none => left; rw [hk] at h1; exact ⟨rfl, by rw [← h1]; rfl⟩
        | some r =>
          rw [hk] at h1
          right
          cases r with
          | value v => left; exact ⟨v, rfl, by rw [← h1]; rfl⟩
          | error v => right; exact ⟨v, rfl, by rw [← h1]; rfl⟩
          | valueless => exact absurd rfl (hσ k _ hk)
      have mkV := fun i v => And.intro (content_create σ i (.value v) (.ok v) rfl τ hτ) (set_inv hσ i (.value v) (by simp))
      have mkE := fun i v => And.intro (content_create σ i (.error v) (.error v) rfl τ hτ) (set_inv hσ i (.error v) (by simp))
      have twoVV := fun i j v w => And.intro (content_create (σ.set i (.value v)) j (.value w) (.ok w) rfl _ (mkV i v).1) (set_inv (mkV i v).2 j (.value w) (by simp))
      have twoEE := fun i j v w => And.intro (content_create (σ.set i (.error v)) j (.error w) (.error w) rfl _ (mkE i v).1) (set_inv (mkE i v).2 j (.error w) (by simp))
      cases op with
      | newValue i cat v =>
        have e : (fromValue tyV cat v : V × Eff (Var V E)).2 = .ret (.value v) := by
          cases cat <;> simp [fromValue, forward, copy_quiet (hV v).1, move_quiet (hV v).2]
        simp only [step, e, Store.create, specStep]
        exact mkV i v
      | newError i cat v =>
        have e : (fromError tyE cat v : E × Eff (Var V E)).2 = .ret (.error v) := by
          cases cat <;> simp [fromError, forward, copy_quiet (hE v).1, move_quiet (hE v).2]
        simp only [step, e, Store.create, specStep]
        exact mkE i v
      | copyNew i j =>
        rcases lookup j with ⟨h1, h2⟩ | ⟨v, h1, h2⟩ | ⟨v, h1, h2⟩ <;> simp only [step, specStep, h1, h2]
        · exact ⟨hτ, hσ⟩
        · simp only [copyNew, copy_quiet (hV v).1, Eff.ret_bind, Store.create]; exact mkV i v
        · simp only [copyNew, copy_quiet (hE v).1, Eff.ret_bind, Store.create]; exact mkE i v
      | moveNew i j =>
        rcases lookup j with ⟨h1, h2⟩ | ⟨v, h1, h2⟩ | ⟨v, h1, h2⟩ <;> simp only [step, specStep, h1, h2]
        · exact ⟨hτ, hσ⟩
        · by_cases hij : i = j
          · simp only [hij, if_true]; exact ⟨hτ, hσ⟩
          · simp only [hij, if_false, moveNew, move_quiet (hV v).2, Eff.ret_bind, Store.create, movedExcept]; exact twoVV _ _ _ _
        · by_cases hij : i = j
          · simp only [hij, if_true]; exact ⟨hτ, hσ⟩
          · simp only [hij, if_false, moveNew, move_quiet (hE v).2, Eff.ret_bind, Store.create, movedExcept]; exact twoEE _ _ _ _
      | copyAssign i j =>
        rcases lookup i with ⟨h3, h4⟩ | ⟨w, h3, h4⟩ | ⟨w, h3, h4⟩ <;>
        rcases lookup j with ⟨h1, h2⟩ | ⟨v, h1, h2⟩ | ⟨v, h1, h2⟩ <;> simp only [step, specStep, h1, h2, h3, h4] <;>
        first
          | exact ⟨hτ, hσ⟩
          | (simp only [copyAssign, copy_quiet (hV v).1, move_quiet (hV v).2, Eff.ret_bind, emplace, assignSame, ite_self]; exact mkV i v)
          | (simp only [copyAssign, copy_quiet (hE v).1, move_quiet (hE v).2, Eff.ret_bind, emplace, assignSame, ite_self]; exact mkE i v)
      | moveAssign i j =>
        rcases lookup i with ⟨h3, h4⟩ | ⟨w, h3, h4⟩ | ⟨w, h3, h4⟩ <;>
        rcases lookup j with ⟨h1, h2⟩ | ⟨v, h1, h2⟩ | ⟨v, h1, h2⟩ <;> simp only [step, specStep, h1, h2, h3, h4] <;>
        first
          | exact ⟨hτ, hσ⟩
          | (by_cases hij : i = j
             · simp only [hij, if_true]; exact ⟨hτ, hσ⟩
             · simp only [hij, if_false, moveAssign, move_quiet (hV v).2, Eff.ret_bind, emplace, assignSame, movedExcept]; exact twoVV _ _ _ _)
          | (by_cases hij : i = j
             · simp only [hij, if_true]; exact ⟨hτ, hσ⟩
             · simp only [hij, if_false, moveAssign, move_quiet (hE v).2, Eff.ret_bind, emplace, assignSame, movedExcept]; exact twoEE _ _ _ _)
      | put i v =>
        rcases lookup i with ⟨h1, h2⟩ | ⟨w, h1, h2⟩ | ⟨w, h1, h2⟩ <;> simp only [step, specStep, h1, h2]
        · exact ⟨hτ, hσ⟩
        · simp only [putValue, getValue, ensureValue, isOk, Var.index, Var.get0, beq_self_eq_true, Bool.not_true, Bool.false_eq_true, if_false, Eff.pure_eq, Eff.ret_bind]
          exact mkV i v
        · simp [putValue, getValue, ensureValue, isOk, Var.index]; exact ⟨hτ, hσ⟩
      | take i =>
        rcases lookup i with ⟨h1, h2⟩ | ⟨w, h1, h2⟩ | ⟨w, h1, h2⟩ <;> simp only [step, specStep, h1, h2]
        · exact ⟨hτ, hσ⟩
        · simp only [getValue, ensureValue, isOk, Var.index, Var.get0, beq_self_eq_true, Bool.not_true, Bool.false_eq_true, if_false, Eff.pure_eq, Eff.ret_bind, move_quiet (hV w).2]
          exact mkV i _
        · simp [getValue, ensureValue, isOk, Var.index]; exact ⟨hτ, hσ⟩
  obtain ⟨h1, h2⟩ := inv ops (fun _ => none) (fun _ => none) rfl (by simp)
  exact ⟨fun i => congrFun h1 i, h2⟩

/-- C51 fails for types whose move may throw: if copying the value assigned throws, the target is
neither a value nor an error afterwards, and all access to it throws. -/
theorem C51_valueless_violated (tyV : Ty V) (tyE : Ty E) (hmove : tyV.nothrowMove = false) (hcopy : tyV.nothrowCopy = false)
    (v : V) (n : Nat) (hv : tyV.copyThrows v = some n) (hm : tyV.moveThrows v = none) (e : E) (he : tyE.moveThrows e = none) :
    ∃ r, run tyV tyE [.newError 0 .rvalue e, .newValue 1 .rvalue v, .copyAssign 0 1] 0 = some r ∧
      isOk r = false ∧ isErr r = false ∧ getValue r = .thrown .notAValue ∧ getError r = .thrown .notAnError := by
  refine ⟨.valueless, ?_, by simp [isOk, Var.index], by simp [isErr, Var.index], by simp [getValue, ensureValue, isOk, Var.index],
    by simp [getError, ensureError, isErr, Var.index]⟩
  simp [run, step, fromError, fromValue, forward, move_quiet hm, move_quiet he, Store.create, Store.set, copyAssign, hmove, hcopy,
    emplace, Ty.copy, hv]

example : ∃ ty : Ty Nat, ty.Wf ∧ ty.nothrowMove = false ∧ ty.nothrowCopy = false ∧ ty.copyThrows 3 = some 0 ∧ ty.moveThrows 3 = none :=
  ⟨⟨fun _ => 0, fun _ => some 0, fun _ => none, false, false⟩, by simp [Ty.Wf], rfl, rfl, rfl, rfl⟩

/-! ## The macros -/

/-- C51: a sequence of `NAZARA_TRY_VALUE` returns the first error and runs nothing after it; without
error it returns the last value.  The expressions are arbitrary functions of the program state. -/
theorem C51_try {S : Type} (tyV : Ty V) (tyE : Ty E) (hV : tyV.Quiet) (hE : tyE.Quiet)
    (stages : List ((V → S → S × Eff (Var V E)) × (V → S → S × Except E V)))
    (hs : ∀ st ∈ stages, ∀ v s, ∃ r, st.1 v s = ((st.2 v s).1, .ret r) ∧ content r = some (st.2 v s).2) (v : V) (s : S) :
    ∃ r, tryAll tyV tyE (stages.map Prod.fst) v s = ((specAll (stages.map Prod.snd) v s).1, .ret r) ∧
      content r = some (specAll (stages.map Prod.snd) v s).2 := by
  induction stages generalizing v s with
  | nil => exact ⟨.value v, by simp [tryAll, specAll, fromValue, forward, move_quiet (hV v).2], rfl⟩
  | cons st stages ih =>
    obtain ⟨r, e, hr⟩ := hs st (by simp) v s
    simp only [List.map_cons, tryAll, tryValue, specAll, e]
    cases r with
    | valueless => simp [content] at hr
    | value w =>
      rcases hx : st.2 v s with ⟨s', x⟩
      rw [hx] at hr
      simp only [content, Option.some.injEq] at hr
      subst hr
      have h1 : isOk (.value w : Var V E) = true := by simp [isOk, Var.index]
      have h2 : (getValue (.value w : Var V E) >>= fun v => (tyV.move v).2) = .ret w := by
        simp [getValue, ensureValue, isOk, Var.index, Var.get0, move_quiet (hV w).2]
      simp only [h1, Bool.not_true, Bool.false_eq_true, if_false, h2]
      exact ih (fun st' h => hs st' (by simp [h])) w s'
    | error w =>
      rcases hx : st.2 v s with ⟨s', x⟩
      rw [hx] at hr
      simp only [content, Option.some.injEq] at hr
      subst hr
      refine ⟨.error w, ?_, rfl⟩
      simp [isOk, isErr, Var.index, getError, ensureError, Var.get1, fromError, forward, move_quiet (hE w).2]

/-- C51: `NAZARA_TRY` in functions without value: nothing runs after the first error, which is returned. -/
theorem C51_try_void {S : Type} (tyE : Ty E) (hE : tyE.Quiet)
    (stages : List ((S → S × Eff (Option E)) × (S → S × Except E Unit)))
    (hs : ∀ st ∈ stages, ∀ s, ∃ r, st.1 s = ((st.2 s).1, .ret r) ∧ contentV r = (st.2 s).2) (s : S) :
    ∃ r, tryAllV tyE (stages.map Prod.fst) s = ((specAllV (stages.map Prod.snd) s).1, .ret r) ∧
      contentV r = (specAllV (stages.map Prod.snd) s).2 := by
  induction stages generalizing s with
  | nil => exact ⟨none, rfl, rfl⟩
  | cons st stages ih =>
    obtain ⟨r, e, hr⟩ := hs st (by simp) s
    simp only [List.map_cons, tryAllV, tryV, specAllV, e]
    rcases hx : st.2 s with ⟨s', x⟩
    rw [hx] at hr
    dsimp only at hr
    subst hr
    cases r with
    | none =>
      simp only [isOkV, isErrV, Option.isSome_none, Bool.not_false, Bool.not_true, Bool.false_eq_true, if_false, contentV]
      exact ih (fun st' h => hs st' (by simp [h])) s'
    | some w =>
      refine ⟨some w, ?_, rfl⟩
      simp [isOkV, isErrV, getErrorV, ensureErrorV, fromErrorV, move_quiet (hE w).2, contentV]

/-- Three expressions, the second fails: the third is not evaluated. -/
example : (tryAllV (⟨id, fun _ => none, fun _ => none, true, true⟩ : Ty String)
    [fun n => (n + 1, .ret none), fun n => (n + 10, .ret (some "failed")), fun n => (n + 100, .ret none)] (0 : Nat)) = (11, .ret (some "failed")) := by
  decide

example : (⟨fun _ => 0, fun _ => none, fun _ => none, true, true⟩ : Ty Nat).Quiet := by simp [Ty.Quiet]

/-! ## C71: objects given to `Ok` and `Err` -/

/-- C71: building `Result<V, E>` from an lvalue with `Ok` or `Err` leaves the lvalue unchanged, from an
rvalue it moves.  Missing (see the `_violated` theorem): `Result<void, E>`. -/
theorem C71_lvalue_partial (tyV : Ty V) (tyE : Ty E) (v : V) (e : E) :
    (fromValue tyV .lvalue v : V × Eff (Var V E)).1 = v ∧ (fromError tyE .lvalue e : E × Eff (Var V E)).1 = e ∧
    (tyV.moveThrows v = none → (fromValue tyV .rvalue v : V × Eff (Var V E)).1 = tyV.movedFrom v) ∧
    (tyE.moveThrows e = none → (fromError tyE .rvalue e : E × Eff (Var V E)).1 = tyE.movedFrom e) := by
  refine ⟨rfl, rfl, fun h => ?_, fun h => ?_⟩
  · simp [fromValue, forward, move_quiet h]
  · simp [fromError, forward, move_quiet h]

/-- C71 fails for `Result<void, E>`: `Err(lvalue)` is moved from, for every error that a move changes. -/
theorem C71_lvalue_violated (tyE : Ty E) (e : E) (hm : tyE.moveThrows e = none) (hne : tyE.movedFrom e ≠ e) :
    (fromErrorV tyE .lvalue e).1 ≠ e := by
  simpa [fromErrorV, move_quiet hm] using hne

example : (⟨fun _ => "", fun _ => none, fun _ => none, false, true⟩ : Ty String).movedFrom "broken" ≠ "broken" := by simp

end Verif.Result
