import Mathlib.Logic.ExistsUnique
import Verif.Movable.Model

/-!
# Properties C52 and C72 of the movable wrappers
-/

namespace Verif.Movable

/-! ## Specification -/

/-- Copies and moves that make a second owner of a value, or give one up. -/
def Op.isCopy {T : Type} : Op T → Bool
  | .copyNew _ _ | .copyAssign _ _ => true
  | _ => false

def Op.isMove {T : Type} : Op T → Bool
  | .moveNew _ _ | .moveAssign _ _ => true
  | _ => false

/-- The value an operation brings into the program. -/
def Op.introduces {T : Type} : Op T → Option T
  | .new _ v | .assign _ v => some v
  | _ => none

/-- Value `v` is held by at most one variable. -/
def OneOwner {T : Type} (σ : Store T) (v : T) : Prop := ∀ i j, σ i = some v → σ j = some v → i = j

/-! ## Proofs -/

theorem set_same {T : Type} (σ : Store T) (i : Nat) (v : T) : σ.set i v i = some v := by simp [Store.set]
theorem set_ne {T : Type} (σ : Store T) {i k : Nat} (v : T) (h : k ≠ i) : σ.set i v k = σ k := by simp [Store.set, h]

/-- The classes that reset the source and exchange on assignment. -/
structure Owning {T : Type} (w : Wrapper T) (d : T) : Prop where
  default : w.default = d
  fromValue : ∀ v, w.fromValue v = v
  moveNew : ∀ v, w.moveNew v = (v, d)
  assign : ∀ a v, w.assign a v = v
  moveAssign : ∀ a b, w.moveAssign a b = (b, a)

theorem owning_ptr : Owning ptr 0 := ⟨rfl, fun _ => rfl, fun _ => rfl, fun _ _ => rfl, fun _ _ => rfl⟩
theorem owning_literal {T : Type} (d : T) : Owning (literal d) d := ⟨rfl, fun _ => rfl, fun _ => rfl, fun _ _ => rfl, fun _ _ => rfl⟩

section
variable {T : Type} {w : Wrapper T} {d : T}

/-- The permutation of variables done by a move, seen from the values other than the default. -/
theorem move_owner (hw : Owning w d) (σ : Store T) (op : Op T) (hop : op.isMove = true) (v : T) (hv : v ≠ d) :
    ∃ f : Nat → Nat, Function.Injective f ∧ (∀ k, σ k = some v → step w σ op (f k) = some v) ∧
      (∀ k, step w σ op k = some v → ∃ k', f k' = k ∧ σ k' = some v) := by
  have ident : ∃ f : Nat → Nat, Function.Injective f ∧ (∀ k, σ k = some v → σ (f k) = some v) ∧
      (∀ k, σ k = some v → ∃ k', f k' = k ∧ σ k' = some v) := ⟨id, fun _ _ h => h, fun _ h => h, fun k h => ⟨k, rfl, h⟩⟩
  -- transposition
  have swapInj : ∀ i j : Nat, Function.Injective (fun k => if k = i then j else if k = j then i else k) := by
    intro i j a b h
    dsimp only at h
    by_cases h1 : a = i <;> by_cases h2 : b = i <;> by_cases h3 : a = j <;> by_cases h4 : b = j <;> simp_all <;> omega
  cases op with
  | moveNew i j =>
    simp only [step]
    cases hi : σ i with
    | some a => exact ident
    | none =>
      cases hj : σ j with
      | none => exact ident
      | some b =>
        have hij : i ≠ j := by rintro rfl; simp [hi] at hj
        simp only [hw.moveNew]
        refine ⟨_, swapInj i j, ?_, ?_⟩
        · intro k hk
          by_cases h1 : k = i
          · subst h1; simp [hi] at hk
          · by_cases h2 : k = j
            · subst h2; simp only [h1, if_false, if_true, set_same]; rw [← hk, hj]
            · simp only [h1, h2, if_false, set_ne _ _ h1, set_ne _ _ h2]; exact hk
        · intro k hk
          by_cases h1 : k = i
          · subst h1
            rw [set_same] at hk
            exact ⟨j, by simp [Ne.symm hij], by rw [hj]; exact hk⟩
          · rw [set_ne _ _ h1] at hk
            by_cases h2 : k = j
            · subst h2; rw [set_same] at hk; exact absurd (Option.some.inj hk).symm hv
            · rw [set_ne _ _ h2] at hk
              exact ⟨k, by simp [h1, h2], hk⟩
  | moveAssign i j =>
    simp only [step]
    cases hi : σ i with
    | none => exact ident
    | some a =>
      cases hj : σ j with
      | none => exact ident
      | some b =>
        simp only [hw.moveAssign]
        by_cases hij : i = j
        · subst hij
          have hab : a = b := by rw [hi] at hj; exact Option.some.inj hj
          subst hab
          have : (σ.set i a).set i a = σ := by
            funext k
            by_cases h : k = i
            · subst h; rw [set_same, hi]
            · rw [set_ne _ _ h, set_ne _ _ h]
          rw [this]; exact ident
        · refine ⟨_, swapInj i j, ?_, ?_⟩
          · intro k hk
            by_cases h1 : k = i
            · subst h1; simp only [if_true]; rw [set_ne _ _ (Ne.symm hij), set_same, ← hk, hi]
            · by_cases h2 : k = j
              · subst h2; simp only [h1, if_false, if_true, set_same]; rw [← hk, hj]
              · simp only [h1, h2, if_false, set_ne _ _ h1, set_ne _ _ h2]; exact hk
          · intro k hk
            by_cases h1 : k = i
            · subst h1; rw [set_same] at hk; exact ⟨j, by simp [Ne.symm hij], by rw [hj]; exact hk⟩
            · rw [set_ne _ _ h1] at hk
              by_cases h2 : k = j
              · subst h2; rw [set_same] at hk; exact ⟨i, by simp, by rw [hi]; exact hk⟩
              · rw [set_ne _ _ h2] at hk; exact ⟨k, by simp [h1, h2], hk⟩
  | _ => simp [Op.isMove] at hop

theorem moves_owner (hw : Owning w d) (v : T) (hv : v ≠ d) (ops : List (Op T)) : ∀ (σ : Store T), (∀ op ∈ ops, op.isMove = true) →
    (OneOwner σ v → OneOwner (ops.foldl (step w) σ) v) ∧ ((∃ i, σ i = some v) → ∃ i, ops.foldl (step w) σ i = some v) := by
  induction ops with
  | nil => exact fun σ _ => ⟨id, id⟩
  | cons op ops ih =>
    intro σ hm
    obtain ⟨f, hinj, h1, h2⟩ := move_owner hw σ op (hm op (by simp)) v hv
    obtain ⟨a, b⟩ := ih (step w σ op) (fun o ho => hm o (by simp [ho]))
    refine ⟨fun ho => a ?_, fun ⟨i, hi⟩ => b ⟨f i, h1 i hi⟩⟩
    intro i j hi hj
    obtain ⟨i', rfl, hi'⟩ := h2 i hi
    obtain ⟨j', rfl, hj'⟩ := h2 j hj
    rw [ho i' j' hi' hj']

/-- Without copies, introducing each value once. -/
theorem history_owner (hw : Owning w d) (v : T) (hv : v ≠ d) (ops : List (Op T)) : ∀ (σ : Store T),
    (∀ op ∈ ops, op.isCopy = false) → (ops.filterMap Op.introduces).Nodup → OneOwner σ v →
    (v ∈ ops.filterMap Op.introduces → ∀ i, σ i ≠ some v) → OneOwner (ops.foldl (step w) σ) v := by
  induction ops with
  | nil => exact fun σ _ _ h _ => h
  | cons op ops ih =>
    intro σ hc hnd hone hfresh
    have hc' : ∀ o ∈ ops, o.isCopy = false := fun o ho => hc o (by simp [ho])
    -- operations that introduce nothing
    have quiet : op.introduces = none → OneOwner (step w σ op) v → (∀ k, step w σ op k = some v → ∃ k', σ k' = some v) →
        OneOwner ((op :: ops).foldl (step w) σ) v := by
      intro hi h1 h2
      rw [List.filterMap_cons_none hi] at hnd hfresh
      refine ih _ hc' hnd h1 ?_
      intro hmem k hk
      obtain ⟨k', hk'⟩ := h2 k hk
      exact hfresh hmem k' hk'
    have intro' : ∀ i x, op.introduces = some x → step w σ op = σ.set i x → OneOwner ((op :: ops).foldl (step w) σ) v := by
      intro i x hi he
      rw [List.filterMap_cons_some hi] at hnd hfresh
      rw [List.nodup_cons] at hnd
      rw [List.foldl_cons, he]
      by_cases hx : x = v
      · subst hx
        refine ih _ hc' hnd.2 ?_ (fun h => absurd h hnd.1)
        intro a b ha hb
        have only : ∀ k, σ.set i x k = some x → k = i := by
          intro k hk
          by_cases hne : k = i
          · exact hne
          · rw [set_ne _ _ hne] at hk
            exact absurd hk (hfresh (by simp) k)
        rw [only a ha, only b hb]
      · have back : ∀ k, σ.set i x k = some v → σ k = some v := by
          intro k hk
          by_cases h : k = i
          · subst h; rw [set_same] at hk; exact absurd (Option.some.inj hk) hx
          · rwa [set_ne _ _ h] at hk
        refine ih _ hc' hnd.2 ?_ ?_
        · intro a b ha hb; exact hone a b (back a ha) (back b hb)
        · intro hmem k hk; exact hfresh (by simp [hmem]) k (back k hk)
    have same : ∀ x, op.introduces = some x → step w σ op = σ → OneOwner ((op :: ops).foldl (step w) σ) v := by
      intro x hi he
      rw [List.filterMap_cons_some hi] at hnd hfresh
      rw [List.nodup_cons] at hnd
      rw [List.foldl_cons, he]
      exact ih _ hc' hnd.2 hone (fun hmem => hfresh (by simp [hmem]))
    cases op with
    | copyNew i j => simp [Op.isCopy] at hc
    | copyAssign i j => simp [Op.isCopy] at hc
    | new i x =>
      by_cases hi : σ i = none
      · exact intro' i x rfl (by simp [step, hi, hw.fromValue])
      · exact same x rfl (by simp [step, hi])
    | assign i x =>
      cases hi : σ i with
      | some a => exact intro' i x rfl (by simp [step, hi, hw.assign])
      | none => exact same x rfl (by simp [step, hi])
    | newDefault i =>
      have back : ∀ k, step w σ (.newDefault i) k = some v → σ k = some v := by
        intro k hk
        by_cases hi : σ i = none
        · simp only [step, hi, if_true, hw.default] at hk
          by_cases h : k = i
          · subst h; rw [set_same] at hk; exact absurd (Option.some.inj hk).symm hv
          · rwa [set_ne _ _ h] at hk
        · simpa only [step, hi, if_false] using hk
      exact quiet rfl (fun a b ha hb => hone a b (back a ha) (back b hb)) (fun k hk => ⟨k, back k hk⟩)
    | destroy i =>
      have back : ∀ k, step w σ (.destroy i) k = some v → σ k = some v := by
        intro k hk
        by_cases h : k = i
        · simp [step, h] at hk
        · simpa [step, h] using hk
      exact quiet rfl (fun a b ha hb => hone a b (back a ha) (back b hb)) (fun k hk => ⟨k, back k hk⟩)
    | moveNew i j =>
      obtain ⟨f, hinj, h1, h2⟩ := move_owner hw σ (.moveNew i j) rfl v hv
      refine quiet rfl ?_ (fun k hk => by obtain ⟨k', _, h⟩ := h2 k hk; exact ⟨k', h⟩)
      intro a b ha hb
      obtain ⟨a', rfl, ha'⟩ := h2 a ha
      obtain ⟨b', rfl, hb'⟩ := h2 b hb
      rw [hone a' b' ha' hb']
    | moveAssign i j =>
      obtain ⟨f, hinj, h1, h2⟩ := move_owner hw σ (.moveAssign i j) rfl v hv
      refine quiet rfl ?_ (fun k hk => by obtain ⟨k', _, h⟩ := h2 k hk; exact ⟨k', h⟩)
      intro a b ha hb
      obtain ⟨a', rfl, ha'⟩ := h2 a ha
      obtain ⟨b', rfl, hb'⟩ := h2 b hb
      rw [hone a' b' ha' hb']

end

/-! ## C52 -/

/-- What C52 says of one class with default `d`, in any state of any program: move construction transfers and
resets, move assignment exchanges, copies leave the source, other variables never change. -/
def Moves {T : Type} (w : Wrapper T) (d : T) : Prop := ∀ (σ : Store T) (i j : Nat) (b : T), σ j = some b →
  (σ i = none → step w σ (.moveNew i j) i = some b ∧ step w σ (.moveNew i j) j = some d ∧
    step w σ (.copyNew i j) i = some b ∧ step w σ (.copyNew i j) j = some b) ∧
  (∀ a, σ i = some a → step w σ (.moveAssign i j) i = some b ∧ step w σ (.moveAssign i j) j = some a ∧
    step w σ (.copyAssign i j) i = some b ∧ step w σ (.copyAssign i j) j = some b) ∧
  (∀ k, k ≠ i → k ≠ j → step w σ (.moveNew i j) k = σ k ∧ step w σ (.copyNew i j) k = σ k ∧
    step w σ (.moveAssign i j) k = σ k ∧ step w σ (.copyAssign i j) k = σ k)

theorem moves_of {T : Type} {w : Wrapper T} {d : T} (hw : Owning w d) (hc : ∀ v, w.copyNew v = (v, v)) (ha : ∀ a b, w.copyAssign a b = (b, b)) :
    Moves w d := by
  intro σ i j b hj
  refine ⟨fun hi => ?_, fun a hi => ?_, fun k hk1 hk2 => ?_⟩
  · have hij : j ≠ i := by rintro rfl; simp [hi] at hj
    simp only [step, hi, hj, hw.moveNew, hc, set_same, set_ne _ _ hij, and_self]
  · by_cases hij : j = i
    · subst hij
      have : a = b := by rw [hi] at hj; exact Option.some.inj hj
      subst this
      simp only [step, hi, hw.moveAssign, ha, set_same, and_self]
    · simp only [step, hi, hj, hw.moveAssign, ha, set_same, set_ne _ _ hij, and_self]
  · cases hi : σ i <;> simp only [step, hi, hj, set_ne _ _ hk1, set_ne _ _ hk2, and_self]

theorem C52_ptr : Moves ptr 0 := moves_of owning_ptr (fun _ => rfl) (fun _ _ => rfl)

theorem C52_literal {T : Type} (d : T) : Moves (literal d) d := moves_of (owning_literal d) (fun _ => rfl) (fun _ _ => rfl)

/-- C52: in every program that copies no `MovablePtr` and introduces each address once, each non-null
address is in at most one of them; and further moves keep it in exactly one. -/
theorem C52_ptr_owned_once (ops moves : List (Op Nat)) (hc : ∀ op ∈ ops, op.isCopy = false)
    (hnd : (ops.filterMap Op.introduces).Nodup) (hm : ∀ op ∈ moves, op.isMove = true) (p : Nat) (hp : p ≠ 0) :
    OneOwner (run ptr ops) p ∧ ((∃ i, run ptr ops i = some p) → ∃! i, run ptr (ops ++ moves) i = some p) := by
  have h := history_owner owning_ptr p hp ops (fun _ => none) hc hnd (by intro i j h; simp at h) (by simp)
  refine ⟨h, fun hex => ?_⟩
  obtain ⟨a, b⟩ := moves_owner owning_ptr p hp moves (run ptr ops) hm
  obtain ⟨i, hi⟩ := b hex
  rw [run, List.foldl_append]
  exact ⟨i, hi, fun j hj => a h j i hj hi⟩

/-- C52: the same for `MovableLiteral`, for values other than the default. -/
theorem C52_literal_owned_once {T : Type} (d : T) (ops moves : List (Op T)) (hc : ∀ op ∈ ops, op.isCopy = false)
    (hnd : (ops.filterMap Op.introduces).Nodup) (hm : ∀ op ∈ moves, op.isMove = true) (v : T) (hv : v ≠ d) :
    OneOwner (run (literal d) ops) v ∧ ((∃ i, run (literal d) ops i = some v) → ∃! i, run (literal d) (ops ++ moves) i = some v) := by
  have h := history_owner (owning_literal d) v hv ops (fun _ => none) hc hnd (by intro i j h; simp at h) (by simp)
  refine ⟨h, fun hex => ?_⟩
  obtain ⟨a, b⟩ := moves_owner (owning_literal d) v hv moves (run (literal d) ops) hm
  obtain ⟨i, hi⟩ := b hex
  rw [run, List.foldl_append]
  exact ⟨i, hi, fun j hj => a h j i hj hi⟩

/-- A program that meets the hypotheses. -/
example : (∀ op ∈ ([.new 0 7, .newDefault 1, .moveAssign 1 0, .moveNew 2 1, .new 3 8] : List (Op Nat)), op.isCopy = false) ∧
    (([.new 0 7, .newDefault 1, .moveAssign 1 0, .moveNew 2 1, .new 3 8] : List (Op Nat)).filterMap Op.introduces).Nodup ∧
    run ptr [.new 0 7, .newDefault 1, .moveAssign 1 0, .moveNew 2 1, .new 3 8] 2 = some 7 := by decide

/-- C52: `MovableValue` transfers the value on both moves and leaves the source as a move of `T` does. -/
theorem C52_value {T : Type} (init : T) (mv : T → T) (σ : Store T) (i j : Nat) (b : T) (hj : σ j = some b) (hij : i ≠ j) :
    (σ i = none → step (value init mv) σ (.moveNew i j) i = some b ∧ step (value init mv) σ (.moveNew i j) j = some (mv b)) ∧
    (∀ a, σ i = some a → step (value init mv) σ (.moveAssign i j) i = some b ∧ step (value init mv) σ (.moveAssign i j) j = some (mv b)) := by
  refine ⟨fun hi => ?_, fun a hi => ?_⟩ <;>
    simp only [step, hi, hj, value, set_same, set_ne _ _ (Ne.symm hij), and_self]

/-! ## C72 -/

/-- C72: construction of a `MovableValue` stores the argument and leaves an lvalue as it was; assignment stores
it, too.  Missing (see the `_violated` theorem): assignment leaves lvalues as they were. -/
theorem C72_lvalue_partial {T : Type} (mv : T → T) (x : T) :
    fromArg mv true x = (x, x) ∧ fromArg mv false x = (x, mv x) ∧ ∀ lvalue, (assignArg mv lvalue x).1 = x :=
  ⟨rfl, rfl, fun _ => rfl⟩

/-- C72 fails for assignments: the lvalue is moved from, for every value that a move changes. -/
theorem C72_lvalue_violated {T : Type} (mv : T → T) (x : T) (h : mv x ≠ x) : (assignArg mv true x).2 ≠ x := h

example : (fun _ => "" : String → String) "text" ≠ "text" := by simp

/-- C72 for the assignment of one `MovableValue` to another: whenever it compiles, the target gets the value; a const source and every source of a
type that is not assigned by value keeps its value.  Missing (see the `_violated` theorem): non-const lvalues of types assigned by value keep it, too. -/
theorem C72_wrapper_partial {T : Type} (mv : T → T) (how : Assigns) (b : T) (source : Source) (target left : T)
    (h : assignWrapper mv how b source = some (target, left)) :
    target = b ∧ (source = .constLvalue → left = b) ∧ (source = .lvalue → how ≠ .byValue → left = b) ∧ (source = .rvalue → left = mv b) := by
  cases source <;> cases how <;>
    simp only [assignWrapper, assignConverted, copyInto, moveInto, Option.some.injEq, Prod.mk.injEq, reduceCtorEq] at h <;>
    obtain ⟨rfl, rfl⟩ := h <;> simp

/-- C72: `a = b` compiles for const and for moved `b` of every type, and for other lvalues unless `T` has both assignment operators. -/
theorem C72_wrapper_compiles {T : Type} (mv : T → T) (how : Assigns) (b : T) (source : Source) :
    assignWrapper mv how b source ≠ none ↔ ¬ (source = .lvalue ∧ how = .copyAndMove) := by
  cases source <;> cases how <;> simp [assignWrapper, assignConverted]

/-- C72 fails for `a = b` with a non-const lvalue `b`, for every type with `operator=(T)`: `b` is moved from, although a copy was asked for. -/
theorem C72_wrapper_violated {T : Type} (mv : T → T) (b : T) (h : mv b ≠ b) :
    ∃ left, assignWrapper mv .byValue b .lvalue = some (b, left) ∧ left ≠ b := ⟨mv b, rfl, h⟩

example : assignWrapper (fun _ => "") .byValue "text" .lvalue = some ("text", "") ∧
    assignWrapper (fun _ => "") .byValue "text" .constLvalue = some ("text", "text") ∧
    assignWrapper (fun _ => "") .copyOnly "text" .lvalue = some ("text", "text") := ⟨rfl, rfl, rfl⟩

end Verif.Movable
