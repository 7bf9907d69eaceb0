import Verif.Movable.ModelMixed

/-!
# C158: movable wrappers made from wrappers
-/

namespace Verif.Movable.Mixed

/-! ## Specification: moving from a wrapper leaves it empty (construction) or with the value of the target (assignment), everything else leaves it alone -/

/-- What the target holds. -/
def meant (c : Ctx) (t s : Ty) (v : Val) : Val :=
  match t, s, v with
  | .literal u _, .literal k _, .num n => if t = s then .num n else .num (c.conv k u n)
  | _, _, v => v

def specStep (c : Ctx) (σ : Vars) : Stmt → Vars
  | .new i t v => σ.put i (t, v)
  | .construct i t j source =>
    match σ j with
    | some (s, v) => (if source = .rvalue then σ.put j (s, s.default) else σ).put i (t, meant c t s v)
    | none => σ
  | .assign i j source =>
    match σ i, σ j with
    | some (t, old), some (s, v) => (if source = .rvalue then σ.put j (s, old) else σ).put i (t, meant c t s v)
    | _, _ => σ
  | .destroy i => fun k => if k = i then none else σ k

def specRun (c : Ctx) (σ : Vars) (ss : List Stmt) : Vars := ss.foldl (specStep c) σ

/-- The conversion of a type to itself keeps the value. -/
def Ctx.Ok (c : Ctx) : Prop := ∀ t v, c.conv t t v = v

/-- The types that the variables have before a statement: moves are between variables of one type. -/
def SameTypeMoves (σ : Vars) : Stmt → Prop
  | .construct _ t j .rvalue => ∀ s v, σ j = some (s, v) → s = t
  | .assign i j .rvalue => ∀ s v t old, σ j = some (s, v) → σ i = some (t, old) → s = t
  | _ => True

/-- All moves of a program are between variables of one type. -/
def ProgramOk (c : Ctx) : Vars → List Stmt → Prop
  | _, [] => True
  | σ, s :: ss => SameTypeMoves σ s ∧ ∀ σ', step c σ s = some σ' → ProgramOk c σ' ss

/-! ## Proofs -/

private theorem put_self {σ : Vars} {j : Nat} {x : Ty × Val} (h : σ j = some x) : σ.put j x = σ := by
  funext k
  unfold Vars.put
  split
  · rename_i hk; rw [hk, h]
  · rfl

private theorem convert_meant {c : Ctx} (hc : c.Ok) (t s : Ty) (v : Val) : convert c t s v = meant c t s v := by
  unfold convert meant
  cases t <;> cases s <;> cases v <;> simp only
  split
  · rename_i h; cases h; rw [hc]
  · rfl

private theorem meant_same (c : Ctx) (t : Ty) (v : Val) : meant c t t v = v := by
  unfold meant
  cases t <;> cases v <;> simp

private theorem select_move {c : Ctx} {t s : Ty} {source : Source} (h : select c t s source = some .move) : source = .rvalue ∧ s = t := by
  unfold select at h
  cases t <;> cases s <;> simp only at h
  · split at h
    · rename_i hd
      split at h
      · rename_i hs; exact ⟨hs, by rw [hd]⟩
      · cases h
    · split at h <;> cases h
  · cases h
  · cases h
  · split at h
    · rename_i hd
      cases source <;> simp at h
      exact ⟨rfl, hd⟩
    · cases h

private theorem select_copy {c : Ctx} {t s : Ty} {source : Source} (h : select c t s source = some .copy) : source ≠ .rvalue ∧ s = t := by
  unfold select at h
  cases t <;> cases s <;> simp only at h
  · split at h
    · rename_i hd
      split at h
      · cases h
      · rename_i hs; exact ⟨hs, by rw [hd]⟩
    · split at h <;> cases h
  · cases h
  · cases h
  · split at h
    · rename_i hd
      cases source <;> simp at h
      exact ⟨by simp, hd⟩
    · cases h

private theorem select_same {c : Ctx} {t : Ty} : select c t t .rvalue = some .move := by
  unfold select
  cases t <;> simp

private theorem select_other {c : Ctx} {t s : Ty} {source : Source} {f : Fn} (hne : s ≠ t) (h : select c t s source = some f) : f = .pointer ∨ f = .template := by
  cases f with
  | copy => exact absurd (select_copy h).2 hne
  | move => exact absurd (select_move h).2 hne
  | pointer => exact .inl rfl
  | template => exact .inr rfl

private theorem step_spec {c : Ctx} (hc : c.Ok) {σ σ' : Vars} {s : Stmt} (hs : SameTypeMoves σ s) (h : step c σ s = some σ') : σ' = specStep c σ s := by
  cases s with
  | new i t v =>
    simp only [step] at h
    split at h
    · exact (Option.some.inj h).symm
    · cases h
  | destroy i => exact (Option.some.inj h).symm
  | construct i t j source =>
    simp only [step] at h
    split at h
    · rename_i s v hi hj
      split at h
      · rename_i f hf
        obtain rfl := Option.some.inj h
        simp only [specStep, hj]
        by_cases hr : source = .rvalue
        · subst hr
          obtain rfl := hs s v hj
          rw [select_same] at hf
          obtain rfl := Option.some.inj hf
          simp [construct, meant_same]
        · rw [if_neg hr]
          cases f with
          | move => exact absurd (select_move hf).1 hr
          | copy =>
            obtain rfl := (select_copy hf).2
            simp [construct, meant_same, put_self hj]
          | pointer => simp [construct, convert_meant hc, put_self hj]
          | template => simp [construct, convert_meant hc, put_self hj]
      · cases h
    · cases h
  | assign i j source =>
    simp only [step] at h
    split at h
    · cases h
    · split at h
      · rename_i t old s v hi hj
        split at h
        · rename_i f hf
          obtain rfl := Option.some.inj h
          simp only [specStep, hi, hj]
          by_cases hr : source = .rvalue
          · subst hr
            obtain rfl := hs s v t old hj hi
            rw [select_same] at hf
            obtain rfl := Option.some.inj hf
            simp [assign, meant_same]
          · rw [if_neg hr]
            cases f with
            | move => exact absurd (select_move hf).1 hr
            | copy =>
              obtain rfl := (select_copy hf).2
              simp [assign, meant_same, put_self hj]
            | pointer => simp [assign, convert_meant hc, put_self hj]
            | template => simp [assign, convert_meant hc, put_self hj]
        · cases h
      · cases h

/-! ## Theorems -/

/-- **C158** Programs that construct and assign wrappers from wrappers, of the same or of other types, lvalues, const lvalues and rvalues: if they compile and move between wrappers of one type only, every
variable holds what the specification says.  Missing (see the `_violated` theorem): moves between types. -/
theorem C158_programs_partial {c : Ctx} (hc : c.Ok) (ss : List Stmt) : ∀ {σ σ' : Vars}, ProgramOk c σ ss → run c σ ss = some σ' → σ' = specRun c σ ss := by
  induction ss with
  | nil => intro σ σ' _ h; exact (Option.some.inj h).symm
  | cons s ss ih =>
    intro σ σ' hp h
    simp only [run] at h
    split at h
    · rename_i σ1 h1
      have := step_spec hc hp.1 h1
      rw [ih (hp.2 _ h1) h, this]
      rfl
    · cases h

/-- **C158** Which of these constructions and assignments compile: pointers to the same or to a base class, numbers of any type. -/
theorem C158_compiles (c : Ctx) (t s : Ty) (source : Source) :
    (select c t s source).isSome ↔ (∃ b d, t = .ptr b ∧ s = .ptr d ∧ (d = b ∨ c.derives d b = true)) ∨ (∃ u x k y, t = .literal u x ∧ s = .literal k y) := by
  unfold select
  cases t with
  | ptr b =>
    cases s with
    | ptr d =>
      simp only
      constructor
      · intro h
        refine .inl ⟨b, d, rfl, rfl, ?_⟩
        by_cases hd : d = b
        · exact .inl hd
        · rw [if_neg hd] at h
          split at h
          · rename_i h'; exact .inr h'
          · cases h
      · rintro (⟨_, _, h1, h2, h⟩ | ⟨_, _, _, _, h, _⟩)
        · cases h1; cases h2
          by_cases hd : d = b
          · simp [hd]
          · rw [if_neg hd, if_pos (h.resolve_left hd)]; rfl
        · cases h
    | literal k y =>
      simp
  | literal u x =>
    cases s with
    | ptr d => simp
    | literal k y =>
      simp only
      constructor
      · intro _; exact .inr ⟨u, x, k, y, rfl, rfl⟩
      · intro _
        split
        · cases source <;> rfl
        · rfl

/-- **C158, violated** A wrapper moved into a wrapper of another type keeps its value, both in constructions and in assignments: for every pointer to a derived class that is
moved into a `MovablePtr` of a base class, both point to the object, as after a copy; for every `MovableLiteral` moved into one with another default value, the value stays. -/
theorem C158_moved_violated {c : Ctx} {σ σ' : Vars} {i j : Nat} {t s : Ty} {v : Val} (hne : s ≠ t) (hij : i ≠ j) (hj : σ j = some (s, v)) :
    (step c σ (.construct i t j .rvalue) = some σ' → σ' j = some (s, v) ∧ σ' i = some (t, convert c t s v)) ∧
    (∀ old, σ i = some (t, old) → step c σ (.assign i j .rvalue) = some σ' → σ' j = some (s, v) ∧ σ' i = some (t, convert c t s v)) ∧
    (∀ b d p, t = .ptr b → s = .ptr d → v = .obj p → convert c t s v = .obj p) := by
  refine ⟨?_, ?_, ?_⟩
  · intro h
    simp only [step, hj] at h
    split at h
    · rename_i hi hj'
      cases hj'
      split at h
      · rename_i f hf
        obtain rfl := Option.some.inj h
        rcases select_other hne hf with rfl | rfl <;>
          simp [construct, Vars.put, Ne.symm hij]
      · cases h
    · cases h
  · intro old hi h
    simp only [step, hj, hi, if_neg hij] at h
    split at h
    · rename_i f hf
      obtain rfl := Option.some.inj h
      rcases select_other hne hf with rfl | rfl <;>
        simp [assign, Vars.put, Ne.symm hij]
    · cases h
  · rintro b d p rfl rfl rfl; rfl

/-- **C158, violated** Copying a `MovableValue` of a class that can be made from anything, from a variable that is not const: the copy does not hold the value but a wrapper with the value, and after an
assignment the source has lost it. -/
theorem C158_any_violated (v : Any) :
    (anyConstruct v .lvalue).1 = .wrapper v ∧ (anyConstruct v .lvalue).1 ≠ v ∧ (anyAssign v .lvalue).1 ≠ v ∧ (v ≠ .empty → (anyAssign v .lvalue).2 ≠ v) ∧
    anyConstruct v .constLvalue = (v, v) ∧ anyAssign v .constLvalue = (v, v) ∧ (anyConstruct v .rvalue).1 = v ∧ (anyAssign v .rvalue).1 = v := by
  have key : ∀ v : Any, Any.wrapper v ≠ v := by
    intro v h
    have : sizeOf (Any.wrapper v) = sizeOf v := by rw [h]
    simp at this
  exact ⟨rfl, key v, key v, fun h => Ne.symm h, rfl, rfl, rfl, rfl⟩

/-! ### Examples: `MovablePtr<Derived> d(new Derived); MovablePtr<Derived> e(std::move(d)); MovablePtr<Base> b(e);` and `MovablePtr<Base> b(std::move(e));` -/

private def two : Ctx := ⟨fun d b => d == 1 && b == 0, fun _ _ v => v⟩

private def kept : List Stmt := [.new 0 (.ptr 1) (.obj 7), .construct 1 (.ptr 1) 0 .rvalue, .construct 2 (.ptr 0) 1 .lvalue]

example : two.Ok ∧ ProgramOk two (fun _ => none) kept ∧ (run two (fun _ => none) kept).isSome := by
  refine ⟨fun _ _ => rfl, ⟨trivial, fun σ1 h1 => ⟨?_, fun σ2 h2 => ⟨trivial, fun _ _ => trivial⟩⟩⟩, by decide +kernel⟩
  intro s v h
  obtain rfl := Option.some.inj (show some _ = some σ1 from h1)
  simp [Vars.put] at h
  exact h.1.symm

example : (run two (fun _ => none) [.new 0 (.ptr 1) (.obj 7), .construct 1 (.ptr 0) 0 .rvalue]).map (fun σ => (σ 0, σ 1)) =
    some (some (.ptr 1, .obj 7), some (.ptr 0, .obj 7)) := by decide +kernel

end Verif.Movable.Mixed
