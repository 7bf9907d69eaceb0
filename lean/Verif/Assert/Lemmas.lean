import Verif.Assert.Spec

namespace Verif.Assert
open Spec
variable {S : Type}

/-- The grammar is unambiguous. -/
theorem Parse.det {k : Kind} {ts : List (Tok S)} {p : Stmt S} {r : List (Tok S)} (h : Parse k ts p r) :
    ∀ {q r'}, Parse k ts q r' → p = q ∧ r = r' := by
  induction h with
  | empty | act | assert | failure => intro q r' h'; cases h'; exact ⟨rfl, rfl⟩
  | block _ ih =>
    intro q r' h'
    cases h' with
    | block h' => obtain ⟨h1, h2⟩ := ih h'; cases h2; exact ⟨h1, rfl⟩
  | ite c _ hn ih =>
    intro q r' h'
    cases h' with
    | ite _ h' _ => obtain ⟨rfl, rfl⟩ := ih h'; exact ⟨rfl, rfl⟩
    | iteElse _ h' _ => obtain ⟨rfl, rfl⟩ := ih h'; exact absurd trivial hn
  | iteElse c _ _ ih1 ih2 =>
    intro q r' h'
    cases h' with
    | ite _ h' hn => obtain ⟨rfl, rfl⟩ := ih1 h'; exact absurd trivial hn
    | iteElse _ h1 h2 =>
      obtain ⟨rfl, h⟩ := ih1 h1
      cases h
      obtain ⟨rfl, rfl⟩ := ih2 h2; exact ⟨rfl, rfl⟩
  | loop c _ ih =>
    intro q r' h'
    cases h' with
    | loop _ h' => obtain ⟨rfl, rfl⟩ := ih h'; exact ⟨rfl, rfl⟩
  | doLoop _ ih =>
    intro q r' h'
    cases h' with
    | doLoop h' => obtain ⟨rfl, h⟩ := ih h'; cases h; exact ⟨rfl, rfl⟩
  | nil he =>
    intro q r' h'
    cases h' with
    | nil => exact ⟨rfl, rfl⟩
    | cons h1 _ => cases h1 <;> exact he.elim
  | cons h1 _ ih1 ih2 =>
    intro q r' h'
    cases h' with
    | nil he => cases h1 <;> exact he.elim
    | cons h1 h2 =>
      obtain ⟨rfl, rfl⟩ := ih1 h1
      obtain ⟨rfl, rfl⟩ := ih2 h2
      exact ⟨rfl, rfl⟩

/-- What follows a parsed statement is the end of the tokens. -/
theorem Parse.suffix {k : Kind} {ts : List (Tok S)} {p : Stmt S} {r : List (Tok S)} (h : Parse k ts p r) : ∃ b, ts = b ++ r := by
  induction h with
  | empty r => exact ⟨[.semi], rfl⟩
  | act f r => exact ⟨[.act f, .semi], rfl⟩
  | assert c r => exact ⟨[.assert c, .semi], rfl⟩
  | failure r => exact ⟨[.failure, .semi], rfl⟩
  | block _ ih => obtain ⟨b, rfl⟩ := ih; exact ⟨.lbrace :: (b ++ [.rbrace]), by simp⟩
  | ite c _ _ ih => obtain ⟨b, rfl⟩ := ih; exact ⟨.kif c :: b, rfl⟩
  | iteElse c _ _ ih1 ih2 =>
    obtain ⟨b, rfl⟩ := ih1; obtain ⟨b', rfl⟩ := ih2; exact ⟨.kif c :: (b ++ .kelse :: b'), by simp⟩
  | loop c _ ih => obtain ⟨b, rfl⟩ := ih; exact ⟨.kwhile c :: b, rfl⟩
  | @doLoop _ _ c r _ ih => obtain ⟨b, rfl⟩ := ih; exact ⟨.kdo :: (b ++ [.kwhile c, .semi]), by simp⟩
  | nil => exact ⟨[], rfl⟩
  | cons _ _ ih1 ih2 => obtain ⟨b, rfl⟩ := ih1; obtain ⟨b', rfl⟩ := ih2; exact ⟨b ++ b', by simp⟩

theorem noAssertElse_drop {b r : List (Tok S)} (h : NoAssertElse (b ++ r)) : NoAssertElse r := by
  rintro ⟨b', c, a, rfl⟩
  exact h ⟨b ++ b', c, a, by simp⟩

theorem noAssertElse_tail {t : Tok S} {r : List (Tok S)} (h : NoAssertElse (t :: r)) : NoAssertElse r :=
  noAssertElse_drop (b := [t]) h

theorem Parse.clean {k : Kind} {ts : List (Tok S)} {p : Stmt S} {r : List (Tok S)} (h : Parse k ts p r)
    (hc : NoAssertElse ts) : NoAssertElse r := by
  obtain ⟨b, rfl⟩ := h.suffix
  exact noAssertElse_drop hc

/-- The statements after the expansion. -/
def expandStmt (enabled : Bool) : Stmt S → Stmt S
  | .skip => .skip
  | .act f => .act f
  | .assert c => if enabled then .ite (fun s => !c s) .failure else .doLoop .skip (fun _ => false)
  | .failure => .failure
  | .seq a b => .seq (expandStmt enabled a) (expandStmt enabled b)
  | .ite c a => .ite c (expandStmt enabled a)
  | .iteElse c a b => .iteElse c (expandStmt enabled a) (expandStmt enabled b)
  | .loop c a => .loop c (expandStmt enabled a)
  | .doLoop a c => .doLoop (expandStmt enabled a) c

theorem expand_cons (e : Bool) (t : Tok S) (ts : List (Tok S)) : expand e (t :: ts) = expandTok e t ++ expand e ts := by
  simp [expand]

theorem not_else_expand {e : Bool} {r : List (Tok S)} (h : ¬ startsWithElse r) : ¬ startsWithElse (expand e r) := by
  cases r with
  | nil => exact h
  | cons t r =>
    rw [expand_cons]
    cases t with
    | assert c => cases e <;> exact fun h => h.elim
    | kelse => exact absurd trivial h
    | _ => exact fun h => h.elim

theorem atEnd_expand {e : Bool} {r : List (Tok S)} (h : atEnd r) : atEnd (expand e r) := by
  cases r with
  | nil => exact h
  | cons t r => cases t <;> first | exact h.elim | exact trivial

/-- The expansion parses to the expanded statements. -/
theorem Parse.expand {k : Kind} {ts : List (Tok S)} {p : Stmt S} {r : List (Tok S)} (e : Bool) (h : Parse k ts p r) :
    (e = true → NoAssertElse ts) → Parse k (expand e ts) (expandStmt e p) (expand e r) := by
  induction h with
  | empty r => intro _; exact .empty _
  | act f r => intro _; exact .act _ _
  | assert c r =>
    intro hc
    cases e with
    | false => exact .doLoop (.block (.nil trivial))
    | true =>
      refine .ite _ (.failure _) (not_else_expand ?_)
      intro h
      cases r with
      | nil => exact h
      | cons t r =>
        cases t with
        | kelse => exact hc rfl ⟨[], c, r, rfl⟩
        | _ => exact h
  | failure r => intro _; exact .failure _
  | block _ ih => intro hc; exact .block (ih fun h => noAssertElse_tail (hc h))
  | ite c _ hn ih => intro hc; exact .ite _ (ih fun h => noAssertElse_tail (hc h)) (not_else_expand hn)
  | iteElse c h1 _ ih1 ih2 =>
    intro hc
    exact .iteElse _ (ih1 fun h => noAssertElse_tail (hc h)) (ih2 fun h => noAssertElse_tail (h1.clean (noAssertElse_tail (hc h))))
  | loop c _ ih => intro hc; exact .loop _ (ih fun h => noAssertElse_tail (hc h))
  | doLoop _ ih => intro hc; exact .doLoop (ih fun h => noAssertElse_tail (hc h))
  | nil he => intro _; exact .nil (atEnd_expand he)
  | cons h1 _ ih1 ih2 => intro hc; exact .cons (ih1 hc) (ih2 fun h => h1.clean (hc h))

/-- Executions of the expanded statements are those of the statements as written. -/
theorem exec_of_meaning (e : Bool) {p : Stmt S} {s : S} {o : End S} (h : Meaning e p s o) : Exec (expandStmt e p) s o := by
  induction h with
  | assertHolds hc =>
    cases e with
    | false => exact .doFalse (.skip _) rfl
    | true => exact .iteFalse (by simp [hc])
  | assertIgnored he => subst he; exact .doFalse (.skip _) rfl
  | assertFails he hc => subst he; exact .iteTrue (by simp [hc]) (.failure _)
  | skip | act | failure => constructor
  | seq _ _ ih1 ih2 => exact .seq ih1 ih2
  | seqFailed _ ih => exact .seqFailed ih
  | iteTrue hc _ ih => exact .iteTrue hc ih
  | iteFalse hc => exact .iteFalse hc
  | elseTrue hc _ ih => exact .elseTrue hc ih
  | elseFalse hc _ ih => exact .elseFalse hc ih
  | loopFalse hc => exact .loopFalse hc
  | loopTrue hc _ _ ih1 ih2 => exact .loopTrue hc ih1 ih2
  | loopFailed hc _ ih => exact .loopFailed hc ih
  | doFalse _ hc ih => exact .doFalse ih hc
  | doTrue _ hc _ ih1 ih2 => exact .doTrue ih1 hc ih2
  | doFailed _ ih => exact .doFailed ih

theorem meaning_of_exec (e : Bool) {q : Stmt S} {s : S} {o : End S} (h : Exec q s o) :
    ∀ {p : Stmt S}, expandStmt e p = q → Meaning e p s o := by
  have key : ∀ {p : Stmt S} {q : Stmt S} {s : S} {o : End S}, Exec q s o → expandStmt e p = q → ∀ c, p = .assert c →
      Meaning e p s o := by
    intro p q s o h hq c hp
    subst hp
    cases e with
    | true =>
      simp only [expandStmt, if_true] at hq
      subst hq
      cases h with
      | iteTrue hc h =>
        cases h
        exact .assertFails rfl (by simpa using hc)
      | iteFalse hc => exact .assertHolds (by simpa using hc)
    | false =>
      simp only [expandStmt, Bool.false_eq_true, if_false] at hq
      subst hq
      cases h with
      | doFalse h _ => cases h; exact .assertIgnored rfl
      | doTrue _ hc _ => exact absurd hc (by simp)
      | doFailed h => cases h
  induction h with
  | skip s =>
    intro p hp
    cases p with
    | skip => exact .skip s
    | assert c => exact key (.skip s) hp c rfl
    | _ => simp [expandStmt] at hp
  | act f s =>
    intro p hp
    cases p with
    | act g => simp only [expandStmt, Stmt.act.injEq] at hp; obtain rfl := hp; exact .act _ s
    | assert c => exact key (.act f s) hp c rfl
    | _ => simp [expandStmt] at hp
  | failure s =>
    intro p hp
    cases p with
    | failure => exact .failure s
    | assert c => exact key (.failure s) hp c rfl
    | _ => simp [expandStmt] at hp
  | seq h1 h2 ih1 ih2 =>
    intro p hp
    cases p with
    | seq a b => simp only [expandStmt, Stmt.seq.injEq] at hp; obtain ⟨rfl, rfl⟩ := hp; exact .seq (ih1 rfl) (ih2 rfl)
    | assert c => exact key (.seq h1 h2) hp c rfl
    | _ => simp [expandStmt] at hp
  | seqFailed h1 ih1 =>
    intro p hp
    cases p with
    | seq a b => simp only [expandStmt, Stmt.seq.injEq] at hp; obtain ⟨rfl, rfl⟩ := hp; exact .seqFailed (ih1 rfl)
    | assert c => exact key (.seqFailed h1) hp c rfl
    | _ => simp [expandStmt] at hp
  | iteTrue hc h1 ih1 =>
    intro p hp
    cases p with
    | ite d a => simp only [expandStmt, Stmt.ite.injEq] at hp; obtain ⟨rfl, rfl⟩ := hp; exact .iteTrue hc (ih1 rfl)
    | assert c => exact key (.iteTrue hc h1) hp c rfl
    | _ => simp [expandStmt] at hp
  | iteFalse hc =>
    intro p hp
    cases p with
    | ite d a => simp only [expandStmt, Stmt.ite.injEq] at hp; obtain ⟨rfl, rfl⟩ := hp; exact .iteFalse hc
    | assert c => exact key (.iteFalse hc) hp c rfl
    | _ => simp [expandStmt] at hp
  | elseTrue hc h1 ih1 =>
    intro p hp
    cases p with
    | iteElse d a b => simp only [expandStmt, Stmt.iteElse.injEq] at hp; obtain ⟨rfl, rfl, rfl⟩ := hp; exact .elseTrue hc (ih1 rfl)
    | assert c => exact key (.elseTrue hc h1) hp c rfl
    | _ => simp [expandStmt] at hp
  | elseFalse hc h1 ih1 =>
    intro p hp
    cases p with
    | iteElse d a b => simp only [expandStmt, Stmt.iteElse.injEq] at hp; obtain ⟨rfl, rfl, rfl⟩ := hp; exact .elseFalse hc (ih1 rfl)
    | assert c => exact key (.elseFalse hc h1) hp c rfl
    | _ => simp [expandStmt] at hp
  | loopFalse hc =>
    intro p hp
    cases p with
    | loop d a => simp only [expandStmt, Stmt.loop.injEq] at hp; obtain ⟨rfl, rfl⟩ := hp; exact .loopFalse hc
    | assert c => exact key (.loopFalse hc) hp c rfl
    | _ => simp [expandStmt] at hp
  | loopTrue hc h1 h2 ih1 ih2 =>
    intro p hp
    cases p with
    | loop d a => simp only [expandStmt, Stmt.loop.injEq] at hp; obtain ⟨rfl, rfl⟩ := hp; exact .loopTrue hc (ih1 rfl) (ih2 rfl)
    | assert c => exact key (.loopTrue hc h1 h2) hp c rfl
    | _ => simp [expandStmt] at hp
  | loopFailed hc h1 ih1 =>
    intro p hp
    cases p with
    | loop d a => simp only [expandStmt, Stmt.loop.injEq] at hp; obtain ⟨rfl, rfl⟩ := hp; exact .loopFailed hc (ih1 rfl)
    | assert c => exact key (.loopFailed hc h1) hp c rfl
    | _ => simp [expandStmt] at hp
  | doFalse h1 hc ih1 =>
    intro p hp
    cases p with
    | doLoop a d => simp only [expandStmt, Stmt.doLoop.injEq] at hp; obtain ⟨rfl, rfl⟩ := hp; exact .doFalse (ih1 rfl) hc
    | assert c => exact key (.doFalse h1 hc) hp c rfl
    | _ => simp [expandStmt] at hp
  | doTrue h1 hc h2 ih1 ih2 =>
    intro p hp
    cases p with
    | doLoop a d => simp only [expandStmt, Stmt.doLoop.injEq] at hp; obtain ⟨rfl, rfl⟩ := hp; exact .doTrue (ih1 rfl) hc (ih2 rfl)
    | assert c => exact key (.doTrue h1 hc h2) hp c rfl
    | _ => simp [expandStmt] at hp
  | doFailed h1 ih1 =>
    intro p hp
    cases p with
    | doLoop a d => simp only [expandStmt, Stmt.doLoop.injEq] at hp; obtain ⟨rfl, rfl⟩ := hp; exact .doFailed (ih1 rfl)
    | assert c => exact key (.doFailed h1) hp c rfl
    | _ => simp [expandStmt] at hp

/-- A run with checks that ends normally is a run without. -/
theorem meaning_unchecked {p : Stmt S} {s : S} {o : End S} (h : Meaning true p s o) : ∀ {s'}, o = .done s' →
    Meaning false p s (.done s') := by
  induction h with
  | assertHolds hc => rintro _ ⟨⟩; exact .assertHolds hc
  | assertIgnored he => exact absurd he (by simp)
  | assertFails => rintro _ ⟨⟩
  | skip => rintro _ ⟨⟩; exact .skip _
  | act => rintro _ ⟨⟩; exact .act _ _
  | failure => rintro _ ⟨⟩
  | seq _ _ ih1 ih2 => intro s' h; exact .seq (ih1 rfl) (ih2 h)
  | seqFailed _ _ => rintro _ ⟨⟩
  | iteTrue hc _ ih => intro s' h; exact .iteTrue hc (ih h)
  | iteFalse hc => rintro _ ⟨⟩; exact .iteFalse hc
  | elseTrue hc _ ih => intro s' h; exact .elseTrue hc (ih h)
  | elseFalse hc _ ih => intro s' h; exact .elseFalse hc (ih h)
  | loopFalse hc => rintro _ ⟨⟩; exact .loopFalse hc
  | loopTrue hc _ _ ih1 ih2 => intro s' h; exact .loopTrue hc (ih1 rfl) (ih2 h)
  | loopFailed _ _ _ => rintro _ ⟨⟩
  | doFalse _ hc ih => rintro _ ⟨⟩; exact .doFalse (ih rfl) hc
  | doTrue _ hc _ ih1 ih2 => intro s' h; exact .doTrue (ih1 rfl) hc (ih2 h)
  | doFailed _ _ => rintro _ ⟨⟩

/-- A run without checks is a run with checks, unless an assertion fails. -/
theorem meaning_checked {p : Stmt S} {s : S} {o : End S} (h : Meaning false p s o) :
    Meaning true p s o ∨ ∃ s', Meaning true p s (.failed s') := by
  induction h with
  | assertHolds hc => exact .inl (.assertHolds hc)
  | @assertIgnored c s he =>
    cases hc : c s with
    | true => exact .inl (.assertHolds hc)
    | false => exact .inr ⟨s, .assertFails rfl hc⟩
  | assertFails he => exact absurd he (by simp)
  | skip => exact .inl (.skip _)
  | act => exact .inl (.act _ _)
  | failure => exact .inl (.failure _)
  | seq _ _ ih1 ih2 =>
    rcases ih1 with h1 | ⟨s', h1⟩
    · rcases ih2 with h2 | ⟨s', h2⟩
      · exact .inl (.seq h1 h2)
      · exact .inr ⟨_, .seq h1 h2⟩
    · exact .inr ⟨_, .seqFailed h1⟩
  | seqFailed _ ih =>
    rcases ih with h1 | ⟨s', h1⟩
    · exact .inl (.seqFailed h1)
    · exact .inr ⟨_, .seqFailed h1⟩
  | iteTrue hc _ ih =>
    rcases ih with h1 | ⟨s', h1⟩
    · exact .inl (.iteTrue hc h1)
    · exact .inr ⟨_, .iteTrue hc h1⟩
  | iteFalse hc => exact .inl (.iteFalse hc)
  | elseTrue hc _ ih =>
    rcases ih with h1 | ⟨s', h1⟩
    · exact .inl (.elseTrue hc h1)
    · exact .inr ⟨_, .elseTrue hc h1⟩
  | elseFalse hc _ ih =>
    rcases ih with h1 | ⟨s', h1⟩
    · exact .inl (.elseFalse hc h1)
    · exact .inr ⟨_, .elseFalse hc h1⟩
  | loopFalse hc => exact .inl (.loopFalse hc)
  | loopTrue hc _ _ ih1 ih2 =>
    rcases ih1 with h1 | ⟨s', h1⟩
    · rcases ih2 with h2 | ⟨s', h2⟩
      · exact .inl (.loopTrue hc h1 h2)
      · exact .inr ⟨_, .loopTrue hc h1 h2⟩
    · exact .inr ⟨_, .loopFailed hc h1⟩
  | loopFailed hc _ ih =>
    rcases ih with h1 | ⟨s', h1⟩
    · exact .inl (.loopFailed hc h1)
    · exact .inr ⟨_, .loopFailed hc h1⟩
  | doFalse _ hc ih =>
    rcases ih with h1 | ⟨s', h1⟩
    · exact .inl (.doFalse h1 hc)
    · exact .inr ⟨_, .doFailed h1⟩
  | doTrue _ hc _ ih1 ih2 =>
    rcases ih1 with h1 | ⟨s', h1⟩
    · rcases ih2 with h2 | ⟨s', h2⟩
      · exact .inl (.doTrue h1 hc h2)
      · exact .inr ⟨_, .doTrue h1 hc h2⟩
    · exact .inr ⟨_, .doFailed h1⟩
  | doFailed _ ih =>
    rcases ih with h1 | ⟨s', h1⟩
    · exact .inl (.doFailed h1)
    · exact .inr ⟨_, .doFailed h1⟩

/-- The execution of a program is determined. -/
theorem Exec.det {q : Stmt S} {s : S} {o : End S} (h : Exec q s o) : ∀ {o'}, Exec q s o' → o = o' := by
  induction h with
  | skip | act | failure => intro o' h'; cases h'; rfl
  | seq _ _ ih1 ih2 =>
    intro o' h'
    cases h' with
    | seq h1 h2 => cases ih1 h1; exact ih2 h2
    | seqFailed h1 => cases ih1 h1
  | seqFailed _ ih =>
    intro o' h'
    cases h' with
    | seq h1 h2 => cases ih h1
    | seqFailed h1 => exact ih h1
  | iteTrue hc _ ih =>
    intro o' h'
    cases h' with
    | iteTrue _ h1 => exact ih h1
    | iteFalse hc' => rw [hc] at hc'; cases hc'
  | iteFalse hc =>
    intro o' h'
    cases h' with
    | iteTrue hc' h1 => rw [hc] at hc'; cases hc'
    | iteFalse hc' => rfl
  | elseTrue hc _ ih =>
    intro o' h'
    cases h' with
    | elseTrue _ h1 => exact ih h1
    | elseFalse hc' => rw [hc] at hc'; cases hc'
  | elseFalse hc _ ih =>
    intro o' h'
    cases h' with
    | elseTrue hc' h1 => rw [hc] at hc'; cases hc'
    | elseFalse _ h1 => exact ih h1
  | loopFalse hc =>
    intro o' h'
    cases h' with
    | loopFalse => rfl
    | loopTrue hc' | loopFailed hc' => rw [hc] at hc'; cases hc'
  | loopTrue hc _ _ ih1 ih2 =>
    intro o' h'
    cases h' with
    | loopFalse hc' => rw [hc] at hc'; cases hc'
    | loopTrue _ h1 h2 => cases ih1 h1; exact ih2 h2
    | loopFailed _ h1 => cases ih1 h1
  | loopFailed hc _ ih =>
    intro o' h'
    cases h' with
    | loopFalse hc' => rw [hc] at hc'; cases hc'
    | loopTrue _ h1 h2 => cases ih h1
    | loopFailed _ h1 => exact ih h1
  | doFalse _ hc ih =>
    intro o' h'
    cases h' with
    | doFalse h1 _ => exact ih h1
    | doTrue h1 hc' => cases ih h1; rw [hc] at hc'; cases hc'
    | doFailed h1 => cases ih h1
  | doTrue _ hc _ ih1 ih2 =>
    intro o' h'
    cases h' with
    | doFalse h1 hc' => cases ih1 h1; rw [hc] at hc'; cases hc'
    | doTrue h1 _ h2 => cases ih1 h1; exact ih2 h2
    | doFailed h1 => cases ih1 h1
  | doFailed _ ih =>
    intro o' h'
    cases h' with
    | doFalse h1 _ => cases ih h1
    | doTrue h1 _ _ => cases ih h1
    | doFailed h1 => exact ih h1

end Verif.Assert
