import Verif.Assert.Lemmas

/-!
# Assertions: what the macros mean in a program, and what a failure reports
-/

namespace Verif.Assert
open Spec
variable {S : Type}

/-! ## C86: an assertion is a statement of its own -/

/-- With assertions disabled, every program that is correctly written still is, in one way only, and does what it says
without its assertions: wherever they stand. -/
theorem C86_disabled {ts : List (Tok S)} {p : Stmt S} (h : Body ts p) :
    ∃ q, Body (expand false ts) q ∧ (∀ q', Body (expand false ts) q' → q' = q) ∧
      ∀ s o, Exec q s o ↔ Meaning false p s o := by
  have hq := Parse.expand false h (by simp)
  exact ⟨_, hq, fun q' h' => (h'.det hq).1, fun s o => ⟨fun h => meaning_of_exec false h rfl, exec_of_meaning false⟩⟩

/-- With assertions enabled, every program in which no assertion is directly followed by an `else` does what it says, with
its assertions checked.  (Missing from the full statement: programs with an assertion followed by `else`, for which it is
false, `C86_else_violated`.) -/
theorem C86_enabled_partial {ts : List (Tok S)} {p : Stmt S} (h : Body ts p) (hc : NoAssertElse ts) :
    ∃ q, Body (expand true ts) q ∧ (∀ q', Body (expand true ts) q' → q' = q) ∧
      ∀ s o, Exec q s o ↔ Meaning true p s o := by
  have hq := Parse.expand true h fun _ => hc
  exact ⟨_, hq, fun q' h' => (h'.det hq).1, fun s o => ⟨fun h => meaning_of_exec true h rfl, exec_of_meaning true⟩⟩

/-- So enabling the assertions changes nothing but that the program may be ended by a failed one: what is reached with
assertions is reached without, and what is reached without is reached with them unless one fails. -/
theorem C86_same_partial {ts : List (Tok S)} {p : Stmt S} (h : Body ts p) (hc : NoAssertElse ts) :
    ∃ on off, Body (expand true ts) on ∧ Body (expand false ts) off ∧
      (∀ s s', Exec on s (.done s') → Exec off s (.done s')) ∧
      (∀ s o, Exec off s o → Exec on s o ∨ ∃ s', Exec on s (.failed s')) := by
  refine ⟨_, _, Parse.expand true h fun _ => hc, Parse.expand false h (by simp), fun s s' hs => ?_, fun s o hs => ?_⟩
  · exact exec_of_meaning false (meaning_unchecked (meaning_of_exec true hs rfl) rfl)
  · rcases meaning_checked (meaning_of_exec false hs rfl) with h | ⟨s', h⟩
    · exact .inl (exec_of_meaning true h)
    · exact .inr ⟨s', exec_of_meaning true h⟩

/-- `if (a) NazaraAssert(c); else B`, for every `a`, `c` and `B`: with assertions enabled the `else` belongs to the hidden
`if` of the macro.  `B` is executed where `a` and `c` hold, where it should not be, and is not executed where `a` does not
hold, where it should be; the failure is still reported. -/
theorem C86_else_violated (a c : S → Bool) {us : List (Tok S)} {b : Stmt S} (hb : Parse .one us b [])
    (hc : NoAssertElse us) :
    Body (.kif a :: .assert c :: .semi :: .kelse :: us) (.seq (.iteElse a (.assert c) b) .skip) ∧
    ∃ q, Body (expand true (.kif a :: .assert c :: .semi :: .kelse :: us)) q ∧
      ∀ s, (a s = true → c s = true → ∀ o, Exec q s o ↔ Meaning true b s o) ∧
        (a s = true → c s = false → ∀ o, Exec q s o ↔ o = .failed s) ∧
        (a s = false → ∀ o, Exec q s o ↔ o = .done s) := by
  have hb' : Parse .one (expand true us) (expandStmt true b) [] := Parse.expand true hb fun _ => hc
  refine ⟨.cons (.iteElse _ (.assert _ _) hb) (.nil trivial),
    .seq (.ite a (.iteElse (fun s => !c s) .failure (expandStmt true b))) .skip, ?_, fun s => ⟨?_, ?_, ?_⟩⟩
  · exact .cons (.ite _ (.iteElse _ (.failure _) hb') (fun h => h)) (.nil trivial)
  · intro ha hcs o
    constructor
    · intro h
      cases h with
      | seq h1 h2 =>
        cases h2
        cases h1 with
        | iteTrue _ h1 =>
          cases h1 with
          | elseTrue h _ => simp [hcs] at h
          | elseFalse _ h => exact meaning_of_exec true h rfl
        | iteFalse h => rw [ha] at h; cases h
      | seqFailed h1 =>
        cases h1 with
        | iteTrue _ h1 =>
          cases h1 with
          | elseTrue h _ => simp [hcs] at h
          | elseFalse _ h => exact meaning_of_exec true h rfl
    · intro h
      have h := exec_of_meaning true h
      cases o with
      | done s' => exact .seq (.iteTrue ha (.elseFalse (by simp [hcs]) h)) (.skip _)
      | failed s' => exact .seqFailed (.iteTrue ha (.elseFalse (by simp [hcs]) h))
  · intro ha hcs o
    have h : Exec (.seq (.ite a (.iteElse (fun s => !c s) .failure (expandStmt true b))) .skip) s (.failed s) :=
      .seqFailed (.iteTrue ha (.elseTrue (by simp [hcs]) (.failure _)))
    exact ⟨fun h' => h'.det h, fun h' => h' ▸ h⟩
  · intro ha o
    have h : Exec (.seq (.ite a (.iteElse (fun s => !c s) .failure (expandStmt true b))) .skip) s (.done s) :=
      .seq (.iteFalse ha) (.skip _)
    exact ⟨fun h' => h'.det h, fun h' => h' ▸ h⟩

/-- A program with an assertion in a loop, and one between `if` and `else` but in braces, meets the hypotheses:
`while (s > 0) { NazaraAssert(s < 100); --s; }  if (s == 0) { NazaraAssert(s == 0); } else s = 7;` -/
example : ∃ p, Body (S := Nat) [.kwhile (fun s => decide (s > 0)), .lbrace, .assert (fun s => decide (s < 100)), .semi,
      .act (fun s => s - 1), .semi, .rbrace, .kif (fun s => s == 0), .lbrace, .assert (fun s => s == 0), .semi, .rbrace,
      .kelse, .act (fun _ => 7), .semi] p :=
  ⟨_, .cons (.loop _ (.block (.cons (.assert _ _) (.cons (.act _ _) (.nil trivial)))))
    (.cons (.iteElse _ (.block (.cons (.assert _ _) (.nil trivial))) (.act _ _)) (.nil trivial))⟩

example : NoAssertElse (S := Nat) [.kwhile (fun s => decide (s > 0)), .lbrace, .assert (fun s => decide (s < 100)), .semi,
      .act (fun s => s - 1), .semi, .rbrace, .kif (fun s => s == 0), .lbrace, .assert (fun s => s == 0), .semi, .rbrace,
      .kelse, .act (fun _ => 7), .semi] := by
  rintro ⟨b, c, a, h⟩
  have := congrArg List.length h
  simp only [List.length_append, List.length_cons, List.length_nil] at this
  have hb : b.length ≤ 12 := by omega
  rcases b with _ | ⟨_, _ | ⟨_, _ | ⟨_, _ | ⟨_, _ | ⟨_, _ | ⟨_, _ | ⟨_, _ | ⟨_, _ | ⟨_, _ | ⟨_, _ | ⟨_, _ | ⟨_, _ | ⟨_, b⟩⟩⟩⟩⟩⟩⟩⟩⟩⟩⟩⟩⟩ <;>
    simp at h
  simp at hb

/-- The violation changes what a program does: `if (s > 5) NazaraAssert(s < 100); else s = 0;` from 7. -/
example : ∃ q, Body (expand true (.kif (fun s : Nat => decide (s > 5)) :: .assert (fun s => decide (s < 100)) :: .semi :: .kelse ::
      [.act (fun _ => 0), .semi])) q ∧ Exec q 7 (.done 0) ∧ Exec q 3 (.done 3) := by
  obtain ⟨_, q, hq, h⟩ := C86_else_violated (fun s : Nat => decide (s > 5)) (fun s => decide (s < 100))
    (us := [.act (fun _ => 0), .semi]) (.act _ _) (by
      rintro ⟨b, c, a, h⟩
      rcases b with _ | ⟨_, _ | ⟨_, b⟩⟩ <;> simp at h)
  exact ⟨q, hq, ((h 7).1 rfl rfl _).2 (.act _ _), ((h 3).2.2 rfl _).2 rfl⟩

/-! ## C87: a failed assertion is reported and never returns -/

/-- None of the failure functions returns: at run time they abort, in a constant expression they throw (so the expression
is not constant) and write nothing. -/
theorem C87_never_returns (file : List Char) (line : Nat) (message : List Char) (args : List Arg) (ctx : Context)
    (text : List Char) (e : Ending)
    (h : assertFailure false ctx = some (text, e) ∨ assertFailureMsg false message args ctx = some (text, e) ∨
      assertFailureWithSource false file line message args ctx = some (text, e)) :
    (ctx = .runTime ∧ e = .aborts) ∨ (ctx = .constant ∧ e = .throws ∧ text = []) := by
  cases ctx with
  | constant =>
    right
    simp only [assertFailure, assertFailureMsg, assertFailureWithSource, Bool.not_false, if_true, Option.some.injEq,
      Prod.mk.injEq] at h
    rcases h with h | h | h <;> exact ⟨rfl, h.2.symm, h.1.symm⟩
  | runTime =>
    left
    refine ⟨rfl, ?_⟩
    rcases h with h | h | h
    · simp only [assertFailure, Option.some.injEq, Prod.mk.injEq] at h
      exact h.2.symm
    · simp only [assertFailureMsg] at h
      split at h <;> simp only [Option.bind_eq_bind, Option.bind_eq_some_iff, Option.pure_def, Option.some.injEq,
        Prod.mk.injEq] at h
      · obtain ⟨_, _, _, h⟩ := h; exact h.symm
      · obtain ⟨_, _, _, h⟩ := h; exact h.symm
    · simp only [assertFailureWithSource] at h
      split at h <;> simp only [Option.bind_eq_bind, Option.bind_eq_some_iff, Option.pure_def, Option.some.injEq,
        Prod.mk.injEq] at h
      · obtain ⟨_, _, _, _, _, h⟩ := h; exact h.symm
      · obtain ⟨_, _, _, h⟩ := h; exact h.symm

theorem printf_str (s : List Char) (f : List Char) (as : List Arg) :
    printf ('%' :: 's' :: f) (.str s :: as) = (printf f as).map (s ++ ·) := by
  rw [printf]

theorem printf_int (n : Int) (f : List Char) (as : List Arg) :
    printf ('%' :: 'd' :: f) (.int n :: as) = (printf f as).map (digits n ++ ·) := by
  rw [printf]

theorem digits_nat (n : Nat) : digits (n : Int) = (toString n).toList := by
  have : toString (n : Int) = toString n := by
    show Int.repr (Int.ofNat n) = Nat.repr n
    simp [Int.repr]
  rw [digits, this]

/-- Text without `%` is written as it is. -/
theorem printf_plain (t : List Char) (ht : '%' ∉ t) (f : List Char) (as : List Arg) :
    printf (t ++ f) as = (printf f as).map (t ++ ·) := by
  induction t with
  | nil => simp
  | cons c t ih =>
    simp only [List.mem_cons, not_or] at ht
    have hc : c ≠ '%' := fun h => ht.1 h.symm
    rw [List.cons_append, printf, ih ht.2]
    · rw [Option.map_map]; rfl
    all_goals (intros; first | simp [hc] | exact absurd ‹_› hc | simp_all)

/-- The text of an assertion without arguments is written as it is, whatever characters it has (a condition with `%` such
as `a % b == 0` too), followed by the place. -/
theorem C87_verbatim (file : List Char) (line : Nat) (message : List Char) :
    assertFailureWithSource false file line message [] .runTime =
      some (("assertion failed: ".toList ++ message ++ " at ".toList ++ file ++ ":".toList ++ (toString line).toList ++
        "\n".toList), .aborts) ∧
    assertFailureMsg false message [] .runTime =
      some ("assertion failed: ".toList ++ message ++ "\n".toList, .aborts) := by
  have h1 : puts "assertion failed: %s at %s:%d\n" =
      puts "assertion failed: " ++ ('%' :: 's' :: (puts " at " ++ ('%' :: 's' :: (puts ":" ++ ('%' :: 'd' :: (puts "\n" ++ [])))))) := by
    decide
  have h2 : puts "assertion failed: %s\n" = puts "assertion failed: " ++ ('%' :: 's' :: (puts "\n" ++ [])) := by decide
  constructor
  · simp only [assertFailureWithSource, List.length_nil, Nat.lt_irrefl, gt_iff_lt, if_false]
    rw [h1, printf_plain _ (by decide), printf_str, printf_plain _ (by decide), printf_str, printf_plain _ (by decide),
      printf_int, printf_plain _ (by decide)]
    simp [printf, puts, digits_nat]
  · simp only [assertFailureMsg, List.length_nil, Nat.lt_irrefl, gt_iff_lt, if_false]
    rw [h2, printf_plain _ (by decide), printf_str, printf_plain _ (by decide)]
    simp [printf, puts]

/-- With arguments, the message is a format: its text and, for `AssertFailureWithSource`, the place are reported, for every
format the arguments fit. -/
theorem C87_formatted (file : List Char) (line : Nat) (message : List Char) (args : List Arg) (hargs : args ≠ [])
    (body : List Char) (hf : printf message args = some body) :
    assertFailureWithSource false file line message args .runTime =
      some (("assertion failed: ".toList ++ body ++ " at ".toList ++ file ++ ":".toList ++ (toString line).toList ++
        ": \n".toList), .aborts) ∧
    assertFailureMsg false message args .runTime = some ("assertion failed: ".toList ++ body ++ "\n".toList, .aborts) := by
  have hl : args.length > 0 := List.length_pos_iff.2 hargs
  have h1 : puts " at %s:%d: " = puts " at " ++ ('%' :: 's' :: (puts ":" ++ ('%' :: 'd' :: (puts ": " ++ [])))) := by decide
  constructor
  · simp only [assertFailureWithSource, hl, if_true, hf]
    rw [h1, printf_plain _ (by decide), printf_str, printf_plain _ (by decide), printf_int, printf_plain _ (by decide)]
    simp [printf, puts, digits_nat]
  · simp [assertFailureMsg, hl, hf, puts]

/-- The functions `Assert` and `AssertWithSource` check in every configuration: they return, silently, exactly if the
condition holds. -/
theorem C87_functions (c : Bool) (file : List Char) (line : Nat) (message : List Char) (ctx : Context) :
    (∃ r, assertFn c ctx = some r ∧ (r.2 = .returns ↔ c = true) ∧ (c = true → r.1 = [])) ∧
    (∃ r, assertFnMsg c message [] ctx = some r ∧ (r.2 = .returns ↔ c = true) ∧ (c = true → r.1 = [])) ∧
    (∃ r, assertFnWithSource c file line message [] ctx = some r ∧ (r.2 = .returns ↔ c = true) ∧ (c = true → r.1 = [])) := by
  obtain ⟨h1, h2⟩ := C87_verbatim file line message
  cases c
  · cases ctx
    · exact ⟨⟨_, rfl, by decide, by simp⟩, ⟨_, rfl, by simp, by simp⟩, ⟨_, rfl, by simp, by simp⟩⟩
    · exact ⟨⟨_, rfl, by decide, by simp⟩, ⟨_, h2, by simp, by simp⟩, ⟨_, h1, by simp, by simp⟩⟩
  · exact ⟨⟨_, rfl, by simp, by simp⟩, ⟨_, rfl, by simp, by simp⟩, ⟨_, rfl, by simp, by simp⟩⟩

example : assertFailureWithSource false "a.cpp".toList 12 "n % 2 == 0".toList [] .runTime =
    some ("assertion failed: n % 2 == 0 at a.cpp:12\n".toList, .aborts) := by
  rw [(C87_verbatim _ _ _).1]; decide

example : printf "%s is %d".toList [.str "x".toList, .int (-3)] = some "x is -3".toList := by decide +kernel

end Verif.Assert
