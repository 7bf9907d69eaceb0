import Verif.Assert.Model

/-!
# What a user expects of an assertion

`NazaraAssert(c);` is a statement of its own, like a call to a function: it does nothing if `c` holds, ends the program if
`c` does not hold and assertions are enabled, and does nothing at all if they are disabled.  `Meaning` is the execution of
the statements as they are written, before any expansion.
-/

namespace Verif.Assert.Spec

/-- Execution of a program with its assertions, checked (`true`) or not. -/
inductive Meaning {S : Type} (checked : Bool) : Stmt S → S → End S → Prop where
  | assertHolds {c s} : c s = true → Meaning checked (.assert c) s (.done s)
  | assertIgnored {c s} : checked = false → Meaning checked (.assert c) s (.done s)
  | assertFails {c s} : checked = true → c s = false → Meaning checked (.assert c) s (.failed s)
  | skip (s) : Meaning checked .skip s (.done s)
  | act (f s) : Meaning checked (.act f) s (.done (f s))
  | failure (s) : Meaning checked .failure s (.failed s)
  | seq {a b s s' e} : Meaning checked a s (.done s') → Meaning checked b s' e → Meaning checked (.seq a b) s e
  | seqFailed {a b s s'} : Meaning checked a s (.failed s') → Meaning checked (.seq a b) s (.failed s')
  | iteTrue {c a s e} : c s = true → Meaning checked a s e → Meaning checked (.ite c a) s e
  | iteFalse {c a s} : c s = false → Meaning checked (.ite c a) s (.done s)
  | elseTrue {c a b s e} : c s = true → Meaning checked a s e → Meaning checked (.iteElse c a b) s e
  | elseFalse {c a b s e} : c s = false → Meaning checked b s e → Meaning checked (.iteElse c a b) s e
  | loopFalse {c a s} : c s = false → Meaning checked (.loop c a) s (.done s)
  | loopTrue {c a s s' e} : c s = true → Meaning checked a s (.done s') → Meaning checked (.loop c a) s' e →
      Meaning checked (.loop c a) s e
  | loopFailed {c a s s'} : c s = true → Meaning checked a s (.failed s') → Meaning checked (.loop c a) s (.failed s')
  | doFalse {c a s s'} : Meaning checked a s (.done s') → c s' = false → Meaning checked (.doLoop a c) s (.done s')
  | doTrue {c a s s' e} : Meaning checked a s (.done s') → c s' = true → Meaning checked (.doLoop a c) s' e →
      Meaning checked (.doLoop a c) s e
  | doFailed {c a s s'} : Meaning checked a s (.failed s') → Meaning checked (.doLoop a c) s (.failed s')

/-- `ts` is the body of a function, and `p` is what it says. -/
def Body {S : Type} (ts : List (Tok S)) (p : Stmt S) : Prop := Parse .many ts p []

/-- No assertion is directly followed by an `else`: none is the last statement of a branch without braces that has an
`else`. -/
def NoAssertElse {S : Type} (ts : List (Tok S)) : Prop :=
  ¬ ∃ before c after, ts = before ++ .assert c :: .semi :: .kelse :: after

end Verif.Assert.Spec
