/-!
# Model of the assertion macros and of the functions that report a failure

Assert.hpp:13-19 and Assert.inl.

The macros are textual: what they do depends on the statements around the place where they are used.  The model therefore
starts from the tokens of a function body, expands the macro in them as the preprocessor does, and parses the result with
the grammar of C++ statements, in which an `else` belongs to the nearest `if` that has none.

Simplifications: the statements are expression statements, `if`, `else`, `while`, `do`, and blocks; expressions are
functions on the state of the program (`S → S` for their effect, `S → Bool` for conditions, which have no effect of their
own).  Declarations, jumps, labels and exceptions thrown by expressions are not modelled.  `NAZARA_UNLIKELY(x)`
(Prerequisites.hpp:348-393) is `(x)`, with an attribute or a builtin that changes no value.
-/

namespace Verif.Assert

/-- Tokens of a function body.  `if (c)` and `while (c)` are one token each, so is an expression. -/
inductive Tok (S : Type) where
  /-- an expression -/
  | act (f : S → S)
  /-- `NazaraAssert(c)` or `NazaraAssertMsg(c, ...)`, before the expansion -/
  | assert (c : S → Bool)
  /-- the call `Nz::AssertFailureWithSource(__FILE__, __LINE__, ...)` -/
  | failure
  | kif (c : S → Bool)
  | kelse
  | kwhile (c : S → Bool)
  | kdo
  | lbrace
  | rbrace
  | semi

/-- Statements. -/
inductive Stmt (S : Type) where
  | skip
  | act (f : S → S)
  | assert (c : S → Bool)
  | failure
  | seq (a b : Stmt S)
  | ite (c : S → Bool) (a : Stmt S)
  | iteElse (c : S → Bool) (a b : Stmt S)
  | loop (c : S → Bool) (a : Stmt S)
  | doLoop (a : Stmt S) (c : S → Bool)

/-- What is parsed: one statement, or the statements of a block or function body. -/
inductive Kind where
  | one
  | many

/-- The first token is `else`. -/
def startsWithElse {S : Type} : List (Tok S) → Prop
  | .kelse :: _ => True
  | _ => False

/-- No statement follows: the block or the body ends here. -/
def atEnd {S : Type} : List (Tok S) → Prop
  | [] => True
  | .rbrace :: _ => True
  | _ => False

/-- The grammar of statements ([stmt.stmt]): `Parse k ts s r` says that the tokens `ts` begin with the statement (or
statements) `s` and that `r` follows.  [stmt.if]/2: an `else` belongs to the nearest `if` which lacks one, so an `if`
without `else` is never followed by one. -/
inductive Parse {S : Type} : Kind → List (Tok S) → Stmt S → List (Tok S) → Prop where
  | empty (r) : Parse .one (.semi :: r) .skip r
  | act (f r) : Parse .one (.act f :: .semi :: r) (.act f) r
  | assert (c r) : Parse .one (.assert c :: .semi :: r) (.assert c) r
  | failure (r) : Parse .one (.failure :: .semi :: r) .failure r
  | block {ts s r} : Parse .many ts s (.rbrace :: r) → Parse .one (.lbrace :: ts) s r
  | ite {ts s r} (c) : Parse .one ts s r → ¬ startsWithElse r → Parse .one (.kif c :: ts) (.ite c s) r
  | iteElse {ts s us t r} (c) : Parse .one ts s (.kelse :: us) → Parse .one us t r →
      Parse .one (.kif c :: ts) (.iteElse c s t) r
  | loop {ts s r} (c) : Parse .one ts s r → Parse .one (.kwhile c :: ts) (.loop c s) r
  | doLoop {ts s c r} : Parse .one ts s (.kwhile c :: .semi :: r) → Parse .one (.kdo :: ts) (.doLoop s c) r
  | nil {ts} : atEnd ts → Parse .many ts .skip ts
  | cons {ts s r t r'} : Parse .one ts s r → Parse .many r t r' → Parse .many ts (.seq s t) r'

/-- Assert.hpp:14-15 (`true`: assertions enabled) and 17-18 (`false`: disabled): the tokens that replace a use of the macro.

`if NAZARA_UNLIKELY(!(cond)) Nz::AssertFailureWithSource(...)` and `do {} while (false)`. -/
def expandTok {S : Type} (enabled : Bool) : Tok S → List (Tok S)
  | .assert c => if enabled then [.kif (fun s => !c s), .failure] else [.kdo, .lbrace, .rbrace, .kwhile (fun _ => false)]
  | t => [t]

/-- The preprocessor, on the whole body. -/
def expand {S : Type} (enabled : Bool) (ts : List (Tok S)) : List (Tok S) := ts.flatMap (expandTok enabled)

/-- How the execution of a statement ends. -/
inductive End (S : Type) where
  /-- normally -/
  | done (s : S)
  /-- the program is ended by a failed assertion, in this state (`AssertFailureWithSource`, Assert.inl:57-80, does not
  return) -/
  | failed (s : S)

/-- Execution of statements that are left after the expansion.  A loop that does not end has no outcome. -/
inductive Exec {S : Type} : Stmt S → S → End S → Prop where
  | skip (s) : Exec .skip s (.done s)
  | act (f s) : Exec (.act f) s (.done (f s))
  | failure (s) : Exec .failure s (.failed s)
  | seq {a b s s' e} : Exec a s (.done s') → Exec b s' e → Exec (.seq a b) s e
  | seqFailed {a b s s'} : Exec a s (.failed s') → Exec (.seq a b) s (.failed s')
  | iteTrue {c a s e} : c s = true → Exec a s e → Exec (.ite c a) s e
  | iteFalse {c a s} : c s = false → Exec (.ite c a) s (.done s)
  | elseTrue {c a b s e} : c s = true → Exec a s e → Exec (.iteElse c a b) s e
  | elseFalse {c a b s e} : c s = false → Exec b s e → Exec (.iteElse c a b) s e
  | loopFalse {c a s} : c s = false → Exec (.loop c a) s (.done s)
  | loopTrue {c a s s' e} : c s = true → Exec a s (.done s') → Exec (.loop c a) s' e → Exec (.loop c a) s e
  | loopFailed {c a s s'} : c s = true → Exec a s (.failed s') → Exec (.loop c a) s (.failed s')
  | doFalse {c a s s'} : Exec a s (.done s') → c s' = false → Exec (.doLoop a c) s (.done s')
  | doTrue {c a s s' e} : Exec a s (.done s') → c s' = true → Exec (.doLoop a c) s' e → Exec (.doLoop a c) s e
  | doFailed {c a s s'} : Exec a s (.failed s') → Exec (.doLoop a c) s (.failed s')

/-! ## Reporting a failure -/

/-- Where the function is evaluated. -/
inductive Context where
  /-- a constant expression (`NAZARA_IS_CONSTEVAL()` true) -/
  | constant
  | runTime
  deriving DecidableEq

/-- How a call to one of the failure functions ends. -/
inductive Ending where
  | returns
  /-- `throw AssertionFailed{}`, which makes the expression non-constant -/
  | throws
  /-- `std::abort()` (or `assert(false)`, or the debug break, before it) -/
  | aborts
  deriving DecidableEq

/-- An argument of `fprintf`: a C string or an integer. -/
inductive Arg where
  | str (s : List Char)
  | int (n : Int)

def digits (n : Int) : List Char := (toString n).toList

/-- `std::fprintf`: the text written, `none` for undefined behaviour (an argument missing, of another type than the
conversion, or a conversion that is not modelled).  Conversions: `%s`, `%d`, `%%`. -/
def printf : List Char → List Arg → Option (List Char)
  | [], _ => some []
  | '%' :: '%' :: f, as => (printf f as).map ('%' :: ·)
  | '%' :: 's' :: f, .str s :: as => (printf f as).map (s ++ ·)
  | '%' :: 'd' :: f, .int n :: as => (printf f as).map (digits n ++ ·)
  | '%' :: _, _ => none
  | c :: f, as => (printf f as).map (c :: ·)

/-- `fputs` with a literal. -/
def puts (s : String) : List Char := s.toList

/-- Assert.inl:13-27, `AssertFailure()`: text on the error stream and how the call ends. -/
def assertFailure (dummy : Bool) : Context → Option (List Char × Ending)
  | .constant => if !dummy then some ([], .throws) else some ([], .returns)
  | .runTime => some (puts "assertion failed\n", .aborts)

/-- Assert.inl:29-54, `AssertFailure(message, args...)`. -/
def assertFailureMsg (dummy : Bool) (message : List Char) (args : List Arg) : Context → Option (List Char × Ending)
  | .constant => if !dummy then some ([], .throws) else some ([], .returns)
  | .runTime =>
    if args.length > 0 then do
      let body ← printf message args
      pure (puts "assertion failed: " ++ body ++ ['\n'], .aborts)
    else do
      let text ← printf (puts "assertion failed: %s\n") [.str message]
      pure (text, .aborts)

/-- Assert.inl:56-80, `AssertFailureWithSource(file, line, message, args...)`. -/
def assertFailureWithSource (dummy : Bool) (file : List Char) (line : Nat) (message : List Char) (args : List Arg) :
    Context → Option (List Char × Ending)
  | .constant => if !dummy then some ([], .throws) else some ([], .returns)
  | .runTime =>
    if args.length > 0 then do
      let body ← printf message args
      let source ← printf (puts " at %s:%d: ") [.str file, .int line]
      pure (puts "assertion failed: " ++ body ++ source ++ ['\n'], .aborts)
    else do
      let text ← printf (puts "assertion failed: %s at %s:%d\n") [.str message, .str file, .int line]
      pure (text, .aborts)

/-- Assert.inl:83-87, `Assert(condition)`: always checked, whatever the configuration. -/
def assertFn (condition : Bool) (ctx : Context) : Option (List Char × Ending) :=
  if !condition then assertFailure false ctx else some ([], .returns)

/-- Assert.inl:89-94, `Assert(condition, message, args...)`. -/
def assertFnMsg (condition : Bool) (message : List Char) (args : List Arg) (ctx : Context) : Option (List Char × Ending) :=
  if !condition then assertFailureMsg false message args ctx else some ([], .returns)

/-- Assert.inl:96-101, `AssertWithSource(condition, file, line, message, args...)`. -/
def assertFnWithSource (condition : Bool) (file : List Char) (line : Nat) (message : List Char) (args : List Arg)
    (ctx : Context) : Option (List Char × Ending) :=
  if !condition then assertFailureWithSource false file line message args ctx else some ([], .returns)

end Verif.Assert
