/-!
# Model of `IsComplete` (TypeTraits.hpp:77-97)

Whether a type is complete changes in the course of a translation unit: a class is complete after its definition.  A translation unit is a sequence of definitions and uses.
-/

namespace Verif.TypeTraits.Complete

/-- A type: a class, `void`, an array of classes of unknown or known bound, or a reference. -/
inductive Ty where
  | cls (n : Nat)
  | void
  | unboundedArray (n : Nat)
  | array (n : Nat)
  | reference (n : Nat)
  deriving DecidableEq

/-- Whether `sizeof(U)` is valid, with the given classes defined. -/
def sizeofValid (defined : Nat → Bool) : Ty → Bool
  | .cls n => defined n
  | .void => false
  | .unboundedArray _ => false
  | .array n => defined n
  | .reference n => defined n

/-- `Detail::IsCompleteHelper<T>::type`, TypeTraits.hpp:77-91, evaluated where the given classes are defined: `static_cast<T*>(nullptr)` is an error for references (`none`); otherwise `test(U*)` is
selected if `sizeof(U)` is valid, and gives `sizeof(U) == sizeof(U)`; else `test(...)`. -/
def helper (defined : Nat → Bool) : Ty → Option Bool
  | .reference _ => none
  | t => if sizeofValid defined t then some true else some false

/-- Declarations of a translation unit that matter: the definition of a class, a use of `IsComplete_v<T>`. -/
inductive Decl where
  | define (n : Nat)
  | use (t : Ty)
  deriving DecidableEq

/-- State of the compiler: the classes defined so far, and the specialisations of `IsComplete` instantiated so far. -/
structure St where
  defined : Nat → Bool
  memo : Ty → Option Bool

def St.init : St := ⟨fun _ => false, fun _ => none⟩

/-- A declaration, and the value of the use; `none` if it does not compile.  A template is instantiated at its first use, and that instance is used again
(TypeTraits.hpp:93-97).  (Uses that would give different instances make the program ill-formed, which no compiler reports; all of them use the first instance.) -/
def step (s : St) : Decl → Option (St × Option Bool)
  | .define n => some (⟨fun m => if m = n then true else s.defined m, s.memo⟩, none)
  | .use t =>
    match s.memo t with
    | some b => some (s, some b)
    | none => match helper s.defined t with
      | some b => some (⟨s.defined, fun u => if u = t then some b else s.memo u⟩, some b)
      | none => none

/-- A translation unit; the values of the uses in order. -/
def run : List Decl → St → Option (St × List Bool)
  | [], s => some (s, [])
  | d :: ds, s => match step s d with
    | none => none
    | some (s, v) => match run ds s with
      | none => none
      | some (s, vs) => some (s, v.toList ++ vs)

end Verif.TypeTraits.Complete
