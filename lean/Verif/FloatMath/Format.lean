import Mathlib.Data.Int.Log
import Mathlib.Data.Rat.Floor
import Mathlib.Algebra.Order.Floor.Ring
import Mathlib.Algebra.Order.Field.Rat
import Mathlib.Tactic.Linarith
import Mathlib.Tactic.Ring
import Mathlib.Tactic.Positivity
import Mathlib.Tactic.FieldSimp

/-!
# Binary floating-point arithmetic (IEC 60559), as the host of the code provides it

A format is given by its precision and its exponents; a value is NaN, an infinity or a rational number of the format.  Simplified: there is one
zero, without sign, and one NaN.  Operations round the exact result to the nearest value, ties to even.
-/

namespace Verif.FloatMath

/-- `prec`: number of digits of the significand; `emin`: exponent of the smallest positive number; `emax`: numbers are below `2 ^ emax`. -/
structure Fmt where
  prec : Nat
  emin : Int
  emax : Int

/-- `float` -/
def float32 : Fmt := ⟨24, -149, 128⟩
/-- `double` -/
def float64 : Fmt := ⟨53, -1074, 1024⟩
/-- `long double` of x86 (80 bits) -/
def float80 : Fmt := ⟨64, -16445, 16384⟩

/-- Formats of hosts: some digits, exponents enough for numbers below and above 1 (all formats of IEC 60559 are of this kind, also those of 16 bits). -/
structure Fmt.Valid (F : Fmt) : Prop where
  prec : 3 ≤ F.prec
  emin : F.emin + 2 * F.prec + 2 ≤ 0
  emax : F.prec + 2 ≤ F.emax

theorem float32_valid : float32.Valid := ⟨by decide, by decide, by decide⟩
theorem float64_valid : float64.Valid := ⟨by decide, by decide, by decide⟩
theorem float80_valid : float80.Valid := ⟨by decide, by decide, by decide⟩

/-- Numbers of the format, but for the limit of size. -/
def Fmt.Grid (F : Fmt) (q : ℚ) : Prop := ∃ m e : ℤ, F.emin ≤ e ∧ |m| < 2 ^ F.prec ∧ q = m * 2 ^ e

/-- Finite numbers of the format. -/
def Fmt.Rep (F : Fmt) (q : ℚ) : Prop := F.Grid q ∧ |q| < 2 ^ F.emax

/-- Nearest integer, ties to even. -/
def roundEven (x : ℚ) : ℤ :=
  if x - ⌊x⌋ < 1 / 2 then ⌊x⌋ else if 1 / 2 < x - ⌊x⌋ then ⌊x⌋ + 1 else if ⌊x⌋ % 2 = 0 then ⌊x⌋ else ⌊x⌋ + 1

/-- Exponent of the last digit of the numbers near `q`. -/
def Fmt.expOf (F : Fmt) (q : ℚ) : ℤ := max F.emin (Int.log 2 |q| + 1 - F.prec)

/-- The number nearest to `q`, without the limit of size. -/
def Fmt.rnd (F : Fmt) (q : ℚ) : ℚ := roundEven (q / 2 ^ F.expOf q) * 2 ^ F.expOf q

/-- Floating-point values. -/
inductive FVal where
  | nan
  | inf (negative : Bool)
  | fin (q : ℚ)

/-- The value an operation with the exact result `q` gives. -/
def Fmt.round (F : Fmt) (q : ℚ) : FVal := if |F.rnd q| < 2 ^ F.emax then .fin (F.rnd q) else .inf (decide (q < 0))

/-- Values of a type. -/
def Fmt.Has (F : Fmt) : FVal → Prop
  | .fin q => F.Rep q
  | _ => True

/-! ## Operations -/

def FVal.neg : FVal → FVal
  | .nan => .nan
  | .inf s => .inf (!s)
  | .fin q => .fin (-q)

def Fmt.add (F : Fmt) : FVal → FVal → FVal
  | .fin x, .fin y => F.round (x + y)
  | .inf s, .fin _ => .inf s
  | .fin _, .inf s => .inf s
  | .inf s, .inf t => if s = t then .inf s else .nan
  | _, _ => .nan

def Fmt.sub (F : Fmt) (x y : FVal) : FVal := F.add x y.neg

def Fmt.mul (F : Fmt) : FVal → FVal → FVal
  | .fin x, .fin y => F.round (x * y)
  | .inf s, .fin y => if y = 0 then .nan else .inf (xor s (decide (y < 0)))
  | .fin x, .inf s => if x = 0 then .nan else .inf (xor s (decide (x < 0)))
  | .inf s, .inf t => .inf (xor s t)
  | _, _ => .nan

/-- Division; a finite number other than zero divided by zero is an infinity, whose sign (that of the zero, not modelled) is `zeroSign`. -/
def Fmt.div (F : Fmt) (zeroSign : Bool) : FVal → FVal → FVal
  | .fin x, .fin y => if y = 0 then (if x = 0 then .nan else .inf (xor zeroSign (decide (x < 0)))) else F.round (x / y)
  | .inf s, .fin y => if y = 0 then .inf (xor s zeroSign) else .inf (xor s (decide (y < 0)))
  | .fin _, .inf _ => .fin 0
  | _, _ => .nan

/-- `std::abs` -/
def FVal.abs : FVal → FVal
  | .nan => .nan
  | .inf _ => .inf false
  | .fin q => .fin |q|

def FVal.lt : FVal → FVal → Bool
  | .fin x, .fin y => decide (x < y)
  | .fin _, .inf s => !s
  | .inf s, .fin _ => s
  | .inf s, .inf t => s && !t
  | _, _ => false

def FVal.eq : FVal → FVal → Bool
  | .fin x, .fin y => decide (x = y)
  | .inf s, .inf t => s == t
  | _, _ => false

def FVal.le (x y : FVal) : Bool := x.lt y || x.eq y

end Verif.FloatMath
