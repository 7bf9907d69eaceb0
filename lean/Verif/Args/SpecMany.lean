import Verif.Args.ModelMany
import Verif.Args.Spec

/-!
# What the slots of a signal with several parameters should get
-/

namespace Verif.Args.Many
open Verif.Args

variable {V : Type}

/-- The order names each position once. -/
def Signature.Ordered (S : Signature) : Prop := S.order.Nodup ∧ ∀ i, i ∈ S.order ↔ i < S.k

/-- The emission compiles, for each argument by itself. -/
def Compiles (T : Ty V) (S : Signature) (cat : Nat → Cat) : Prop := ∀ i < S.k, Verif.Args.emissionCompiles T (S.params i) (cat i) = true

/-- The function can be connected to the signal. -/
def Connectable (T : Ty V) (S : Signature) (f : Fun V) : Prop := ∀ i < S.k, binds T (f.params i) (forwarded (S.params i)) = true

/-- A variable given to the signal with `std::move`, for a parameter by value, is not given to it a second time. -/
def MovedOnce (S : Signature) (cat : Nat → Cat) (arg : Nat → Nat) : Prop :=
  ∀ i < S.k, ∀ j < S.k, i ≠ j → S.params i = .value → cat i = .rvalue → arg i ≠ arg j

/-- What a slot sees: the values at the time of the emission for the parameters by value, the variables as they are now for the references. -/
def visible (S : Signature) (arg : Nat → Nat) (start now : Nat → V) : List V :=
  (List.range S.k).map (fun i => if S.params i = .value then start (arg i) else now (arg i))

/-- The assignments of a slot that reach the variables of the program: those to references, if the signal has references there. -/
def reach (S : Signature) (arg : Nat → Nat) (f : Fun V) (w : Nat → Option V) : List Nat → (Nat → V) → (Nat → V)
  | [], g => g
  | i :: is, g =>
    reach S arg f w is (match w i with
      | none => g
      | some v => if S.params i = .lref ∧ f.params i = .lref then assign g (arg i) v else g)

/-- The variables after a slot. -/
def after (S : Signature) (arg : Nat → Nat) (start now : Nat → V) (f : Fun V) : Nat → V :=
  let x := f.body now (visible S arg start now)
  reach S arg f x.2 (List.range S.k) x.1

/-- The calls of all slots and the variables at the end. -/
def expected (S : Signature) (arg : Nat → Nat) (start : Nat → V) : (Nat → V) → List (Fun V) → List (Nat × List V) × (Nat → V)
  | now, [] => ([], now)
  | now, f :: fs =>
    let r := expected S arg start (after S arg start now f) fs
    ((f.id, visible S arg start now) :: r.1, r.2)

/-- The variables after the arguments have been passed: those given with `std::move` to parameters by value are moved from. -/
def passed (T : Ty V) (S : Signature) (cat : Nat → Cat) (arg : Nat → Nat) (g : Nat → V) : Nat → V :=
  fun n => if (List.range S.k).any (fun i => decide (S.params i = .value ∧ cat i = .rvalue ∧ arg i = n)) then T.movedFrom (g n) else g n

/-- Whether the argument at position `i` is moved from by a call through a `FunctionRef`: it is given with `std::move` to a parameter by value, of the signature or, behind an rvalue reference, of the
function. -/
def MovedBy (S : Signature) (f : Fun V) (cat : Nat → Cat) (i : Nat) : Prop :=
  S.params i = .value ∧ cat i = .rvalue ∨ S.params i = .rref ∧ f.params i = .value

instance (S : Signature) (f : Fun V) (cat : Nat → Cat) (i : Nat) : Decidable (MovedBy S f cat i) := by unfold MovedBy; infer_instance

/-- The variables when the function is called. -/
def handedOver (T : Ty V) (S : Signature) (f : Fun V) (cat : Nat → Cat) (arg : Nat → Nat) (g : Nat → V) : Nat → V :=
  fun n => if (List.range S.k).any (fun i => decide (MovedBy S f cat i ∧ arg i = n)) then T.movedFrom (g n) else g n

/-- The assignments of the function that reach the variables of the program: those to references (not to constants), if the signature of the `FunctionRef` has references there. -/
def reachRef (S : Signature) (arg : Nat → Nat) (f : Fun V) (w : Nat → Option V) : List Nat → (Nat → V) → (Nat → V)
  | [], g => g
  | i :: is, g =>
    reachRef S arg f w is (match w i with
      | none => g
      | some v => if S.params i ≠ .value ∧ (f.params i = .lref ∨ f.params i = .rref) then assign g (arg i) v else g)

end Verif.Args.Many
