import Verif.FixedVector.ModelIter
import Verif.StackVector.Model

/-!
# Iterators of `StackVector` and `StackArray`

As those of `FixedVector`: pointers into the buffer.
-/

namespace Verif.StackVector
open Verif.Cpp
open Verif.FixedVector (St Ptr mSize)

variable {α : Type}

/-- `begin`, `cbegin`, StackVector.inl:58-68 and 82-86; `data`, 106-116. -/
def begin' : X (St α) Ptr := pure ⟨false, 0⟩

/-- `end`, `cend`, StackVector.inl:155-165 and 88-92. -/
def end' : X (St α) Ptr := do
  let n ← mSize
  pure ⟨false, n⟩

/-- The base of `rbegin`, `crbegin`, StackVector.inl:290-300 and 94-98. -/
def rbegin : X (St α) Ptr := do
  let n ← mSize
  pure ⟨false, n⟩

/-- The base of `rend`, `crend`, StackVector.inl:302-312 and 100-104. -/
def rend : X (St α) Ptr := pure ⟨false, 0⟩

/-- `&v[i]`: a reference to element `i`, StackVector.inl:320-332. -/
def addressOf (i : Nat) : X (St α) Ptr := do
  let n ← mSize
  X.assert (i < n)
  pure ⟨false, i⟩

namespace Arr

/-- `begin`, `cbegin`, StackArray.inl:66-82; `data`, 102-112. -/
def begin' : X (St α) Ptr := pure ⟨false, 0⟩

/-- `end`, `cend`, StackArray.inl:120-130 and 84-88. -/
def end' : X (St α) Ptr := do
  let n ← mSize
  pure ⟨false, n⟩

/-- The base of `rbegin`, `crbegin`, StackArray.inl:156-166 and 90-94. -/
def rbegin : X (St α) Ptr := do
  let n ← mSize
  pure ⟨false, n⟩

/-- The base of `rend`, `crend`, StackArray.inl:168-178 and 96-100. -/
def rend : X (St α) Ptr := pure ⟨false, 0⟩

/-- `size`, StackArray.inl:180-184; `max_size`, 150-154, is `size()`. -/
def size : X (St α) Nat := mSize

/-- `empty`, StackArray.inl:114-118. -/
def isEmpty : X (St α) Bool := do
  let n ← mSize
  pure (n == 0)

end Arr
end Verif.StackVector
