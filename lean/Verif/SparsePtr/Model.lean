import Verif.Cpp

/-!
# Model of `Nz::SparsePtr` (SparsePtr.hpp, SparsePtr.inl)

A byte pointer is an integer.  Two readings of pointer arithmetic are modelled: that of the
standard (`Mem.object`: the pointer is a byte position in an array of `size` bytes and must stay
between its begin and its end) and that of a flat 64-bit address space (`Mem.flat`: addresses wrap around).
-/

namespace Verif.SparsePtr

open Verif.Cpp

/-- The memory a pointer lives in. -/
inductive Mem where
  | object (size : Nat)
  | flat

/-- `p + j` on byte pointers (`p - j` is `move p (-j)`). -/
def Mem.move : Mem → Int → Int → M Int
  | .object size, p, j => do guardUB (decide (0 ≤ p + j ∧ p + j ≤ size)); pure (p + j)
  | .flat, p, j => pure ((p + j) % 2 ^ 64)

/-- `p - q` on byte pointers, of type `std::ptrdiff_t`. -/
def Mem.diff : Mem → Int → Int → M Int
  | .object _, p, q => pure (p - q)
  | .flat, p, q => pure (Int.bmod (p - q) (2 ^ 64))

/-- A C++ integer type: signedness and width. -/
structure IntType where
  signed : Bool
  bits : Nat

/-- The values of an integer type. -/
def IntType.Fits (t : IntType) (v : Int) : Prop :=
  if t.signed then -2 ^ (t.bits - 1) ≤ v ∧ v < 2 ^ (t.bits - 1) else 0 ≤ v ∧ v < 2 ^ t.bits

instance (t : IntType) (v : Int) : Decidable (t.Fits v) := by unfold IntType.Fits; infer_instance

/-- `int`. -/
def int32 : IntType := ⟨true, 32⟩

/-- The type of `index * m_stride` for `index` of type `t`: the usual arithmetic conversions of `t`
and `int`. -/
def common (t : IntType) : IntType := if t.bits < 32 then int32 else t

/-- `index * m_stride`: undefined on signed overflow, modular for unsigned types (to which a negative
stride is converted). -/
def mul (t : IntType) (index stride : Int) : M Int :=
  let c := common t
  if c.signed then do guardUB (decide (c.Fits (index * stride))); pure (index * stride)
  else pure ((index % 2 ^ c.bits) * (stride % 2 ^ c.bits) % 2 ^ c.bits)

/-- A `SparsePtr`: `m_ptr` and `m_stride`, SparsePtr.hpp:74-75. -/
structure SPtr where
  ptr : Int
  stride : Int
  deriving DecidableEq

/-- `Reset()` and the default constructor, SparsePtr.inl:21-25, 108-113 (null pointers are the flat address 0). -/
def reset : SPtr := ⟨0, 0⟩

/-- `Reset(T*)` and its constructor, SparsePtr.inl:33-37, 123-128; `sizeof(T)` is converted to `int`. -/
def ofPtr (sizeofT : Nat) (ptr : Int) : SPtr := ⟨ptr, Int.bmod sizeofT (2 ^ 32)⟩

/-- `Reset(VoidPtr, int)` and its constructor, SparsePtr.inl:46-50, 137-142. -/
def ofStride (ptr : Int) (stride : Int) : SPtr := ⟨ptr, stride⟩

/-- The constructor with a `std::size_t` stride, SparsePtr.inl:61-66. -/
def ofSizeT (ptr : Int) (stride : Nat) : M SPtr := do
  assert (stride ≤ 2147483647)
  pure (ofStride ptr stride)

/-- `Reset(const SparsePtr<U>&)` and its constructor, SparsePtr.inl:74-79, 163-171.  The pointer goes
through `void*`, so the offset of the base class `T` in `U` plays no part. -/
def convert (_baseOffset : Int) (p : SPtr) : SPtr := ⟨p.ptr, p.stride⟩

/-- `SetPtr`, SparsePtr.inl:179-183. -/
def setPtr (p : SPtr) (ptr : Int) : SPtr := ⟨ptr, p.stride⟩

/-- `SetStride`, SparsePtr.inl:191-195. -/
def setStride (p : SPtr) (stride : Int) : SPtr := ⟨p.ptr, stride⟩

/-- `GetPtr`, `operator T*`, `operator->`, and the address of `operator*`: SparsePtr.inl:86-90, 213-239. -/
def getPtr (p : SPtr) : Int := p.ptr

/-- `GetStride`, SparsePtr.inl:97-101. -/
def getStride (p : SPtr) : Int := p.stride

/-- `operator bool`, SparsePtr.inl:202-206. -/
def toBool (p : SPtr) : Bool := p.ptr != 0

/-- The address of `p[index]`, `index` of type `t`: SparsePtr.inl:248-255. -/
def index (m : Mem) (t : IntType) (p : SPtr) (i : Int) : M Int := do
  let k ← mul t i p.stride
  m.move p.ptr k

/-- `operator+`, SparsePtr.inl:264-271. -/
def add (m : Mem) (t : IntType) (p : SPtr) (count : Int) : M SPtr := do
  let k ← mul t count p.stride
  let q ← m.move p.ptr k
  pure (ofStride q p.stride)

/-- `operator-(U)`, SparsePtr.inl:280-287. -/
def sub (m : Mem) (t : IntType) (p : SPtr) (count : Int) : M SPtr := do
  let k ← mul t count p.stride
  let q ← m.move p.ptr (-k)
  pure (ofStride q p.stride)

/-- `operator-(const SparsePtr&)`, SparsePtr.inl:296-300.  The stride is that of the left operand;
division truncates and is undefined by zero. -/
def diff (m : Mem) (p q : SPtr) : M Int := do
  let d ← m.diff p.ptr q.ptr
  guardUB (p.stride != 0)
  pure (d.tdiv p.stride)

/-- `operator+=`, SparsePtr.inl:309-317. -/
def addAssign (m : Mem) (t : IntType) (p : SPtr) (count : Int) : M SPtr := do
  let k ← mul t count p.stride
  let q ← m.move p.ptr k
  pure ⟨q, p.stride⟩

/-- `operator-=`, SparsePtr.inl:319-327. -/
def subAssign (m : Mem) (t : IntType) (p : SPtr) (count : Int) : M SPtr := do
  let k ← mul t count p.stride
  let q ← m.move p.ptr (-k)
  pure ⟨q, p.stride⟩

/-- `operator++`, SparsePtr.inl:334-340. -/
def preInc (m : Mem) (p : SPtr) : M SPtr := do
  let q ← m.move p.ptr p.stride
  pure ⟨q, p.stride⟩

/-- `operator++(int)`, SparsePtr.inl:347-358: the new value and the returned copy. -/
def postInc (m : Mem) (p : SPtr) : M (SPtr × SPtr) := do
  let tmp := p
  let p ← preInc m p
  pure (p, tmp)

/-- `operator--`, SparsePtr.inl:365-370. -/
def preDec (m : Mem) (p : SPtr) : M SPtr := do
  let q ← m.move p.ptr (-p.stride)
  pure ⟨q, p.stride⟩

/-- `operator--(int)`, SparsePtr.inl:377-388. -/
def postDec (m : Mem) (p : SPtr) : M (SPtr × SPtr) := do
  let tmp := p
  let p ← preDec m p
  pure (p, tmp)

/-- `operator==`, SparsePtr.inl:397-401. -/
def eq (p q : SPtr) : Bool := p.ptr == q.ptr
/-- `operator!=`, SparsePtr.inl:410-414. -/
def ne (p q : SPtr) : Bool := p.ptr != q.ptr
/-- `operator<`, SparsePtr.inl:423-427. -/
def lt (p q : SPtr) : Bool := decide (p.ptr < q.ptr)
/-- `operator>`, SparsePtr.inl:436-440. -/
def gt (p q : SPtr) : Bool := decide (p.ptr > q.ptr)
/-- `operator<=`, SparsePtr.inl:449-453. -/
def le (p q : SPtr) : Bool := decide (p.ptr ≤ q.ptr)
/-- `operator>=`, SparsePtr.inl:462-466. -/
def ge (p q : SPtr) : Bool := decide (p.ptr ≥ q.ptr)

/-- A statement that moves a pointer variable. -/
inductive Step where
  | preInc
  | postInc
  | preDec
  | postDec
  | addAssign (t : IntType) (count : Int)
  | subAssign (t : IntType) (count : Int)
  /-- `p = p + count` -/
  | add (t : IntType) (count : Int)
  /-- `p = p - count` -/
  | sub (t : IntType) (count : Int)

/-- Execution of a statement. -/
def Step.run (m : Mem) (p : SPtr) : Step → M SPtr
  | .preInc => SparsePtr.preInc m p
  | .postInc => do let r ← SparsePtr.postInc m p; pure r.1
  | .preDec => SparsePtr.preDec m p
  | .postDec => do let r ← SparsePtr.postDec m p; pure r.1
  | .addAssign t c => SparsePtr.addAssign m t p c
  | .subAssign t c => SparsePtr.subAssign m t p c
  | .add t c => SparsePtr.add m t p c
  | .sub t c => SparsePtr.sub m t p c

/-- Execution of a list of statements. -/
def runAll (m : Mem) : List Step → SPtr → M SPtr
  | [], p => pure p
  | s :: ss, p => do let p' ← s.run m p; runAll m ss p'

end Verif.SparsePtr
