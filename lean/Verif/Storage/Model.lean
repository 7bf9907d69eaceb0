import Verif.StackAlloc.Model

/-!
# Model of the addresses at which the containers place their objects

Addresses are natural numbers.  A type is its size and its alignment.  A class is laid out as by the ABIs of the supported
platforms (Itanium, Microsoft): each member at the least suitably aligned offset after the one before, the size rounded up to the
alignment.  What the memory holds is the matter of the models of the containers; here only where it is matters.
-/

namespace Verif.Storage

/-- `sizeof(T)` and `alignof(T)`. -/
structure Ty where
  size : Nat
  align : Nat
  deriving DecidableEq

/-- The bytes `addr`, ..., `addr + size - 1`. -/
structure Region where
  addr : Nat
  size : Nat
  deriving DecidableEq

/-- The least multiple of `a` that is not below `n`. -/
def roundUp (n a : Nat) : Nat := (n + a - 1) / a * a

namespace MemoryPool

/-- `AlignedStorage = std::aligned_storage_t<sizeof(T), Alignment>`, MemoryPool.hpp:80.  (The standard libraries of the supported compilers
round the size up to the alignment.) -/
def alignedStorage (T : Ty) (A : Nat) : Ty := ⟨roundUp T.size A, A⟩

/-- The memory of a block, `std::make_unique<AlignedStorage[]>(m_blockSize)` at address `memory`: MemoryPool.inl:354-360 -/
def block (T : Ty) (A blockSize memory : Nat) : Region := ⟨memory, blockSize * (alignedStorage T A).size⟩

/-- The object at `reinterpret_cast<T*>(&block.memory[localIndex])`: MemoryPool.inl:362-380 -/
def entry (T : Ty) (A memory localIndex : Nat) : Region := ⟨memory + localIndex * (alignedStorage T A).size, T.size⟩

/-- The object of an index, in the pool whose block `b` has its memory at `blocks b`: `RetrieveFromIndex`, MemoryPool.inl:248-273.
(The test that the entry is in use is in the model of MemoryPool.) -/
def object (T : Ty) (A blockSize : Nat) (blocks : Nat → Nat) (index : Nat) : Region :=
  entry T A (blocks (index / blockSize)) (index % blockSize)

end MemoryPool

namespace FixedVector

/-- Offset of `m_size` (8 bytes), after the `base` bytes of `Detail::FixedVectorBase`: FixedVector.hpp:28, 128 -/
def sizeOffset (base : Nat) : Nat := roundUp base 8

/-- Offset of `alignas(T) std::array<std::byte, sizeof(T) * Capacity> m_data`: FixedVector.hpp:129 -/
def dataOffset (T : Ty) (base : Nat) : Nat := roundUp (sizeOffset base + 8) T.align

/-- The class: FixedVector.hpp:27-130.  `base` is the size and the alignment of `Detail::FixedVectorBase` (a size of 0 if it is empty),
`capacity` is not 0. -/
def cls (T base : Ty) (capacity : Nat) : Ty :=
  let align := max (max base.align 8) T.align
  ⟨roundUp (dataOffset T base.size + T.size * capacity) align, align⟩

/-- The whole of a FixedVector at the address `this`. -/
def whole (T base : Ty) (capacity this : Nat) : Region := ⟨this, (cls T base capacity).size⟩

/-- Its base class, FixedVector.hpp:28 -/
def basePart (base : Ty) (this : Nat) : Region := ⟨this, base.size⟩

/-- Its member `m_size`, FixedVector.hpp:128 -/
def sizePart (base : Ty) (this : Nat) : Region := ⟨this + sizeOffset base.size, 8⟩

/-- `data(n)`: FixedVector.inl:330-359 -/
def element (T base : Ty) (this n : Nat) : Region := ⟨this + dataOffset T base.size + n * T.size, T.size⟩

end FixedVector

namespace PrivateImpl

/-- `struct { alignas(Alignment) char buffer[BufferSize]; } m_impl`: PrivateImpl.hpp:42-45.  (`alignas(0)` has no effect.) -/
def impl (bufferSize A : Nat) : Ty := ⟨roundUp bufferSize (max A 1), max A 1⟩

/-- The static assertions, PrivateImpl.inl:40-41, 49-50 -/
def compiles (T : Ty) (bufferSize A : Nat) : Bool :=
  decide ((impl bufferSize A).size ≥ T.size) && decide ((impl bufferSize A).align ≥ T.align)

/-- The whole of a PrivateImpl at the address `this`: `m_impl` is its only member. -/
def whole (bufferSize A this : Nat) : Region := ⟨this, (impl bufferSize A).size⟩

/-- `Get()`: PrivateImpl.inl:38-53 -/
def object (T : Ty) (this : Nat) : Region := ⟨this, T.size⟩

end PrivateImpl

namespace Stack

/-- The element `n` of a StackArray or a StackVector whose memory begins at `memory`: StackArray.inl:187-198, StackVector.inl:321-332 (`m_ptr[pos]`). -/
def element (T : Ty) (memory n : Nat) : Region := ⟨memory + n * T.size, T.size⟩

end Stack

end Verif.Storage
