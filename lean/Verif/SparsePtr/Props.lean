import Mathlib.Tactic.Ring
import Mathlib.Tactic.Linarith
import Mathlib.Algebra.Order.Ring.Int
import Verif.SparsePtr.Spec

/-!
# Properties C46, C68 and C69 of `Nz::SparsePtr`
-/

namespace Verif.SparsePtr

open Verif.Cpp

def uint32 : IntType := ⟨false, 32⟩
def uint64 : IntType := ⟨false, 64⟩
def int64 : IntType := ⟨true, 64⟩
def uint8 : IntType := ⟨false, 8⟩

theorem mul_ok {t : IntType} {i s : Int} (h : MulOk t s i) : mul t i s = .ok (i * s) := by
  unfold MulOk at h
  unfold mul
  cases hs : (common t).signed
  · simp only [hs, Bool.false_eq_true, if_false, pure_ok]
    simp only [IntType.Fits, hs, Bool.false_eq_true, if_false] at h
    congr 1
    rw [← Int.mul_emod]
    exact Int.emod_eq_of_lt h.1 h.2
  · simp [hs, h]

theorem move_ok {size : Nat} {p j : Int} (h : Inside size (p + j)) : (Mem.object size).move p j = .ok (p + j) := by
  unfold Inside at h
  simp [Mem.move, h]

/-- C46: indexing, addition and subtraction are affine in the stride, whatever its sign, if the
product of the index and the stride is a value of the type it is computed in and the result is
inside the array.  Missing (see the `_violated` theorems): products that do not fit, among them all
negative ones for unsigned index types. -/
theorem C46_affine_partial {size : Nat} {t : IntType} {p : SPtr} {n : Int} (hm : MulOk t p.stride n) :
    (Inside size (element p.ptr p.stride n) →
      index (.object size) t p n = .ok (element p.ptr p.stride n) ∧
      add (.object size) t p n = .ok ⟨element p.ptr p.stride n, p.stride⟩ ∧
      addAssign (.object size) t p n = .ok ⟨element p.ptr p.stride n, p.stride⟩) ∧
    (Inside size (element p.ptr p.stride (-n)) →
      sub (.object size) t p n = .ok ⟨element p.ptr p.stride (-n), p.stride⟩ ∧
      subAssign (.object size) t p n = .ok ⟨element p.ptr p.stride (-n), p.stride⟩) := by
  unfold element
  constructor
  · intro h
    simp [index, add, addAssign, mul_ok hm, move_ok h, ofStride]
  · intro h
    have h' : Inside size (p.ptr + -(n * p.stride)) := by rwa [← neg_mul]
    simp [sub, subAssign, mul_ok hm, move_ok h', ofStride]

/-- C46: `(p + n)[k]` designates the element `n + k` of `p`. -/
theorem C46_compose_partial {size : Nat} {t u : IntType} {p : SPtr} {n k : Int} (hn : MulOk t p.stride n) (hk : MulOk u p.stride k)
    (h1 : Inside size (element p.ptr p.stride n)) (h2 : Inside size (element p.ptr p.stride (n + k))) :
    ∃ q, add (.object size) t p n = .ok q ∧ index (.object size) u q k = .ok (element p.ptr p.stride (n + k)) := by
  refine ⟨_, ((C46_affine_partial hn).1 h1).2.1, ?_⟩
  have he : element (element p.ptr p.stride n) p.stride k = element p.ptr p.stride (n + k) := by unfold element; ring
  rw [← he] at h2 ⊢
  exact ((C46_affine_partial (p := ⟨element p.ptr p.stride n, p.stride⟩) hk).1 h2).1

/-- C46: every sequence of `++`, `--`, `+=`, `-=`, `+`, `-` whose intermediate positions are inside the array
moves the pointer by the net number of elements and keeps its stride. -/
theorem C46_history_partial {size : Nat} (ss : List Step) : ∀ (p : SPtr), (∀ s ∈ ss, s.MulOk p.stride) →
    (∀ k, k ≤ ss.length → Inside size (element p.ptr p.stride (net (ss.take k)))) →
    runAll (.object size) ss p = .ok ⟨element p.ptr p.stride (net ss), p.stride⟩ := by
  induction ss with
  | nil => intro p _ _; simp [runAll, net, element]
  | cons s ss ih =>
    intro p hm hin
    have h1 : Inside size (element p.ptr p.stride s.count) := by
      have := hin 1 (by simp)
      simpa [net] using this
    have hs : s.run (.object size) p = .ok ⟨element p.ptr p.stride s.count, p.stride⟩ := by
      have hms := hm s (by simp)
      cases s with
      | preInc =>
        have h1' : Inside size (p.ptr + p.stride) := by simpa [element, Step.count] using h1
        simp [Step.run, preInc, move_ok h1', element, Step.count]
      | postInc =>
        have h1' : Inside size (p.ptr + p.stride) := by simpa [element, Step.count] using h1
        simp [Step.run, postInc, preInc, move_ok h1', element, Step.count]
      | preDec =>
        have h1' : Inside size (p.ptr + -p.stride) := by simpa [element, Step.count] using h1
        simp [Step.run, preDec, move_ok h1', element, Step.count]
      | postDec =>
        have h1' : Inside size (p.ptr + -p.stride) := by simpa [element, Step.count] using h1
        simp [Step.run, postDec, preDec, move_ok h1', element, Step.count]
      | addAssign t c => exact ((C46_affine_partial hms).1 h1).2.2
      | add t c => exact ((C46_affine_partial hms).1 h1).2.1
      | subAssign t c => exact ((C46_affine_partial hms).2 h1).2
      | sub t c => exact ((C46_affine_partial hms).2 h1).1
    have he : ∀ k : Int, element (element p.ptr p.stride s.count) p.stride k = element p.ptr p.stride (s.count + k) := by
      intro k; unfold element; ring
    have := ih ⟨element p.ptr p.stride s.count, p.stride⟩ (fun s' h' => hm s' (by simp [h'])) (by
      intro k hk
      have := hin (k + 1) (by simp; omega)
      simp only [List.take_succ_cons, net] at this
      dsimp only
      rwa [he])
    simp only [runAll, hs, ok_bind, this, net, he]

/-- The values of an integer type are those that its bits can represent, in two's complement if it is signed. -/
theorem C46_values (t : IntType) (ht : 0 < t.bits) (v : Int) :
    t.Fits v ↔ ∃ b : BitVec t.bits, v = if t.signed then b.toInt else (b.toNat : Int) := by
  unfold IntType.Fits
  split
  · constructor
    · rintro ⟨h1, h2⟩
      refine ⟨BitVec.ofInt t.bits v, ?_⟩
      rw [BitVec.toInt_ofInt_eq_self ht h1 h2]
    · rintro ⟨b, rfl⟩
      exact ⟨BitVec.le_toInt b, BitVec.toInt_lt⟩
  · constructor
    · rintro ⟨h1, h2⟩
      refine ⟨BitVec.ofNat t.bits v.toNat, ?_⟩
      have : v.toNat < 2 ^ t.bits := by zify; rw [Int.toNat_of_nonneg h1]; exact h2
      rw [BitVec.toNat_ofNat, Nat.mod_eq_of_lt this, Int.toNat_of_nonneg h1]
    · rintro ⟨b, rfl⟩
      exact ⟨Int.natCast_nonneg _, by exact_mod_cast b.isLt⟩

/-- C46: the results of the postfix operators are the former pointer. -/
theorem C46_postfix (m : Mem) (p p' q : SPtr) :
    (postInc m p = .ok (p', q) ↔ preInc m p = .ok p' ∧ q = p) ∧ (postDec m p = .ok (p', q) ↔ preDec m p = .ok p' ∧ q = p) := by
  constructor
  · cases h : preInc m p <;> simp [postInc, h, Prod.ext_iff, eq_comm]
  · cases h : preDec m p <;> simp [postDec, h, Prod.ext_iff, eq_comm]

/-- C46: the difference of two elements of a strided sequence is the difference of their numbers. -/
theorem C46_diff {size : Nat} (base stride n k : Int) (hs : stride ≠ 0) :
    diff (.object size) ⟨element base stride n, stride⟩ ⟨element base stride k, stride⟩ = .ok (n - k) := by
  have : element base stride n - element base stride k = (n - k) * stride := by unfold element; ring
  have hb : (stride != 0) = true := by simpa using hs
  simp only [diff, Mem.diff, pure_ok, ok_bind, hb, guardUB_true, this, Int.mul_tdiv_cancel _ hs]

/-- C46: the difference in a flat address space, for distances below 2^63 bytes. -/
theorem C46_diff_flat (base stride n k : Int) (hs : stride ≠ 0) (h1 : -2 ^ 63 ≤ (n - k) * stride) (h2 : (n - k) * stride < 2 ^ 63) :
    diff .flat ⟨element base stride n % 2 ^ 64, stride⟩ ⟨element base stride k % 2 ^ 64, stride⟩ = .ok (n - k) := by
  have h : Int.bmod (element base stride n % 2 ^ 64 - element base stride k % 2 ^ 64) (2 ^ 64) = (n - k) * stride := by
    have h3 : Int.bmod (element base stride n % 2 ^ 64 - element base stride k % 2 ^ 64) (2 ^ 64) =
        Int.bmod (element base stride n - element base stride k) (2 ^ 64) := by
      have := Int.emod_bmod (n := 2 ^ 64) (x := element base stride n % 2 ^ 64 - element base stride k % 2 ^ 64)
      have h4 := Int.emod_bmod (n := 2 ^ 64) (x := element base stride n - element base stride k)
      rw [← this, ← h4]
      congr 1
      have e : ((2 ^ 64 : Nat) : Int) = 2 ^ 64 := by norm_num
      rw [e, ← Int.sub_emod]
    have h4 : element base stride n - element base stride k = (n - k) * stride := by unfold element; ring
    rw [h3, h4]
    apply Int.bmod_eq_of_le <;> norm_num <;> omega
  have hb : (stride != 0) = true := by simpa using hs
  simp only [diff, Mem.diff, pure_ok, ok_bind, hb, guardUB_true, h, Int.mul_tdiv_cancel _ hs]

/-- C46: the comparisons order pointers by their positions. -/
theorem C46_compare (p q : SPtr) :
    (eq p q = true ↔ getPtr p = getPtr q) ∧ (ne p q = true ↔ getPtr p ≠ getPtr q) ∧ (lt p q = true ↔ getPtr p < getPtr q) ∧
    (gt p q = true ↔ getPtr q < getPtr p) ∧ (le p q = true ↔ getPtr p ≤ getPtr q) ∧ (ge p q = true ↔ getPtr q ≤ getPtr p) := by
  simp [eq, ne, lt, gt, le, ge, getPtr]

/-- C46: a position and a stride set one after the other, in any order, are those read back, and each setter leaves the other alone; after
`Reset()` the pointer is null, and only null pointers are false. -/
theorem C46_setters (p : SPtr) (a s : Int) :
    getPtr (setPtr p a) = a ∧ getStride (setPtr p a) = getStride p ∧ getStride (setStride p s) = s ∧ getPtr (setStride p s) = getPtr p ∧
    (getPtr (ofStride a s) = a ∧ getStride (ofStride a s) = s) ∧ (toBool p = true ↔ getPtr p ≠ 0) ∧ toBool reset = false ∧ getPtr reset = 0 ∧
    getStride reset = 0 := by
  refine ⟨rfl, rfl, rfl, rfl, ⟨rfl, rfl⟩, ?_, rfl, rfl, rfl⟩
  simp [toBool, getPtr]

/-- C46: what the constructors make: the stride is the size of the type or the one given; strides
that are not values of `int` fail the assertion. -/
theorem C46_construct (ptr : Int) (stride : Nat) :
    (stride < 2 ^ 31 → ofPtr stride ptr = ⟨ptr, stride⟩ ∧ ofSizeT ptr stride = .ok ⟨ptr, stride⟩) ∧
    (2 ^ 31 ≤ stride → ofSizeT ptr stride = .error .assert) := by
  constructor
  · intro h
    have h1 : Int.bmod stride (2 ^ 32) = stride := by apply Int.bmod_eq_of_le <;> norm_num <;> omega
    have h2 : stride ≤ 2147483647 := by omega
    refine ⟨?_, by simp [ofSizeT, ofStride, h2]⟩
    rw [ofPtr, h1]
  · intro h
    have h2 : ¬ stride ≤ 2147483647 := by omega
    simp [ofSizeT, h2]

/-- C46, flat address space: with a 64-bit unsigned index (`std::size_t`) indexing, addition and
subtraction are affine modulo 2^64 for every index and every stride, negative ones included. -/
theorem C46_flat_size_t (p : SPtr) (n : Int) :
    index .flat uint64 p n = .ok (element p.ptr p.stride n % 2 ^ 64) ∧
    add .flat uint64 p n = .ok ⟨element p.ptr p.stride n % 2 ^ 64, p.stride⟩ ∧
    addAssign .flat uint64 p n = .ok ⟨element p.ptr p.stride n % 2 ^ 64, p.stride⟩ ∧
    sub .flat uint64 p n = .ok ⟨element p.ptr p.stride (-n) % 2 ^ 64, p.stride⟩ ∧
    subAssign .flat uint64 p n = .ok ⟨element p.ptr p.stride (-n) % 2 ^ 64, p.stride⟩ := by
  have hm : mul uint64 n p.stride = .ok (n * p.stride % 2 ^ 64) := by
    simp [mul, common, uint64, ← Int.mul_emod]
  have h1 : (p.ptr + n * p.stride % 2 ^ 64) % 2 ^ 64 = (p.ptr + n * p.stride) % 2 ^ 64 := by omega
  have h2 : (p.ptr + -(n * p.stride % 2 ^ 64)) % 2 ^ 64 = (p.ptr + -n * p.stride) % 2 ^ 64 := by
    rw [neg_mul]; omega
  simp only [index, add, addAssign, sub, subAssign, hm, ok_bind, Mem.move, pure_ok, ofStride, element, h1, h2, and_self]

/-- C46 fails for `unsigned int` indices and negative strides: although the element is inside the
array, the pointer leaves the array (strict reading), or designates the address 2^32 bytes further
(flat reading).  This holds for every array below 2 GiB. -/
theorem C46_unsigned_violated {size : Nat} (hsz : (size : Int) < 2 ^ 31) (p : SPtr) (i : Int) (hs : p.stride < 0)
    (hi : 1 ≤ i) (hp : Inside size p.ptr) (hin : Inside size (element p.ptr p.stride i)) :
    index (.object size) uint32 p i = .error .ub ∧
    index .flat uint32 p i = .ok (element p.ptr p.stride i + 2 ^ 32) := by
  unfold Inside element at *
  have hneg : i * p.stride < 0 := by nlinarith
  have hmod : i * p.stride % 2 ^ 32 = i * p.stride + 2 ^ 32 := by omega
  have hm : mul uint32 i p.stride = .ok (i * p.stride + 2 ^ 32) := by
    have : mul uint32 i p.stride = .ok (i * p.stride % 2 ^ 32) := by simp [mul, common, uint32, ← Int.mul_emod]
    rw [this, hmod]
  have h1 : ¬ (p.ptr + (i * p.stride + 2 ^ 32) ≤ size) := by omega
  constructor
  · simp only [index, hm, ok_bind, Mem.move]
    have : decide (0 ≤ p.ptr + (i * p.stride + 2 ^ 32) ∧ p.ptr + (i * p.stride + 2 ^ 32) ≤ size) = false := by
      simp only [decide_eq_false_iff_not, not_and]; exact fun _ => h1
    rw [this]; rfl
  · simp only [index, hm, ok_bind, Mem.move, pure_ok]
    congr 1
    have : (p.ptr + (i * p.stride + 2 ^ 32)) % 2 ^ 64 = p.ptr + (i * p.stride + 2 ^ 32) := by
      apply Int.emod_eq_of_lt <;> omega
    rw [this]; ring

/-- C46 fails, in the strict reading, for `std::size_t` indices and negative strides. -/
theorem C46_size_t_violated {size : Nat} (hsz : (size : Int) < 2 ^ 63) (p : SPtr) (i : Int) (hs : p.stride < 0)
    (hi : 1 ≤ i) (hp : Inside size p.ptr) (hin : Inside size (element p.ptr p.stride i)) :
    index (.object size) uint64 p i = .error .ub := by
  unfold Inside element at *
  have hneg : i * p.stride < 0 := by nlinarith
  have hmod : i * p.stride % 2 ^ 64 = i * p.stride + 2 ^ 64 := by omega
  have hm : mul uint64 i p.stride = .ok (i * p.stride + 2 ^ 64) := by
    have : mul uint64 i p.stride = .ok (i * p.stride % 2 ^ 64) := by simp [mul, common, uint64, ← Int.mul_emod]
    rw [this, hmod]
  simp only [index, hm, ok_bind, Mem.move]
  have : decide (0 ≤ p.ptr + (i * p.stride + 2 ^ 64) ∧ p.ptr + (i * p.stride + 2 ^ 64) ≤ size) = false := by
    simp only [decide_eq_false_iff_not, not_and]; intro _; omega
  rw [this]; rfl

/-- C46 fails for `int` and narrower indices when the byte offset does not fit `int`, even if the
array is that large: undefined behaviour. -/
theorem C46_int_overflow_violated (m : Mem) (t : IntType) (ht : t.bits < 32 ∨ t = int32) (p : SPtr) (i : Int)
    (h : i * p.stride < -2 ^ 31 ∨ 2 ^ 31 ≤ i * p.stride) : index m t p i = .error .ub := by
  have hc : common t = int32 := by
    rcases ht with h | h
    · simp [common, h]
    · simp [common, h, int32]
  have : decide (int32.Fits (i * p.stride)) = false := by
    simp only [decide_eq_false_iff_not, IntType.Fits, int32, if_true]; norm_num; omega
  have hm : mul t i p.stride = .error .ub := by
    simp only [mul, hc, this]; rfl
  simp only [index, hm, err_bind]

/-- C46 fails for `unsigned int` indices when the byte offset reaches 2^32, even if the array is
that large: another address is designated. -/
theorem C46_unsigned_overflow_violated {size : Nat} (p : SPtr) (i : Int) (hp : 0 ≤ p.ptr)
    (h : 2 ^ 32 ≤ i * p.stride) (hin : Inside size (element p.ptr p.stride i)) :
    ∃ a, index (.object size) uint32 p i = .ok a ∧ a < element p.ptr p.stride i := by
  unfold Inside element at *
  have hm : mul uint32 i p.stride = .ok (i * p.stride % 2 ^ 32) := by simp [mul, common, uint32, ← Int.mul_emod]
  refine ⟨p.ptr + i * p.stride % 2 ^ 32, ?_, by omega⟩
  simp only [index, hm, ok_bind]
  exact move_ok ⟨by omega, by omega⟩

/-- C46: with stride 0 the difference is undefined. -/
theorem C46_zero_stride_ub (m : Mem) (p q : SPtr) (h : p.stride = 0) : diff m p q = .error .ub := by
  cases m <;> simp [diff, Mem.diff, h]

/-- The hypotheses are met: a backwards walk over 12-byte elements, and arrays that show the violations. -/
example : MulOk int32 (-12) 3 ∧ Inside 100 (element 96 (-12) 3) := by unfold MulOk Inside element; decide
example : (∀ s ∈ [Step.preInc, .addAssign int32 5, .postDec, .subAssign uint8 2], s.MulOk (-12)) ∧
    ∀ k, k ≤ 4 → Inside 100 (element 96 (-12) (net ([Step.preInc, .addAssign int32 5, .postDec, .subAssign int32 2].take k))) := by
  constructor
  · simp only [List.mem_cons, List.not_mem_nil, or_false, forall_eq_or_imp, forall_eq, Step.MulOk, MulOk, and_self, true_and]
    decide
  · unfold Inside element; decide
example : runAll (.object 100) [.preInc, .addAssign int32 5, .postDec, .subAssign int32 2] ⟨96, -12⟩ = .ok ⟨60, -12⟩ := by decide +kernel
example : Inside 100 96 ∧ Inside 100 (element 96 (-12) 3) := by unfold Inside element; decide
example : (2 : Int) ^ 32 ≤ 1073741824 * 4 ∧ Inside (2 ^ 33) (element 0 4 1073741824) := by unfold Inside element; decide

/-! ## C68: `SparsePtr` as a random access iterator -/

/-- C68, non-negative strides: the order of the iterators is that of the numbers of their elements.
Missing (see the `_violated` theorem): negative strides. -/
theorem C68_order_partial {size : Nat} (base stride n k : Int) (hs : 0 < stride) :
    ∃ d, diff (.object size) ⟨element base stride n, stride⟩ ⟨element base stride k, stride⟩ = .ok d ∧
      (lt ⟨element base stride k, stride⟩ ⟨element base stride n, stride⟩ = true ↔ 0 < d) := by
  refine ⟨n - k, C46_diff base stride n k (by omega), ?_⟩
  have : element base stride n - element base stride k = (n - k) * stride := by unfold element; ring
  simp only [lt, decide_eq_true_eq]
  constructor
  · intro h
    by_contra hc
    have : (n - k) * stride ≤ 0 := Int.mul_nonpos_of_nonpos_of_nonneg (by omega) (by omega)
    omega
  · intro h
    have : 0 < (n - k) * stride := Int.mul_pos h hs
    omega

/-- C68 fails for every negative stride: `b - a > 0` but not `a < b`. -/
theorem C68_order_violated {size : Nat} (base stride n k : Int) (hs : stride < 0) (h : k < n) :
    ∃ d, diff (.object size) ⟨element base stride n, stride⟩ ⟨element base stride k, stride⟩ = .ok d ∧ 0 < d ∧
      lt ⟨element base stride k, stride⟩ ⟨element base stride n, stride⟩ = false := by
  refine ⟨n - k, C46_diff base stride n k (by omega), by omega, ?_⟩
  have h1 : element base stride n - element base stride k = (n - k) * stride := by unfold element; ring
  have : (n - k) * stride < 0 := Int.mul_neg_of_pos_of_neg (by omega) hs
  simp only [lt, decide_eq_false_iff_not]
  omega

/-! ## C69: conversion to a pointer to a base class -/

/-- C69: a conversion keeps the stride, and designates the base class subobject if that is at
offset 0.  Missing (see the `_violated` theorem): bases at other offsets. -/
theorem C69_convert_partial (p : SPtr) (offset : Int) (h : offset = 0) :
    getPtr (convert offset p) = getPtr p + offset ∧ getStride (convert offset p) = getStride p := by
  simp [convert, getPtr, getStride, h]

/-- C69 fails for every base class at another offset: the address is not adjusted. -/
theorem C69_convert_violated (p : SPtr) (offset : Int) (h : offset ≠ 0) : getPtr (convert offset p) ≠ getPtr p + offset := by
  simp only [convert, getPtr]; omega

end Verif.SparsePtr
