import Verif.SparsePtr.ModelMixed
import Verif.SparsePtr.Props

/-!
# C155: `SparsePtr`s of different types in one expression

For pointers `T*` and `U*` one of which converts to the other (for example `const X*` and `X*`), `p == q`, `p < q` and `p - q` are allowed in both orders.  Of `SparsePtr<T>` and `SparsePtr<U>` the
same is expected.
-/

namespace Verif.SparsePtr.Mixed
open Verif.Cpp

variable {τ : Type} [DecidableEq τ] {Y : Types τ} {sizeof : τ → Nat}

/-- C155: comparisons compare the addresses if the right operand is of the same type, or converts to the type of the left one with the same address. -/
theorem C155_compare_partial (t u : τ) (p q : SPtr) (h : Y.conv u t = true) (h0 : Y.offset u t = 0) :
    compare Y sizeof eq t p (.sparse u q) = .val (decide (getPtr p = getPtr q + Y.offset u t)) ∧
    compare Y sizeof ne t p (.sparse u q) = .val (!decide (getPtr p = getPtr q + Y.offset u t)) ∧
    compare Y sizeof lt t p (.sparse u q) = .val (decide (getPtr p < getPtr q + Y.offset u t)) ∧
    compare Y sizeof gt t p (.sparse u q) = .val (decide (getPtr q + Y.offset u t < getPtr p)) ∧
    compare Y sizeof le t p (.sparse u q) = .val (decide (getPtr p ≤ getPtr q + Y.offset u t)) ∧
    compare Y sizeof ge t p (.sparse u q) = .val (decide (getPtr q + Y.offset u t ≤ getPtr p)) := by
  have hs : ∃ q', toSparse Y sizeof t (.sparse u q) = .val q' ∧ q'.ptr = q.ptr := by
    by_cases hut : u = t
    · exact ⟨q, by simp [toSparse, hut], rfl⟩
    · exact ⟨convert (Y.offset u t) q, by simp [toSparse, hut, h], rfl⟩
  obtain ⟨q', e, hq⟩ := hs
  simp only [compare, e, getPtr, ← hq, h0, Int.add_zero]
  refine ⟨?_, ?_, ?_, ?_, ?_, ?_⟩ <;> congr 1 <;> rw [Bool.eq_iff_iff] <;> simp [ne, ge]

/-- C155: plain pointers on the right are compared with the address of the subobject that they convert to, wherever it is. -/
theorem C155_compare_raw (t u : τ) (p : SPtr) (h : Y.conv u t = true) (a : Int) :
    compare Y sizeof eq t p (.raw u a) = .val (decide (getPtr p = a + Y.offset u t)) ∧
    compare Y sizeof ne t p (.raw u a) = .val (!decide (getPtr p = a + Y.offset u t)) ∧
    compare Y sizeof lt t p (.raw u a) = .val (decide (getPtr p < a + Y.offset u t)) ∧
    compare Y sizeof gt t p (.raw u a) = .val (decide (a + Y.offset u t < getPtr p)) ∧
    compare Y sizeof le t p (.raw u a) = .val (decide (getPtr p ≤ a + Y.offset u t)) ∧
    compare Y sizeof ge t p (.raw u a) = .val (decide (a + Y.offset u t ≤ getPtr p)) := by
  have hr : toSparse Y sizeof t (.raw u a) = .val (ofPtr (sizeof t) (a + Y.offset u t)) := by simp [toSparse, h]
  simp only [compare, hr, getPtr]
  refine ⟨?_, ?_, ?_, ?_, ?_, ?_⟩ <;> congr 1 <;> rw [Bool.eq_iff_iff] <;> simp [eq, ne, lt, gt, le, ge, ofPtr]

/-- C155: in the other order no comparison compiles. -/
theorem C155_compare_violated (t u : τ) (p q : SPtr) (h : Y.conv t u = true) (hn : Y.conv u t = false) (op : SPtr → SPtr → Bool) :
    compare Y sizeof op t p (.sparse u q) = .error ∧ ∃ b : Bool, compare Y sizeof op u q (.sparse t p) = .val b := by
  have hut : ¬ u = t := by
    rintro rfl
    rw [Y.conv_refl] at hn
    simp at hn
  have htu : ¬ t = u := fun hh => hut hh.symm
  constructor
  · simp [compare, toSparse, hut, hn]
  · exact ⟨op q (convert (Y.offset t u) p), by simp [compare, toSparse, htu, h]⟩

/-- C155: `p - q` is the difference of C46 for two pointers of the same type. -/
theorem C155_difference_partial {size : Nat} (t : τ) (base stride n k : Int) (hs : stride ≠ 0) :
    minus (.object size) t ⟨element base stride n, stride⟩ (.sparse t ⟨element base stride k, stride⟩) = .val (.ok (n - k)) := by
  simp [minus, C46_diff base stride n k hs]

/-- C155: for two different types `p - q` never compiles, in any order, whatever converts to what; neither does the subtraction of a plain pointer. -/
theorem C155_difference_violated (m : Mem) (t u : τ) (h : t ≠ u) (p q : SPtr) (a : Int) :
    minus m t p (.sparse u q) = .error ∧ minus m u q (.sparse t p) = .error ∧ minus m t p (.raw t a) = .error := by
  have h' : ¬ u = t := fun hh => h hh.symm
  simp [minus, h, h']

/-- C155: conversions keep address and stride if the pointers convert, without change of address; otherwise they do not compile, although overload resolution accepts all of them
(`std::is_convertible_v<SparsePtr<U>, SparsePtr<T>>` is true for all types). -/
theorem C155_convert_violated (t u : τ) (q : SPtr) :
    assign Y sizeof t (.sparse u q) ≠ .noMatch ∧
    (Y.conv u t = false → assign Y sizeof t (.sparse u q) = .error) ∧
    (Y.conv u t = true → assign Y sizeof t (.sparse u q) = .val q) := by
  by_cases h : u = t
  · subst h
    simp [assign, toSparse, Y.conv_refl]
  · cases hc : Y.conv u t <;> simp [assign, toSparse, h, hc, convert]

/-- C155: `SparsePtr<T>(ptr, stride)` takes strides of type `int`, `std::size_t` and of all types that promote to `int`. -/
theorem C155_stride_partial (ty : StrideType) (ptr stride : Int) (h : ty ≠ .other) (h0 : ty = .sizeT → 0 ≤ stride ∧ stride < 2 ^ 31) :
    ofTyped ty ptr stride = .val (.ok ⟨ptr, stride⟩) := by
  cases ty with
  | int => rfl
  | promoted => rfl
  | other => exact absurd rfl h
  | sizeT =>
    obtain ⟨h1, h2⟩ := h0 rfl
    have := ((C46_construct ptr stride.toNat).1 (by omega)).2
    have e : ofTyped .sizeT ptr stride = .val (ofSizeT ptr stride.toNat) := rfl
    rw [e, this, Int.toNat_of_nonneg h1]

/-- C155: for strides of all other arithmetic types (`unsigned int`, `long`, ...) the call is ambiguous. -/
theorem C155_stride_violated (ptr stride : Int) : ofTyped .other ptr stride = .noMatch := rfl

/-! ## A concrete case: `X` and `const X` -/

/-- The two types: `true` is `const X`. -/
def constTypes : Types Bool where
  conv u t := !u || t
  conv_refl a := by cases a <;> rfl
  offset _ _ := 0

example : compare constTypes (fun _ => 12) eq true ⟨24, 12⟩ (.sparse false ⟨24, 12⟩) = .val true ∧
    compare constTypes (fun _ => 12) eq false ⟨24, 12⟩ (.sparse true ⟨24, 12⟩) = .error ∧
    minus (.object 100) true ⟨24, 12⟩ (.sparse false ⟨12, 12⟩) = .error ∧
    minus (.object 100) true ⟨24, 12⟩ (.sparse true ⟨12, 12⟩) = .val (.ok 1) :=
  ⟨(C155_compare_partial true false ⟨24, 12⟩ ⟨24, 12⟩ rfl rfl).1, (C155_compare_violated false true ⟨24, 12⟩ ⟨24, 12⟩ rfl rfl eq).1,
    (C155_difference_violated (.object 100) true false (by decide) ⟨24, 12⟩ ⟨12, 12⟩ 0).1, C155_difference_partial (size := 100) true 0 12 2 1 (by decide)⟩

end Verif.SparsePtr.Mixed
