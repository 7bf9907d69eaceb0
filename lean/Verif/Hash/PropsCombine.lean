import Verif.Hash.PropsCall

/-!
# Property C163: hashes of several values

`HashCombine(v, args...)` combines the hashes of its arguments (`hashCombineAll`); the other form,
called for one value after the other, accumulates them in a seed (`accumulate`).
-/

namespace Verif.Hash

/-- A program that calls `HashCombine(seed, v)` for values of the given hashes, Hash.inl:67-80. -/
def accumulate (seed : BitVec 64) (hashes : List (BitVec 64)) : BitVec 64 := hashes.foldl hashCombine seed

/-- C163: accumulated hashes tell apart sequences that differ in the last value only. -/
theorem C163_last_partial (seed : BitVec 64) (before : List (BitVec 64)) (x y : BitVec 64) (h : x ≠ y) :
    accumulate seed (before ++ [x]) ≠ accumulate seed (before ++ [y]) := by
  unfold accumulate
  simp only [List.foldl_append, List.foldl_cons, List.foldl_nil]
  exact fun e => h ((C50_bijective _).1 e)

private theorem xor_back (s h : BitVec 64) : h ^^^ (s ^^^ h) = s := by
  rw [BitVec.xor_comm s h, ← BitVec.xor_assoc, BitVec.xor_self, BitVec.zero_xor]

private def inner (s : BitVec 64) : BitVec 64 := s ^^^ (s * kMul ^^^ (s * kMul) >>> 47)

private theorem combine_inner (s h : BitVec 64) : hashCombine (s ^^^ h) h =
    ((inner s ^^^ h) * kMul ^^^ ((inner s ^^^ h) * kMul) >>> 47) * kMul := by
  unfold hashCombine
  simp only [xor_back]
  have e : s ^^^ h ^^^ (s * kMul ^^^ (s * kMul) >>> 47) = inner s ^^^ h := by
    unfold inner
    generalize s * kMul ^^^ (s * kMul) >>> 47 = m
    rw [BitVec.xor_assoc, BitVec.xor_comm h m, ← BitVec.xor_assoc]
  rw [e]

/-- C163: for the hash of every value there are two seeds that `HashCombine` merges. -/
theorem C163_seeds_violated (h : BitVec 64) : ∃ s t, s ≠ t ∧ hashCombine s h = hashCombine t h := by
  refine ⟨0x72d396f90bb8c900#64 ^^^ h, 0x012f81da74544863#64 ^^^ h, ?_, ?_⟩
  · intro e
    have := congrArg (fun v => v ^^^ h) e
    simp only [BitVec.xor_assoc, BitVec.xor_self, BitVec.xor_zero] at this
    exact absurd this (by decide)
  · rw [combine_inner, combine_inner, show inner 0x72d396f90bb8c900#64 = inner 0x012f81da74544863#64 by decide +kernel]

/-- C163: for every seed, all values before and all values after (at least one), there are two hashes of the value between them that are not told apart. -/
theorem C163_accumulate_violated (seed : BitVec 64) (before after : List (BitVec 64)) (hne : after ≠ []) :
    ∃ x y, x ≠ y ∧ accumulate seed (before ++ x :: after) = accumulate seed (before ++ y :: after) := by
  obtain ⟨h, rest, rfl⟩ := List.exists_cons_of_ne_nil hne
  obtain ⟨s, t, hst, e⟩ := C163_seeds_violated h
  obtain ⟨x, hx⟩ := (C50_bijective (accumulate seed before)).2 s
  obtain ⟨y, hy⟩ := (C50_bijective (accumulate seed before)).2 t
  refine ⟨x, y, fun hxy => hst (by rw [← hx, ← hy, hxy]), ?_⟩
  unfold accumulate at hx hy ⊢
  simp only [List.foldl_append, List.foldl_cons]
  rw [hx, hy, e]

/-- C163: the same for the variadic form, whatever `std::hash<std::size_t>` is: a change of the first argument, or of one in the middle, may be missed. -/
theorem C163_tuple_violated (hashSize : BitVec 64 → BitVec 64) (after : List (BitVec 64)) (hne : after ≠ []) :
    (∃ x y, x ≠ y ∧ hashCombineAll hashSize x after = hashCombineAll hashSize y after) ∧
    ∀ first before, ∃ x y, x ≠ y ∧ hashCombineAll hashSize first (before ++ x :: after) = hashCombineAll hashSize first (before ++ y :: after) := by
  obtain ⟨h, rest, rfl⟩ := List.exists_cons_of_ne_nil hne
  obtain ⟨s, t, hst, e⟩ := C163_seeds_violated (hashSize (hashCombineAll hashSize h rest))
  refine ⟨⟨s, t, hst, e⟩, fun first before => ⟨s, t, hst, ?_⟩⟩
  induction before generalizing first with
  | nil => simp only [List.nil_append, hashCombineAll]; rw [e]
  | cons p ps ih => simp only [List.cons_append, hashCombineAll]; rw [ih]

/-- C163: exchanging two values is noticed, unless their hashes are equal (if `std::hash<std::size_t>` is the identity). -/
theorem C163_swap (x y : BitVec 64) : hashCombineAll id x [y] = hashCombineAll id y [x] ↔ x = y := by
  constructor
  · intro e
    simp only [hashCombineAll, id] at e
    unfold hashCombine at e
    have h1 := mul_inj _ _ kMul_inv _ _ e
    have h2 := congrArg (fun z : BitVec 64 => z ^^^ (z >>> 47)) h1
    simp only [xorshift_involutive] at h2
    have h3 := mul_inj _ _ kMul_inv _ _ h2
    rw [BitVec.xor_comm y x] at h3
    generalize (x ^^^ y) * kMul ^^^ ((x ^^^ y) * kMul) >>> 47 = m at h3
    have h4 := congrArg (fun z : BitVec 64 => z ^^^ m) h3
    simpa only [BitVec.xor_assoc, BitVec.xor_self, BitVec.xor_zero] using h4
  · rintro rfl; rfl

/-- C163: for every value there is exactly one hash of a second one that does not change the hash when it is added (if `std::hash<std::size_t>` is a bijection). -/
theorem C163_length_violated (hashSize : BitVec 64 → BitVec 64) (hb : Function.Bijective hashSize) (x : BitVec 64) :
    ∃! y, hashCombineAll hashSize x [y] = hashCombineAll hashSize x [] := by
  obtain ⟨z, hz⟩ := (C50_bijective x).2 x
  obtain ⟨y, hy⟩ := hb.2 z
  refine ⟨y, by simp only [hashCombineAll]; rw [hy, hz], fun y' h' => ?_⟩
  simp only [hashCombineAll] at h'
  exact hb.1 ((C50_bijective x).1 (by rw [h', hy, hz]))

/-- Three values. -/
example : ∃ x y : BitVec 64, x ≠ y ∧ accumulate 0 [1, x, 3] = accumulate 0 [1, y, 3] := C163_accumulate_violated 0 [1] [3] (by simp)

end Verif.Hash
