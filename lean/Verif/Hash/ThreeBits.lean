/-!
# A computation for C166: the registers of CRC-32 up to 91638 steps

`sequence i` is the register of the reflected CRC-32 `i` steps after a single bit.  No two of the first 91638 of them (after `sequence 0`) differ by exactly `sequence 0`: they are
split by their bits until one side is empty.  The functions are written with recursors for the kernel, which evaluates them; the eight parts take about 20 s and 2 GB each.
-/

namespace Verif.Hash.ThreeBits

/-- The register steps, as numbers. -/
def poly : Nat := 0xEDB88320

def next (s : Nat) : Nat := Nat.xor (Nat.shiftRight s 1) (Nat.mul (Nat.land s 1) 0xEDB88320)

def sequence : Nat → Nat
  | 0 => poly
  | i + 1 => next (sequence i)

/-- Evaluates a number before it is used. -/
noncomputable def force {α : Type} (n : Nat) (k : Nat → α) : α := Nat.rec (k 0) (fun m _ => k (Nat.succ m)) n

/-- Those of the `n` numbers after `s` that are `q` modulo 8. -/
noncomputable def part (q n : Nat) : Nat → List Nat :=
  Nat.rec (fun _ => []) (fun _ ih s => force (next s) (fun t => Bool.rec (ih t) (t :: ih t) (Nat.beq (Nat.land t 7) q))) n

/-- The numbers that have, or do not have, bit `k`. -/
noncomputable def ones (k : Nat) (l : List Nat) : List Nat := List.rec [] (fun x _ ih => Bool.rec ih (x :: ih) (Nat.beq (Nat.mod (Nat.shiftRight x k) 2) 1)) l
noncomputable def zeros (k : Nat) (l : List Nat) : List Nat := List.rec [] (fun x _ ih => Bool.rec (x :: ih) ih (Nat.beq (Nat.mod (Nat.shiftRight x k) 2) 1)) l

/-- No number of `A` and number of `B` differ by `poly`, as far as bits `k`, `k + 1`, ... (`r` of them) tell. -/
noncomputable def cross (r : Nat) : Nat → List Nat → List Nat → Bool :=
  Nat.rec (fun _ _ _ => false) (fun _ ih k A B =>
    List.rec true (fun _ _ _ => List.rec true (fun _ _ _ =>
      Bool.rec
        (Bool.rec false (ih (Nat.succ k) (ones k A) (ones k B)) (ih (Nat.succ k) (zeros k A) (zeros k B)))
        (Bool.rec false (ih (Nat.succ k) (ones k A) (zeros k B)) (ih (Nat.succ k) (zeros k A) (ones k B)))
        (Nat.beq (Nat.mod (Nat.shiftRight 0xEDB88320 k) 2) 1)) B) A) r

/-- The same inside one list that has been split by the bits 0, 1 and 2: `poly` has bit 5, and not 3 and 4. -/
noncomputable def inside (l : List Nat) : Bool :=
  Bool.rec false
    (Bool.rec false
      (Bool.rec false (cross 27 6 (zeros 5 (ones 4 (ones 3 l))) (ones 5 (ones 4 (ones 3 l))))
        (cross 27 6 (zeros 5 (zeros 4 (ones 3 l))) (ones 5 (zeros 4 (ones 3 l)))))
      (cross 27 6 (zeros 5 (ones 4 (zeros 3 l))) (ones 5 (ones 4 (zeros 3 l)))))
    (cross 27 6 (zeros 5 (zeros 4 (zeros 3 l))) (ones 5 (zeros 4 (zeros 3 l))))

/-- The number `n` steps after `s`. -/
noncomputable def after (n : Nat) : Nat → Nat := Nat.rec (fun s => s) (fun _ ih s => force (next s) ih) n

set_option Elab.async false

private theorem sum_value : Nat.xor (after 91639 poly) (after 41678 poly) = poly := by decide +kernel

private theorem part0 : inside (part 0 91638 poly) = true := by decide +kernel
private theorem part1 : inside (part 1 91638 poly) = true := by decide +kernel
private theorem part2 : inside (part 2 91638 poly) = true := by decide +kernel
private theorem part3 : inside (part 3 91638 poly) = true := by decide +kernel
private theorem part4 : inside (part 4 91638 poly) = true := by decide +kernel
private theorem part5 : inside (part 5 91638 poly) = true := by decide +kernel
private theorem part6 : inside (part 6 91638 poly) = true := by decide +kernel
private theorem part7 : inside (part 7 91638 poly) = true := by decide +kernel

private theorem bit_eq (x k : Nat) : Nat.beq (Nat.mod (Nat.shiftRight x k) 2) 1 = x.testBit k := by
  rw [Nat.testBit_eq_decide_div_mod_eq, ← Nat.shiftRight_eq_div_pow]
  rw [Bool.eq_iff_iff, Nat.beq_eq, decide_eq_true_iff]
  rfl

private theorem mem_ones (k x : Nat) (l : List Nat) (h : x ∈ l) (hb : x.testBit k = true) : x ∈ ones k l := by
  induction l with
  | nil => simp at h
  | cons y l ih =>
    show x ∈ (Bool.rec (ones k l) (y :: ones k l) (Nat.beq (Nat.mod (Nat.shiftRight y k) 2) 1) : List Nat)
    rw [bit_eq]
    rcases List.mem_cons.mp h with rfl | h
    · rw [hb]; simp
    · cases y.testBit k
      · exact ih h
      · exact List.mem_cons_of_mem _ (ih h)

private theorem mem_zeros (k x : Nat) (l : List Nat) (h : x ∈ l) (hb : x.testBit k = false) : x ∈ zeros k l := by
  induction l with
  | nil => simp at h
  | cons y l ih =>
    show x ∈ (Bool.rec (y :: zeros k l) (zeros k l) (Nat.beq (Nat.mod (Nat.shiftRight y k) 2) 1) : List Nat)
    rw [bit_eq]
    rcases List.mem_cons.mp h with rfl | h
    · rw [hb]; simp
    · cases y.testBit k
      · exact List.mem_cons_of_mem _ (ih h)
      · exact ih h

private theorem both {a b : Bool} (h : (Bool.rec false a b : Bool) = true) : b = true ∧ a = true := by
  cases b
  · simp at h
  · exact ⟨rfl, h⟩

private theorem cross_sound (r : Nat) : ∀ (k : Nat) (A B : List Nat), cross r k A B = true → ∀ x ∈ A, ∀ y ∈ B, x ^^^ y ≠ poly := by
  induction r with
  | zero => intro k A B h; exact absurd h (by simp [cross])
  | succ r ih =>
    intro k A B h x hx y hy e
    obtain ⟨a, A', rfl⟩ := List.exists_cons_of_ne_nil (List.ne_nil_of_mem hx)
    obtain ⟨b, B', rfl⟩ := List.exists_cons_of_ne_nil (List.ne_nil_of_mem hy)
    have hp : (x.testBit k ^^ y.testBit k) = poly.testBit k := by rw [← e, Nat.testBit_xor]
    have h' : (Bool.rec
        (Bool.rec false (cross r (k + 1) (ones k (a :: A')) (ones k (b :: B'))) (cross r (k + 1) (zeros k (a :: A')) (zeros k (b :: B'))))
        (Bool.rec false (cross r (k + 1) (ones k (a :: A')) (zeros k (b :: B'))) (cross r (k + 1) (zeros k (a :: A')) (ones k (b :: B'))))
        (Nat.beq (Nat.mod (Nat.shiftRight poly k) 2) 1) : Bool) = true := h
    rw [bit_eq] at h'
    cases hpk : poly.testBit k
    · rw [hpk] at h' hp
      obtain ⟨h0, h1⟩ := both h'
      cases hxk : x.testBit k
      · exact ih _ _ _ h0 x (mem_zeros k x _ hx hxk) y (mem_zeros k y _ hy (by simpa [hxk] using hp)) e
      · exact ih _ _ _ h1 x (mem_ones k x _ hx hxk) y (mem_ones k y _ hy (by simpa [hxk] using hp)) e
    · rw [hpk] at h' hp
      obtain ⟨h0, h1⟩ := both h'
      cases hxk : x.testBit k
      · exact ih _ _ _ h0 x (mem_zeros k x _ hx hxk) y (mem_ones k y _ hy (by simpa [hxk] using hp)) e
      · exact ih _ _ _ h1 x (mem_ones k x _ hx hxk) y (mem_zeros k y _ hy (by simpa [hxk] using hp)) e

private theorem testBit_poly3 : poly.testBit 3 = false := by decide
private theorem testBit_poly4 : poly.testBit 4 = false := by decide
private theorem testBit_poly5 : poly.testBit 5 = true := by decide

private theorem same {a b : Bool} (h : (a ^^ b) = false) : b = a := by cases a <;> cases b <;> simp_all

private theorem inside_sound {l : List Nat} (h : inside l = true) : ∀ x ∈ l, ∀ y ∈ l, x ^^^ y ≠ poly := by
  obtain ⟨h00, h⟩ := both h
  obtain ⟨h01, h⟩ := both h
  obtain ⟨h10, h11⟩ := both h
  -- one of the two has bit 5; let it be `y`
  have key : ∀ x ∈ l, ∀ y ∈ l, x.testBit 5 = false → x ^^^ y ≠ poly := by
    intro x hx y hy h5 e
    have hp : ∀ k, (x.testBit k ^^ y.testBit k) = poly.testBit k := by intro k; rw [← e, Nat.testBit_xor]
    have e3 : y.testBit 3 = x.testBit 3 := same (by rw [hp 3]; exact testBit_poly3)
    have e4 : y.testBit 4 = x.testBit 4 := same (by rw [hp 4]; exact testBit_poly4)
    have e5 : y.testBit 5 = true := by have := hp 5; rw [testBit_poly5, h5] at this; simpa using this
    cases h3 : x.testBit 3 <;> cases h4 : x.testBit 4 <;> rw [h3] at e3 <;> rw [h4] at e4
    · exact cross_sound _ _ _ _ h00 x (mem_zeros _ _ _ (mem_zeros _ _ _ (mem_zeros _ _ _ hx h3) h4) h5) y (mem_ones _ _ _ (mem_zeros _ _ _ (mem_zeros _ _ _ hy e3) e4) e5) e
    · exact cross_sound _ _ _ _ h01 x (mem_zeros _ _ _ (mem_ones _ _ _ (mem_zeros _ _ _ hx h3) h4) h5) y (mem_ones _ _ _ (mem_ones _ _ _ (mem_zeros _ _ _ hy e3) e4) e5) e
    · exact cross_sound _ _ _ _ h10 x (mem_zeros _ _ _ (mem_zeros _ _ _ (mem_ones _ _ _ hx h3) h4) h5) y (mem_ones _ _ _ (mem_zeros _ _ _ (mem_ones _ _ _ hy e3) e4) e5) e
    · exact cross_sound _ _ _ _ h11 x (mem_zeros _ _ _ (mem_ones _ _ _ (mem_ones _ _ _ hx h3) h4) h5) y (mem_ones _ _ _ (mem_ones _ _ _ (mem_ones _ _ _ hy e3) e4) e5) e
  intro x hx y hy e
  cases h5 : x.testBit 5
  · exact key x hx y hy h5 e
  · refine key y hy x hx ?_ (by rw [Nat.xor_comm]; exact e)
    have : (x.testBit 5 ^^ y.testBit 5) = poly.testBit 5 := by rw [← e, Nat.testBit_xor]
    rw [testBit_poly5, h5] at this
    simpa using this

private theorem force_eq {α : Type} (n : Nat) (k : Nat → α) : force n k = k n := by cases n <;> rfl

private theorem after_eq (n : Nat) : ∀ i, after n (sequence i) = sequence (i + n) := by
  induction n with
  | zero => intro i; rfl
  | succ n ih =>
    intro i
    show force (next (sequence i)) (after n) = _
    rw [force_eq, show next (sequence i) = sequence (i + 1) from rfl, ih]
    congr 1; omega

private theorem mem_part (q n : Nat) : ∀ (i j : Nat), j < n → Nat.land (sequence (i + j + 1)) 7 = q → sequence (i + j + 1) ∈ part q n (sequence i) := by
  induction n with
  | zero => intro i j h; omega
  | succ n ih =>
    intro i j h hq
    show _ ∈ force (next (sequence i)) (fun t => (Bool.rec (part q n t) (t :: part q n t) (Nat.beq (Nat.land t 7) q) : List Nat))
    rw [force_eq, show next (sequence i) = sequence (i + 1) from rfl]
    cases j with
    | zero =>
      rw [Nat.add_zero] at hq ⊢
      rw [hq, show Nat.beq q q = true from Nat.beq_eq.mpr rfl]
      simp
    | succ j =>
      have := ih (i + 1) j (by omega) (by rw [← hq]; congr 1; congr 1; omega)
      rw [show i + 1 + j + 1 = i + (j + 1) + 1 by omega] at this
      cases Nat.beq (Nat.land (sequence (i + 1)) 7) q
      · exact this
      · exact List.mem_cons_of_mem _ this

private theorem low (x y : Nat) (e : x ^^^ y = poly) : Nat.land x 7 = Nat.land y 7 := by
  show x &&& 7 = y &&& 7
  have h : (x &&& 7) ^^^ (y &&& 7) = 0 := by
    rw [← Nat.and_xor_distrib_right, e]; decide
  apply Nat.eq_of_testBit_eq
  intro k
  have := congrArg (fun z => Nat.testBit z k) h
  simp only [Nat.testBit_xor, Nat.zero_testBit] at this
  exact (same this).symm

private theorem low_lt (x : Nat) : Nat.land x 7 < 8 := Nat.lt_of_le_of_lt (Nat.and_le_right (n := x) (m := 7)) (by decide)

/-- No two of the registers 1, 2, ..., 91638 differ by register 0. -/
theorem no_sum (i j : Nat) (hi : 1 ≤ i ∧ i ≤ 91638) (hj : 1 ≤ j ∧ j ≤ 91638) : sequence i ^^^ sequence j ≠ sequence 0 := by
  intro e
  have hl := low _ _ e
  have mem : ∀ q i, 1 ≤ i ∧ i ≤ 91638 → Nat.land (sequence i) 7 = q → sequence i ∈ part q 91638 poly := by
    intro q i hi hq
    have := mem_part q 91638 0 (i - 1) (by omega)
    rw [show 0 + (i - 1) + 1 = i by omega] at this
    exact this hq
  have all : ∀ q, q < 8 → inside (part q 91638 poly) = true := by
    intro q hq
    match q, hq with
    | 0, _ => exact part0
    | 1, _ => exact part1
    | 2, _ => exact part2
    | 3, _ => exact part3
    | 4, _ => exact part4
    | 5, _ => exact part5
    | 6, _ => exact part6
    | 7, _ => exact part7
  exact inside_sound (all _ (low_lt (sequence i))) _ (mem _ i hi rfl) _ (mem _ j hj hl.symm) e

private theorem sum_of (m n : Nat) (h : Nat.xor (after m poly) (after n poly) = poly) : sequence m ^^^ sequence n = sequence 0 := by
  have h1 := after_eq m 0
  have h2 := after_eq n 0
  rw [Nat.zero_add] at h1 h2
  rw [← h1, ← h2]
  exact h

/-- Register 91639 is the sum of the registers 41678 and 0. -/
theorem sum : sequence 91639 ^^^ sequence 41678 = sequence 0 := sum_of _ _ sum_value

end Verif.Hash.ThreeBits
