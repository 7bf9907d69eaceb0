import Verif.Bitset.PropsObs

/-!
# C10: algebraic laws

All laws say that the two sides both succeed with the same bitset (same size and same blocks, hence the same under every
observer).
-/

namespace Verif.Bitset
open Verif.Cpp

variable {w : Nat}

/-- Both computations succeed, with the same result. -/
def Same (x y : M (Bitset w)) : Prop := ∃ r, x = .ok r ∧ y = .ok r

section laws
variable (h : IsBlockWidth w) {a b c : Bitset w} (ha : WF a) (hb : WF b) (hc : WF c)
include h

theorem same_of {x y : M (Bitset w)} {n m : Nat} {f g : Nat → Bool} (hx : ∃ r, x = .ok r ∧ Has r n f) (hy : ∃ r, y = .ok r ∧ Has r m g)
    (hn : n = m) (e : ∀ i, i < n → f i = g i) : Same x y := by
  obtain ⟨r, ex, hr⟩ := hx
  obtain ⟨s, ey, hs⟩ := hy
  subst hn
  have := Has.eq h.pos hr hs e
  subst this
  exact ⟨r, ex, ey⟩

include ha in
theorem opNot_ok : ∃ r, opNot a = .ok r ∧ Has r a.bitCount (fun i => !(bitAt a.blocks i)) := performsNOT_ok h _ (.other a) ha

include ha hb

theorem opAnd_ok : ∃ r, opAnd a b = .ok r ∧ Has r (max a.bitCount b.bitCount) (fun i => bitAt a.blocks i && bitAt b.blocks i) :=
  performsAND_ok h _ (.other a) (.other b) ha hb
theorem opOr_ok : ∃ r, opOr a b = .ok r ∧ Has r (max a.bitCount b.bitCount) (fun i => bitAt a.blocks i || bitAt b.blocks i) :=
  performsOR_ok h _ (.other a) (.other b) ha hb
theorem opXor_ok : ∃ r, opXor a b = .ok r ∧ Has r (max a.bitCount b.bitCount) (fun i => bitAt a.blocks i ^^ bitAt b.blocks i) :=
  performsXOR_ok h _ (.other a) (.other b) ha hb

/-- Two operators one after the other. -/
theorem chain_left {op1 op2 : Bitset w → Bitset w → M (Bitset w)} {f1 f2 : Bool → Bool → Bool}
    (h1 : ∀ x y : Bitset w, WF x → WF y → ∃ r, op1 x y = .ok r ∧ Has r (max x.bitCount y.bitCount) (fun i => f1 (bitAt x.blocks i) (bitAt y.blocks i)))
    (h2 : ∀ x y : Bitset w, WF x → WF y → ∃ r, op2 x y = .ok r ∧ Has r (max x.bitCount y.bitCount) (fun i => f2 (bitAt x.blocks i) (bitAt y.blocks i)))
    (hf : f1 false false = false) (hc : WF c) :
    ∃ r, (do let x ← op1 a b; op2 x c) = .ok r ∧
      Has r (max (max a.bitCount b.bitCount) c.bitCount) (fun i => f2 (f1 (bitAt a.blocks i) (bitAt b.blocks i)) (bitAt c.blocks i)) := by
  have _ := h
  obtain ⟨x, ex, hx⟩ := h1 a b ha hb
  obtain ⟨r, er, hr⟩ := h2 x c hx.wf hc
  refine ⟨r, by rw [ex, ok_bind, er], ?_⟩
  rw [hx.size] at hr
  refine hr.congr ?_
  intro i _
  rw [hx.bits]
  by_cases hi : i < max a.bitCount b.bitCount
  · simp [hi]
  · rw [ha.bit_ge (by omega), hb.bit_ge (by omega)]
    simp [hf]

theorem chain_right {op1 op2 : Bitset w → Bitset w → M (Bitset w)} {f1 f2 : Bool → Bool → Bool}
    (h1 : ∀ x y : Bitset w, WF x → WF y → ∃ r, op1 x y = .ok r ∧ Has r (max x.bitCount y.bitCount) (fun i => f1 (bitAt x.blocks i) (bitAt y.blocks i)))
    (h2 : ∀ x y : Bitset w, WF x → WF y → ∃ r, op2 x y = .ok r ∧ Has r (max x.bitCount y.bitCount) (fun i => f2 (bitAt x.blocks i) (bitAt y.blocks i)))
    (hf : f1 false false = false) (hc : WF c) :
    ∃ r, (do let x ← op1 b c; op2 a x) = .ok r ∧
      Has r (max a.bitCount (max b.bitCount c.bitCount)) (fun i => f2 (bitAt a.blocks i) (f1 (bitAt b.blocks i) (bitAt c.blocks i))) := by
  have _ := h
  obtain ⟨x, ex, hx⟩ := h1 b c hb hc
  obtain ⟨r, er, hr⟩ := h2 a x ha hx.wf
  refine ⟨r, by rw [ex, ok_bind, er], ?_⟩
  rw [hx.size] at hr
  refine hr.congr ?_
  intro i _
  rw [hx.bits]
  by_cases hi : i < max b.bitCount c.bitCount
  · simp [hi]
  · rw [hb.bit_ge (by omega), hc.bit_ge (by omega)]
    simp [hf]

end laws

section props
variable (h : IsBlockWidth w) {a b c : Bitset w} (ha : Reachable a) (hb : Reachable b) (hc : Reachable c)
include h ha

/-- C10: `a ^ a` has the size of `a` and no set bit. -/
theorem C10_xor_self : ∃ r, opXor a a = .ok r ∧ getSize r = getSize a ∧ ∀ i, i < getSize a → test r i = .ok false := by
  obtain ⟨r, e, hr⟩ := opXor_ok h (ha.wf h) (ha.wf h)
  have hs : r.bitCount = a.bitCount := by rw [hr.size]; simp
  refine ⟨r, e, hs, ?_⟩
  intro i hi
  rw [test_ok h r hr.wf i (by rw [hs]; exact hi), hr.bits]
  simp

/-- C10: `~~a` is `a`. -/
theorem C10_not_not : (do let x ← opNot a; opNot x) = .ok a := by
  obtain ⟨x, e, hx⟩ := opNot_ok h (ha.wf h)
  obtain ⟨y, e', hy⟩ := opNot_ok h hx.wf
  rw [e, ok_bind, e']
  congr 1
  rw [hx.size] at hy
  refine Has.eq h.pos hy (ha.wf h) ?_
  intro i hi
  rw [hx.bits]
  simp [hi]

/-- C10: `Flip` is `~`, in place. -/
theorem C10_flip : Same (flip a) (opNot a) :=
  same_of h (flip_ok h a (ha.wf h)) (opNot_ok h (ha.wf h)) rfl (fun _ _ => rfl)

/-- C10: AND and OR are idempotent. -/
theorem C10_idempotent : opAnd a a = .ok a ∧ opOr a a = .ok a := by
  obtain ⟨r, e, hr⟩ := opAnd_ok h (ha.wf h) (ha.wf h)
  obtain ⟨s, e', hs⟩ := opOr_ok h (ha.wf h) (ha.wf h)
  rw [Nat.max_self] at hr hs
  have e1 := Has.eq h.pos hr (ha.wf h) (by simp)
  have e2 := Has.eq h.pos hs (ha.wf h) (by simp)
  subst e1
  subst e2
  exact ⟨e, e'⟩

/-- C10: two shifts in a row are one shift by the sum. -/
theorem C10_shiftLeft (p q : Nat) : Same (do let x ← shiftLeft a p; shiftLeft x q) (shiftLeft a (p + q)) := by
  obtain ⟨x, e, hx⟩ := shiftLeft_ok h a (ha.wf h) p
  obtain ⟨y, e', hy⟩ := shiftLeft_ok h x hx.wf q
  rw [hx.size] at hy
  refine same_of h ⟨y, by rw [e, ok_bind, e'], hy⟩ (shiftLeft_ok h a (ha.wf h) (p + q)) rfl ?_
  intro i hi
  simp only [hx.bits]
  by_cases h1 : i < q
  · rw [if_pos h1, if_pos (by omega)]
  · rw [if_neg h1]
    by_cases h2 : i < p + q
    · rw [if_pos h2, if_pos (by omega)]; simp
    · rw [if_neg h2, if_neg (by omega), show i - q - p = i - (p + q) by omega]
      simp; omega

theorem C10_shiftRight (p q : Nat) : Same (do let x ← shiftRight a p; shiftRight x q) (shiftRight a (p + q)) := by
  obtain ⟨x, e, hx⟩ := shiftRight_ok h a (ha.wf h) p
  obtain ⟨y, e', hy⟩ := shiftRight_ok h x hx.wf q
  rw [hx.size] at hy
  refine same_of h ⟨y, by rw [e, ok_bind, e'], hy⟩ (shiftRight_ok h a (ha.wf h) (p + q)) rfl ?_
  intro i hi
  rw [hx.bits, show i + q + p = i + (p + q) by omega]
  by_cases h2 : i + q < a.bitCount
  · simp [h2]
  · rw [(ha.wf h).bit_ge (i := i + (p + q)) (by omega)]; simp

/-- C10: reversing twice gives the bitset back. -/
theorem C10_reverse_reverse : (do let x ← reverse a; reverse x) = .ok a := by
  obtain ⟨x, e, hx⟩ := reverse_ok h a (ha.wf h)
  obtain ⟨y, e', hy⟩ := reverse_ok h x hx.wf
  rw [e, ok_bind, e']
  congr 1
  rw [hx.size] at hy
  refine Has.eq h.pos hy (ha.wf h) ?_
  intro i hi
  rw [hx.bits, show a.bitCount - 1 - (a.bitCount - 1 - i) = i by omega]
  simp; omega

/-- C10: a left shift is a right shift of the reversed bitset. -/
theorem C10_reverse_shift (p : Nat) :
    Same (shiftLeft a p) (do let x ← reverse a; let y ← shiftRight x p; reverse y) := by
  obtain ⟨x, e, hx⟩ := reverse_ok h a (ha.wf h)
  obtain ⟨y, e', hy⟩ := shiftRight_ok h x hx.wf p
  obtain ⟨z, e'', hz⟩ := reverse_ok h y hy.wf
  rw [hy.size, hx.size] at hz
  refine same_of h (shiftLeft_ok h a (ha.wf h) p) ⟨z, by rw [e, ok_bind, e', ok_bind, e''], hz⟩ rfl ?_
  intro i hi
  rw [hy.bits, hx.size, hx.bits]
  by_cases h1 : i < p
  · rw [if_pos h1]
    have : ¬ (a.bitCount - 1 - i + p < a.bitCount) := by omega
    simp [this]
  · rw [if_neg h1, show a.bitCount - 1 - (a.bitCount - 1 - i + p) = i - p by omega]
    have h2 : a.bitCount - 1 - i + p < a.bitCount := by omega
    have h3 : a.bitCount - 1 - i < a.bitCount := by omega
    simp [h2, h3]

/-- C10: compound assignment with the target itself as operand. -/
theorem C10_compound_self :
    Same (opAndAssign a .self) (opAnd a a) ∧ Same (opOrAssign a .self) (opOr a a) ∧ Same (opXorAssign a .self) (opXor a a) := by
  have wf := ha.wf h
  exact ⟨same_of h (performsAND_ok h a .self .self wf wf) (opAnd_ok h wf wf) rfl (fun _ _ => rfl),
    same_of h (performsOR_ok h a .self .self wf wf) (opOr_ok h wf wf) rfl (fun _ _ => rfl),
    same_of h (performsXOR_ok h a .self .self wf wf) (opXor_ok h wf wf) rfl (fun _ _ => rfl)⟩

include hb

/-- C10: compound assignment gives the result of the binary operator. -/
theorem C10_compound :
    Same (opAndAssign a (.other b)) (opAnd a b) ∧ Same (opOrAssign a (.other b)) (opOr a b) ∧ Same (opXorAssign a (.other b)) (opXor a b) := by
  have wa := ha.wf h
  have wb := hb.wf h
  exact ⟨same_of h (performsAND_ok h a .self (.other b) wa wb) (opAnd_ok h wa wb) rfl (fun _ _ => rfl),
    same_of h (performsOR_ok h a .self (.other b) wa wb) (opOr_ok h wa wb) rfl (fun _ _ => rfl),
    same_of h (performsXOR_ok h a .self (.other b) wa wb) (opXor_ok h wa wb) rfl (fun _ _ => rfl)⟩

/-- C10: the member functions with any target, also when the target is the first or the second operand. -/
theorem C10_performs (d : Bitset w) :
    Same (performsAND d (.other a) (.other b)) (opAnd a b) ∧ Same (performsAND a (.other b) .self) (opAnd b a) ∧
    Same (performsOR d (.other a) (.other b)) (opOr a b) ∧ Same (performsOR a (.other b) .self) (opOr b a) ∧
    Same (performsXOR d (.other a) (.other b)) (opXor a b) ∧ Same (performsXOR a (.other b) .self) (opXor b a) := by
  have wa := ha.wf h
  have wb := hb.wf h
  exact ⟨same_of h (performsAND_ok h d (.other a) (.other b) wa wb) (opAnd_ok h wa wb) rfl (fun _ _ => rfl),
    same_of h (performsAND_ok h a (.other b) .self wb wa) (opAnd_ok h wb wa) rfl (fun _ _ => rfl),
    same_of h (performsOR_ok h d (.other a) (.other b) wa wb) (opOr_ok h wa wb) rfl (fun _ _ => rfl),
    same_of h (performsOR_ok h a (.other b) .self wb wa) (opOr_ok h wb wa) rfl (fun _ _ => rfl),
    same_of h (performsXOR_ok h d (.other a) (.other b) wa wb) (opXor_ok h wa wb) rfl (fun _ _ => rfl),
    same_of h (performsXOR_ok h a (.other b) .self wb wa) (opXor_ok h wb wa) rfl (fun _ _ => rfl)⟩

/-- C10: AND, OR and XOR are commutative. -/
theorem C10_commutative : Same (opAnd a b) (opAnd b a) ∧ Same (opOr a b) (opOr b a) ∧ Same (opXor a b) (opXor b a) := by
  have wa := ha.wf h
  have wb := hb.wf h
  exact ⟨same_of h (opAnd_ok h wa wb) (opAnd_ok h wb wa) (Nat.max_comm ..) (fun _ _ => Bool.and_comm ..),
    same_of h (opOr_ok h wa wb) (opOr_ok h wb wa) (Nat.max_comm ..) (fun _ _ => Bool.or_comm ..),
    same_of h (opXor_ok h wa wb) (opXor_ok h wb wa) (Nat.max_comm ..) (fun _ _ => Bool.xor_comm ..)⟩

/-- C10: De Morgan's laws, for equal sizes. -/
theorem C10_deMorgan (hs : getSize a = getSize b) :
    Same (do let x ← opAnd a b; opNot x) (do let x ← opNot a; let y ← opNot b; opOr x y) ∧
    Same (do let x ← opOr a b; opNot x) (do let x ← opNot a; let y ← opNot b; opAnd x y) := by
  have wa := ha.wf h
  have wb := hb.wf h
  have hs' : a.bitCount = b.bitCount := hs
  obtain ⟨x, ex, hx⟩ := opAnd_ok h wa wb
  obtain ⟨y, ey, hy⟩ := opOr_ok h wa wb
  obtain ⟨na, ena, hna⟩ := opNot_ok h wa
  obtain ⟨nb, enb, hnb⟩ := opNot_ok h wb
  constructor
  · rw [ex, ok_bind, ena, ok_bind, enb, ok_bind]
    refine same_of h (opNot_ok h hx.wf) (opOr_ok h hna.wf hnb.wf) (by rw [hx.size, hna.size, hnb.size]) ?_
    intro i hi
    rw [hx.size] at hi
    rw [hx.bits, hna.bits, hnb.bits]
    simp [hi, show i < a.bitCount by omega, show i < b.bitCount by omega]
  · rw [ey, ok_bind, ena, ok_bind, enb, ok_bind]
    refine same_of h (opNot_ok h hy.wf) (opAnd_ok h hna.wf hnb.wf) (by rw [hy.size, hna.size, hnb.size]) ?_
    intro i hi
    rw [hy.size] at hi
    rw [hy.bits, hna.bits, hnb.bits]
    simp [hi, show i < a.bitCount by omega, show i < b.bitCount by omega]

include hc

/-- C10: AND, OR and XOR are associative. -/
theorem C10_associative :
    Same (do let x ← opAnd a b; opAnd x c) (do let x ← opAnd b c; opAnd a x) ∧
    Same (do let x ← opOr a b; opOr x c) (do let x ← opOr b c; opOr a x) ∧
    Same (do let x ← opXor a b; opXor x c) (do let x ← opXor b c; opXor a x) := by
  have wa := ha.wf h
  have wb := hb.wf h
  have wc := hc.wf h
  have hand := fun (x y : Bitset w) (wx : WF x) (wy : WF y) => opAnd_ok h wx wy
  have hor := fun (x y : Bitset w) (wx : WF x) (wy : WF y) => opOr_ok h wx wy
  have hxor := fun (x y : Bitset w) (wx : WF x) (wy : WF y) => opXor_ok h wx wy
  exact ⟨same_of h (chain_left (f1 := (· && ·)) (f2 := (· && ·)) h wa wb hand hand rfl wc) (chain_right (f1 := (· && ·)) (f2 := (· && ·)) h wa wb hand hand rfl wc) (by omega) (fun _ _ => Bool.and_assoc ..),
    same_of h (chain_left (f1 := (· || ·)) (f2 := (· || ·)) h wa wb hor hor rfl wc) (chain_right (f1 := (· || ·)) (f2 := (· || ·)) h wa wb hor hor rfl wc) (by omega) (fun _ _ => Bool.or_assoc ..),
    same_of h (chain_left (f1 := (· ^^ ·)) (f2 := (· ^^ ·)) h wa wb hxor hxor rfl wc) (chain_right (f1 := (· ^^ ·)) (f2 := (· ^^ ·)) h wa wb hxor hxor rfl wc) (by omega) (fun _ _ => Bool.xor_assoc ..)⟩

end props

/-- For different sizes De Morgan's law fails: the complement only reaches to the size of its operand. -/
theorem C10_deMorgan_sizes :
    ∃ a b : Bitset 8, ofSize 1 true = .ok a ∧ ofSize 2 true = .ok b ∧
      ¬ Same (do let x ← opAnd a b; opNot x) (do let x ← opNot a; let y ← opNot b; opOr x y) := by
  refine ⟨⟨[1#8], 1⟩, ⟨[3#8], 2⟩, by decide, by decide, ?_⟩
  rintro ⟨r, h1, h2⟩
  have e1 : (do let x ← opAnd (⟨[1#8], 1⟩ : Bitset 8) ⟨[3#8], 2⟩; opNot x) = .ok ⟨[2#8], 2⟩ := by decide
  have e2 : (do let x ← opNot (⟨[1#8], 1⟩ : Bitset 8); let y ← opNot (⟨[3#8], 2⟩ : Bitset 8); opOr x y) = .ok ⟨[0#8], 2⟩ := by decide
  rw [e1] at h1
  rw [e2] at h2
  rw [← h2] at h1
  exact absurd h1 (by decide)

/-- The hypotheses can be met by different bitsets of equal sizes. -/
example : ∃ a b : Bitset 8, Reachable a ∧ Reachable b ∧ getSize a = getSize b ∧ getSize a = 3 ∧ a ≠ b := by
  obtain ⟨a, ra, sa⟩ := C01_reachable_all (w := 8) IsBlockWidth.std.1 [true, false, true]
  obtain ⟨b, rb, sb⟩ := C01_reachable_all (w := 8) IsBlockWidth.std.1 [true, true, true]
  refine ⟨a, b, ra, rb, sa.1.trans sb.1.symm, sa.1, ?_⟩
  rintro rfl
  have h1 := sa.2 1 (by decide)
  have h2 := sb.2 1 (by decide)
  rw [h1] at h2
  exact absurd h2 (by decide)

end Verif.Bitset
