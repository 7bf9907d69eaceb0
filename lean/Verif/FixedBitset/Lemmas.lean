import Verif.FixedBitset.Model
import Verif.Bitset.LemmasSeq

/-!
# The bounded operations against the unbounded ones
-/

namespace Verif.FixedBitset
open Verif.Cpp Verif.Bitset

variable {w : Nat}

/-- `x` is the computation `y` with a container of `N` blocks: whenever `y` succeeds with a result of `sz` blocks, `x` gives the
same result if `sz ≤ N` and fails an assertion otherwise. -/
def Bounded {α : Type} (N : Nat) (sz : α → Nat) (x y : M α) : Prop :=
  ∀ r, y = .ok r → (sz r ≤ N → x = .ok r) ∧ (N < sz r → x = .error .assert)

theorem Bounded.same {α : Type} {N : Nat} {sz : α → Nat} {y : M α} (h : ∀ r, y = .ok r → sz r ≤ N) : Bounded N sz y y :=
  fun r e => ⟨fun _ => e, fun hlt => absurd (h r e) (by omega)⟩

theorem Bounded.bind {α β : Type} {N : Nat} {sz : α → Nat} {sz' : β → Nat} {x y : M α} {f g : α → M β} (h : Bounded N sz x y)
    (hm : ∀ r r', y = .ok r → g r = .ok r' → sz r ≤ sz' r') (hf : ∀ r, y = .ok r → sz r ≤ N → Bounded N sz' (f r) (g r)) :
    Bounded N sz' (x >>= f) (y >>= g) := by
  intro r' e
  cases hy : y with
  | error er => rw [hy, err_bind] at e; cases e
  | ok r =>
    rw [hy, ok_bind] at e
    have hle := hm r r' hy e
    by_cases hr : sz r ≤ N
    · rw [(h r hy).1 hr, ok_bind]
      exact hf r hy hr r' e
    · refine ⟨fun hlt => by omega, fun _ => ?_⟩
      rw [(h r hy).2 (by omega), err_bind]

/-- A bounded step followed by the same computation, which keeps the number of blocks. -/
theorem Bounded.andThen {α β : Type} {N : Nat} {sz : α → Nat} {sz' : β → Nat} {x y : M α} {g : α → M β} (h : Bounded N sz x y)
    (hm : ∀ r r', y = .ok r → g r = .ok r' → sz r = sz' r') : Bounded N sz' (x >>= g) (y >>= g) :=
  h.bind (fun r r' e e' => Nat.le_of_eq (hm r r' e e')) (fun r e hr => Bounded.same (fun r' e' => by rw [← hm r r' e e']; exact hr))

/-- A step that is the same on both sides, before a bounded computation. -/
theorem Bounded.after {α β : Type} {N : Nat} {sz' : β → Nat} {y : M α} {f g : α → M β}
    (hf : ∀ r, y = .ok r → Bounded N sz' (f r) (g r)) : Bounded N sz' (y >>= f) (y >>= g) := by
  intro r' e
  cases hy : y with
  | error er => rw [hy, err_bind] at e; cases e
  | ok r =>
    rw [hy, ok_bind] at e
    rw [ok_bind]
    exact hf r hy r' e

theorem forUp_grow {σ : Type} {sz : σ → Nat} {g : Nat → σ → M σ} (I : σ → Prop)
    (hstep : ∀ i s s', I s → g i s = .ok s' → I s' ∧ sz s ≤ sz s') (n lo : Nat) (s : σ) (hI : I s) (r : σ)
    (e : Cpp.forUp lo n g s = .ok r) : I r ∧ sz s ≤ sz r := by
  induction n generalizing lo s with
  | zero => injection e with e; subst e; exact ⟨hI, Nat.le_refl _⟩
  | succ n ih =>
    cases hg : g lo s with
    | error er => simp only [Cpp.forUp, hg] at e; cases e
    | ok s' =>
      simp only [Cpp.forUp, hg] at e
      have := hstep lo s s' hI hg
      have h2 := ih (lo + 1) s' this.1 e
      exact ⟨h2.1, by omega⟩

theorem Bounded.forUp {σ : Type} {N : Nat} {sz : σ → Nat} {f g : Nat → σ → M σ} (I : σ → Prop)
    (hstep : ∀ i s s', I s → g i s = .ok s' → I s' ∧ sz s ≤ sz s') (hf : ∀ i s, I s → sz s ≤ N → Bounded N sz (f i s) (g i s))
    (n lo : Nat) (s : σ) (hI : I s) (hs : sz s ≤ N) : Bounded N sz (Cpp.forUp lo n f s) (Cpp.forUp lo n g s) := by
  induction n generalizing lo s with
  | zero => exact Bounded.same (fun r e => by injection e with e; subst e; exact hs)
  | succ n ih =>
    intro r e
    cases hg : g lo s with
    | error er => simp only [Cpp.forUp, hg] at e; cases e
    | ok s' =>
      simp only [Cpp.forUp, hg] at e
      have h1 := hstep lo s s' hI hg
      have h2 := forUp_grow I hstep n (lo + 1) s' h1.1 r e
      have h3 := hf lo s hI hs s' hg
      by_cases hs' : sz s' ≤ N
      · simp only [Cpp.forUp, h3.1 hs']
        exact ih (lo + 1) s' h1.1 hs' r e
      · refine ⟨fun hlt => by omega, fun _ => ?_⟩
        simp only [Cpp.forUp, h3.2 (by omega)]

theorem cresize_bounded (N : Nat) (l : List (BitVec w)) (n : Nat) (v : BitVec w) :
    Bounded N List.length (cresize N l n v) (.ok (vresize l n v)) := by
  intro r e
  injection e with e
  subst e
  rw [vresize_length]
  constructor
  · intro h; simp [cresize, h]
  · intro h; simp [cresize, Nat.not_le.mpr h]

theorem cpush_bounded (N : Nat) (l : List (BitVec w)) (x : BitVec w) : Bounded N List.length (cpush N l x) (.ok (l ++ [x])) := by
  intro r e
  injection e with e
  subst e
  rw [List.length_append, List.length_singleton]
  constructor
  · intro h; simp [cpush, show l.length < N by omega]
  · intro h; simp [cpush, show ¬ l.length < N by omega]

theorem wr_length {α : Type} {l r : List α} {i : Nat} {x : α} (h : wr l i x = .ok r) : r.length = l.length := by
  unfold wr at h
  split at h
  · injection h with h; subst h; simp
  · cases h

theorem bind_eq_ok {α β : Type} {x : M α} {f : α → M β} {r : β} (h : (x >>= f) = .ok r) : ∃ a, x = .ok a ∧ f a = .ok r := by
  cases hx : x with
  | error e => rw [hx, err_bind] at h; cases h
  | ok a => exact ⟨a, rfl, by rw [hx, ok_bind] at h; exact h⟩

/-- The number of blocks. -/
def nblocks (b : Bitset w) : Nat := b.blocks.length

theorem resetExtraBits_length {b r : Bitset w} (h : resetExtraBits b = .ok r) : nblocks r = nblocks b := by
  unfold resetExtraBits at h
  split at h
  · obtain ⟨x, _, h⟩ := bind_eq_ok h
    obtain ⟨m, _, h⟩ := bind_eq_ok h
    obtain ⟨l, e, h⟩ := bind_eq_ok h
    injection h with h
    subst h
    exact wr_length e
  · injection h with h; subst h; rfl

theorem set_length {b r : Bitset w} {i : Nat} {v : Bool} (h : Bitset.set b i v = .ok r) : nblocks r = nblocks b := by
  unfold Bitset.set at h
  obtain ⟨_, _, h⟩ := bind_eq_ok h
  obtain ⟨_, _, h⟩ := bind_eq_ok h
  obtain ⟨_, _, h⟩ := bind_eq_ok h
  obtain ⟨l, e, h⟩ := bind_eq_ok h
  injection h with h
  subst h
  exact wr_length e

theorem setBlockRaw_length {b r : Bitset w} {i : Nat} {x : BitVec w} (h : setBlockRaw b i x = .ok r) : nblocks r = nblocks b := by
  unfold setBlockRaw at h
  obtain ⟨l, e, h⟩ := bind_eq_ok h
  injection h with h
  subst h
  exact wr_length e

theorem forUp_length {σ : Type} {sz : σ → Nat} {f : Nat → σ → M σ} (hf : ∀ i s s', f i s = .ok s' → sz s' = sz s) {lo n : Nat} {s r : σ}
    (h : forUp lo n f s = .ok r) : sz r = sz s := by
  induction n generalizing lo s with
  | zero => injection h with h; rw [h]
  | succ n ih =>
    cases hg : f lo s with
    | error er => simp only [forUp, hg] at h; cases h
    | ok s' =>
      simp only [forUp, hg] at h
      rw [ih h, hf lo s s' hg]

theorem cresize_then (N : Nat) (l : List (BitVec w)) (n : Nat) (v : BitVec w) (g : List (BitVec w) → M (Bitset w)) (y : M (Bitset w))
    (hy : y = g (vresize l n v)) (hm : ∀ r', y = .ok r' → nblocks r' = n) : Bounded N nblocks (cresize N l n v >>= g) y := by
  subst hy
  exact Bounded.andThen (cresize_bounded N l n v) (fun r r' e e' => by
    injection e with e
    subst e
    rw [hm r' e', vresize_length])

theorem resize_bounded (N : Nat) (b : Bitset w) (n : Nat) (v : Bool) :
    Bounded N nblocks (resize N b n v) (Bitset.resize b n v) := by
  unfold resize Bitset.resize
  dsimp only
  split
  · refine Bounded.after (fun _ _ => ?_)
    refine cresize_then N _ _ _ _ _ rfl ?_
    intro r' e
    obtain ⟨_, _, e⟩ := bind_eq_ok e
    obtain ⟨_, _, e⟩ := bind_eq_ok e
    obtain ⟨l, e1, e⟩ := bind_eq_ok e
    rw [resetExtraBits_length e]
    exact (wr_length e1).trans (vresize_length _ _ _)
  · refine cresize_then N _ _ _ _ _ rfl ?_
    intro r' e
    rw [pure_ok, ok_bind] at e
    rw [resetExtraBits_length e]
    exact vresize_length _ _ _

theorem ofString_bounded (N : Nat) (s : List Char) : Bounded N nblocks (ofString N s : M (Bitset w)) (Bitset.ofString s) := by
  unfold ofString Bitset.ofString
  show Bounded N nblocks _ (Except.ok (vresize [] (computeBlockCount w s.length) 0#w) >>= fun blocks => Cpp.forUp 0 s.length _ ⟨blocks, s.length⟩)
  refine Bounded.andThen (cresize_bounded N _ _ _) ?_
  intro r r' _ e'
  refine ((forUp_length (sz := nblocks) ?_ e')).symm
  intro i b b' h
  obtain ⟨c, _, h⟩ := bind_eq_ok h
  split at h
  · exact set_length h
  · split at h
    · injection h with h; rw [h]
    · cases h

theorem unboundedSet_bounded (N : Nat) (b : Bitset w) (hb : nblocks b ≤ N) (i : Nat) (v : Bool) :
    Bounded N nblocks (unboundedSet N b i v) (Bitset.unboundedSet b i v) := by
  unfold unboundedSet Bitset.unboundedSet
  split
  · exact Bounded.same (fun r e => by rw [set_length e]; exact hb)
  · split
    · exact (resize_bounded N b _ _).andThen (fun r r' _ e' => (set_length e').symm)
    · exact Bounded.same (fun r e => by injection e with e; subst e; exact hb)

theorem ofInt_bounded (h : IsBlockWidth w) (N : Nat) {t : Nat} (sg : Bool) (v : BitVec t) :
    Bounded N nblocks (ofInt N sg v : M (Bitset w)) (Bitset.ofInt sg v) := by
  unfold ofInt Bitset.ofInt
  split
  · show Bounded N nblocks _ (Except.ok ([] ++ [_]) >>= fun l => Except.ok ⟨l, t⟩)
    refine Bounded.andThen (cpush_bounded N _ _) ?_
    intro r r' _ e'
    injection e' with e'
    subst e'
    rfl
  · refine (Bounded.forUp (fun b => WF b) ?_ ?_ t 0 empty (has_empty w).wf (Nat.zero_le _))
    · intro i b b' hb e
      split at e
      · obtain ⟨b2, e2, h2⟩ := unboundedSet_ok h b hb i true
        rw [e2] at e
        injection e with e
        subst e
        refine ⟨h2.wf, ?_⟩
        unfold nblocks
        rw [h2.len, hb.len]
        apply nb_mono h.pos
        split <;> omega
      · injection e with e; subst e; exact ⟨hb, Nat.le_refl _⟩
    · intro i b hb hN
      split
      · exact unboundedSet_bounded N b hN i true
      · exact Bounded.same (fun r e => by injection e with e; subst e; exact hN)

theorem appendHead_length {t : Nat} {b : Bitset w} {v : BitVec t} {n : Nat} {s : AppendState w t} (h : appendHead b v n = .ok s) :
    s.blocks.length = nblocks b := by
  unfold appendHead at h
  simp only at h
  split at h
  · obtain ⟨_, _, h⟩ := bind_eq_ok h
    obtain ⟨_, _, h⟩ := bind_eq_ok h
    obtain ⟨_, _, h⟩ := bind_eq_ok h
    obtain ⟨l, e, h⟩ := bind_eq_ok h
    obtain ⟨_, _, h⟩ := bind_eq_ok h
    injection h with h
    subst h
    exact wr_length e
  · injection h with h; subst h; rfl

theorem appendTail_grow {t : Nat} {s : AppendState w t} {r : List (BitVec w)} (e : Bitset.appendTail s = .ok r) :
    s.blocks.length ≤ r.length := by
  unfold Bitset.appendTail at e
  simp only [shiftOut_ok, ok_bind] at e
  split at e
  · obtain ⟨s1, e1, e⟩ := bind_eq_ok e
    have h1 := (forUp_grow (sz := fun s : AppendState w t => s.blocks.length) (fun _ => True) (by
      intro i s s' _ e
      injection e with e
      subst e
      exact ⟨trivial, by simp⟩) _ _ s trivial s1 e1).2
    obtain ⟨_, _, e⟩ := bind_eq_ok e
    injection e with e
    subst e
    simp only [List.length_append] at *
    omega
  · injection e with e; subst e; exact Nat.le_refl _

theorem appendTail_bounded {t : Nat} (N : Nat) (s : AppendState w t) (hs : s.blocks.length ≤ N) :
    Bounded N List.length (appendTail N s) (Bitset.appendTail s) := by
  unfold appendTail Bitset.appendTail
  simp only [shiftOut_ok, ok_bind]
  split
  · refine Bounded.bind (sz := fun s : AppendState w t => s.blocks.length) (Bounded.forUp (fun _ => True) ?_ ?_ _ _ s trivial hs) ?_ ?_
    · intro i s s' _ e
      injection e with e
      subst e
      exact ⟨trivial, by simp⟩
    · intro i s _ _
      show Bounded N _ _ (Except.ok (s.blocks ++ [s.bits.setWidth w]) >>= fun blocks => Except.ok _)
      refine Bounded.andThen (cpush_bounded N _ _) ?_
      intro r r' _ e'
      injection e' with e'
      subst e'
      rfl
    · intro s1 r _ e
      obtain ⟨_, _, e⟩ := bind_eq_ok e
      injection e with e
      subst e
      simp
    · intro s1 _ _
      refine Bounded.after (fun _ _ => ?_)
      exact cpush_bounded N _ _
  · exact Bounded.same (fun r e => by injection e with e; subst e; exact hs)

theorem appendBits_grow {t : Nat} {b r : Bitset w} {v : BitVec t} {n : Nat} (e : Bitset.appendBits b v n = .ok r) :
    nblocks b ≤ nblocks r := by
  unfold Bitset.appendBits at e
  obtain ⟨s, e1, e⟩ := bind_eq_ok e
  obtain ⟨l, e2, e⟩ := bind_eq_ok e
  injection e with e
  subst e
  have := appendTail_grow e2
  rw [appendHead_length e1] at this
  exact this

theorem appendBits_bounded {t : Nat} (N : Nat) (b : Bitset w) (hb : nblocks b ≤ N) (v : BitVec t) (n : Nat) :
    Bounded N nblocks (appendBits N b v n) (Bitset.appendBits b v n) := by
  unfold appendBits Bitset.appendBits
  refine Bounded.after (fun s e => ?_)
  refine Bounded.andThen (appendTail_bounded N s (by rw [appendHead_length e]; exact hb)) ?_
  intro r r' _ e'
  injection e' with e'
  subst e'
  rfl

theorem write_bounded (N : Nat) (b : Bitset w) (hb : nblocks b ≤ N) (mem : List (BitVec 8)) (seq : Sequence) (n : Nat) :
    Bounded N (fun r => nblocks r.1) (write N b mem seq n) (Bitset.write b mem seq n) := by
  unfold write Bitset.write
  refine Bounded.after (fun _ _ => ?_)
  have hstep : ∀ (i : Nat) (s s' : Bitset w × Nat), True → (do
        let bitToRead := min s.2 8
        let x ← rd mem i
        let b ← Bitset.appendBits s.1 x bitToRead
        pure (b, s.2 - bitToRead) : M (Bitset w × Nat)) = .ok s' → True ∧ nblocks s.1 ≤ nblocks s'.1 := by
    intro i s s' _ e
    obtain ⟨x, _, e⟩ := bind_eq_ok e
    obtain ⟨b', e1, e⟩ := bind_eq_ok e
    injection e with e
    subst e
    exact ⟨trivial, appendBits_grow e1⟩
  have hhead : Bounded N (fun r => nblocks r.1) (writeHead N b mem seq n) (Bitset.writeHead b mem seq n) := by
    unfold writeHead Bitset.writeHead
    split
    · refine Bounded.after (fun x _ => ?_)
      refine Bounded.andThen (appendBits_bounded N b hb _ _) ?_
      intro r r' _ e'
      injection e' with e'
      subst e'
      rfl
    · exact Bounded.same (fun r e => by injection e with e; subst e; exact hb)
  refine Bounded.bind hhead ?_ ?_
  · rintro ⟨b1, u, c⟩ r' _ e'
    obtain ⟨⟨b2, c2⟩, e2, e'⟩ := bind_eq_ok e'
    injection e' with e'
    subst e'
    exact (forUp_grow (sz := fun s : Bitset w × Nat => nblocks s.1) (fun _ => True) hstep _ _ _ trivial _ e2).2
  · rintro ⟨b1, u, c⟩ _ hN
    refine Bounded.andThen (Bounded.forUp (sz := fun s : Bitset w × Nat => nblocks s.1) (fun _ => True) hstep ?_ _ _ _ trivial hN) ?_
    · intro i s _ hs
      refine Bounded.after (fun x _ => ?_)
      refine Bounded.andThen (appendBits_bounded N s.1 hs x _) ?_
      intro r r' _ e'
      injection e' with e'
      subst e'
      rfl
    · rintro ⟨b2, c2⟩ r' _ e'
      injection e' with e'
      subst e'
      rfl

theorem performsAND_bounded (N : Nat) (b : Bitset w) (x y : Operand w) :
    Bounded N nblocks (performsAND N b x y) (Bitset.performsAND b x y) := by
  unfold performsAND Bitset.performsAND
  refine cresize_then N _ _ _ _ _ rfl ?_
  intro r' e
  obtain ⟨b1, e1, e⟩ := bind_eq_ok e
  obtain ⟨b2, e2, e⟩ := bind_eq_ok e
  have h1 := forUp_length (sz := nblocks) (by
    intro i s s' e
    obtain ⟨_, _, e⟩ := bind_eq_ok e
    obtain ⟨_, _, e⟩ := bind_eq_ok e
    exact setBlockRaw_length e) e1
  have h2 := forUp_length (sz := nblocks) (fun i s s' e => setBlockRaw_length e) e2
  rw [resetExtraBits_length e, h2, h1]
  exact vresize_length _ _ _

theorem performsNOT_bounded (N : Nat) (b : Bitset w) (x : Operand w) :
    Bounded N nblocks (performsNOT N b x) (Bitset.performsNOT b x) := by
  unfold performsNOT Bitset.performsNOT
  refine cresize_then N _ _ _ _ _ rfl ?_
  intro r' e
  obtain ⟨b1, e1, e⟩ := bind_eq_ok e
  have h1 := forUp_length (sz := nblocks) (by
    intro i s s' e
    obtain ⟨_, _, e⟩ := bind_eq_ok e
    exact setBlockRaw_length e) e1
  rw [resetExtraBits_length e, h1]
  exact vresize_length _ _ _

theorem performsMerge_bounded (N : Nat) (op : BitVec w → BitVec w → BitVec w) (b : Bitset w) (x y : Operand w) :
    Bounded N nblocks (performsMerge N op b x y) (Bitset.performsMerge op b x y) := by
  unfold performsMerge Bitset.performsMerge
  refine cresize_then N _ _ _ _ _ rfl ?_
  intro r' e
  obtain ⟨b1, e1, e⟩ := bind_eq_ok e
  obtain ⟨b2, e2, e⟩ := bind_eq_ok e
  have h1 := forUp_length (sz := nblocks) (by
    intro i s s' e
    obtain ⟨_, _, e⟩ := bind_eq_ok e
    obtain ⟨_, _, e⟩ := bind_eq_ok e
    exact setBlockRaw_length e) e1
  have h2 := forUp_length (sz := nblocks) (by
    intro i s s' e
    obtain ⟨_, _, e⟩ := bind_eq_ok e
    exact setBlockRaw_length e) e2
  rw [resetExtraBits_length e, h2, h1]
  exact vresize_length _ _ _

end Verif.FixedBitset
