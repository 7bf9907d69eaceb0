import Verif.BitsetAlloc.Lemmas
import Verif.BitsetAlloc.Spec

/-!
# C97: allocation failures in `Bitset`

`g` decides which growths of the vector succeed; the theorems hold for every `g`.
-/

namespace Verif.BitsetAlloc
open Verif.Cpp Verif.Bitset

variable {w : Nat}

theorem WF.last {b : Bitset w} (h : IsBlockWidth w) (wf : WF b) : 0 < getBitIndex w b.bitCount → 0 < b.blocks.length := by
  rw [getBitIndex_eq h, wf.len]
  intro hp
  exact nb_pos h.pos (by by_contra h0; rw [show b.bitCount = 0 by omega] at hp; simp at hp)

theorem upd_self (σ : Nat → Bitset w) (d : Nat) : upd σ d (σ d) = σ := by
  funext k; unfold upd; split <;> simp_all

/-- The two outcomes of an operation: that without failures, or an exception and nothing changed. -/
def Same (g : Grant) (σ : Nat → Bitset w) (op : Op w) (out : Out (Nat → Bitset w) Unit) : Prop := out = plain σ op ∨ (out = .thrown σ ∧ ∃ m n, g m n = false)

theorem Strong.out {g : Grant} {b : Bitset w} {n : Nat} {out : Out (Bitset w) Unit} {m : M (Bitset w)} (h : Strong g b n out m) : (out = .thrown b ∧ ∃ m n, g m n = false) ∨ out = ofM m := by
  rcases h with ⟨h, _, h'⟩ | ⟨h, _⟩
  · exact Or.inl ⟨h, _, _, h'⟩
  · exact Or.inr h

theorem onVar_same {g : Grant} (σ : Nat → Bitset w) (op : Op w) (hs : ∀ d a, op ≠ .swap d a) {out : Out (Bitset w) Unit}
    (h : (out = .thrown (σ op.target) ∧ ∃ m n, g m n = false) ∨ out = ofM (op.result σ)) : Same g σ op (onVar σ op.target out) := by
  have hex : op.exec σ = op.result σ >>= fun r => pure (upd σ op.target r) := by
    unfold Op.exec
    congr 1
    funext r
    split
    · exact absurd rfl (hs _ _)
    · rfl
  rcases h with ⟨rfl, hg⟩ | rfl
  · right; exact ⟨by simp [onVar, upd_self], hg⟩
  · left
    unfold plain
    rw [hex]
    cases op.result σ <;> rfl

theorem onTemp_same {g : Grant} (σ : Nat → Bitset w) (op : Op w) (hs : ∀ d a, op ≠ .swap d a) {b : Bitset w} {out : Out (Bitset w) Unit}
    (h : (out = .thrown b ∧ ∃ m n, g m n = false) ∨ out = ofM (op.result σ)) : Same g σ op (onTemp σ op.target out) := by
  rcases h with ⟨rfl, hg⟩ | rfl
  · right; exact ⟨rfl, hg⟩
  · have := onVar_same (g := g) σ op hs (out := ofM (op.result σ)) (Or.inr rfl)
    rcases this with h | ⟨h, _⟩
    · left; rw [← h]; cases op.result σ <;> rfl
    · cases hr : op.result σ with
      | ok b => rw [hr] at h; cases h
      | error e => rw [hr] at h; cases h

theorem exec_same (h : IsBlockWidth w) (g : Grant) (σ : Nat → Bitset w) (op : Op w) (hwf : ∀ k, WF (σ k)) (hg : Guarded op) : Same g σ op (exec g σ op) := by
  have atom : ∀ c, (c = false → ∃ m n, g m n = false) → Same g σ op (atomically c σ op) := by
    intro c hc
    cases c with
    | true => exact Or.inl rfl
    | false => exact Or.inr ⟨rfl, hc rfl⟩
  have us : ∀ d i v, (unboundedSet g i v (σ d) = .thrown (σ d) ∧ ∃ m n, g m n = false) ∨ unboundedSet g i v (σ d) = ofM (Bitset.unboundedSet (σ d) i v) := by
    intro d i v
    by_cases hc : (σ d).bitCount ≤ i ∧ v = true
    · exact (unboundedSet_strong g i v (σ d) (WF.last h (hwf d)) hc.1 hc.2).out
    · refine Or.inr (unboundedSet_same g i v (σ d) ?_)
      by_cases h1 : i < (σ d).bitCount
      · exact Or.inl h1
      · exact Or.inr (by cases v with | false => rfl | true => exact absurd ⟨by omega, rfl⟩ hc)
  cases op with
  | ofSize d n v => exact onTemp_same σ (.ofSize d n v) (by simp) (resize_strong g n v empty (by simp [empty, getBitIndex])).out
  | ofString d s => exact atom _ (fun hc => ⟨_, _, (Bool.or_eq_false_iff.mp hc).2⟩)
  | ofInt d t v => exact atom _ (fun hc => ⟨_, _, hc⟩)
  | copy d a => exact atom _ (fun hc => ⟨_, _, (Bool.or_eq_false_iff.mp hc).2⟩)
  | resize d n v => exact onVar_same σ (.resize d n v) (by simp) (resize_strong g n v (σ d) (WF.last h (hwf d))).out
  | unboundedSet d i v => exact onVar_same σ (.unboundedSet d i v) (by simp) (us d i v)
  | unboundedReset d i => exact onVar_same σ (.unboundedReset d i) (by simp) (us d i false)
  | performsAND d a b => exact onVar_same σ (.performsAND d a b) (by simp) (performsAND_strong g _ _ _).out
  | performsOR d a b => exact onVar_same σ (.performsOR d a b) (by simp) (performsMerge_strong g _ _ _ _).out
  | performsXOR d a b => exact onVar_same σ (.performsXOR d a b) (by simp) (performsMerge_strong g _ _ _ _).out
  | performsNOT d a => exact onVar_same σ (.performsNOT d a) (by simp) (performsNOT_strong g _ _).out
  | opAnd d a b => exact onTemp_same σ (.opAnd d a b) (by simp) (performsAND_strong g (.other (σ a)) (.other (σ b)) empty).out
  | opOr d a b => exact onTemp_same σ (.opOr d a b) (by simp) (performsMerge_strong g _ (.other (σ a)) (.other (σ b)) empty).out
  | opXor d a b => exact onTemp_same σ (.opXor d a b) (by simp) (performsMerge_strong g _ (.other (σ a)) (.other (σ b)) empty).out
  | opNot d a => exact onTemp_same σ (.opNot d a) (by simp) (performsNOT_strong g (.other (σ a)) empty).out
  | appendBits d t v n => exact hg.elim
  | write d mem seq n => exact hg.elim
  | _ => exact Or.inl rfl

/-- What an operation does on variables that hold the sequences `τ`. -/
theorem exec_cases (h : IsBlockWidth w) (g : Grant) (σ : Nat → Bitset w) (τ : Nat → List Bool) (hσ : ∀ k, HasL (σ k) (τ k)) (op : Op w) (hv : op.Valid τ) :
    (∃ σ', exec g σ op = .done σ' () ∧ op.exec σ = .ok σ' ∧ ∀ k, HasL (σ' k) (op.spec τ k)) ∨ (Guarded op ∧ exec g σ op = .thrown σ ∧ ∃ m n, g m n = false) ∨
      (¬ Guarded op ∧ ∃ b', exec g σ op = .thrown (upd σ op.target b') ∧ Broken g (σ op.target) b') := by
  obtain ⟨σ', e, hσ'⟩ := exec_ok h σ τ hσ op hv
  have hplain : plain σ op = .done σ' () := by unfold plain; rw [e]
  by_cases hg : Guarded op
  · rcases exec_same h g σ op (fun k => (hσ k).wf) hg with h1 | h1
    · exact Or.inl ⟨σ', h1.trans hplain, e, hσ'⟩
    · exact Or.inr (Or.inl ⟨hg, h1⟩)
  · cases op with
    | appendBits d t v n =>
      have hwf := (hσ d).wf
      have hsound := Sound.refl g (σ d) hwf.len
      rcases hsound.append h v n with ⟨b', e1, h1⟩ | ⟨_, e1⟩ | ⟨b', e1, e2, _⟩
      · right; right
        exact ⟨hg, b', by simp [exec, onVar, e1, Op.target], h1⟩
      · simp [Op.exec, Op.result, e1] at e
      · left
        refine ⟨σ', ?_, e, hσ'⟩
        simp only [Op.exec, Op.result, e2, ok_bind, pure_ok, Op.target] at e
        injection e with e
        simp [exec, onVar, e1, e]
    | write d mem seq n =>
      have hwf := (hσ d).wf
      rcases write_cases h g mem seq n hwf.len with ⟨b', e1, h1⟩ | ⟨x, _, e1⟩ | ⟨b', r, e1, e2, _⟩
      · right; right
        exact ⟨hg, b', by simp [exec, onVar, e1, Op.target], h1⟩
      · simp [Op.exec, Op.result, e1] at e
      · left
        refine ⟨σ', ?_, e, hσ'⟩
        simp only [Op.exec, Op.result, e2, ok_bind, pure_ok, Op.target] at e
        injection e with e
        simp only [exec, e1, onVar, e]
    | _ => exact absurd trivial hg

theorem Runs.hasL (h : IsBlockWidth w) {σ : Nat → Bitset w} {τ : Nat → List Bool} (hr : Runs σ τ) : ∀ k, HasL (σ k) (τ k) := by
  induction hr with
  | start => exact fun _ => HasL.empty w
  | succeeded g op _ hv e ih =>
    rcases exec_cases h g _ _ ih op hv with ⟨σ', e1, _, h1⟩ | ⟨_, e1, _⟩ | ⟨_, b', e1, _⟩
    · rw [e] at e1; injection e1 with e1; subst e1; exact h1
    · rw [e] at e1; cases e1
    · rw [e] at e1; cases e1
  | failed g op _ hv hg e ih =>
    rcases exec_cases h g _ _ ih op hv with ⟨σ', e1, _, h1⟩ | ⟨_, e1, _⟩ | ⟨hng, _⟩
    · rw [e] at e1; cases e1
    · rw [e] at e1; injection e1 with e1; subst e1; exact ih
    · exact absurd hg hng

/-- After every history in which allocations of operations other than `AppendBits` and `Write` fail, at any points, the variables show what the operations that succeeded make of them.
Missing: failures in `AppendBits` and `Write` (`C97_append_violated`, `C97_write_violated`). -/
theorem C97_history_partial (h : IsBlockWidth w) {σ : Nat → Bitset w} {τ : Nat → List Bool} (hr : Runs σ τ) (k : Nat) : Shows (σ k) (τ k) :=
  (hr.hasL h k).shows h

/-- An operation on such variables succeeds with the result it has without failures, or throws, in which case it changes nothing (unless it is `AppendBits` or `Write`). -/
theorem C97_strong_partial (h : IsBlockWidth w) {σ : Nat → Bitset w} {τ : Nat → List Bool} (hr : Runs σ τ) (g : Grant) (op : Op w) (hv : op.Valid τ) (hg : Guarded op) :
    (∃ σ', exec g σ op = .done σ' () ∧ op.exec σ = .ok σ' ∧ ∀ k, Shows (σ' k) (op.spec τ k)) ∨ exec g σ op = .thrown σ := by
  rcases exec_cases h g σ τ (hr.hasL h) op hv with ⟨σ', e1, e2, h1⟩ | ⟨_, e1, _⟩ | ⟨hng, _⟩
  · exact Or.inl ⟨σ', e1, e2, fun k => (h1 k).shows h⟩
  · exact Or.inr e1
  · exact absurd hg hng

/-- When every allocation succeeds, every operation is that of the model without failures. -/
theorem C97_granted (h : IsBlockWidth w) {σ : Nat → Bitset w} {τ : Nat → List Bool} (hr : Runs σ τ) (op : Op w) (hv : op.Valid τ) :
    ∃ σ', exec (fun _ _ => true) σ op = .done σ' () ∧ op.exec σ = .ok σ' := by
  rcases exec_cases h (fun _ _ => true) σ τ (hr.hasL h) op hv with ⟨σ', e1, e2, _⟩ | ⟨_, _, _, _, hg⟩ | ⟨_, _, _, hb⟩
  · exact ⟨σ', e1, e2⟩
  · cases hg
  · exact absurd hb.refused (by simp)

/-- `Resize` fails exactly when it needs more blocks than it has and does not get them. -/
theorem C97_resize_exact (h : IsBlockWidth w) {b : Bitset w} (hb : Reachable b) (g : Grant) (n : Nat) (v : Bool) :
    resize g n v b = .thrown b ↔ getBlockCount b < (n + w - 1) / w ∧ g (getBlockCount b) ((n + w - 1) / w) = false := by
  have hs := resize_strong g n v b (WF.last h (hb.wf h))
  rw [computeBlockCount_eq h, nb_eq_ceil h.pos] at hs
  rcases hs with ⟨h1, h2⟩ | ⟨h1, h2⟩
  · exact ⟨fun _ => h2, fun _ => h1⟩
  · constructor
    · intro e
      rw [h1] at e
      cases hm : Bitset.resize b n v <;> rw [hm] at e <;> cases e
    · rintro ⟨h3, h4⟩
      rcases h2 with h2 | h2
      · exact absurd h2 (by show ¬ _ ≤ getBlockCount b; omega)
      · rw [show b.blocks.length = getBlockCount b from rfl, h4] at h2; cases h2

/-- What can be seen of the bitset that a failed operation leaves. -/
theorem Broken.seen (h : IsBlockWidth w) {g : Grant} {b b' : Bitset w} (hb : Reachable b) {l : List Bool} (hl : Shows b l) (hx : Broken g b b') :
    l.length < getSize b' ∧ test b' (getSize b' - 1) = .error .ub ∧ (∀ (i : Nat) (hi : i < l.length), test b' i = .ok l[i]) ∧
      ∀ g' v', resize g' l.length v' b' = .done b () := by
  have hL := hb.hasL h hl
  have hw := h.pos
  have hsz := hL.size
  have hlt : l.length < b'.bitCount := by
    by_contra hc
    have h1 := hx.size
    have h2 := hx.grown
    have h3 := hx.short
    rw [show b'.bitCount = b.bitCount by omega, ← hL.wf.len] at h3
    omega
  refine ⟨hlt, test_last_ub h b' hx.short, ?_, ?_⟩
  · intro i hi
    have hidx : i / w < b'.blocks.length := Nat.lt_of_lt_of_le (by rw [hL.wf.len, hsz]; exact div_lt_nb hw hi) hx.grown
    have : test b' i = .ok (bitAt b'.blocks i) := by
      simp only [test, getBlockIndex, getBitIndex_eq h, show i < b'.bitCount by omega, decide_true, assert_true, pure_ok, ok_bind, rd_blk hidx,
        shl_ok _ (Nat.mod_lt i hw), and_mask_ne _ _ (Nat.mod_lt i hw), bitAt]
    rw [this, hx.bits i (by omega), hL.bit, getD_lt hi]
  · intro g' v'
    rw [← hsz]
    exact resize_repairs h g' b b' hL.wf hx.size hx.grown hx.bits v'

/-- `AppendBits` that needs a block and does not get it: the size has grown all the same, reading the last bit is undefined behaviour.  (The bits that were there before
can be read, and resizing to the old size gives back the old bitset.) -/
theorem C97_append_violated (h : IsBlockWidth w) {b : Bitset w} (hb : Reachable b) {l : List Bool} (hl : Shows b l) {t : Nat} (v : BitVec t) (n : Nat)
    (hv : AppendAllowed w l.length v n) (g : Grant) {j : Nat} (h1 : getBlockCount b ≤ j) (h2 : j < (l.length + n + w - 1) / w) (hg : g j (j + 1) = false) :
    ∃ b', appendBits g v n b = .thrown b' ∧ getSize b' = l.length + n ∧ test b' (l.length + n - 1) = .error .ub ∧
      (∀ (i : Nat) (hi : i < l.length), test b' i = .ok l[i]) ∧ ∀ g' v', resize g' l.length v' b' = .done b () := by
  have hL := hb.hasL h hl
  rw [← nb_eq_ceil h.pos, ← hL.size] at h2
  obtain ⟨v1, v2⟩ := hv
  rw [← hL.size] at v1 v2
  rw [← nb_eq_ceil h.pos, ← nb_eq_ceil h.pos] at v2
  obtain ⟨r, e, _⟩ := appendBits_ok h b hL.wf v n v1 v2
  rcases appendBits_cases h g b hL.wf.len v n with ⟨b', k1, k2, k3, k4, k5, k6⟩ | ⟨_, k1⟩ | ⟨b', k1, k2, k3, k4, k5, k6⟩
  · have hx : Broken g b b' := ⟨by omega, k3, by rw [k2]; exact k4, k5, k6⟩
    obtain ⟨s1, s2, s3, s4⟩ := hx.seen h hb hl
    have hsz : getSize b' = l.length + n := by rw [← hL.size]; exact k2
    rw [hsz] at s2
    exact ⟨b', k1, hsz, s2, s3, s4⟩
  · rw [e] at k1; cases k1
  · rw [k6 j h1 h2] at hg; cases hg

/-- The same for `Write`. -/
theorem C97_write_violated (h : IsBlockWidth w) {b : Bitset w} (hb : Reachable b) {l : List Bool} (hl : Shows b l) (mem : List (BitVec 8)) (seq : Sequence) (n : Nat)
    (hv : WriteAllowed w l.length mem seq n) (g : Grant) {j : Nat} (h1 : getBlockCount b ≤ j) (h2 : j < (l.length + n + w - 1) / w) (hg : g j (j + 1) = false) :
    ∃ b', write g mem seq n b = .thrown b' ∧ l.length < getSize b' ∧ test b' (getSize b' - 1) = .error .ub ∧
      (∀ (i : Nat) (hi : i < l.length), test b' i = .ok l[i]) ∧ ∀ g' v', resize g' l.length v' b' = .done b () := by
  have hL := hb.hasL h hl
  rw [← nb_eq_ceil h.pos, ← hL.size] at h2
  obtain ⟨v1, v2, v3, v4⟩ := hv
  obtain ⟨r, e, hr1, hr2, _⟩ := write_gen h b hL.wf mem seq n v1 v2 v3
  rcases write_cases h g mem seq n hL.wf.len with ⟨b', k1, hx⟩ | ⟨_, _, k1⟩ | ⟨b', _, _, k1, hs⟩
  · exact ⟨b', k1, hx.seen h hb hl⟩
  · rw [e] at k1; cases k1
  · rw [e] at k1
    simp only [Except.ok.injEq, Prod.mk.injEq] at k1
    rw [← k1.1] at hs
    rw [hs.granted j h1 (by rw [hr2]; exact h2)] at hg
    cases hg

/-! Examples -/

/-- A bitset of 8-bit blocks with 3 bits. -/
example : ∃ b : Bitset 8, Reachable b ∧ Shows b [true, false, true] := C01_reachable_all ⟨3, rfl⟩ _

/-- Appending 10 bits to it needs another block: the hypotheses of `C97_append_violated` are met. -/
example : ∃ b : Bitset 8, ∃ b', appendBits (fun _ _ => false) (0x2A5#16) 10 b = .thrown b' ∧ getSize b' = 13 ∧ test b' 12 = .error .ub := by
  obtain ⟨b, hb, hl⟩ := C01_reachable_all (w := 8) ⟨3, rfl⟩ [true, false, true]
  obtain ⟨b', h1, h2, h3, _⟩ := C97_append_violated ⟨3, rfl⟩ hb hl (0x2A5#16) 10 ⟨Or.inr (by
    intro i h1 h2; simp at h2; omega), Or.inl (by omega)⟩ (fun _ _ => false) (j := 1) (by
      have := (hb.hasL ⟨3, rfl⟩ hl).wf.len
      rw [(hb.hasL ⟨3, rfl⟩ hl).size] at this
      show b.blocks.length ≤ 1
      rw [this]; decide) (by decide) rfl
  exact ⟨b, b', h1, h2, h3⟩

/-- A history with failures: resizing fails, then succeeds. -/
example : ∃ σ : Nat → Bitset 8, Runs σ (fun k => if k = 0 then [true, true, true] else []) := by
  have h : IsBlockWidth 8 := ⟨3, rfl⟩
  have hf : exec (w := 8) (fun _ _ => false) (fun _ => empty) (.resize 0 3 true) = .thrown (fun _ => empty) := by
    rcases C97_strong_partial h .start (fun _ _ => false) (.resize 0 3 true) trivial trivial with ⟨σ', e, _⟩ | e
    · exfalso
      have := (C97_resize_exact h (b := (empty : Bitset 8)) ⟨[], _, 0, trivial, rfl, rfl⟩ (fun _ _ => false) 3 true).mpr ⟨by decide, rfl⟩
      simp only [exec, onVar, this] at e
      cases e
    · exact e
  have r1 : Runs (w := 8) (fun _ => empty) (fun _ => []) := Runs.failed (fun _ _ => false) (.resize 0 3 true) .start trivial trivial hf
  obtain ⟨σ', e, _⟩ := C97_granted h r1 (.resize 0 3 true) trivial
  have := Runs.succeeded _ _ r1 (by trivial) e
  refine ⟨σ', ?_⟩
  have he : Op.spec (fun _ => []) (.resize 0 3 true : Op 8) = fun k => if k = 0 then [true, true, true] else [] := rfl
  rwa [he] at this

end Verif.BitsetAlloc
